import Verif.Model.Family
import Verif.Props.Targeting
import Verif.Lib.ListExtra

namespace Verif.Family
open Verif Verif.Adapter Verif.Delivery Verif.Props

/-- What holds of a child. -/
structure OKR (s : Remote.St) : Prop where
  ok : OK s.n
  fresh : ∀ id ref, s.n.sockets.get? id = some ref → ref < s.next

theorem okr_blank : OKR blank := by
  refine ⟨ok_of_inv inv_empty ?_ ?_ ?_, ?_⟩ <;> simp [blank]

/-- The namespace is as it should be, and no socket has come. -/
def Sub (s s' : Remote.St) : Prop := OKR s' ∧ ∀ x ref, s'.n.sockets.get? x = some ref → s.n.sockets.get? x = some ref

theorem okr_of {s : Remote.St} (i : OKR s) (n' : Nsp) (ok : OK n')
    (hs : ∀ x ref, n'.sockets.get? x = some ref → s.n.sockets.get? x = some ref) : Sub s { s with n := n' } :=
  ⟨⟨ok, fun id ref h => i.fresh id ref (hs id ref h)⟩, hs⟩

theorem okr_step (d : Bool) {s : Remote.St} (i : OKR s) (e : Remote.Ev) : OKR (Remote.step d s e) ∧ ((∀ id rs, e ≠ .connect id rs) → Sub s (Remote.step d s e)) := by
  have bulkJoin : ∀ rooms except f joined,
      Sub s { s with n := addSockets s.n (some { rooms := some rooms, except := some except, flags := f }) joined } := by
    intro rooms except f joined
    obtain ⟨k1, k2, _⟩ := C06_socketsJoin s.n i.ok rooms except joined f
    exact okr_of i _ k1 (fun x ref h => by rw [k2] at h; exact h)
  have bulkLeave : ∀ rooms except f left,
      Sub s { s with n := delSockets d s.n (some { rooms := some rooms, except := some except, flags := f }) left } := by
    intro rooms except f left
    obtain ⟨k1, k2, _⟩ := C06_socketsLeave d s.n i.ok rooms except left f
    exact okr_of i _ k1 (fun x ref h => by rw [k2] at h; exact h)
  have bulkDisconnect : ∀ rooms except f close,
      Sub s { s with n := disconnectSockets d s.n (some { rooms := some rooms, except := some except, flags := f }) close } := by
    intro rooms except f close
    obtain ⟨k1, _, _, _, k5, k6⟩ := C07_disconnectSockets d close s.n i.ok rooms except f
    refine okr_of i _ k1 (fun x ref h => ?_)
    by_cases g : Sel s.n rooms except x
    · exact absurd ⟨ref, h⟩ (k5 x g).1
    · rw [(k6 x g).1] at h; exact h
  have wrap : ∀ s', Sub s s' → OKR s' ∧ ((∀ id rs, e ≠ .connect id rs) → Sub s s') := fun _ h => ⟨h.1, fun _ => h⟩
  have same : Sub s s := ⟨i, fun _ _ h => h⟩
  cases e with
  | connect id rooms =>
    simp only [Remote.step, Remote.connect]
    split
    · exact wrap _ same
    · refine ⟨?_, fun h => absurd rfl (h id rooms)⟩
      obtain ⟨a1, a2, a3⟩ := addAll_spec i.ok.inv id rooms
      obtain ⟨b1, b2, b3⟩ := addAll_spec a1 id [id]
      have hg : ∀ x, (s.n.sockets.insert id s.next).get? x = if id = x then some s.next else s.n.sockets.get? x := fun x => by
        rw [FMap.get?_insert]
      have ne : ∀ x ref, s.n.sockets.get? x = some ref → ref ≠ s.next := fun x ref h e => Nat.lt_irrefl _ (e ▸ i.fresh x ref h)
      refine ⟨ok_of_inv b1 ?_ ?_ ?_, ?_⟩
      · intro x ref h
        simp only [hg] at h
        split at h
        · rename_i e; cases h; simp [e]
        · simp only [ne x ref h, if_false]; exact i.ok.ownId x ref h
      · intro x ref h
        simp only [hg] at h
        split at h
        · cases h; simp
        · simp only [ne x ref h, if_false]; exact i.ok.mayJoin x ref h
      · intro x ref h
        simp only [hg] at h
        rw [b3, a3]
        split at h
        · rename_i e; exact .inl e.symm
        · exact .inr (.inr (i.ok.known x ref h))
      · intro x ref h
        simp only [hg] at h
        split at h
        · cases h; exact Nat.lt_succ_self _
        · exact Nat.lt_succ_of_lt (i.fresh x ref h)
  | join ref rooms =>
    refine wrap _ (okr_of i _ (ok_join i.ok rooms ref) (fun x r h => ?_))
    unfold Delivery.join at h; split at h <;> exact h
  | leave ref room => exact wrap _ (okr_of i _ (ok_leave i.ok d ref room) (fun x r h => h))
  | disconnect ref close =>
    simp only [Remote.step]
    split
    · refine wrap _ (okr_of i _ (ok_kick i.ok d close ref) (fun x r h => ?_))
      simp only [kick, FMap.get?_erase] at h
      split at h
      · cases h
      · exact h
    · exact wrap _ same
  | bulkJoin rooms except joined => exact wrap _ (bulkJoin _ _ _ _)
  | bulkLeave rooms except left => exact wrap _ (bulkLeave _ _ _ _)
  | bulkDisconnect rooms except close => exact wrap _ (bulkDisconnect _ _ _ _)
  | fetch rooms except => exact wrap _ ⟨⟨i.ok, i.fresh⟩, fun _ _ h => h⟩
  | rJoin k rooms => 
    simp only [Remote.step]; split
    · exact wrap _ (bulkJoin _ _ _ _)
    · exact wrap _ same
  | rLeave k rooms => 
    simp only [Remote.step]; split
    · exact wrap _ (bulkLeave _ _ _ _)
    · exact wrap _ same
  | rDisconnect k close => 
    simp only [Remote.step]; split
    · exact wrap _ (bulkDisconnect _ _ _ _)
    · exact wrap _ same
  | rEmit k p =>
    simp only [Remote.step]
    split
    · rename_i r _
      obtain ⟨ids, ptr, _, _, _, k4⟩ := C03_broadcast s.n i.ok p [r.id] [] (some { expectSingle := true })
      rw [Remote.only, k4]
      exact wrap _ <| okr_of i _ ⟨i.ok.1, i.ok.2, i.ok.3, i.ok.4, i.ok.5, i.ok.6, i.ok.7, i.ok.8, i.ok.9⟩ (fun _ _ h => h)
    · exact wrap _ same

theorem okr_cast {s : Remote.St} (i : OKR s) (p : Pkt) (rooms except : List Room) (f : Option Flags) :
    OKR { s with n := broadcast s.n p (some { rooms := some rooms, except := some except, flags := f }) } ∧
    (broadcast s.n p (some { rooms := some rooms, except := some except, flags := f })).sockets = s.n.sockets := by
  obtain ⟨ids, ptr, _, _, _, k4⟩ := C03_broadcast s.n i.ok p rooms except f
  rw [k4]
  exact ⟨⟨⟨i.ok.1, i.ok.2, i.ok.3, i.ok.4, i.ok.5, i.ok.6, i.ok.7, i.ok.8, i.ok.9⟩, i.fresh⟩, rfl⟩

/-- Nothing happens on a namespace without sockets. -/
theorem no_sockets {n : Nsp} {cb : Nsp → Nat → Nsp} (hl : LocalCb view cb OK) (hn : OK n) (he : n.sockets = []) (o : Option Opts) :
    (apply view o cb n).1 = n ∧ (apply view o cb n).2 = [] := by
  obtain ⟨h1, _, _, h4⟩ := apply_spec hl o n hn
  have : (apply view o cb n).2 = [] := by
    apply List.eq_nil_iff_forall_not_mem.2
    intro x hx
    obtain ⟨⟨p, hp⟩, _⟩ := (h4 x).1 hx
    simp [view, he] at hp
  rw [h1, this]; exact ⟨rfl, rfl⟩

/-- What holds at every moment. -/
structure J (s : St) : Prop where
  self : s.self = blank.n
  kids : ∀ k, OKR (s.kids k)
  out : ∀ k, k ∉ s.listed → (s.kids k).n.sockets = []
  bound : ∀ k ∈ s.listed, k < s.next
  fresh : ∀ k, s.next ≤ k → s.kids k = blank

theorem get_nil {m : FMap Sid Nat} (h : ∀ x ref, m.get? x ≠ some ref) : m = [] := by
  cases m with
  | nil => rfl
  | cons a m => exact absurd (by rw [FMap.get?_cons]; simp) (h a.1 a.2)

theorem j_init : J {} :=
  ⟨rfl, fun _ => okr_blank, fun _ _ => rfl, by simp, fun _ _ => rfl⟩

theorem j_cast {s : St} (j : J s) (p : Pkt) (rooms except : List Room) :
    J (cast p (some { rooms := some rooms, except := some except, flags := some {} }) s) := by
  refine ⟨j.self, ?_, ?_, j.bound, ?_⟩
  · intro k; simp only [cast]; split
    · exact (okr_cast (j.kids k) _ rooms except (some {})).1
    · exact j.kids k
  · intro k hk; simp only [cast] at hk ⊢; rw [if_neg hk]; exact j.out k hk
  · intro k hk; simp only [cast]
    rw [if_neg (fun h => absurd (j.bound k h) (Nat.not_lt.2 hk))]; exact j.fresh k hk

theorem j_step (d auto : Bool) {s : St} (j : J s) (e : Ev) : J (step d auto s e) := by
  have hself : OK s.self := by rw [j.self]; exact okr_blank.ok
  have hnil : s.self.sockets = [] := by rw [j.self]; rfl
  cases e with
  | ask name =>
    simp only [step]
    split
    · exact j
    · refine ⟨j.self, j.kids, fun k hk => j.out k (fun h => hk (List.mem_append_left _ h)), ?_, ?_⟩
      · intro k hk
        rcases List.mem_append.1 hk with hk | hk
        · exact Nat.lt_succ_of_lt (j.bound k hk)
        · rw [List.mem_singleton.1 hk]; exact Nat.lt_succ_self _
      · intro k hk; exact j.fresh k (Nat.le_of_succ_le hk)
  | inside k e =>
    simp only [step]
    split
    · rename_i hent
      have o := okr_step d (j.kids k) e
      refine ⟨j.self, ?_, ?_, ?_, ?_⟩
      · intro i; dsimp only; split
        · exact o.1
        · exact j.kids i
      · intro i hi; dsimp only at hi ⊢
        by_cases ei : i = k
        · subst ei; rw [if_pos rfl]
          by_cases hl : i ∈ s.listed
          · split at hi
            · rename_i h; exact h.2.2
            · exact absurd hl hi
          · have hne : ∀ id rs, e ≠ .connect id rs := by
              rintro id rs rfl
              exact hl (of_decide_eq_true (show decide (i ∈ s.listed) = true from hent))
            apply get_nil
            intro x ref h
            have := (o.2 hne).2 x ref h
            rw [j.out i hl] at this; simp at this
        · rw [if_neg ei]
          refine j.out i (fun h => hi ?_)
          split
          · exact List.mem_filter.2 ⟨h, by simpa using ei⟩
          · exact h
      · intro i hi; dsimp only at hi
        split at hi
        · exact j.bound i (List.mem_filter.1 hi).1
        · exact j.bound i hi
      · intro i hi; dsimp only at hi ⊢
        rw [if_neg (fun ei => ?_)]
        · exact j.fresh i hi
        · subst ei
          have : i < s.next := by
            revert hent; unfold goes; split
            · intro h; exact j.bound i (of_decide_eq_true h)
            · intro h; exact of_decide_eq_true h
          exact absurd this (Nat.not_lt.2 hi)
    · exact j
  | emit p => exact j_cast j p [] []
  | emitTo p rooms except => exact j_cast j p rooms except
  | bulkJoin rooms except joined =>
    refine ⟨?_, j.kids, j.out, j.bound, j.fresh⟩
    show addSockets s.self _ _ = _
    rw [show addSockets s.self (Remote.opts rooms except) joined = s.self from (no_sockets (local_join joined) hself hnil _).1]; exact j.self
  | bulkLeave rooms except left =>
    refine ⟨?_, j.kids, j.out, j.bound, j.fresh⟩
    show delSockets d s.self _ _ = _
    rw [show delSockets d s.self (Remote.opts rooms except) left = s.self from (no_sockets (local_leaveEach d left) hself hnil _).1]; exact j.self
  | bulkDisconnect rooms except close =>
    refine ⟨?_, j.kids, j.out, j.bound, j.fresh⟩
    show disconnectSockets d s.self _ _ = _
    rw [show disconnectSockets d s.self (Remote.opts rooms except) close = s.self from (no_sockets (local_kick d close) hself hnil _).1]; exact j.self
  | fetch => exact ⟨j.self, j.kids, j.out, j.bound, j.fresh⟩
  | inFetch rooms except => exact ⟨j.self, j.kids, j.out, j.bound, j.fresh⟩

end Verif.Family
