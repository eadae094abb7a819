import Verif.Spec.RoomNews
import Verif.Proof.RoomJoins

/-! # The events of rooms under concurrent calls: invariants -/

namespace Verif.RoomNews
open Verif Verif.Spec
open Verif.World (upd upd_apply upd_ne)
open Verif.RoomRace (act PC WF advance loadAndDelete)

variable [SetLib]

/-! ## Operations and announcements -/

/-- The announcements that become due in a step, with the goroutine. -/
def said (s : St) : RoomRace.Ev → List (Nat × News)
  | .adv k => if s.due k = none then (announces s.tab (s.tab.th k).1 (s.tab.th k).2).toList.map (fun e => (k, e)) else []
  | _ => []

def opsFrom : St → List RoomRace.Ev → List (Nat × News)
  | _, [] => []
  | s, e :: h => said s e ++ opsFrom (step s e) h

/-- What has become due in a history, in order. -/
def ops (h : List RoomRace.Ev) : List (Nat × News) := opsFrom {} h

theorem opsFrom_append (s : St) (h t : List RoomRace.Ev) : opsFrom s (h ++ t) = opsFrom s h ++ opsFrom (h.foldl step s) t := by
  induction h generalizing s with
  | nil => rfl
  | cons e h ih => simp [opsFrom, ih]

theorem ops_snoc (h : List RoomRace.Ev) (e : RoomRace.Ev) : ops (h ++ [e]) = ops h ++ said (run h) e := by
  simp [ops, opsFrom_append, opsFrom, run]

theorem run_snoc (h : List RoomRace.Ev) (e : RoomRace.Ev) : run (h ++ [e]) = step (run h) e := by simp [run]

theorem step_due {s : St} {k : Nat} {e : News} (h : s.due k = some e) :
    step s (.adv k) = { s with due := upd s.due k none, news := s.news ++ [(k, e)] } ∧ said s (.adv k) = [] := by
  simp [step, said, h]

theorem step_adv {s : St} {k : Nat} (h : s.due k = none) :
    step s (.adv k) = { s with tab := advance s.tab k, due := upd s.due k (announces s.tab (s.tab.th k).1 (s.tab.th k).2) } ∧
    said s (.adv k) = (announces s.tab (s.tab.th k).1 (s.tab.th k).2).toList.map (fun e => (k, e)) := by
  simp [step, said, h]

/-- What each goroutine has announced, and what it is about to announce, is what its operations made due. -/
def Kept (s : St) (o : List (Nat × News)) : Prop :=
  ∀ k, o.filter (fun x => x.1 == k) = s.news.filter (fun x => x.1 == k) ++ (s.due k).toList.map fun e => (k, e)

theorem kept_run (h : List RoomRace.Ev) : Kept (run h) (ops h) := by
  induction h using snocRec with
  | nil => intro k; rfl
  | append_singleton h e ih =>
    rw [run_snoc, ops_snoc]
    cases e with
    | call k id c =>
      intro j
      have := ih j
      simp only [said, List.append_nil, step]
      split <;> exact this
    | adv k =>
      cases hd : (run h).due k with
      | some a =>
        obtain ⟨h1, h2⟩ := step_due hd
        rw [h1, h2, List.append_nil]
        intro j
        have := ih j
        by_cases hj : j = k
        · subst hj; simp only [hd] at this; simp [this, upd_apply]
        · have hj' : k ≠ j := fun h => hj h.symm
          simp [this, upd_apply, hj, hj']
      | none =>
        obtain ⟨h1, h2⟩ := step_adv hd
        rw [h1, h2]
        intro j
        have := ih j
        by_cases hj : j = k
        · subst hj
          simp only [hd, Option.toList_none, List.map_nil, List.append_nil] at this
          simp only [List.filter_append, this, upd_apply, if_true]
          congr 1
          cases announces (run h).tab ((run h).tab.th j).1 ((run h).tab.th j).2 <;> simp
        · have hj' : k ≠ j := fun h => hj h.symm
          simp only [List.filter_append, this, upd_apply, hj, if_false]
          cases announces (run h).tab ((run h).tab.th k).1 ((run h).tab.th k).2 <;> simp [hj']

theorem perm_of_free {s : St} {o : List (Nat × News)} (hk : Kept s o) (hf : ∀ k, s.due k = none) : o.Perm s.news := by
  rw [List.perm_iff_count]
  intro a
  have := hk a.1
  rw [hf a.1] at this
  simp only [Option.toList_none, List.map_nil, List.append_nil] at this
  rw [← List.count_filter (p := fun x => x.1 == a.1) (by simp), this, List.count_filter (by simp)]

/-! ## Rooms are created and deleted -/

theorem act_exists (s : RoomRace.St) (id : Nat) (pc : PC) (r : Nat) :
    (announces s id pc = some (.created r) ∧ s.rooms r = none ∧ (act s id pc).1.rooms r ≠ none) ∨
    (announces s id pc = some (.deleted r) ∧ s.rooms r ≠ none ∧ (act s id pc).1.rooms r = none) ∨
    (announces s id pc ≠ some (.created r) ∧ announces s id pc ≠ some (.deleted r) ∧
      ((act s id pc).1.rooms r = none ↔ s.rooms r = none)) := by
  have hL : ∀ r0, (s.rooms r0 ≠ none ∧ (loadAndDelete s r0).rooms = upd s.rooms r0 none) ∨ (s.rooms r0 = none ∧ loadAndDelete s r0 = s) := by
    intro r0
    unfold loadAndDelete
    cases h : s.rooms r0 <;> simp
  cases pc with
  | j0 rs => refine .inr (.inr ?_); simp only [act, announces]; split <;> simp
  | j1 x rs => refine .inr (.inr ?_); cases rs <;> simp [act, announces]
  | j2 x r0 rs =>
    simp only [act, announces]
    cases h : s.rooms r0 with
    | some t => refine .inr (.inr ?_); simp
    | none =>
      by_cases e : r = r0
      · subst e; refine .inl ?_; simp [h, upd_apply]
      · refine .inr (.inr ?_); simp [upd_apply, e, Ne.symm e]
  | j3 x r0 t rs => refine .inr (.inr ?_); simp [act, announces]
  | j4 x r0 t rs => refine .inr (.inr ?_); simp [act, announces]
  | d0 r0 => refine .inr (.inr ?_); simp only [act, announces]; split <;> simp
  | d1 x r0 => refine .inr (.inr ?_); simp [act, announces]
  | d2 r0 => refine .inr (.inr ?_); simp only [act, announces]; split <;> simp
  | d3 r0 t => refine .inr (.inr ?_); simp only [act, announces]; split <;> simp
  | d4 r0 t => refine .inr (.inr ?_); simp [act, announces]
  | d5 r0 =>
    simp only [act, announces]
    rcases hL r0 with ⟨h1, h2⟩ | ⟨h1, h2⟩
    · by_cases e : r = r0
      · subst e; refine .inr (.inl ?_); simp [h1, h2, upd_apply]
      · refine .inr (.inr ?_); simp [h1, h2, upd_apply, e, Ne.symm e]
    · refine .inr (.inr ?_); simp [h1, h2]
  | a0 => refine .inr (.inr ?_); simp only [act, announces]; split <;> simp
  | a1 x => refine .inr (.inr ?_); simp [act, announces]
  | a2 l => refine .inr (.inr ?_); cases l <;> simp [act, announces]
  | e2 r0 l => refine .inr (.inr ?_); simp only [act, announces]; split <;> simp
  | e3 r0 t l => refine .inr (.inr ?_); simp only [act, announces]; split <;> simp
  | e4 r0 t l => refine .inr (.inr ?_); simp [act, announces]
  | e5 r0 l =>
    simp only [act, announces]
    rcases hL r0 with ⟨h1, h2⟩ | ⟨h1, h2⟩
    · by_cases e : r = r0
      · subst e; refine .inr (.inl ?_); simp [h1, h2, upd_apply]
      · refine .inr (.inr ?_); simp [h1, h2, upd_apply, e, Ne.symm e]
    · refine .inr (.inr ?_); simp [h1, h2]
  | done => refine .inr (.inr ?_); simp [act, announces]

/-- A room has been created once more than it has been deleted exactly if it exists. -/
def Balance (s : St) (o : List (Nat × News)) : Prop :=
  ∀ r, (o.map (·.2)).count (.created r) = (o.map (·.2)).count (.deleted r) + if s.tab.rooms r = none then 0 else 1

theorem balance_run (h : List RoomRace.Ev) : Balance (run h) (ops h) := by
  induction h using snocRec with
  | nil => intro r; rfl
  | append_singleton h e ih =>
    rw [run_snoc, ops_snoc]
    cases e with
    | call k id c =>
      intro r
      have := ih r
      simp only [said, List.append_nil, step, RoomRace.step]
      split
      · split <;> exact this
      · exact this
    | adv k =>
      cases hd : (run h).due k with
      | some a =>
        obtain ⟨h1, h2⟩ := step_due hd
        rw [h1, h2, List.append_nil]; exact ih
      | none =>
        obtain ⟨h1, h2⟩ := step_adv hd
        rw [h1, h2]
        intro r
        have := ih r
        simp only [List.map_append, List.count_append, advance]
        rcases act_exists (run h).tab ((run h).tab.th k).1 ((run h).tab.th k).2 r with ⟨a1, a2, a3⟩ | ⟨a1, a2, a3⟩ | ⟨a1, a2, a3⟩
        · simp [a1, a2, a3] at this ⊢; omega
        · simp [a1, a2, a3] at this ⊢; omega
        · cases ha : announces (run h).tab ((run h).tab.th k).1 ((run h).tab.th k).2 with
          | none => simp only [a3]; simpa using this
          | some a =>
            rw [ha] at a1 a2
            have b1 : a ≠ .created r := fun h => a1 (by rw [h])
            have b2 : a ≠ .deleted r := fun h => a2 (by rw [h])
            simp only [a3, Option.toList_some, List.map_cons, List.map_nil]
            rw [List.count_cons_of_ne b1, List.count_cons_of_ne b2]
            simpa using this

/-! ## Sockets join and leave -/

theorem act_keeps {s : RoomRace.St} {id : Nat} {pc : PC} {r t : Nat} (h : s.rooms r = some t) (hr : r ∉ (act s id pc).1.deleted) :
    (act s id pc).1.rooms r = some t := by
  have hL : ∀ r0, r ∉ (loadAndDelete s r0).deleted → (loadAndDelete s r0).rooms r = some t := by
    intro r0 hr
    rcases RoomRace.loadAndDelete_cases s r0 with e | e
    · rw [e]; exact h
    · rw [e] at hr ⊢
      have : r ≠ r0 := by rintro rfl; simp at hr
      simp [upd_apply, this, h]
  cases pc with
  | j0 rs => simp only [act]; split <;> exact h
  | j1 x rs => cases rs <;> exact h
  | j2 x r0 rs =>
    simp only [act]; split
    · exact h
    · rename_i hn
      have : r ≠ r0 := by rintro rfl; rw [hn] at h; cases h
      simp [upd_apply, this, h]
  | d0 r0 => simp only [act]; split <;> exact h
  | d2 r0 => simp only [act]; split <;> exact h
  | d5 r0 => exact hL r0 hr
  | a0 => simp only [act]; split <;> exact h
  | a2 l => cases l <;> exact h
  | e2 r0 l => simp only [act]; split <;> exact h
  | e5 r0 l => exact hL r0 hr
  | _ => exact h

/-- The set of sockets a call works on is that of its room, unless the room has been deleted. -/
def Bound (s : RoomRace.St) : Prop := ∀ k r t, (s.th k).2.held = some (r, t) → r ∉ s.deleted → s.rooms r = some t

theorem bound_advance {s : RoomRace.St} (b : Bound s) (k : Nat) : Bound (advance s k) := by
  intro j r t hh hr
  have hd : r ∉ s.deleted := fun h => hr (RoomRace.act_deleted s _ _ r h)
  simp only [advance, upd_apply] at hh hr ⊢
  split at hh
  · rename_i e; subst e
    rcases RoomRace.act_held s (s.th j).1 (s.th j).2 hh with h | h | ⟨h1, h2, h3⟩
    · exact act_keeps (b j r t h hd) hr
    · exact act_keeps h hr
    · rw [h2, h1]; simp
  · exact act_keeps (b j r t hh hd) hr

/-- Who is in a room after a step: who has joined it by that step, and who was in it and has not left it. -/
theorem act_member (ha : SetLib.absent = false) {s : RoomRace.St} (wf : WF s) (id : Nat) (pc : PC)
    (hheld : ∀ r t, pc.held = some (r, t) → (∀ q, s.rooms q = some t → q = r) ∧ (r ∉ s.deleted → s.rooms r = some t)) (i r : Nat)
    (hr : r ∉ (act s id pc).1.deleted) :
    InRoom (act s id pc).1 i r ↔
      announces s id pc = some (.joined r i) ∨ (InRoom s i r ∧ announces s id pc ≠ some (.left r i)) := by
  have hd : r ∉ s.deleted := fun h => hr (RoomRace.act_deleted s _ _ r h)
  have hL : ∀ r0, r ∉ (loadAndDelete s r0).deleted → (InRoom (loadAndDelete s r0) i r ↔ InRoom s i r) := by
    intro r0 hr
    rcases RoomRace.loadAndDelete_cases s r0 with e | e
    · rw [e]
    · rw [e] at hr ⊢
      have : r ≠ r0 := by rintro rfl; simp at hr
      simp [InRoom, upd_apply, this]
  have out : ∀ r0 t, (∀ q, s.rooms q = some t → q = r0) → (r0 ∉ s.deleted → s.rooms r0 = some t) →
      (InRoom { s with rset := upd s.rset t (RoomRace.del (s.rset t) id) } i r ↔
        InRoom s i r ∧ (if id ∈ s.rset t then some (News.left r0 id) else none) ≠ some (.left r i)) := by
    intro r0 t h1 h2
    constructor
    · rintro ⟨u, hu, hm⟩
      simp only [upd_apply] at hm
      split at hm
      · rename_i e; subst e
        have := h1 r hu
        subst this
        rw [RoomRace.mem_del] at hm
        refine ⟨⟨u, hu, hm.1⟩, ?_⟩
        split
        · intro e; cases e; exact hm.2 rfl
        · intro e; cases e
      · rename_i e
        refine ⟨⟨u, hu, hm⟩, ?_⟩
        split
        · intro e'
          simp only [Option.some.injEq, News.left.injEq] at e'
          obtain ⟨rfl, rfl⟩ := e'
          rw [h2 hd] at hu
          cases hu; exact e rfl
        · intro e; cases e
    · rintro ⟨⟨u, hu, hm⟩, hne⟩
      refine ⟨u, hu, ?_⟩
      simp only [upd_apply]
      split
      · rename_i e; subst e
        have := h1 r hu
        subst this
        refine RoomRace.mem_del.2 ⟨hm, ?_⟩
        rintro rfl
        simp [hm] at hne
      · exact hm
  cases pc with
  | j0 rs => simp only [act, announces]; split <;> simp [InRoom]
  | j1 x rs => cases rs <;> simp [act, announces, InRoom]
  | j2 x r0 rs =>
    simp only [act, announces]
    cases h : s.rooms r0 with
    | some t => simp
    | none =>
      simp only [if_true]
      constructor
      · rintro ⟨u, hu, hm⟩
        refine .inr ⟨⟨u, ?_⟩, by simp⟩
        simp only [upd_apply] at hu hm
        split at hu
        · cases hu; simp at hm
        · have : u ≠ s.next := fun e => by have := wf.roomLt hu; omega
          rw [if_neg this] at hm
          exact ⟨hu, hm⟩
      · rintro (h' | ⟨⟨u, hu, hm⟩, _⟩)
        · cases h'
        · have h1 : u ≠ s.next := fun e => by have := wf.roomLt hu; omega
          have h2 : r ≠ r0 := by rintro rfl; rw [h] at hu; cases hu
          exact ⟨u, by simp [upd_apply, h2, hu], by simp [upd_apply, h1, hm]⟩
  | j3 x r0 t rs => simp [act, announces]
  | j4 x r0 t rs =>
    obtain ⟨h1, h2⟩ := hheld r0 t rfl
    simp only [act, announces]
    constructor
    · rintro ⟨u, hu, hm⟩
      simp only [upd_apply] at hm
      split at hm
      · rename_i e; subst e
        have := h1 r hu
        subst this
        rcases RoomRace.mem_add.1 hm with hm | rfl
        · exact .inr ⟨⟨u, hu, hm⟩, by simp⟩
        · exact .inl rfl
      · exact .inr ⟨⟨u, hu, hm⟩, by simp⟩
    · rintro (h | ⟨⟨u, hu, hm⟩, _⟩)
      · simp only [Option.some.injEq, News.joined.injEq] at h
        obtain ⟨rfl, rfl⟩ := h
        exact ⟨t, h2 hd, by simp [upd_apply, RoomRace.mem_add]⟩
      · refine ⟨u, hu, ?_⟩
        simp only [upd_apply]
        split
        · rename_i e; subst e; exact RoomRace.mem_add.2 (.inl hm)
        · exact hm
  | d0 r0 => simp only [act, announces]; split <;> simp
  | d1 x r0 => simp [act, announces, InRoom]
  | d2 r0 => simp only [act, announces]; split <;> simp
  | d3 r0 t =>
    obtain ⟨h1, h2⟩ := hheld r0 t rfl
    simp only [act, announces, ha, Bool.false_eq_true, or_false]
    rw [out r0 t h1 h2]
    have : (if id ∈ s.rset t then some (News.left r0 id) else none) ≠ some (News.joined r i) := by split <;> simp
    simp only [this, false_or]
  | d4 r0 t => simp [act, announces]
  | d5 r0 =>
    simp only [act, announces] at hr ⊢
    rw [hL r0 hr]
    split <;> simp
  | a0 => simp only [act, announces]; split <;> simp
  | a1 x => simp [act, announces]
  | a2 l => cases l <;> simp [act, announces, InRoom]
  | e2 r0 l => simp only [act, announces]; split <;> simp
  | e3 r0 t l =>
    obtain ⟨h1, h2⟩ := hheld r0 t rfl
    simp only [act, announces, ha, Bool.false_eq_true, or_false]
    rw [out r0 t h1 h2]
    have : (if id ∈ s.rset t then some (News.left r0 id) else none) ≠ some (News.joined r i) := by split <;> simp
    simp only [this, false_or]
  | e4 r0 t l => simp [act, announces]
  | e5 r0 l =>
    simp only [act, announces] at hr ⊢
    rw [hL r0 hr]
    split <;> simp
  | done => simp [act, announces]

/-- A call for one socket does not change whether another is in a set. -/
theorem act_foreign {s : RoomRace.St} {id : Nat} (pc : PC) {i t : Nat} (hi : i ≠ id) (ht : t < s.next) :
    i ∈ (act s id pc).1.rset t ↔ i ∈ s.rset t := by
  have hL : ∀ r0, (loadAndDelete s r0).rset = s.rset := fun r0 => by rcases RoomRace.loadAndDelete_cases s r0 with e | e <;> rw [e]
  have hn : t ≠ s.next := by omega
  cases pc with
  | j0 rs => simp only [act]; split <;> rfl
  | j1 x rs => cases rs <;> rfl
  | j2 x r0 rs => simp only [act]; split <;> simp [upd_apply, hn]
  | j4 x r0 u rs =>
    simp only [act, upd_apply]; split
    · rename_i e; subst e; simp [RoomRace.mem_add, hi]
    · rfl
  | d0 r0 => simp only [act]; split <;> rfl
  | d2 r0 => simp only [act]; split <;> rfl
  | d3 r0 u =>
    simp only [act, upd_apply]; split
    · rename_i e; subst e; simp [RoomRace.mem_del, hi]
    · rfl
  | d5 r0 => simp only [act, hL]
  | a0 => simp only [act]; split <;> rfl
  | a2 l => cases l <;> rfl
  | e2 r0 l => simp only [act]; split <;> rfl
  | e3 r0 u l =>
    simp only [act, upd_apply]; split
    · rename_i e; subst e; simp [RoomRace.mem_del, hi]
    · rfl
  | e5 r0 l => simp only [act, hL]
  | _ => exact Iff.rfl

theorem act_j4 {s : RoomRace.St} {id : Nat} {pc : PC} {x r t : Nat} {rs : List Nat} (h : (act s id pc).2 = .j4 x r t rs) :
    id ∉ (act s id pc).1.rset t := by
  cases pc with
  | j0 rs => simp only [act] at h; split at h <;> cases h
  | j1 x rs => cases rs <;> simp [act] at h
  | j2 x r0 rs => simp only [act] at h; split at h <;> cases h
  | j3 x r0 u rs =>
    simp only [act] at h ⊢
    split at h
    · cases h
    · rename_i hn; cases h; exact hn
  | d0 r0 => simp only [act] at h; split at h <;> cases h
  | d2 r0 => simp only [act] at h; split at h <;> cases h
  | d4 r0 u => simp only [act] at h; split at h <;> cases h
  | a0 => simp only [act] at h; split at h <;> cases h
  | a2 l => cases l <;> simp [act] at h
  | e2 r0 l => simp only [act] at h; split at h <;> cases h
  | e4 r0 u l => simp only [act] at h; split at h <;> cases h
  | _ => simp [act] at h

theorem announces_joined {s : RoomRace.St} {id : Nat} {pc : PC} {r i : Nat} (h : announces s id pc = some (.joined r i)) :
    i = id ∧ ∃ x t rs, pc = .j4 x r t rs := by
  cases pc <;> simp only [announces] at h <;> (try split at h) <;> simp at h
  obtain ⟨rfl, rfl⟩ := h
  exact ⟨rfl, _, _, _, rfl⟩

theorem announces_departs {s : RoomRace.St} {id : Nat} {pc : PC} {r i : Nat} (h : announces s id pc = some (.left r i)) : i = id := by
  cases pc <;> simp only [announces] at h <;> (try split at h) <;> simp at h <;> exact h.2.symm

theorem announces_left (ha : SetLib.absent = false) {s : RoomRace.St} {id : Nat} {pc : PC} {r i : Nat} (h : announces s id pc = some (.left r i)) :
    i = id ∧ ∃ t, id ∈ s.rset t ∧ pc.held = some (r, t) := by
  cases pc <;> simp only [announces, ha, Bool.false_eq_true, or_false] at h <;> (try split at h) <;> simp at h
  · rename_i hm; obtain ⟨rfl, rfl⟩ := h; exact ⟨rfl, _, hm, rfl⟩
  · rename_i hm; obtain ⟨rfl, rfl⟩ := h; exact ⟨rfl, _, hm, rfl⟩

theorem comings_append (r id : Nat) (a b : List News) : comings r id (a ++ b) = comings r id a ++ comings r id b := by
  induction a with
  | nil => rfl
  | cons e a ih =>
    cases e with
    | created q => simpa [comings] using ih
    | deleted q => simpa [comings] using ih
    | joined q i => simp only [List.cons_append, comings]; split <;> simp [ih]
    | left q i => simp only [List.cons_append, comings]; split <;> simp [ih]

theorem comings_one {r i : Nat} {e : News} (h1 : e ≠ .joined r i) (h2 : e ≠ .left r i) : comings r i [e] = [] := by
  cases e with
  | created q => rfl
  | deleted q => rfl
  | joined q j => simp only [comings]; split
                  · rename_i h; exact absurd (by rw [h.1, h.2]) h1
                  · rfl
  | left q j => simp only [comings]; split
                · rename_i h; exact absurd (by rw [h.1, h.2]) h2
                · rfl

theorem alternates_snoc {l : List Bool} {b : Bool} (h : Alternates l) (hb : b = decide (l.length % 2 = 0)) : Alternates (l ++ [b]) := by
  intro i c hc
  rw [List.getElem?_append] at hc
  split at hc
  · exact h i c hc
  · rename_i hl
    have : i = l.length := by
      rcases Nat.lt_or_ge l.length i with h' | h'
      · rw [List.getElem?_eq_none (by simp; omega)] at hc; cases hc
      · omega
    subst this
    simp at hc
    rw [← hc, hb]

theorem alternates_left {a b : List Bool} (h : Alternates (a ++ b)) : Alternates a := by
  intro i c hc
  refine h i c ?_
  rw [List.getElem?_append_left (by rw [List.getElem?_eq_some_iff] at hc; exact hc.1)]
  exact hc

/-- Everything that holds as long as the calls for each socket are made one after the other. -/
structure Mem (s : St) (o : List (Nat × News)) : Prop where
  wf : WF s.tab
  bound : Bound s.tab
  one : ∀ k k', (s.tab.th k).1 = (s.tab.th k').1 → ¬ FreeNow s k → ¬ FreeNow s k' → k = k'
  fresh : ∀ k x r t rs, (s.tab.th k).2 = .j4 x r t rs → (s.tab.th k).1 ∉ s.tab.rset t
  mine : ∀ k e, s.due k = some e → ∀ r i, (e = .joined r i ∨ e = .left r i) → (s.tab.th k).1 = i
  idle : ∀ i r, (∀ k, (s.tab.th k).1 = i → s.due k = none) → comings r i (o.map (·.2)) = comings r i (s.news.map (·.2))
  busy : ∀ k e, s.due k = some e → ∀ r,
    comings r (s.tab.th k).1 (o.map (·.2)) = comings r (s.tab.th k).1 (s.news.map (·.2)) ++ comings r (s.tab.th k).1 [e]
  alt : ∀ i r, r ∉ s.tab.deleted → Alternates (comings r i (o.map (·.2))) ∧
    (InRoom s.tab i r ↔ (comings r i (o.map (·.2))).length % 2 = 1)

theorem comings_foreign {id : Nat} {e : News} (hm : ∀ r i, (e = .joined r i ∨ e = .left r i) → id = i) {i : Nat} (hi : i ≠ id) (r : Nat) :
    comings r i [e] = [] :=
  comings_one (fun h => hi (hm r i (.inl h)).symm) (fun h => hi (hm r i (.inr h)).symm)

theorem announces_mine {s : RoomRace.St} {id : Nat} {pc : PC} {e : News} (h : announces s id pc = some e) (r i : Nat)
    (he : e = .joined r i ∨ e = .left r i) : id = i := by
  rcases he with rfl | rfl
  · exact (announces_joined h).1.symm
  · exact (announces_departs h).symm

theorem mem_emit {s : St} {o : List (Nat × News)} (m : Mem s o) {k : Nat} {e : News} (hd : s.due k = some e) :
    Mem { s with due := upd s.due k none, news := s.news ++ [(k, e)] } o := by
  have nf : ¬ FreeNow s k := fun h => by rw [h.2] at hd; cases hd
  have free : ∀ j, FreeNow s j → FreeNow { s with due := upd s.due k none, news := s.news ++ [(k, e)] } j := by
    intro j h
    refine ⟨h.1, ?_⟩
    simp only [upd_apply]; split
    · rfl
    · exact h.2
  refine ⟨m.wf, m.bound, fun i j h1 h2 h3 => m.one i j h1 (fun h => h2 (free i h)) (fun h => h3 (free j h)), m.fresh, ?_, ?_, ?_, m.alt⟩
  · intro j a hj
    simp only [upd_apply] at hj
    split at hj
    · cases hj
    · exact m.mine j a hj
  · intro i r hall
    simp only [List.map_append, comings_append, List.map_cons, List.map_nil]
    by_cases hi : (s.tab.th k).1 = i
    · subst hi; exact m.busy k e hd r
    · rw [comings_foreign (m.mine k e hd) (fun h => hi h.symm) r, List.append_nil]
      refine m.idle i r fun j hj => ?_
      have := hall j hj
      simp only [upd_apply] at this
      split at this
      · rename_i h; subst h; exact absurd hj hi
      · exact this
  · intro j a hj r
    simp only [upd_apply] at hj
    split at hj
    · cases hj
    · rename_i hjk
      have nj : ¬ FreeNow s j := fun h => by rw [h.2] at hj; cases hj
      have hi : (s.tab.th j).1 ≠ (s.tab.th k).1 := fun h => hjk (m.one j k h nj nf)
      simp only [List.map_append, comings_append, List.map_cons, List.map_nil]
      rw [comings_foreign (m.mine k e hd) hi r, List.append_nil]
      exact m.busy j a hj r

theorem mem_adv (hab : SetLib.absent = false) {s : St} {o : List (Nat × News)} (m : Mem s o) {k : Nat} (hd : s.due k = none) :
    Mem { s with tab := advance s.tab k, due := upd s.due k (announces s.tab (s.tab.th k).1 (s.tab.th k).2) }
      (o ++ (announces s.tab (s.tab.th k).1 (s.tab.th k).2).toList.map (fun e => (k, e))) := by
  by_cases hdone : (s.tab.th k).2 = .done
  · have h1 : announces s.tab (s.tab.th k).1 (s.tab.th k).2 = none := by rw [hdone]; rfl
    have h2 : advance s.tab k = s.tab := by
      have hu : upd s.tab.th k ((s.tab.th k).1, PC.done) = s.tab.th := by
        funext j; rw [upd_apply]; split
        · rename_i e; subst e; rw [← hdone]
        · rfl
      unfold advance; rw [hdone]; simp only [act, hu]
    have h3 : upd s.due k none = s.due := by
      funext j; rw [upd_apply]; split
      · rename_i e; subst e; exact hd.symm
      · rfl
    rw [h1, h2, h3]
    simpa using m
  have nf : ¬ FreeNow s k := fun h => hdone h.1
  have hthk : (advance s.tab k).th k = ((s.tab.th k).1, (act s.tab (s.tab.th k).1 (s.tab.th k).2).2) := by simp [advance]
  have hthj : ∀ j, j ≠ k → (advance s.tab k).th j = s.tab.th j := fun j h => by simp [advance, upd_ne _ _ h]
  have hth1 : ∀ j, ((advance s.tab k).th j).1 = (s.tab.th j).1 := by
    intro j
    by_cases h : j = k
    · subst h; rw [hthk]
    · rw [hthj j h]
  generalize ha : announces s.tab (s.tab.th k).1 (s.tab.th k).2 = a at *
  have others : ∀ j, j ≠ k → (s.tab.th j).1 = (s.tab.th k).1 → s.due j = none := by
    intro j hj h
    cases hdj : s.due j with
    | none => rfl
    | some b => exact absurd (m.one j k h (fun h => by rw [h.2] at hdj; cases hdj) nf) hj
  have free : ∀ j, j ≠ k → FreeNow s j → FreeNow { s with tab := advance s.tab k, due := upd s.due k a } j := by
    intro j hj h
    exact ⟨by simp only [hthj j hj]; exact h.1, by simp only [upd_ne _ _ hj]; exact h.2⟩
  have quiet : ∀ r, comings r (s.tab.th k).1 (o.map (·.2)) = comings r (s.tab.th k).1 (s.news.map (·.2)) := by
    intro r
    refine m.idle _ r fun j hj => ?_
    by_cases h : j = k
    · rw [h]; exact hd
    · exact others j h hj
  have far : ∀ i r, i ≠ (s.tab.th k).1 → comings r i ((a.toList.map (fun e => (k, e))).map (·.2)) = [] := by
    intro i r hi
    cases a with
    | none => rfl
    | some e => exact comings_foreign (fun r i he => announces_mine ha r i he) hi r
  refine ⟨RoomRace.wf_advance m.wf k, bound_advance m.bound k, ?_, ?_, ?_, ?_, ?_, ?_⟩
  · intro i j hij h1 h2
    simp only [hth1] at hij
    by_cases e1 : i = k
    · by_cases e2 : j = k
      · rw [e1, e2]
      · exact m.one i j hij (e1 ▸ nf) (fun h => h2 (free j e2 h))
    · by_cases e2 : j = k
      · exact m.one i j hij (fun h => h1 (free i e1 h)) (e2 ▸ nf)
      · exact m.one i j hij (fun h => h1 (free i e1 h)) (fun h => h2 (free j e2 h))
  · intro j x r t rs hj
    by_cases h : j = k
    · subst h
      simp only [hthk] at hj ⊢
      exact act_j4 hj
    · simp only [hthj j h] at hj ⊢
      have hi : (s.tab.th j).1 ≠ (s.tab.th k).1 := fun e => h (m.one j k e (fun f => by rw [f.1] at hj; cases hj) nf)
      have hlt : t < s.tab.next := m.wf.heldLt j (r := r) (by rw [hj]; rfl)
      exact fun hm => m.fresh j x r t rs hj ((act_foreign _ hi hlt).1 hm)
  · intro j e hj
    simp only [hth1]
    simp only [upd_apply] at hj
    split at hj
    · rename_i h; subst h
      intro r i he
      rw [hj] at ha
      exact announces_mine ha r i he
    · exact m.mine j e hj
  · intro i r hall
    simp only [List.map_append, comings_append]
    by_cases hi : i = (s.tab.th k).1
    · have := hall k (by simp only [hth1, hi])
      simp only [upd_apply, if_true] at this
      rw [this, hi]
      simpa [comings] using quiet r
    · rw [far i r hi, List.append_nil]
      refine m.idle i r fun j hj => ?_
      by_cases h : j = k
      · subst h; exact absurd hj.symm hi
      · have := hall j (by simp only [hth1]; exact hj)
        simpa [upd_apply, h] using this
  · intro j e hj r
    simp only [hth1, List.map_append, comings_append]
    simp only [upd_apply] at hj
    split at hj
    · rename_i h; subst h
      rw [hj, quiet r]
      rfl
    · rename_i h
      have hi : (s.tab.th j).1 ≠ (s.tab.th k).1 := fun e' => by
        have := others j h e'
        rw [this] at hj; cases hj
      rw [far _ r hi, List.append_nil]
      exact m.busy j e hj r
  · intro i r hr
    have hr' : r ∉ (act s.tab (s.tab.th k).1 (s.tab.th k).2).1.deleted := hr
    have hd' : r ∉ s.tab.deleted := fun h => hr' (RoomRace.act_deleted _ _ _ r h)
    obtain ⟨al, ai⟩ := m.alt i r hd'
    have key := act_member hab m.wf (s.tab.th k).1 (s.tab.th k).2
      (fun r t h => ⟨fun q hq => m.wf.held k h hq, fun hn => m.bound k r t h hn⟩) i r hr'
    have key' : InRoom (advance s.tab k) i r ↔ a = some (.joined r i) ∨ (InRoom s.tab i r ∧ a ≠ some (.left r i)) := by
      rw [← ha]; exact key
    simp only [List.map_append, comings_append]
    rw [key']
    by_cases c1 : a = some (.joined r i)
    · obtain ⟨hi, x, t, rs, hpc⟩ := announces_joined (ha.trans c1)
      have hn : ¬ InRoom s.tab i r := by
        rintro ⟨u, hu, hmem⟩
        have hb := m.bound k r t (by rw [hpc]; rfl) hd'
        rw [hb] at hu; cases hu
        exact m.fresh k x r t rs hpc (hi ▸ hmem)
      have hlen : (comings r i (o.map (·.2))).length % 2 = 0 := by
        have : ¬ (comings r i (o.map (·.2))).length % 2 = 1 := fun h => hn (ai.2 h)
        omega
      have e1 : comings r i ((a.toList.map (fun e => (k, e))).map (·.2)) = [true] := by simp [c1, comings]
      rw [e1]
      refine ⟨alternates_snoc al (by simp [hlen]), ?_⟩
      simp only [c1, true_or, List.length_append, List.length_cons, List.length_nil, true_iff]
      omega
    · by_cases c2 : a = some (.left r i)
      · obtain ⟨hi, t, hm, hh⟩ := announces_left hab (ha.trans c2)
        have hin : InRoom s.tab i r := ⟨t, m.bound k r t hh hd', hi ▸ hm⟩
        have hlen := ai.1 hin
        have e1 : comings r i ((a.toList.map (fun e => (k, e))).map (·.2)) = [false] := by simp [c2, comings]
        rw [e1]
        refine ⟨alternates_snoc al (by simp [hlen]), ?_⟩
        simp only [c1, c2, ne_eq, not_true, and_false, or_false, List.length_append, List.length_cons, List.length_nil]
        constructor
        · intro h; simp at h
        · intro h; omega
      · have e1 : comings r i ((a.toList.map (fun e => (k, e))).map (·.2)) = [] := by
          cases a with
          | none => rfl
          | some e => exact comings_one (e := e) (fun h => c1 (congrArg some h)) (fun h => c2 (congrArg some h))
        rw [e1, List.append_nil]
        refine ⟨al, ?_⟩
        simp only [c1, c2, false_or, ne_eq, not_false_eq_true, and_true]
        exact ai

theorem mem_call {s : St} {o : List (Nat × News)} (m : Mem s o) {k id : Nat} {c : RoomRace.Call} (h1 : FreeNow s k)
    (h2 : ∀ k', (s.tab.th k').1 = id → FreeNow s k') :
    Mem { s with tab := { s.tab with th := upd s.tab.th k (id, c.start) } } o := by
  have hst : RoomRace.step s.tab (.call k id c) = { s.tab with th := upd s.tab.th k (id, c.start) } := by simp [RoomRace.step, h1.1]
  have hsame : ∀ j, j ≠ k → (upd s.tab.th k (id, c.start)) j = s.tab.th j := fun j h => upd_ne _ _ h
  have hnew : (upd s.tab.th k (id, c.start)) k = (id, c.start) := by simp [upd_apply]
  refine ⟨hst ▸ RoomRace.wf_step m.wf (.call k id c), ?_, ?_, ?_, ?_, ?_, ?_, m.alt⟩
  · intro j r t hh
    simp only [upd_apply] at hh
    split at hh
    · cases c <;> simp [RoomRace.Call.start, RoomRace.PC.held] at hh
    · exact m.bound j r t hh
  · intro i j hij n1 n2
    by_cases e1 : i = k
    · by_cases e2 : j = k
      · rw [e1, e2]
      · exfalso
        simp only [e1, hnew, hsame j e2] at hij
        have f := h2 j hij.symm
        exact n2 ⟨by simp only [hsame j e2]; exact f.1, f.2⟩
    · by_cases e2 : j = k
      · exfalso
        simp only [e2, hnew, hsame i e1] at hij
        have f := h2 i hij
        exact n1 ⟨by simp only [hsame i e1]; exact f.1, f.2⟩
      · simp only [hsame i e1, hsame j e2] at hij
        exact m.one i j hij (fun f => n1 ⟨by simp only [hsame i e1]; exact f.1, f.2⟩)
          (fun f => n2 ⟨by simp only [hsame j e2]; exact f.1, f.2⟩)
  · intro j x r t rs hj
    by_cases e : j = k
    · subst e; simp only [hnew] at hj; cases c <;> cases hj
    · simp only [hsame j e] at hj ⊢; exact m.fresh j x r t rs hj
  · intro j e hj
    have : j ≠ k := by rintro rfl; rw [h1.2] at hj; cases hj
    simp only [hsame j this]
    exact m.mine j e hj
  · intro i r hall
    refine m.idle i r fun j hj => ?_
    by_cases e : j = k
    · rw [e]; exact h1.2
    · exact hall j (by simp only [hsame j e]; exact hj)
  · intro j e hj
    have : j ≠ k := by rintro rfl; rw [h1.2] at hj; cases hj
    simp only [hsame j this]
    exact m.busy j e hj

theorem mem_run (hab : SetLib.absent = false) (h : List RoomRace.Ev) (ho : OneByOneNews h) : Mem (run h) (ops h) := by
  induction h using snocRec with
  | nil =>
    refine ⟨⟨?_, ?_, ?_, ?_, ?_, ?_⟩, ?_, ?_, ?_, ?_, ?_, ?_, ?_⟩
    · intro i x h; simp [run] at h
    · intro i x h; simp [run] at h
    · intro i j x h; simp [run] at h
    · intro i j x h; simp [run] at h
    · intro k r t h; simp [run, RoomRace.PC.held] at h
    · intro k r t q h; simp [run, RoomRace.PC.held] at h
    · intro k r t h; simp [run, RoomRace.PC.held] at h
    · intro k k' _ h; exact absurd ⟨rfl, rfl⟩ h
    · intro k x r t rs h; simp [run] at h
    · intro k e h; simp [run] at h
    · intro i r _; rfl
    · intro k e h; simp [run] at h
    · intro i r _
      refine ⟨fun i b h => by simp [ops, opsFrom, comings] at h, ?_⟩
      simp [InRoom, run, ops, opsFrom, comings]
  | append_singleton h e ih =>
    have ih := ih fun p k id c t he => ho p k id c (t ++ [e]) (by simp [he])
    rw [run_snoc, ops_snoc]
    cases e with
    | adv k =>
      cases hd : (run h).due k with
      | some a =>
        obtain ⟨h1, h2⟩ := step_due hd
        rw [h1, h2, List.append_nil]
        exact mem_emit ih hd
      | none =>
        obtain ⟨h1, h2⟩ := step_adv hd
        rw [h1, h2]
        exact mem_adv hab ih hd
    | call k id c =>
      obtain ⟨h1, h2⟩ := ho h k id c [] rfl
      have : step (run h) (.call k id c) = { (run h) with tab := { (run h).tab with th := upd (run h).tab.th k (id, c.start) } } := by
        simp [step, RoomRace.step, h1.1, h1.2]
      rw [this]
      simp only [said, List.append_nil]
      exact mem_call ih h1 h2

end Verif.RoomNews
