import Verif.Proof.RoomRace

/-! # Concurrent joins of one socket -/

namespace Verif.RoomRace
open Verif Verif.World Verif.Spec

/-- The set of rooms a call is working on. -/
def PC.heldS : PC → Option Nat
  | .j1 x _ | .j2 x _ _ | .j3 x _ _ _ | .j4 x _ _ _ | .d1 x _ | .a1 x => some x
  | _ => none

/-- It is the set of no other socket. -/
def Own (s : St) : Prop := ∀ k x, (s.th k).2.heldS = some x → x < s.next ∧ ∀ i, s.sids i = some x → i = (s.th k).1

theorem act_heldS (s : St) (id : Nat) (pc : PC) {x : Nat} (h : (act s id pc).2.heldS = some x) :
    pc.heldS = some x ∨ s.sids id = some x ∨ (x = s.next ∧ (act s id pc).1.next = s.next + 1) := by
  cases pc with
  | j0 rs =>
    simp only [act] at h ⊢
    split at h
    · rename_i y hy
      simp only [PC.heldS, Option.some.injEq] at h
      exact .inr (.inl (h ▸ hy))
    · rename_i hy
      simp only [PC.heldS, Option.some.injEq] at h
      rw [hy]
      exact .inr (.inr ⟨h.symm, rfl⟩)
  | j1 y rs =>
    cases rs with
    | nil => simp [act, PC.heldS] at h
    | cons r rs => exact .inl (by simpa [act, PC.heldS] using h)
  | j2 y r rs => simp only [act] at h; split at h <;> exact .inl (by simpa [PC.heldS] using h)
  | j3 y r t rs => simp only [act] at h; split at h <;> exact .inl (by simpa [PC.heldS] using h)
  | j4 y r t rs => exact .inl (by simpa [act, PC.heldS] using h)
  | d0 r =>
    simp only [act] at h ⊢
    split at h
    · rename_i y hy
      simp only [PC.heldS, Option.some.injEq] at h
      exact .inr (.inl (h ▸ hy))
    · simp [PC.heldS] at h
  | d1 y r => simp [act, PC.heldS] at h
  | d2 r => simp only [act] at h; split at h <;> simp [PC.heldS] at h
  | d3 r t => simp [act, PC.heldS] at h
  | d4 r t => simp only [act] at h; split at h <;> simp [PC.heldS] at h
  | d5 r => simp [act, PC.heldS] at h
  | a0 =>
    simp only [act] at h ⊢
    split at h
    · rename_i y hy
      simp only [PC.heldS, Option.some.injEq] at h
      exact .inr (.inl (h ▸ hy))
    · simp [PC.heldS] at h
  | a1 y => simp [act, PC.heldS] at h
  | a2 l => cases l <;> simp [act, PC.heldS] at h
  | e2 r l => simp only [act] at h; split at h <;> simp [PC.heldS] at h
  | e3 r t l => simp [act, PC.heldS] at h
  | e4 r t l => simp only [act] at h; split at h <;> simp [PC.heldS] at h
  | e5 r l => simp [act, PC.heldS] at h
  | done => simp [act, PC.heldS] at h

theorem own_advance {s : St} (wf : WF s) (o : Own s) (k : Nat) : Own (advance s k) := by
  have hn := act_next s (s.th k).1 (s.th k).2
  have hs := act_sids s (s.th k).1 (s.th k).2
  have hh := @act_heldS s (s.th k).1 (s.th k).2
  have hk := o k
  -- a set that is below `next` has the owners it had
  have back : ∀ x i, x < s.next → (advance s k).sids i = some x → s.sids i = some x := by
    intro x i hx h
    have h' : (act s (s.th k).1 (s.th k).2).1.sids i = some x := h
    rcases hs with e | ⟨e, _⟩ | e
    · rwa [e] at h'
    · rw [e, upd_apply] at h'
      split at h'
      · simp only [Option.some.injEq] at h'; omega
      · exact h'
    · rw [e, upd_apply] at h'
      split at h'
      · cases h'
      · exact h'
  intro j x h
  by_cases e : j = k
  · subst e
    have hth : (advance s j).th j = ((s.th j).1, (act s (s.th j).1 (s.th j).2).2) := by simp [advance]
    rw [hth] at h ⊢
    show x < (act s (s.th j).1 (s.th j).2).1.next ∧ _
    rcases hh h with h1 | h1 | ⟨rfl, h1⟩
    · have := hk x h1
      exact ⟨by omega, fun i hi => this.2 i (back x i this.1 hi)⟩
    · have := wf.sidLt h1
      exact ⟨by omega, fun i hi => wf.sidInj (back x i this hi) h1⟩
    · refine ⟨by omega, fun i hi => ?_⟩
      have h' : (act s (s.th j).1 (s.th j).2).1.sids i = some s.next := hi
      rcases hs with e | ⟨e, _⟩ | e
      · rw [e] at h'; have := wf.sidLt h'; omega
      · rw [e, upd_apply] at h'
        split at h'
        · assumption
        · have := wf.sidLt h'; omega
      · rw [e, upd_apply] at h'
        split at h'
        · cases h'
        · have := wf.sidLt h'; omega
  · have hth : (advance s k).th j = s.th j := by simp [advance, upd_ne _ _ e]
    rw [hth] at h ⊢
    have := o j x h
    exact ⟨by show x < (act s (s.th k).1 (s.th k).2).1.next; omega, fun i hi => this.2 i (back x i this.1 hi)⟩

/-- What is known of a call for `id`, which does not leave `r`; `A`: some join of `id` names `r`. -/
def Ok (s : St) (id r : Nat) (A : Prop) : PC → Prop
  | .j0 rs => r ∈ rs → A
  | .j1 x rs => s.sids id = some x ∧ (r ∈ rs → A)
  | .j2 x r0 rs => s.sids id = some x ∧ (r ∈ rs → A) ∧ (r0 = r → A ∧ HasRoom s id r)
  | .j3 x r0 t rs | .j4 x r0 t rs => s.sids id = some x ∧ (r ∈ rs → A) ∧ (r0 = r → A ∧ HasRoom s id r ∧ s.rooms r = some t)
  | .d0 r0 | .d1 _ r0 | .d2 r0 | .d3 r0 _ | .d4 r0 _ | .d5 r0 => r0 ≠ r
  | .done => True
  | _ => False

/-- The call has still to join `r`. -/
def Pend (r : Nat) : PC → Prop
  | .j0 rs | .j1 _ rs => r ∈ rs
  | .j2 _ r0 rs | .j3 _ r0 _ rs | .j4 _ r0 _ rs => r0 = r ∨ r ∈ rs
  | _ => False

theorem Ok.mono {s s' : St} {id r : Nat} {A A' : Prop} {pc : PC} (h : Ok s id r A pc) (ha : A → A')
    (h1 : HasRoom s id r → HasRoom s' id r) (h2 : ∀ x, s.sids id = some x → s'.sids id = some x)
    (h3 : ∀ t, s.rooms r = some t → s'.rooms r = some t) : Ok s' id r A' pc := by
  cases pc <;> simp only [Ok] at h ⊢ <;> try exact h
  · exact fun x => ha (h x)
  · exact ⟨h2 _ h.1, fun x => ha (h.2 x)⟩
  · exact ⟨h2 _ h.1, fun x => ha (h.2.1 x), fun e => ⟨ha (h.2.2 e).1, h1 (h.2.2 e).2⟩⟩
  · exact ⟨h2 _ h.1, fun x => ha (h.2.1 x), fun e => ⟨ha (h.2.2 e).1, h1 (h.2.2 e).2.1, h3 _ (h.2.2 e).2.2⟩⟩
  · exact ⟨h2 _ h.1, fun x => ha (h.2.1 x), fun e => ⟨ha (h.2.2 e).1, h1 (h.2.2 e).2.1, h3 _ (h.2.2 e).2.2⟩⟩

/-- What a step of such a call does. -/
structure Goes (s s' : St) (id r : Nat) (A : Prop) (pc pc' : PC) : Prop where
  has : HasRoom s id r → HasRoom s' id r
  has' : HasRoom s' id r → HasRoom s id r ∨ A
  inn : InRoom s id r → InRoom s' id r
  inn' : InRoom s' id r → InRoom s id r ∨ A
  sid : ∀ x, s.sids id = some x → s'.sids id = some x
  room : ∀ t, s.rooms r = some t → s'.rooms r = some t
  ok : Ok s' id r A pc'
  pend : Pend r pc → Pend r pc' ∨ HasRoom s' id r ∧ InRoom s' id r

theorem Goes.same {s : St} {id r : Nat} {A : Prop} {pc pc' : PC} (ok : Ok s id r A pc')
    (pend : Pend r pc → Pend r pc' ∨ HasRoom s id r ∧ InRoom s id r) : Goes s s id r A pc pc' :=
  ⟨fun h => h, .inl, fun h => h, .inl, fun _ h => h, fun _ h => h, ok, pend⟩

theorem goes {s : St} (wf : WF s) (id r : Nat) (A : Prop) (pc : PC) (h : Ok s id r A pc)
    (hh : ∀ {r0 t q}, pc.held = some (r0, t) → s.rooms q = some t → q = r0)
    (hr : r ∉ (act s id pc).1.deleted) : Goes s (act s id pc).1 id r A pc (act s id pc).2 := by
  cases pc with
  | j0 rs =>
    simp only [act]
    split
    · rename_i x hx
      exact Goes.same ⟨hx, h⟩ .inl
    · rename_i hx
      have h0 : ¬ HasRoom s id r := by rintro ⟨y, h1, _⟩; rw [hx] at h1; cases h1
      refine ⟨fun h => absurd h h0, ?_, fun h => h, .inl, ?_, fun _ h => h, ⟨by simp, h⟩, .inl⟩
      · rintro ⟨y, h1, h2⟩
        simp only [upd_same, Option.some.injEq] at h1
        subst h1
        simp at h2
      · intro y hy; rw [hx] at hy; cases hy
  | j1 x rs =>
    cases rs with
    | nil => exact Goes.same trivial (fun h => by simp [Pend] at h)
    | cons r0 rs =>
      simp only [act]
      obtain ⟨hx, hA⟩ := h
      refine ⟨?_, ?_, fun h => h, .inl, fun _ h => h, fun _ h => h, ⟨hx, fun hm => hA (by simp [hm]), fun e => ⟨hA (by simp [e]), x, hx, ?_⟩⟩, ?_⟩
      · rintro ⟨y, h1, h2⟩
        have : y = x := by rw [hx] at h1; exact (Option.some.inj h1).symm
        subst this
        exact ⟨y, hx, by simp only [upd_same, mem_add]; exact .inl h2⟩
      · rintro ⟨y, h1, h2⟩
        have : y = x := by
          have h1' : s.sids id = some y := h1
          rw [hx] at h1'; exact (Option.some.inj h1').symm
        subst this
        simp only [upd_same, mem_add] at h2
        rcases h2 with h2 | h2
        · exact .inl ⟨y, hx, h2⟩
        · exact .inr (hA (by simp [h2]))
      · simp only [upd_same, mem_add]; exact .inr e.symm
      · intro hp
        simp only [Pend, List.mem_cons] at hp ⊢
        exact .inl (hp.imp Eq.symm (fun h => h))
  | j2 x r0 rs =>
    simp only [act]
    obtain ⟨hx, hA, hB⟩ := h
    split
    · rename_i t ht
      exact Goes.same ⟨hx, hA, fun e => ⟨(hB e).1, (hB e).2, e ▸ ht⟩⟩ .inl
    · rename_i hn
      refine ⟨fun h => h, .inl, ?_, ?_, fun _ h => h, ?_, ⟨hx, hA, fun e => ⟨(hB e).1, (hB e).2, by simp [e]⟩⟩, .inl⟩
      · rintro ⟨u, h1, h2⟩
        have hne : r ≠ r0 := by rintro rfl; rw [hn] at h1; cases h1
        have := wf.roomLt h1
        exact ⟨u, by simp only [upd_ne _ _ hne]; exact h1, by simp only [upd_ne s.rset [] (show u ≠ s.next by omega)]; exact h2⟩
      · rintro ⟨u, h1, h2⟩
        by_cases e : r = r0
        · exact .inr (hB e.symm).1
        · simp only [upd_ne _ _ e] at h1
          have := wf.roomLt h1
          simp only [upd_ne s.rset [] (show u ≠ s.next by omega)] at h2
          exact .inl ⟨u, h1, h2⟩
      · intro t ht
        have hne : r ≠ r0 := by rintro rfl; rw [hn] at ht; cases ht
        simp only [upd_ne _ _ hne]; exact ht
  | j3 x r0 t rs =>
    simp only [act]
    obtain ⟨hx, hA, hB⟩ := h
    split
    · rename_i hm
      refine Goes.same ⟨hx, hA⟩ ?_
      rintro (e | h)
      · exact .inr ⟨(hB e).2.1, t, (hB e).2.2, hm⟩
      · exact .inl h
    · exact Goes.same ⟨hx, hA, hB⟩ .inl
  | j4 x r0 t rs =>
    simp only [act]
    obtain ⟨hx, hA, hB⟩ := h
    refine ⟨fun h => h, .inl, ?_, ?_, fun _ h => h, fun _ h => h, ⟨hx, hA⟩, ?_⟩
    · rintro ⟨u, h1, h2⟩
      refine ⟨u, h1, ?_⟩
      simp only [upd_apply]
      split
      · rename_i e; subst e; rw [mem_add]; exact .inl h2
      · exact h2
    · rintro ⟨u, h1, h2⟩
      simp only [upd_apply] at h2
      split at h2
      · rename_i e; subst e
        have h1' : s.rooms r = some u := h1
        exact .inr (hB (hh rfl h1').symm).1
      · exact .inl ⟨u, h1, h2⟩
    · rintro (e | h)
      · exact .inr ⟨(hB e).2.1, t, (hB e).2.2, by simp [mem_add]⟩
      · exact .inl h
  | d0 r0 => simp only [act]; split <;> exact Goes.same h (fun h => h.elim)
  | d1 x r0 =>
    simp only [act]
    have h : r0 ≠ r := h
    refine ⟨?_, ?_, fun h => h, .inl, fun _ h => h, fun _ h => h, h, fun h => h.elim⟩
    · rintro ⟨y, h1, h2⟩
      refine ⟨y, h1, ?_⟩
      simp only [upd_apply]
      split
      · rename_i e; subst e; rw [mem_del]; exact ⟨h2, h.symm⟩
      · exact h2
    · rintro ⟨y, h1, h2⟩
      simp only [upd_apply] at h2
      split at h2
      · rename_i e; subst e; rw [mem_del] at h2; exact .inl ⟨y, h1, h2.1⟩
      · exact .inl ⟨y, h1, h2⟩
  | d2 r0 =>
    simp only [act]
    split
    · exact Goes.same h (fun h => h.elim)
    · exact Goes.same trivial (fun h => h.elim)
  | d3 r0 t =>
    simp only [act]
    have h : r0 ≠ r := h
    refine ⟨fun h => h, .inl, ?_, ?_, fun _ h => h, fun _ h => h, h, fun h => h.elim⟩
    · rintro ⟨u, h1, h2⟩
      refine ⟨u, h1, ?_⟩
      simp only [upd_apply]
      split
      · rename_i e; subst e; exact absurd (hh rfl h1).symm h
      · exact h2
    · rintro ⟨u, h1, h2⟩
      simp only [upd_apply] at h2
      split at h2
      · rename_i e; subst e
        have h1' : s.rooms r = some u := h1
        exact absurd (hh rfl h1').symm h
      · exact .inl ⟨u, h1, h2⟩
  | d4 r0 t =>
    simp only [act]
    split
    · exact Goes.same h (fun h => h.elim)
    · exact Goes.same trivial (fun h => h.elim)
  | d5 r0 =>
    simp only [act]
    have h : r0 ≠ r := h
    rcases loadAndDelete_cases s r0 with e | e
    · rw [e]; exact Goes.same trivial (fun h => h.elim)
    · rw [e]
      refine ⟨fun h => h, .inl, ?_, ?_, fun _ h => h, ?_, trivial, fun h => h.elim⟩
      · rintro ⟨u, h1, h2⟩; exact ⟨u, by simp only [upd_ne _ _ h.symm]; exact h1, h2⟩
      · rintro ⟨u, h1, h2⟩; simp only [upd_ne _ _ h.symm] at h1; exact .inl ⟨u, h1, h2⟩
      · intro t ht; simp only [upd_ne _ _ h.symm]; exact ht
  | a0 => exact h.elim
  | a1 x => exact h.elim
  | a2 l => exact h.elim
  | e2 r0 l => exact h.elim
  | e3 r0 t l => exact h.elim
  | e4 r0 t l => exact h.elim
  | e5 r0 l => exact h.elim
  | done => exact Goes.same trivial (fun h => h.elim)

structure J (s : St) (id r : Nat) (A : Prop) : Prop where
  pcs : ∀ k, (s.th k).1 = id → Ok s id r A (s.th k).2
  has : HasRoom s id r → A
  inn : InRoom s id r → A
  all : A → (HasRoom s id r ∧ InRoom s id r) ∨ ∃ k, (s.th k).1 = id ∧ Pend r (s.th k).2

theorem j_advance {s : St} {id r : Nat} {A : Prop} (wf : WF s) (o : Own s) (j : J s id r A) (k : Nat)
    (hr : r ∉ (advance s k).deleted) : J (advance s k) id r A := by
  have hr' : r ∉ (act s (s.th k).1 (s.th k).2).1.deleted := hr
  have hthk : (advance s k).th k = ((s.th k).1, (act s (s.th k).1 (s.th k).2).2) := by simp [advance]
  have hthj : ∀ i, i ≠ k → (advance s k).th i = s.th i := fun i h => by simp [advance, upd_ne _ _ h]
  by_cases hid : (s.th k).1 = id
  · have g : Goes s (act s (s.th k).1 (s.th k).2).1 id r A (s.th k).2 (act s (s.th k).1 (s.th k).2).2 := by
      have := goes wf id r A (s.th k).2 (j.pcs k hid) (fun h1 h2 => wf.held k h1 h2) (by rw [← hid]; exact hr')
      rw [hid]; exact this
    refine ⟨?_, ?_, ?_, ?_⟩
    · intro i hi
      by_cases e : i = k
      · subst e; rw [hthk]; exact g.ok.mono (fun h => h) (fun h => h) (fun _ h => h) (fun _ h => h)
      · rw [hthj i e] at hi ⊢
        exact (j.pcs i hi).mono (fun h => h) g.has g.sid g.room
    · intro h; exact (g.has' h).elim j.has (fun h => h)
    · intro h; exact (g.inn' h).elim j.inn (fun h => h)
    · intro a
      rcases j.all a with ⟨h1, h2⟩ | ⟨i, h1, h2⟩
      · exact .inl ⟨g.has h1, g.inn h2⟩
      · by_cases e : i = k
        · subst e
          rcases g.pend h2 with h3 | h3
          · exact .inr ⟨i, by rw [hthk]; exact h1, by rw [hthk]; exact h3⟩
          · exact .inl h3
        · exact .inr ⟨i, by rw [hthj i e]; exact h1, by rw [hthj i e]; exact h2⟩
  · have hs : ∀ x, (∃ rs, (s.th k).2 = .j1 x rs) ∨ (∃ r, (s.th k).2 = .d1 x r) → ∀ i, s.sids i = some x → i = (s.th k).1 := by
      intro x hx
      refine (o k x ?_).2
      rcases hx with ⟨rs, e⟩ | ⟨q, e⟩ <;> rw [e] <;> rfl
    obtain ⟨f1, f2, f3, f4⟩ := frame wf k (fun e => hid e.symm) hs hr'
    refine ⟨?_, ?_, ?_, ?_⟩
    · intro i hi
      have e : i ≠ k := by rintro rfl; rw [hthk] at hi; exact hid hi
      rw [hthj i e] at hi ⊢
      exact (j.pcs i hi).mono (fun h => h) f1.mpr (fun x hx => f3.trans hx) f4
    · exact fun h => j.has (f1.mp h)
    · exact fun h => j.inn (f2.mp h)
    · intro a
      rcases j.all a with ⟨h1, h2⟩ | ⟨i, h1, h2⟩
      · exact .inl ⟨f1.mpr h1, f2.mpr h2⟩
      · have e : i ≠ k := by rintro rfl; exact hid h1
        exact .inr ⟨i, by rw [hthj i e]; exact h1, by rw [hthj i e]; exact h2⟩

theorem wf_step {s : St} (wf : WF s) (e : Ev) : WF (step s e) := by
  cases e with
  | adv k => exact wf_advance wf k
  | call k id c =>
    simp only [step]
    split
    · refine ⟨wf.sidLt, wf.roomLt, wf.sidInj, wf.roomInj, ?_, ?_⟩
      · intro i r t h
        simp only [upd_apply] at h
        split at h
        · cases c <;> simp [Call.start, PC.held] at h
        · exact wf.heldLt i h
      · intro i r t q h
        simp only [upd_apply] at h
        split at h
        · cases c <;> simp [Call.start, PC.held] at h
        · exact wf.held i h
    · exact wf

theorem own_step {s : St} (wf : WF s) (o : Own s) (e : Ev) : Own (step s e) := by
  cases e with
  | adv k => exact own_advance wf o k
  | call k id c =>
    simp only [step]
    split
    · intro i x h
      simp only [upd_apply] at h ⊢
      split at h
      · cases c <;> simp [Call.start, PC.heldS] at h
      · rename_i hne; rw [if_neg hne]; exact o i x h
    · exact o

theorem wf_own (h : List Ev) : WF (run h) ∧ Own (run h) := by
  induction h using snocRec with
  | nil =>
    refine ⟨⟨?_, ?_, ?_, ?_, ?_, ?_⟩, ?_⟩
    · intro i x h; simp [run] at h
    · intro i x h; simp [run] at h
    · intro i j x h; simp [run] at h
    · intro i j x h; simp [run] at h
    · intro k r t h; simp [run, PC.held] at h
    · intro k r t q h; simp [run, PC.held] at h
    · intro k x h; simp [run, PC.heldS] at h
  | append_singleton h e ih =>
    have hrun : run (h ++ [e]) = step (run h) e := by simp [run]
    rw [hrun]
    exact ⟨wf_step ih.1 e, own_step ih.1 ih.2 e⟩

theorem step_deleted (s : St) (e : Ev) : ∀ r ∈ s.deleted, r ∈ (step s e).deleted := by
  cases e with
  | adv k => exact act_deleted s _ _
  | call k id c => simp only [step]; split <;> exact fun _ h => h

theorem j_run (h : List Ev) (id r : Nat) (hj : NeverLeaves id r h) (hr : r ∉ (run h).deleted) : J (run h) id r (Joins h id r) := by
  induction h using snocRec with
  | nil =>
    refine ⟨fun k _ => ?_, ?_, ?_, ?_⟩
    · simp [run, Ok]
    · rintro ⟨t, h, _⟩; simp [run] at h
    · rintro ⟨t, h, _⟩; simp [run] at h
    · rintro ⟨p, k, rs, q, h, _⟩; simp at h
  | append_singleton h e ih =>
    have hrun : run (h ++ [e]) = step (run h) e := by simp [run]
    rw [hrun] at hr ⊢
    have j := ih (fun k c hm => hj k c (by simp [hm])) (fun hd => hr (step_deleted _ _ r hd))
    have up : Joins h id r → Joins (h ++ [e]) id r := by
      rintro ⟨p, k, rs, q, h1, h2⟩
      exact ⟨p, k, rs, q ++ [e], by rw [h1]; simp, h2⟩
    have down : Joins (h ++ [e]) id r → Joins h id r ∨ ∃ k rs, e = .call k id (.join rs) ∧ ((run h).th k).2 = .done ∧ r ∈ rs := by
      rintro ⟨p, k, rs, q, h1, h2, h3⟩
      rcases q.eq_nil_or_concat with rfl | ⟨q', z, rfl⟩
      · have := List.append_inj' h1 rfl
        obtain ⟨rfl, h4⟩ := this
        exact .inr ⟨k, rs, by simpa using h4, h2, h3⟩
      · rw [List.concat_eq_append, ← List.cons_append, ← List.append_assoc] at h1
        have := List.append_inj' h1 rfl
        exact .inl ⟨p, k, rs, q', this.1, h2, h3⟩
    cases e with
    | adv k =>
      have hiff : Joins (h ++ [.adv k]) id r ↔ Joins h id r := by
        refine ⟨fun a => (down a).resolve_right ?_, up⟩
        rintro ⟨k', rs, h1, _⟩; cases h1
      rw [propext hiff]
      exact j_advance (wf_own h).1 (wf_own h).2 j k hr
    | call k id' c =>
      by_cases hd : ((run h).th k).2 = .done
      · have hs : step (run h) (.call k id' c) = { run h with th := upd (run h).th k (id', c.start) } := by simp [step, hd]
        rw [hs]
        refine ⟨?_, fun x => up (j.has x), fun x => up (j.inn x), ?_⟩
        · intro i hi
          simp only [upd_apply] at hi ⊢
          split at hi
          · rename_i e
            rw [if_pos e]
            simp only at hi
            subst hi
            rcases hj k c (by simp) with ⟨rs, rfl⟩ | ⟨r', rfl, hne⟩
            · exact fun hm => ⟨h, k, rs, [], rfl, hd, hm⟩
            · exact hne
          · rename_i e
            rw [if_neg e]
            exact (j.pcs i hi).mono up (fun h => h) (fun _ h => h) (fun _ h => h)
        · intro a
          rcases down a with a | ⟨k', rs, h1, _, h3⟩
          · rcases j.all a with b | ⟨i, h1, h2⟩
            · exact .inl b
            · refine .inr ⟨i, ?_⟩
              have e : i ≠ k := by rintro rfl; rw [hd] at h2; exact h2
              simp only [upd_ne _ _ e]
              exact ⟨h1, h2⟩
          · cases h1
            exact .inr ⟨k, by simp, by simpa [Call.start, Pend] using h3⟩
      · have hs : step (run h) (.call k id' c) = run h := by simp [step, hd]
        rw [hs]
        have hiff : Joins (h ++ [.call k id' c]) id r ↔ Joins h id r := by
          refine ⟨fun a => (down a).resolve_right ?_, up⟩
          rintro ⟨k', rs, h1, h2, _⟩; cases h1; exact hd h2
        rw [propext hiff]
        exact j

/-- Nothing is deleted by calls that do not leave the room. -/
theorem never_deleted (h : List Ev) (r : Nat) (hj : ∀ id, NeverLeaves id r h) : r ∉ (run h).deleted := by
  have key : r ∉ (run h).deleted ∧ ∀ k, Ok (run h) (run h |>.th k).1 r True ((run h).th k).2 := by
    induction h using snocRec with
    | nil => exact ⟨by simp [run], fun k => by simp [run, Ok]⟩
    | append_singleton h e ih =>
      have hrun : run (h ++ [e]) = step (run h) e := by simp [run]
      have hj' : ∀ id, NeverLeaves id r h := fun id k c hm => hj id k c (by simp [hm])
      obtain ⟨hd, hok⟩ := ih hj'
      have hnd : r ∉ (step (run h) e).deleted := by
        cases e with
        | call k id c => simp only [step]; split <;> exact hd
        | adv k =>
          show r ∉ (act (run h) ((run h).th k).1 ((run h).th k).2).1.deleted
          have hk := hok k
          generalize (run h).th k = th at hk
          obtain ⟨id, pc⟩ := th
          cases pc with
          | j0 rs => simp only [act]; split <;> exact hd
          | j1 x rs => cases rs <;> exact hd
          | j2 x r0 rs => simp only [act]; split <;> exact hd
          | d0 r0 => simp only [act]; split <;> exact hd
          | d2 r0 => simp only [act]; split <;> exact hd
          | d5 r0 =>
            have hne : r0 ≠ r := hk
            simp only [act]
            rcases loadAndDelete_cases (run h) r0 with e | e <;> rw [e]
            · exact hd
            · simp [hd, hne.symm]
          | a0 => exact hk.elim
          | a1 x => exact hk.elim
          | a2 l => exact hk.elim
          | e2 r0 l => exact hk.elim
          | e3 r0 t l => exact hk.elim
          | e4 r0 t l => exact hk.elim
          | e5 r0 l => exact hk.elim
          | _ => exact hd
      rw [hrun]
      refine ⟨hnd, fun k => ?_⟩
      have := (j_run (h ++ [e]) ((run (h ++ [e])).th k).1 r (hj _) (by rw [hrun]; exact hnd)).pcs k rfl
      rw [hrun] at this
      exact this.mono (fun _ => trivial) (fun h => h) (fun _ h => h) (fun _ h => h)
  exact key.1

end Verif.RoomRace
