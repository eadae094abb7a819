import Verif.Spec.RecoverRace

namespace Verif.RecoverRace
open Verif.Spec

variable {mine : Nat → Bool} {offset : Nat} {old : List Nat}

theorem run_snoc (h : List Ev) (e : Ev) : run mine offset old (h ++ [e]) = step mine offset (run mine offset old h) e := by simp [run]

theorem findIndex_some {o : Nat} {l : List Nat} {i : Nat} (h : findIndex o l = some i) :
    ∃ a b, l = a ++ o :: b ∧ o ∉ a ∧ a.length = i := by
  induction l generalizing i with
  | nil => simp [findIndex] at h
  | cons p l ih =>
    simp only [findIndex] at h
    split at h
    · rename_i e; cases h; exact ⟨[], l, by simp [e], by simp, rfl⟩
    · rename_i e
      cases hf : findIndex o l with
      | none => rw [hf] at h; cases h
      | some j =>
        rw [hf] at h; cases h
        obtain ⟨a, b, h1, h2, h3⟩ := ih hf
        exact ⟨p :: a, b, by simp [h1], by simp [h2]; exact fun x => e x.symm, by simp [h3]⟩

theorem findIndex_none {o : Nat} {l : List Nat} (h : findIndex o l = none) : o ∉ l := by
  induction l with
  | nil => simp
  | cons p l ih =>
    simp only [findIndex] at h
    split at h
    · cases h
    · rename_i e
      cases hf : findIndex o l with
      | none => simp only [List.mem_cons, not_or]; exact ⟨fun x => e x.symm, ih hf⟩
      | some j => rw [hf] at h; cases h

theorem since_split {o : Nat} {a b : List Nat} (h : o ∉ a) : since o (a ++ o :: b) = b := by
  unfold since
  rw [List.dropWhile_append_of_pos]
  · simp
  · intro x hx; simp; rintro rfl; exact h hx

theorem since_append {o : Nat} {l m : List Nat} (h : o ∈ l) : since o (l ++ m) = since o l ++ m := by
  obtain ⟨a, b, rfl, ha⟩ := List.eq_append_cons_of_mem h
  rw [List.append_assoc, List.cons_append, since_split ha, since_split ha]

/-- What a step of a broadcast leaves alone. -/
theorem advance_keeps (s : St) (k : Nat) :
    (advance mine s k).rpc = s.rpc ∧ (advance mine s k).missed = s.missed ∧ (advance mine s k).replayed = s.replayed ∧
    (advance mine s k).inRoom = s.inRoom ∧ (advance mine s k).stored = s.stored ∧
    ∃ l, (advance mine s k).packets = s.packets ++ l := by
  unfold advance
  split
  · rename_i p pc h
    cases pc <;> simp [castStep]
    · split <;> exact ⟨rfl, rfl, rfl, rfl, rfl, [], by simp⟩
  · exact ⟨rfl, rfl, rfl, rfl, rfl, [], by simp⟩

theorem advance_casts (s : St) (k : Nat) : (advance mine s k).casts.map (·.1) = s.casts.map (·.1) := by
  unfold advance
  split
  · rename_i p pc h
    simp only [List.map_set]
    apply List.ext_getElem?
    intro j
    by_cases e : k = j
    · subst e
      have hl := (List.getElem?_eq_some_iff.mp h).1
      rw [List.getElem?_set_self (by simpa using hl), List.getElem?_map, h]; rfl
    · rw [List.getElem?_set_ne e]
  · rfl

/-! ## What is replayed -/

/-- The state of the recovery, as far as the packets kept are concerned. -/
def Collected (mine : Nat → Bool) (offset : Nat) (old : List Nat) (h : List Ev) (s : St) : RPC → Prop
  | .find => s.missed = [] ∧ s.replayed = []
  | .alloc i => s.replayed = [] ∧ s.missed = [] ∧ ∃ a b, s.packets = a ++ offset :: b ∧ offset ∉ a ∧ a.length = i
  | .get i => s.replayed = [] ∧ ∃ a b, s.packets = a ++ offset :: b ∧ offset ∉ a ∧ ∃ j, i = a.length + 1 + j ∧ j ≤ b.length ∧ s.missed = (b.take j).filter mine
  | .fresh => s.replayed = []
  | .panic => False
  | .join => s.replayed = [] ∧ ∃ h1 h2, h = h1 ++ .recover :: h2 ∧ Collecting (run mine offset old h1) ∧ offset ∈ (run mine offset old h1).packets ∧ s.missed = (since offset (run mine offset old h1).packets).filter mine
  | .send => s.replayed = [] ∧ ∃ h1 h2, h = h1 ++ .recover :: h2 ∧ Collecting (run mine offset old h1) ∧ offset ∈ (run mine offset old h1).packets ∧ s.missed = (since offset (run mine offset old h1).packets).filter mine
  | .middlewares => ∃ h1 h2, h = h1 ++ .recover :: h2 ∧ Collecting (run mine offset old h1) ∧ offset ∈ (run mine offset old h1).packets ∧ s.replayed = (since offset (run mine offset old h1).packets).filter mine
  | .store => ∃ h1 h2, h = h1 ++ .recover :: h2 ∧ Collecting (run mine offset old h1) ∧ offset ∈ (run mine offset old h1).packets ∧ s.replayed = (since offset (run mine offset old h1).packets).filter mine
  | .done => ∃ h1 h2, h = h1 ++ .recover :: h2 ∧ Collecting (run mine offset old h1) ∧ offset ∈ (run mine offset old h1).packets ∧ s.replayed = (since offset (run mine offset old h1).packets).filter mine

/-- An event other than a step of the recovery. -/
theorem collected_other {h : List Ev} {s s' : St} (e : Ev) (c : Collected mine offset old h s s.rpc) (h1 : s'.rpc = s.rpc)
    (h2 : s'.missed = s.missed) (h3 : s'.replayed = s.replayed) (h4 : Collecting s → ∃ l, s'.packets = s.packets ++ l) :
    Collected mine offset old (h ++ [e]) s' s'.rpc := by
  rw [h1]
  have ext : ∀ (f : List Nat → Prop), (∃ g1 g2, h = g1 ++ .recover :: g2 ∧ Collecting (run mine offset old g1) ∧ offset ∈ (run mine offset old g1).packets ∧ f (run mine offset old g1).packets) →
      ∃ g1 g2, h ++ [e] = g1 ++ .recover :: g2 ∧ Collecting (run mine offset old g1) ∧ offset ∈ (run mine offset old g1).packets ∧ f (run mine offset old g1).packets := by
    rintro f ⟨g1, g2, rfl, g⟩
    exact ⟨g1, g2 ++ [e], by simp, g⟩
  generalize hr : s.rpc = r at *
  cases r with
  | find => simpa [Collected, h2, h3] using c
  | alloc i =>
    obtain ⟨c1, c2, a, b, c3, c4, c5⟩ := c
    obtain ⟨l, hl⟩ := h4 (.inl ⟨i, hr⟩)
    exact ⟨h3 ▸ c1, h2 ▸ c2, a, b ++ l, by rw [hl, c3]; simp, c4, c5⟩
  | get i =>
    obtain ⟨c1, a, b, c3, c4, j, c5, c6, c7⟩ := c
    obtain ⟨l, hl⟩ := h4 (.inr ⟨i, hr⟩)
    refine ⟨h3 ▸ c1, a, b ++ l, by rw [hl, c3]; simp, c4, j, c5, by simp; omega, ?_⟩
    rw [h2, c7, List.take_append_of_le_length c6]
  | fresh => exact h3.trans c
  | panic => exact c
  | join => exact ⟨h3.trans c.1, ext (fun l => s'.missed = (since offset l).filter mine) (by simp only [h2]; exact c.2)⟩
  | send => exact ⟨h3.trans c.1, ext (fun l => s'.missed = (since offset l).filter mine) (by simp only [h2]; exact c.2)⟩
  | middlewares => exact ext (fun l => s'.replayed = (since offset l).filter mine) (by simp only [h3]; exact c)
  | store => exact ext (fun l => s'.replayed = (since offset l).filter mine) (by simp only [h3]; exact c)
  | done => exact ext (fun l => s'.replayed = (since offset l).filter mine) (by simp only [h3]; exact c)

theorem collected_run (h : List Ev) (hn : NoCleaning mine offset old h) :
    Collected mine offset old h (run mine offset old h) (run mine offset old h).rpc := by
  induction h using snocRec with
  | nil => exact ⟨rfl, rfl⟩
  | append_singleton h e ih =>
    have c := ih (fun p n t e' => hn p n (t ++ [e]) (by rw [e']; simp))
    rw [run_snoc]
    cases e with
    | cast p => exact collected_other _ c rfl rfl rfl (fun _ => ⟨[], by simp [step]⟩)
    | adv k =>
      obtain ⟨a1, a2, a3, _, _, a4⟩ := advance_keeps (mine := mine) (run mine offset old h) k
      exact collected_other _ c a1 a2 a3 (fun _ => a4)
    | clean n => exact collected_other _ c rfl rfl rfl (fun hc => absurd hc (hn h n [] rfl))
    | recover =>
      have ext : ∀ (s' : List Nat), (∃ g1 g2, h = g1 ++ .recover :: g2 ∧ Collecting (run mine offset old g1) ∧ offset ∈ (run mine offset old g1).packets ∧ s' = (since offset (run mine offset old g1).packets).filter mine) →
          ∃ g1 g2, h ++ [.recover] = g1 ++ .recover :: g2 ∧ Collecting (run mine offset old g1) ∧ offset ∈ (run mine offset old g1).packets ∧ s' = (since offset (run mine offset old g1).packets).filter mine := by
        rintro s' ⟨g1, g2, rfl, g⟩
        exact ⟨g1, g2 ++ [.recover], by simp, g⟩
      have self : ∀ (s : St), run mine offset old h = s → Collecting s → offset ∈ s.packets → ∀ m, m = (since offset s.packets).filter mine →
          ∃ g1 g2, h ++ [Ev.recover] = g1 ++ .recover :: g2 ∧ Collecting (run mine offset old g1) ∧ offset ∈ (run mine offset old g1).packets ∧ m = (since offset (run mine offset old g1).packets).filter mine := by
        rintro s rfl h1 h2 m h3
        exact ⟨h, [], rfl, h1, h2, h3⟩
      simp only [step]
      generalize hs : run mine offset old h = s at *
      clear ih
      generalize hr : s.rpc = r at *
      cases r with
      | find =>
        simp only [recStep]
        split
        · rename_i i hi
          obtain ⟨a, b, f⟩ := findIndex_some hi
          exact ⟨c.2, c.1, a, b, f⟩
        · exact c.2
      | alloc i =>
        obtain ⟨c1, c2, a, b, c3, c4, c5⟩ := c
        have hl : ¬ s.packets.length < i + 1 := by rw [c3]; simp; omega
        simp only [recStep, if_neg hl]
        exact ⟨c1, a, b, c3, c4, 0, by omega, by omega, by simpa using c2⟩
      | get i =>
        obtain ⟨c1, a, b, c3, c4, j, c5, c6, c7⟩ := c
        have hg : s.packets[i]? = b[j]? := by
          rw [c3, List.getElem?_append_right (by omega)]
          have : i - a.length = j + 1 := by omega
          rw [this]; rfl
        simp only [recStep, hg]
        split
        · rename_i p hp
          have hj := (List.getElem?_eq_some_iff.mp hp).1
          refine ⟨c1, a, b, c3, c4, j + 1, by omega, by omega, ?_⟩
          rw [List.take_add_one, hp, c7]
          simp only [List.filter_append, Option.toList_some]
          cases hm : mine p <;> simp [hm]
        · rename_i hp
          have hj := List.getElem?_eq_none_iff.mp hp
          refine ⟨c1, self s rfl (.inr ⟨i, hr⟩) (by rw [c3]; simp) _ ?_⟩
          rw [c3, since_split c4, ← List.take_of_length_le hj]; exact c7
      | join => exact ⟨c.1, ext _ c.2⟩
      | send => exact ext _ c.2
      | middlewares => exact ext _ c
      | store => exact ext _ c
      | done => rw [show recStep mine offset s .done = s from rfl, hr]; exact ext _ c
      | fresh => rw [show recStep mine offset s .fresh = s from rfl, hr]; exact c
      | panic => exact c.elim

/-! ## Broadcasts -/

theorem castsOf_append (h h' : List Ev) : castsOf (h ++ h') = castsOf h ++ castsOf h' := by
  induction h with
  | nil => rfl
  | cons e h ih => cases e <;> simp [castsOf, ih]

theorem recStep_casts (s : St) (r : RPC) : (recStep mine offset s r).casts = s.casts ∧ (recStep mine offset s r).live = s.live ∧
    (recStep mine offset s r).packets = s.packets := by
  cases r <;> simp only [recStep] <;> (try split) <;> simp

theorem casts_run (h : List Ev) : (run mine offset old h).casts.map (·.1) = castsOf h := by
  induction h using snocRec with
  | nil => rfl
  | append_singleton h e ih =>
    rw [run_snoc, castsOf_append]
    cases e with
    | cast p => simp [step, castsOf, ih]
    | adv k => simp only [step, advance_casts, castsOf, List.append_nil]; exact ih
    | recover => simp only [step, (recStep_casts _ _).1, castsOf, List.append_nil]; exact ih
    | clean n => simp only [step, castsOf, List.append_nil]; exact ih

/-- The flags say how far the recovery is. -/
structure Flags (s : St) : Prop where
  stored : s.stored = true ↔ s.rpc = .done
  inRoom : s.rpc = .done → s.inRoom = true
  live : s.stored = false → s.live = []

theorem flags_run (h : List Ev) : Flags (run mine offset old h) := by
  induction h using snocRec with
  | nil => exact ⟨by simp [run], by simp [run], by simp [run]⟩
  | append_singleton h e ih =>
    rw [run_snoc]
    -- to be done: the rooms are joined before the socket is stored
    have pre : (run mine offset old h).rpc = .store → (run mine offset old h).inRoom = true := by
      have key : ∀ g : List Ev, ((run mine offset old g).rpc = .send ∨ (run mine offset old g).rpc = .middlewares ∨ (run mine offset old g).rpc = .store) → (run mine offset old g).inRoom = true := by
        intro g
        induction g using snocRec with
        | nil => simp [run]
        | append_singleton g e ih =>
          rw [run_snoc]
          cases e with
          | cast p => exact ih
          | adv k =>
            obtain ⟨a1, _, _, a4, _⟩ := advance_keeps (mine := mine) (run mine offset old g) k
            simp only [step, a1, a4]; exact ih
          | clean n => exact ih
          | recover =>
            simp only [step]
            generalize run mine offset old g = s at *
            generalize hr : s.rpc = r at *
            cases r <;> simp only [recStep] <;> (try split) <;> simp_all
      exact fun h => key _ (.inr (.inr h))
    cases e with
    | cast p => exact ⟨ih.stored, ih.inRoom, ih.live⟩
    | adv k =>
      obtain ⟨a1, _, _, a4, a5, _⟩ := advance_keeps (mine := mine) (run mine offset old h) k
      refine ⟨by simp only [step, a1, a5]; exact ih.stored, by simp only [step, a1, a4]; exact ih.inRoom, ?_⟩
      simp only [step, a5]
      intro hs
      have hl := ih.live hs
      unfold advance
      split
      · rename_i p pc _
        cases pc <;> simp [castStep, hs, hl]
      · exact hl
    | clean n => exact ⟨ih.stored, ih.inRoom, ih.live⟩
    | recover =>
      have h1 := (recStep_casts (mine := mine) (offset := offset) (run mine offset old h) (run mine offset old h).rpc).2.1
      obtain ⟨i1, i2, i3⟩ := ih
      simp only [step]
      generalize run mine offset old h = s at *
      generalize hr : s.rpc = r at *
      cases r <;> simp only [recStep] <;> (try split) <;> refine ⟨?_, ?_, ?_⟩ <;> simp_all

/-- The recovery does not go back. -/
theorem rpc_step (s : St) (e : Ev) :
    (s.rpc ≠ .find → (step mine offset s e).rpc ≠ .find) ∧
    (s.rpc = .done → (step mine offset s e).rpc = .done) ∧ (s.rpc = .fresh → (step mine offset s e).rpc = .fresh) ∧
    (s.rpc = .panic → (step mine offset s e).rpc = .panic) := by
  cases e with
  | cast p => simp [step]
  | adv k => simp only [step, (advance_keeps s k).1]; simp
  | clean n => simp [step]
  | recover =>
    simp only [step]
    generalize hr : s.rpc = r at *
    cases r <;> simp only [recStep] <;> (try split) <;> simp_all

theorem rpc_run (h h' : List Ev) :
    ((run mine offset old h).rpc ≠ .find → (run mine offset old (h ++ h')).rpc ≠ .find) ∧
    ((run mine offset old h).rpc = .done → (run mine offset old (h ++ h')).rpc = .done) ∧
    ((run mine offset old h).rpc = .fresh → (run mine offset old (h ++ h')).rpc = .fresh) ∧
    ((run mine offset old h).rpc = .panic → (run mine offset old (h ++ h')).rpc = .panic) := by
  induction h' using snocRec with
  | nil => simp
  | append_singleton h' e ih =>
    rw [← List.append_assoc, run_snoc]
    have := rpc_step (mine := mine) (offset := offset) (run mine offset old (h ++ h')) e
    exact ⟨fun x => this.1 (ih.1 x), fun x => this.2.1 (ih.2.1 x), fun x => this.2.2.1 (ih.2.2.1 x), fun x => this.2.2.2 (ih.2.2.2 x)⟩

theorem set_get {l : List (Nat × CPC)} {k : Nat} {p : Nat} {pc pc' : CPC} (hk : l[k]? = some (p, pc)) {j q : Nat} {c : CPC}
    (h : (l.set k (p, pc'))[j]? = some (q, c)) : (j ≠ k ∧ l[j]? = some (q, c)) ∨ (j = k ∧ q = p ∧ c = pc') := by
  have hlt := (List.getElem?_eq_some_iff.mp hk).1
  by_cases e : k = j
  · subst e; rw [List.getElem?_set_self hlt] at h; cases h; exact .inr ⟨rfl, rfl, rfl⟩
  · rw [List.getElem?_set_ne e] at h; exact .inl ⟨fun x => e x.symm, h⟩

theorem append_get {l : List (Nat × CPC)} {x y : Nat × CPC} {j : Nat} (h : (l ++ [x])[j]? = some y) : (j < l.length ∧ l[j]? = some y) ∨ (j = l.length ∧ y = x) := by
  rw [List.getElem?_append] at h
  split at h
  · rename_i hl; exact .inl ⟨hl, h⟩
  · rename_i hl
    right
    have hlen := (List.getElem?_eq_some_iff.mp h).1
    have : j - l.length = 0 := by simp at hlen; omega
    rw [this] at h; simp at h
    exact ⟨by omega, h.symm⟩

/-- Distinct broadcasts have distinct packets. -/
theorem casts_inj {h : List Ev} (hf : FreshPackets old h) {j k p : Nat} {c d : CPC} (hj : (run mine offset old h).casts[j]? = some (p, c))
    (hk : (run mine offset old h).casts[k]? = some (p, d)) : j = k := by
  have hn : (castsOf h).Nodup := (List.nodup_append.mp hf).2.1
  rw [← casts_run (mine := mine) (offset := offset) (old := old)] at hn
  have e1 : ((run mine offset old h).casts.map (·.1))[j]? = some p := by rw [List.getElem?_map, hj]; rfl
  have e2 : ((run mine offset old h).casts.map (·.1))[k]? = some p := by rw [List.getElem?_map, hk]; rfl
  have l1 := (List.getElem?_eq_some_iff.mp e1).1
  exact (List.getElem?_inj l1 hn).mp (e1.trans e2.symm)

theorem fresh_left {h h' : List Ev} (hf : FreshPackets old (h ++ h')) : FreshPackets old h := by
  unfold FreshPackets at hf ⊢
  rw [castsOf_append, ← List.append_assoc] at hf
  exact (List.nodup_append.mp hf).1

/-- Broadcasts deliver at most once. -/
structure Live (h : List Ev) (s : St) : Prop where
  one : ∀ p, s.live.count p ≤ 1
  wait : ∀ (k p : Nat) (c : CPC), s.casts[k]? = some (p, c) → c ≠ .done → s.live.count p = 0
  from' : ∀ p ∈ s.live, p ∈ castsOf h ∧ mine p = true
  ours : ∀ (k p : Nat), s.casts[k]? = some (p, .socket) → mine p = true

theorem live_run (h : List Ev) (hf : FreshPackets old h) : Live (mine := mine) h (run mine offset old h) := by
  induction h using snocRec with
  | nil => exact ⟨by simp [run], by simp [run], by simp [run], by simp [run]⟩
  | append_singleton h e ih =>
    have i := ih (fresh_left hf)
    rw [run_snoc]
    have mono : ∀ p, p ∈ castsOf h ∧ mine p = true → p ∈ castsOf (h ++ [e]) ∧ mine p = true := fun p hp => ⟨by rw [castsOf_append]; simp [hp.1], hp.2⟩
    cases e with
    | cast p =>
      refine ⟨i.one, ?_, fun q hq => mono q (i.from' q hq), ?_⟩
      · intro k q c hk hc
        rcases append_get hk with ⟨_, hk⟩ | ⟨_, hk⟩
        · exact i.wait k q c hk hc
        · cases hk
          refine List.count_eq_zero.mpr fun hm => ?_
          have h1 := (i.from' p hm).1
          have h2 := (List.nodup_append.mp hf).2.1
          rw [castsOf_append] at h2
          exact (List.nodup_append.mp h2).2.2 p h1 p (by simp [castsOf]) rfl
      · intro k q hk
        rcases append_get hk with ⟨_, hk⟩ | ⟨_, hk⟩
        · exact i.ours k q hk
        · cases hk
    | recover =>
      obtain ⟨h1, h2, h3⟩ := recStep_casts (mine := mine) (offset := offset) (run mine offset old h) (run mine offset old h).rpc
      exact ⟨by simp only [step, h2]; exact i.one, by simp only [step, h1, h2]; exact i.wait, by simp only [step, h2]; exact fun q hq => mono q (i.from' q hq), by simp only [step, h1]; exact i.ours⟩
    | clean n => exact ⟨i.one, i.wait, fun q hq => mono q (i.from' q hq), i.ours⟩
    | adv k =>
      simp only [step, advance]
      split
      · rename_i p pc hk
        have uniq : ∀ {j : Nat} {c : CPC}, (run mine offset old h).casts[j]? = some (p, c) → j = k := fun hj => casts_inj (fresh_left hf) hj hk
        have hpm : p ∈ castsOf h := by
          rw [← casts_run (mine := mine) (offset := offset) (old := old)]
          exact List.mem_map.mpr ⟨_, List.mem_of_getElem? hk, rfl⟩
        have same : ∀ (pc' : CPC) (s' : St), s'.casts = (run mine offset old h).casts.set k (p, pc') → s'.live = (run mine offset old h).live →
            pc ≠ .done → (pc' = .socket → mine p = true) → Live (mine := mine) (h ++ [.adv k]) s' := by
          intro pc' s' h1 h2 h3 h4
          refine ⟨by rw [h2]; exact i.one, ?_, by rw [h2]; exact fun q hq => mono q (i.from' q hq), ?_⟩
          · intro j q c hj hc
            rw [h1] at hj; rw [h2]
            rcases set_get hk hj with ⟨_, hj⟩ | ⟨_, rfl, _⟩
            · exact i.wait j q c hj hc
            · exact i.wait k q pc hk h3
          · intro j q hj
            rw [h1] at hj
            rcases set_get hk hj with ⟨_, hj⟩ | ⟨_, rfl, hc⟩
            · exact i.ours j q hj
            · exact h4 hc.symm
        cases pc with
        | push => exact same .room _ rfl rfl (by simp) (by simp)
        | room =>
          refine same _ _ rfl rfl (by simp) ?_
          intro hc
          by_cases hm : mine p = true
          · exact hm
          · simp [castStep, hm] at hc
        | socket =>
          by_cases hst : (run mine offset old h).stored = true
          · simp only [castStep, hst, if_true]
            have h0 := i.wait k p _ hk (by simp)
            refine ⟨?_, ?_, ?_, ?_⟩
            · intro q
              rw [List.count_append]
              by_cases e : q = p
              · subst e; rw [h0]; simp
              · have := i.one q
                rw [List.count_eq_zero.mpr (show q ∉ [p] by simpa using e)]; omega
            · intro j q c hj hc
              rcases set_get hk hj with ⟨hne, hj'⟩ | ⟨_, rfl, hc'⟩
              · have hqp : q ≠ p := by rintro rfl; exact hne (uniq hj')
                rw [List.count_append, i.wait j q c hj' hc, List.count_eq_zero.mpr (show q ∉ [p] by simpa using hqp)]
              · exact absurd hc' hc
            · intro q hq
              rcases List.mem_append.mp hq with hq | hq
              · exact mono q (i.from' q hq)
              · rw [List.mem_singleton.mp hq]; exact mono p ⟨hpm, i.ours k p hk⟩
            · intro j q hj
              rcases set_get hk hj with ⟨_, hj⟩ | ⟨_, _, hc⟩
              · exact i.ours j q hj
              · cases hc
          · have hst : (run mine offset old h).stored = false := by simpa using hst
            simp only [castStep, hst, Bool.false_eq_true, if_false]
            exact same .done _ rfl rfl (by simp) (by simp)
        | done =>
          have : (run mine offset old h).casts.set k (p, CPC.done) = (run mine offset old h).casts := by
            apply List.ext_getElem?
            intro j
            by_cases e : k = j
            · subst e; rw [List.getElem?_set_self (List.getElem?_eq_some_iff.mp hk).1, hk]
            · rw [List.getElem?_set_ne e]
          simp only [castStep, this]
          exact ⟨i.one, i.wait, fun q hq => mono q (i.from' q hq), i.ours⟩
      · exact ⟨i.one, i.wait, fun q hq => mono q (i.from' q hq), i.ours⟩

/-- Once the socket is there, a broadcast that starts then delivers. -/
theorem reaches_run (h h' : List Ev) (hf : FreshPackets old (h ++ h')) (hs : (run mine offset old h).stored = true) (k p : Nat) (c : CPC)
    (hk : (run mine offset old h).casts.length ≤ k) (hc : (run mine offset old (h ++ h')).casts[k]? = some (p, c)) :
    c = .done → (run mine offset old (h ++ h')).live.count p = if mine p then 1 else 0 := by
  induction h' using snocRec generalizing c with
  | nil =>
    rw [List.append_nil] at hc
    have := (List.getElem?_eq_some_iff.mp hc).1
    omega
  | append_singleton h' e ih =>
    rw [← List.append_assoc] at hf hc ⊢
    have ih' := ih (fresh_left hf)
    have lv := live_run (mine := mine) (offset := offset) (h ++ h') (fresh_left hf)
    have fl := flags_run (mine := mine) (offset := offset) (old := old) (h ++ h')
    have fl0 := flags_run (mine := mine) (offset := offset) (old := old) h
    have hdone : (run mine offset old (h ++ h')).rpc = .done := (rpc_run h h').2.1 (fl0.stored.mp hs)
    rw [run_snoc] at hc ⊢
    clear ih
    generalize run mine offset old (h ++ h') = s at *
    cases e with
    | cast q =>
      rcases append_get hc with ⟨_, hc⟩ | ⟨_, hc⟩
      · exact ih' c hc
      · cases hc; intro e; cases e
    | recover =>
      obtain ⟨h1, h2, h3⟩ := recStep_casts (mine := mine) (offset := offset) s s.rpc
      simp only [step, h1] at hc
      simp only [step, h2]; exact ih' c hc
    | clean n => exact ih' c hc
    | adv j =>
      simp only [step, advance] at hc ⊢
      split at hc
      · rename_i q pc hq
        rcases set_get hq hc with ⟨hne, hc'⟩ | ⟨rfl, rfl, rfl⟩
        · intro e
          have hpq : (s.casts[k]? = some (p, c)) := hc'
          have := ih' c hc' e
          rw [← this]
          cases pc <;> simp only [castStep]
          · have hst : s.stored = true := fl.stored.mpr hdone
            simp only [hst, if_true]
            have hneq : p ≠ q := by
              rintro rfl
              have h0 := lv.wait j p _ hq (by simp)
              subst e
              have h1 := this
              rw [h0] at h1
              have hm := lv.ours j p hq
              simp [hm] at h1
            rw [List.count_append, List.count_eq_zero.mpr (show p ∉ [q] by simpa using hneq)]; rfl
        · cases pc with
          | push => intro e; cases e
          | room =>
            intro e
            have hr := fl.inRoom hdone
            simp only [castStep, hr, Bool.and_true] at e ⊢
            have hm : ¬ mine p = true := by intro hm; simp [hm] at e
            simp only [hm]
            exact lv.wait k p _ hq (by simp)
          | socket =>
            intro _
            have hst : s.stored = true := fl.stored.mpr hdone
            simp only [castStep, hst, if_true]
            have h0 := lv.wait k p _ hq (by simp)
            rw [List.count_append, h0, if_pos (lv.ours k p hq)]; simp
          | done => intro _; exact ih' .done hq rfl
      · exact ih' c hc

/-- A broadcast that is over delivers nothing more. -/
theorem over_run (h h' : List Ev) (hf : FreshPackets old (h ++ h')) (k p : Nat) (hk : (run mine offset old h).casts[k]? = some (p, .done)) :
    (run mine offset old (h ++ h')).casts[k]? = some (p, .done) ∧ (run mine offset old (h ++ h')).live.count p = (run mine offset old h).live.count p := by
  induction h' using snocRec with
  | nil => simp [hk]
  | append_singleton h' e ih =>
    rw [← List.append_assoc] at hf ⊢
    obtain ⟨i1, i2⟩ := ih (fresh_left hf)
    have inj : ∀ {j : Nat} {c : CPC}, (run mine offset old (h ++ h')).casts[j]? = some (p, c) → j = k := fun hj => casts_inj (fresh_left hf) hj i1
    rw [run_snoc]
    generalize run mine offset old (h ++ h') = s at *
    cases e with
    | cast q =>
      refine ⟨?_, i2⟩
      show (s.casts ++ [_])[k]? = _
      rw [List.getElem?_append_left (List.getElem?_eq_some_iff.mp i1).1]; exact i1
    | recover =>
      obtain ⟨h1, h2, h3⟩ := recStep_casts (mine := mine) (offset := offset) s s.rpc
      simp only [step, h1, h2]; exact ⟨i1, i2⟩
    | clean n => exact ⟨i1, i2⟩
    | adv j =>
      simp only [step, advance]
      split
      · rename_i q pc hq
        by_cases e : j = k
        · subst e; rw [i1] at hq; cases hq
          simp only [castStep]
          exact ⟨List.getElem?_set_self (List.getElem?_eq_some_iff.mp i1).1, i2⟩
        · simp only [List.getElem?_set_ne e]
          refine ⟨i1, ?_⟩
          rw [← i2]
          cases pc <;> simp only [castStep]
          · split
            · have hne : p ≠ q := by rintro rfl; exact e (inj hq)
              simp only [List.count_append]
              rw [List.count_eq_zero.mpr (show p ∉ [q] by simpa using hne)]; rfl
            · rfl
      · exact ⟨i1, i2⟩

/-! ## The packets kept -/

/-- The packets kept are the last of those there were and those pushed, in the order in which they were pushed. -/
structure Kept (old : List Nat) (s : St) (pushed : List Nat) (n : Nat) : Prop where
  packets : s.packets = (old ++ pushed).drop n
  nodup : (old ++ pushed).Nodup
  mem : ∀ p, p ∈ pushed ↔ ∃ (k : Nat) (c : CPC), s.casts[k]? = some (p, c) ∧ c ≠ .push

theorem kept_run (h : List Ev) (hf : FreshPackets old h) : ∃ pushed n, Kept old (run mine offset old h) pushed n := by
  induction h using snocRec with
  | nil => exact ⟨[], 0, by simp [run], by simpa [FreshPackets, castsOf] using hf, by simp [run]⟩
  | append_singleton h e ih =>
    obtain ⟨pushed, n, i⟩ := ih (fresh_left hf)
    rw [run_snoc]
    have inj : ∀ {j k p : Nat} {c d : CPC}, (run mine offset old h).casts[j]? = some (p, c) → (run mine offset old h).casts[k]? = some (p, d) → j = k :=
      fun a b => casts_inj (fresh_left hf) a b
    have inh : ∀ {j p : Nat} {c : CPC}, (run mine offset old h).casts[j]? = some (p, c) → p ∉ old := by
      intro j p c hj hp
      have : p ∈ castsOf h := by
        rw [← casts_run (mine := mine) (offset := offset) (old := old)]
        exact List.mem_map.mpr ⟨_, List.mem_of_getElem? hj, rfl⟩
      exact (List.nodup_append.mp (fresh_left hf)).2.2 p hp p this rfl
    generalize run mine offset old h = s at *
    cases e with
    | cast q =>
      refine ⟨pushed, n, i.packets, i.nodup, fun p => (i.mem p).trans ⟨?_, ?_⟩⟩
      · rintro ⟨k, c, hk, hc⟩
        refine ⟨k, c, ?_, hc⟩
        show (s.casts ++ [_])[k]? = _
        rw [List.getElem?_append_left (List.getElem?_eq_some_iff.mp hk).1]; exact hk
      · rintro ⟨k, c, hk, hc⟩
        rcases append_get hk with ⟨_, hk⟩ | ⟨_, hk⟩
        · exact ⟨k, c, hk, hc⟩
        · cases hk; exact absurd rfl hc
    | recover =>
      obtain ⟨h1, h2, h3⟩ := recStep_casts (mine := mine) (offset := offset) s s.rpc
      exact ⟨pushed, n, by simp only [step, h3]; exact i.packets, i.nodup, by simp only [step, h1]; exact i.mem⟩
    | clean m => exact ⟨pushed, n + m, by simp only [step, i.packets, List.drop_drop], i.nodup, i.mem⟩
    | adv k =>
      simp only [step, advance]
      split
      · rename_i q pc hq
        have hlt := (List.getElem?_eq_some_iff.mp hq).1
        by_cases hpc : pc = .push
        · subst hpc
          have hnp : q ∉ pushed := by
            intro hm
            obtain ⟨j, c, hj, hc⟩ := (i.mem q).mp hm
            have := inj hj hq; subst this; rw [hq] at hj; cases hj; exact hc rfl
          have hno : q ∉ old := inh hq
          by_cases hn : n ≤ (old ++ pushed).length
          · refine ⟨pushed ++ [q], n, ?_, ?_, ?_⟩
            · simp only [castStep, i.packets, ← List.append_assoc]
              rw [List.drop_append_of_le_length hn]
            · rw [← List.append_assoc]
              exact List.nodup_append.mpr ⟨i.nodup, by simp, by simp; intro a ha; rintro rfl; rcases ha with ha | ha; exact hno ha; exact hnp ha⟩
            · intro p
              simp only [List.mem_append, List.mem_singleton, i.mem p]
              constructor
              · rintro (⟨j, c, hj, hc⟩ | rfl)
                · by_cases e : k = j
                  · subst e; rw [hq] at hj; cases hj; exact absurd rfl hc
                  · exact ⟨j, c, by show (s.casts.set k _)[j]? = _; rw [List.getElem?_set_ne e]; exact hj, hc⟩
                · exact ⟨k, .room, List.getElem?_set_self hlt, by simp⟩
              · rintro ⟨j, c, hj, hc⟩
                rcases set_get hq hj with ⟨_, hj⟩ | ⟨_, rfl, _⟩
                · exact .inl ⟨j, c, hj, hc⟩
                · exact .inr rfl
          · refine ⟨pushed ++ [q], (old ++ pushed).length, ?_, ?_, ?_⟩
            · have hemp : s.packets = [] := by rw [i.packets]; exact List.drop_eq_nil_of_le (by omega)
              simp only [castStep, hemp, ← List.append_assoc]
              rw [List.drop_left]; rfl
            · rw [← List.append_assoc]
              exact List.nodup_append.mpr ⟨i.nodup, by simp, by simp; intro a ha; rintro rfl; rcases ha with ha | ha; exact hno ha; exact hnp ha⟩
            · intro p
              simp only [List.mem_append, List.mem_singleton, i.mem p]
              constructor
              · rintro (⟨j, c, hj, hc⟩ | rfl)
                · by_cases e : k = j
                  · subst e; rw [hq] at hj; cases hj; exact absurd rfl hc
                  · exact ⟨j, c, by show (s.casts.set k _)[j]? = _; rw [List.getElem?_set_ne e]; exact hj, hc⟩
                · exact ⟨k, .room, List.getElem?_set_self hlt, by simp⟩
              · rintro ⟨j, c, hj, hc⟩
                rcases set_get hq hj with ⟨_, hj⟩ | ⟨_, rfl, _⟩
                · exact .inl ⟨j, c, hj, hc⟩
                · exact .inr rfl
        · have hpk : (castStep mine s q pc).1.packets = s.packets := by
            cases pc <;> simp only [castStep] <;> (try split) <;> first | rfl | exact absurd rfl hpc
          have hnp : (castStep mine s q pc).2 ≠ .push := by
            cases pc <;> simp only [castStep] <;> (try split) <;> simp
          refine ⟨pushed, n, hpk.trans i.packets, i.nodup, fun p => (i.mem p).trans ⟨?_, ?_⟩⟩
          · rintro ⟨j, c, hj, hc⟩
            by_cases e : k = j
            · subst e; rw [hq] at hj; cases hj; exact ⟨k, _, List.getElem?_set_self hlt, hnp⟩
            · exact ⟨j, c, by show (s.casts.set k _)[j]? = _; rw [List.getElem?_set_ne e]; exact hj, hc⟩
          · rintro ⟨j, c, hj, hc⟩
            rcases set_get hq hj with ⟨_, hj⟩ | ⟨_, rfl, _⟩
            · exact ⟨j, c, hj, hc⟩
            · exact ⟨k, pc, hq, hpc⟩
      · exact ⟨pushed, n, i⟩

theorem since_drop {o : Nat} {l : List Nat} {n : Nat} (hn : l.Nodup) (h : o ∈ l.drop n) : since o (l.drop n) = since o l := by
  obtain ⟨a, b, e, ha⟩ := List.eq_append_cons_of_mem h
  rw [e, since_split ha]
  have : l = (l.take n ++ a) ++ o :: b := by rw [List.append_assoc, ← e, List.take_append_drop]
  have hna : o ∉ l.take n ++ a := by
    intro hm
    rw [this] at hn
    exact (List.nodup_append.mp hn).2.2 o hm o (by simp) rfl
  conv => rhs; rw [this]
  rw [since_split hna]

end Verif.RecoverRace
