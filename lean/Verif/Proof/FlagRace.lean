import Verif.Spec.FlagRace

/-! Which modifiers reach which emission. -/

namespace Verif.FlagRace
open Verif Verif.Spec

theorem run_snoc (h : List Ev) (e : Ev) : run (h ++ [e]) = step (run h) e := by simp [run]

theorem snoc_get {α} (l : List α) (x : α) (k : Nat) (t : α) (h : (l ++ [x])[k]? = some t) : l[k]? = some t ∨ (k = l.length ∧ t = x) := by
  by_cases hk : k < l.length
  · exact .inl (by rwa [List.getElem?_append_left hk] at h)
  · rw [List.getElem?_append_right (by omega)] at h
    have := (List.getElem?_eq_some_iff.1 h).1
    simp only [List.length_singleton] at this
    have e : k - l.length = 0 := by omega
    rw [e] at h
    simp at h
    exact .inr ⟨by omega, h.symm⟩

theorem set_get {α} (l : List α) (x : α) (j k : Nat) (t : α) (h : (l.set j x)[k]? = some t) : (k ≠ j ∧ l[k]? = some t) ∨ (k = j ∧ t = x) := by
  rw [List.getElem?_set] at h
  split at h
  · rename_i hj
    split at h
    · cases h; exact .inr ⟨hj.symm, rfl⟩
    · cases h
  · rename_i hj
    exact .inl ⟨fun e => hj e.symm, h⟩

theorem snoc_cases {α} (l : List α) : l = [] ∨ ∃ l' x, l = l' ++ [x] := by
  by_cases h : l = []
  · exact .inl h
  · exact .inr ⟨l.dropLast, l.getLast h, (List.dropLast_concat_getLast h).symm⟩

theorem inForce_set (f : F) (m m' : Mod) (h : InForce m' (set f m)) : InForce m' f ∨ m' = m := by
  cases m <;> cases m' <;> simp_all [InForce, set]

/-- The modifier was taken from a structure that was current since chain `k` began, where a chain wrote it that had not ended before. -/
def Src (b e : Nat → Nat) (s : St) (m : Mod) (k : Nat) : Prop :=
  ∃ (j : Nat) (x : Call × PC) (c : Nat), s.ths[j]? = some x ∧ m ∈ x.1.mods ∧ b k ≤ c ∧ c < s.cells.length ∧ (x.2 = .done → c < e j)

/-- The pointer a chain has loaded. -/
def pointer : PC → Option Nat
  | .write _ c => some c
  | .ackRead c => some c
  | .copy _ c => some c
  | _ => none

/-- The modifiers a chain has copied. -/
def carries (m : Mod) : PC → Prop
  | .load t => ∃ d, m = .timeout d ∧ t = some d
  | .copy t _ => ∃ d, m = .timeout d ∧ t = some d
  | .store t f => InForce m f ∨ ∃ d, m = .timeout d ∧ t = some d
  | _ => False

structure Inv (b e : Nat → Nat) (s : St) : Prop where
  ne : 0 < s.cells.length
  wr : ∀ (c : Nat) (f : F) (m : Mod), s.cells[c]? = some f → InForce m f →
    ∃ (j : Nat) (x : Call × PC), s.ths[j]? = some x ∧ m ∈ x.1.mods ∧ (x.2 = .done → c < e j)
  hold : ∀ (k : Nat) (x : Call × PC) c, s.ths[k]? = some x → pointer x.2 = some c → b k ≤ c ∧ c < s.cells.length
  src : ∀ (k : Nat) (x : Call × PC) m, s.ths[k]? = some x → carries m x.2 → Src b e s m k
  dn : ∀ (j : Nat) (x : Call × PC), s.ths[j]? = some x → x.2 = .done → e j < s.cells.length
  bg : ∀ k, k < s.ths.length → b k < s.cells.length
  lg : ∀ j k, EndedBefore s.log j k → e j ≤ b k
  em : ∀ j f t, .emitted j f t ∈ s.log → ∃ x : Call × PC, s.ths[j]? = some x ∧ x.2 = .done
  es : ∀ k f t m, .emitted k f t ∈ s.log → (InForce m f ∨ ∃ d, m = .timeout d ∧ t = some d) → Src b e s m k
  lb : ∀ k, .began k ∈ s.log → k < s.ths.length

theorem inv_init : Inv (fun _ => 0) (fun _ => 0) {} := by
  constructor
  · simp
  · intro c f m h hf
    cases c with
    | zero => simp at h; subst h; cases m <;> simp [InForce] at hf
    | succ c => simp at h
  · intro k x c h; simp at h
  · intro k x m h; simp at h
  · intro j x h; simp at h
  · intro k h; simp at h
  · rintro j k ⟨l₁, l₂, f, t, h, _⟩; simp at h
  · intro j f t h; simp at h
  · intro k f t m h; simp at h
  · intro k h; simp at h

/-- The log grows by something that is not a beginning. -/
theorem ended_emit (log : List Out) (j k i : Nat) (f : F) (t : Option Nat) (h : EndedBefore (log ++ [.emitted i f t]) j k) :
    EndedBefore log j k := by
  obtain ⟨l₁, l₂, f', t', he, hm⟩ := h
  rcases snoc_cases l₂ with rfl | ⟨l, x, rfl⟩
  · have := (List.append_inj' he rfl).2
    simp at this
  · refine ⟨l₁, l, f', t', ?_, hm⟩
    have : log ++ [.emitted i f t] = (l₁ ++ .began k :: l) ++ [x] := by rw [he]; simp
    exact (List.append_inj' this rfl).1

theorem ended_began (log : List Out) (j k i : Nat) (h : EndedBefore (log ++ [.began i]) j k) :
    EndedBefore log j k ∨ (k = i ∧ ∃ f t, .emitted j f t ∈ log) := by
  obtain ⟨l₁, l₂, f', t', he, hm⟩ := h
  rcases snoc_cases l₂ with rfl | ⟨l, x, rfl⟩
  · obtain ⟨h1, h2⟩ := List.append_inj' he rfl
    subst h1
    simp at h2
    exact .inr ⟨h2.symm, f', t', hm⟩
  · refine .inl ⟨l₁, l, f', t', ?_, hm⟩
    have : log ++ [.began i] = (l₁ ++ .began k :: l) ++ [x] := by rw [he]; simp
    exact (List.append_inj' this rfl).1

theorem ended_emitted (log : List Out) (j k : Nat) (h : EndedBefore log j k) : (∃ f t, .emitted j f t ∈ log) ∧ .began k ∈ log := by
  obtain ⟨l₁, l₂, f, t, he, hm⟩ := h
  subst he
  exact ⟨⟨f, t, List.mem_append_left _ hm⟩, by simp⟩

theorem inv_call {b e : Nat → Nat} {s : St} (i : Inv b e s) (c : Call) :
    Inv (fun k => if k = s.ths.length then cur s else b k) e (step s (.call c)) := by
  have hth : ∀ (k : Nat) (x : Call × PC), s.ths[k]? = some x → k < s.ths.length := fun k x h => (List.getElem?_eq_some_iff.1 h).1
  have hb : ∀ k, k < s.ths.length → (if k = s.ths.length then cur s else b k) = b k := fun k h => by rw [if_neg (by omega)]
  have old : ∀ (k : Nat) (x : Call × PC), s.ths[k]? = some x → (s.ths ++ [(c, PC.next 0)])[k]? = some x := fun k x h => by
    rw [List.getElem?_append_left (hth k x h)]; exact h
  have src : ∀ m k, k < s.ths.length → Src b e s m k →
      Src (fun k => if k = s.ths.length then cur s else b k) e (step s (.call c)) m k := by
    rintro m k hk ⟨j, x, c', h1, h2, h3, h4, h5⟩
    exact ⟨j, x, c', old j x h1, h2, by show (if k = s.ths.length then cur s else b k) ≤ _; rw [hb k hk]; exact h3, h4, h5⟩
  have hcur : cur s < s.cells.length := by have := i.ne; unfold cur; omega
  constructor
  · exact i.ne
  · intro c' f m h hf
    obtain ⟨j, x, h1, h2⟩ := i.wr c' f m h hf
    exact ⟨j, x, old j x h1, h2⟩
  · intro k x c' h hp
    rcases snoc_get _ _ _ _ h with h | ⟨_, h⟩
    · show (if k = s.ths.length then cur s else b k) ≤ _ ∧ _
      rw [hb k (hth k x h)]; exact i.hold k x c' h hp
    · subst h; cases hp
  · intro k x m h hc
    rcases snoc_get _ _ _ _ h with h | ⟨_, h⟩
    · exact src m k (hth k x h) (i.src k x m h hc)
    · subst h; cases hc
  · intro j x h hd
    rcases snoc_get _ _ _ _ h with h | ⟨_, h⟩
    · exact i.dn j x h hd
    · subst h; cases hd
  · intro k hk
    have hk' : k < s.ths.length + 1 := by simpa [step] using hk
    show (if k = s.ths.length then cur s else b k) < _
    split
    · exact hcur
    · exact i.bg k (by omega)
  · intro j k h
    rcases ended_began _ _ _ _ h with h | ⟨rfl, f, t, h⟩
    · have := i.lb k (ended_emitted _ _ _ h).2
      show _ ≤ (if k = s.ths.length then cur s else b k)
      rw [hb k this]; exact i.lg j k h
    · obtain ⟨x, h1, h2⟩ := i.em j f t h
      have := i.dn j x h1 h2
      show _ ≤ (if s.ths.length = s.ths.length then cur s else b s.ths.length)
      rw [if_pos rfl]; unfold cur; omega
  · intro j f t h
    rcases List.mem_append.1 h with h | h
    · obtain ⟨x, h1, h2⟩ := i.em j f t h
      exact ⟨x, old j x h1, h2⟩
    · simp at h
  · intro k f t m h hm
    rcases List.mem_append.1 h with h | h
    · obtain ⟨x, h1, _⟩ := i.em k f t h
      exact src m k (hth k x h1) (i.es k f t m h hm)
    · simp at h
  · intro k h
    have e1 : (step s (.call c)).ths.length = s.ths.length + 1 := by simp [step]
    rw [e1]
    rcases List.mem_append.1 h with h | h
    · have := i.lb k h; omega
    · simp at h; omega

/-- Chain `k` makes a step that is not its last. -/
theorem inv_set {b e : Nat → Nat} {s : St} (i : Inv b e s) (k : Nat) (c : Call) (pc pc' : PC) (hk : s.ths[k]? = some (c, pc)) (cells : List F)
    (hnd : pc ≠ .done) (hd : pc' ≠ .done) (hlen : cells.length = s.cells.length)
    (hw : ∀ (p : Nat) f m, cells[p]? = some f → InForce m f → (∃ f', s.cells[p]? = some f' ∧ InForce m f') ∨ m ∈ c.mods)
    (hp : ∀ p, pointer pc' = some p → b k ≤ p ∧ p < s.cells.length)
    (hc : ∀ m, carries m pc' → Src b e s m k) :
    Inv b e { s with cells := cells, ths := s.ths.set k (c, pc') } := by
  have hlt := (List.getElem?_eq_some_iff.1 hk).1
  have new : (s.ths.set k (c, pc'))[k]? = some (c, pc') := by rw [List.getElem?_set, if_pos rfl, if_pos hlt]
  have move : ∀ (j : Nat) (x : Call × PC), s.ths[j]? = some x → ∃ x' : Call × PC, (s.ths.set k (c, pc'))[j]? = some x' ∧ x'.1 = x.1 ∧
      (x'.2 = .done → x.2 = .done) := by
    intro j x h
    by_cases hj : j = k
    · subst hj
      rw [hk] at h; cases h
      exact ⟨_, new, rfl, fun h => absurd h hd⟩
    · exact ⟨x, by rw [List.getElem?_set_ne (fun h => hj h.symm)]; exact h, rfl, fun h => h⟩
  have src : ∀ m k', Src b e s m k' → Src b e { s with cells := cells, ths := s.ths.set k (c, pc') } m k' := by
    rintro m k' ⟨j, x, c', h1, h2, h3, h4, h5⟩
    obtain ⟨x', a1, a2, a3⟩ := move j x h1
    exact ⟨j, x', c', a1, a2 ▸ h2, h3, by show c' < cells.length; omega, fun h => h5 (a3 h)⟩
  constructor
  · show 0 < cells.length
    rw [hlen]; exact i.ne
  · intro p f m h hf
    rcases hw p f m h hf with ⟨f', h', hf'⟩ | hm
    · obtain ⟨j, x, h1, h2, h3⟩ := i.wr p f' m h' hf'
      obtain ⟨x', a1, a2, a3⟩ := move j x h1
      exact ⟨j, x', a1, a2 ▸ h2, fun h => h3 (a3 h)⟩
    · exact ⟨k, _, new, hm, fun h => absurd h hd⟩
  · intro k' x p h hp'
    show b k' ≤ p ∧ p < cells.length
    rw [hlen]
    rcases set_get _ _ _ _ _ h with ⟨_, h⟩ | ⟨h', h⟩
    · exact i.hold k' x p h hp'
    · subst h; rw [h']; exact hp p hp'
  · intro k' x m h hc'
    rcases set_get _ _ _ _ _ h with ⟨_, h⟩ | ⟨h', h⟩
    · exact src m k' (i.src k' x m h hc')
    · subst h; rw [h']; exact src m k (hc m hc')
  · intro j x h hd'
    show e j < cells.length
    rw [hlen]
    rcases set_get _ _ _ _ _ h with ⟨_, h⟩ | ⟨_, h⟩
    · exact i.dn j x h hd'
    · subst h; exact absurd hd' hd
  · intro k' h
    show b k' < cells.length
    rw [hlen]
    exact i.bg k' (by simpa using h)
  · exact i.lg
  · intro j f t h
    obtain ⟨x, h1, h2⟩ := i.em j f t h
    refine ⟨x, ?_, h2⟩
    by_cases hj : j = k
    · subst hj
      rw [hk] at h1; cases h1
      exact absurd h2 hnd
    · show (s.ths.set k (c, pc'))[j]? = _
      rw [List.getElem?_set_ne (fun h => hj h.symm)]; exact h1
  · intro k' f t m h hm; exact src m k' (i.es k' f t m h hm)
  · intro k' h
    have := i.lb k' h
    simpa using this

/-- Chain `k` emits. -/
theorem inv_store {b e : Nat → Nat} {s : St} (i : Inv b e s) (k : Nat) (c : Call) (t : Option Nat) (f : F)
    (hk : s.ths[k]? = some (c, .store t f)) :
    Inv b (fun j => if j = k then s.cells.length else e j)
      { s with cells := s.cells ++ [{}], log := s.log ++ [.emitted k f t], ths := s.ths.set k (c, .done) } := by
  have hlt := (List.getElem?_eq_some_iff.1 hk).1
  have hl : (s.cells ++ [({} : F)]).length = s.cells.length + 1 := by simp
  have new : (s.ths.set k (c, .done))[k]? = some (c, .done) := by rw [List.getElem?_set, if_pos rfl, if_pos hlt]
  have notk : ∀ f' t', .emitted k f' t' ∉ s.log := by
    intro f' t' h
    obtain ⟨x, h1, h2⟩ := i.em k f' t' h
    rw [hk] at h1; cases h1; cases h2
  have move : ∀ (j : Nat) (x : Call × PC) (p : Nat), s.ths[j]? = some x → (x.2 = .done → p < e j) → p < s.cells.length →
      ∃ x' : Call × PC, (s.ths.set k (c, .done))[j]? = some x' ∧ x'.1 = x.1 ∧ (x'.2 = .done → p < if j = k then s.cells.length else e j) := by
    intro j x p h hp hlt'
    by_cases hj : j = k
    · subst hj
      rw [hk] at h; cases h
      exact ⟨_, new, rfl, fun _ => by rw [if_pos rfl]; exact hlt'⟩
    · refine ⟨x, by rw [List.getElem?_set_ne (fun h => hj h.symm)]; exact h, rfl, fun h => ?_⟩
      rw [if_neg hj]; exact hp h
  have src : ∀ m k', Src b e s m k' → Src b (fun j => if j = k then s.cells.length else e j)
      { s with cells := s.cells ++ [{}], log := s.log ++ [.emitted k f t], ths := s.ths.set k (c, .done) } m k' := by
    rintro m k' ⟨j, x, c', h1, h2, h3, h4, h5⟩
    obtain ⟨x', a1, a2, a3⟩ := move j x c' h1 h5 h4
    exact ⟨j, x', c', a1, a2 ▸ h2, h3, by show c' < (s.cells ++ [({} : F)]).length; omega, a3⟩
  constructor
  · show 0 < (s.cells ++ [({} : F)]).length; omega
  · intro p g m h hf
    rcases snoc_get _ _ _ _ h with h | ⟨_, h⟩
    · obtain ⟨j, x, h1, h2, h3⟩ := i.wr p g m h hf
      obtain ⟨x', a1, a2, a3⟩ := move j x p h1 h3 (List.getElem?_eq_some_iff.1 h).1
      exact ⟨j, x', a1, a2 ▸ h2, a3⟩
    · subst h; cases m <;> simp [InForce] at hf
  · intro k' x p h hp
    show b k' ≤ p ∧ p < (s.cells ++ [({} : F)]).length
    rcases set_get _ _ _ _ _ h with ⟨_, h⟩ | ⟨_, h⟩
    · have := i.hold k' x p h hp; omega
    · subst h; cases hp
  · intro k' x m h hc
    rcases set_get _ _ _ _ _ h with ⟨_, h⟩ | ⟨_, h⟩
    · exact src m k' (i.src k' x m h hc)
    · subst h; cases hc
  · intro j x h hd
    show (if j = k then s.cells.length else e j) < (s.cells ++ [({} : F)]).length
    rcases set_get _ _ _ _ _ h with ⟨hj, h⟩ | ⟨hj, _⟩
    · rw [if_neg hj]
      have := i.dn j x h hd; omega
    · rw [if_pos hj]; omega
  · intro k' h
    have := i.bg k' (by simpa using h)
    show b k' < (s.cells ++ [({} : F)]).length
    omega
  · intro j k' h
    have h2 : EndedBefore s.log j k' := ended_emit _ _ _ _ _ _ h
    have hj : j ≠ k := by
      intro hj
      obtain ⟨⟨f', t', h'⟩, _⟩ := ended_emitted _ _ _ h2
      exact notk f' t' (hj ▸ h')
    show (if j = k then s.cells.length else e j) ≤ _
    rw [if_neg hj]; exact i.lg j k' h2
  · intro j f' t' h
    rcases List.mem_append.1 h with h | h
    · obtain ⟨x, h1, h2⟩ := i.em j f' t' h
      have hj : j ≠ k := fun hj => notk f' t' (hj ▸ h)
      exact ⟨x, by show (s.ths.set k _)[j]? = _; rw [List.getElem?_set_ne (fun h => hj h.symm)]; exact h1, h2⟩
    · simp at h
      obtain ⟨rfl, _⟩ := h
      exact ⟨_, new, rfl⟩
  · intro k' f' t' m h hm
    rcases List.mem_append.1 h with h | h
    · exact src m k' (i.es k' f' t' m h hm)
    · simp at h
      obtain ⟨rfl, rfl, rfl⟩ := h
      exact src m k' (i.src k' _ m hk hm)
  · intro k' h
    rcases List.mem_append.1 h with h | h
    · simpa using i.lb k' h
    · simp at h

theorem inv_adv {b e : Nat → Nat} {s : St} (i : Inv b e s) (k : Nat) : ∃ b' e', Inv b' e' (step s (.adv k)) := by
  show ∃ b' e', Inv b' e' (advance s k)
  cases hk : s.ths[k]? with
  | none =>
    have : advance s k = s := by unfold advance; rw [hk]
    rw [this]; exact ⟨b, e, i⟩
  | some x =>
    obtain ⟨c, pc⟩ := x
    have : advance s k = { (act s k c pc).1 with ths := s.ths.set k (c, (act s k c pc).2) } := by unfold advance; rw [hk]
    rw [this]
    have hlt := (List.getElem?_eq_some_iff.1 hk).1
    have hcur : b k ≤ cur s ∧ cur s < s.cells.length := by
      have := i.bg k hlt; unfold cur; omega
    have same : ∀ (p : Nat) f m, s.cells[p]? = some f → InForce m f → (∃ f', s.cells[p]? = some f' ∧ InForce m f') ∨ m ∈ c.mods :=
      fun p f m h hf => .inl ⟨f, h, hf⟩
    have frm : ∀ p m f, b k ≤ p → s.cells[p]? = some f → InForce m f → Src b e s m k := by
      intro p m f hp h hf
      obtain ⟨j, x, h1, h2, h3⟩ := i.wr p f m h hf
      exact ⟨j, x, p, h1, h2, hp, (List.getElem?_eq_some_iff.1 h).1, h3⟩
    have self : { s with ths := s.ths.set k (c, pc) } = s := by
      obtain ⟨_, he⟩ := List.getElem?_eq_some_iff.1 hk
      have : s.ths.set k (c, pc) = s.ths := by rw [← he]; exact List.set_getElem_self hlt
      rw [this]
    dsimp only
    cases pc with
    | next n =>
      simp only [act]
      split
      · refine ⟨b, e, inv_set i k c _ _ hk s.cells (by simp) (by simp) rfl same ?_ (fun m h => by cases h)⟩
        intro p h; cases h; exact hcur
      · split
        · refine ⟨b, e, inv_set i k c _ _ hk s.cells (by simp) (by simp) rfl same ?_ (fun m h => by cases h)⟩
          intro p h; cases h; exact hcur
        · refine ⟨b, e, inv_set i k c _ _ hk s.cells (by simp) (by simp) rfl same ?_ ?_⟩
          · intro p h; cases h; exact hcur
          · rintro m ⟨d, _, h⟩; cases h
    | write n p =>
      simp only [act]
      cases hm : c.mods[n]? with
      | none => exact ⟨b, e, inv_set i k c _ _ hk s.cells (by simp) (by simp) rfl same (fun p h => by cases h) (fun m h => by cases h)⟩
      | some m =>
        refine ⟨b, e, inv_set i k c _ _ hk (s.cells.modify p (set · m)) (by simp) (by simp) (by simp) ?_ (fun p h => by cases h)
          (fun m h => by cases h)⟩
        intro q f m' h hf
        rw [List.getElem?_modify] at h
        cases hq : s.cells[q]? with
        | none => rw [hq] at h; simp at h
        | some f' =>
          rw [hq] at h
          simp only [Option.map_eq_map, Option.map_some, Option.some.injEq] at h
          by_cases hpq : p = q
          · rw [if_pos hpq] at h
            subst h
            rcases inForce_set f' m m' hf with h | h
            · exact .inl ⟨f', rfl, h⟩
            · exact .inr (h ▸ List.mem_of_getElem? hm)
          · rw [if_neg hpq] at h
            subst h
            exact .inl ⟨_, rfl, hf⟩
    | ackRead p =>
      refine ⟨b, e, inv_set i k c _ _ hk s.cells (by simp) (by simp [act]) rfl same (fun p h => by cases h) ?_⟩
      rintro m ⟨d, rfl, h⟩
      have hh := i.hold k _ p hk rfl
      obtain ⟨f, hf⟩ : ∃ f, s.cells[p]? = some f := ⟨_, List.getElem?_eq_getElem hh.2⟩
      rw [hf] at h
      exact frm p _ f hh.1 hf h
    | load t =>
      refine ⟨b, e, inv_set i k c _ _ hk s.cells (by simp) (by simp [act]) rfl same ?_ ?_⟩
      · intro p h; cases h; exact hcur
      · rintro m h; exact i.src k _ m hk h
    | copy t p =>
      refine ⟨b, e, inv_set i k c _ _ hk s.cells (by simp) (by simp [act]) rfl same (fun p h => by cases h) ?_⟩
      rintro m (h | h)
      · have hh := i.hold k _ p hk rfl
        obtain ⟨f, hf⟩ : ∃ f, s.cells[p]? = some f := ⟨_, List.getElem?_eq_getElem hh.2⟩
        rw [hf] at h
        exact frm p _ f hh.1 hf h
      · exact i.src k _ m hk h
    | store t f => exact ⟨b, _, inv_store i k c t f hk⟩
    | done =>
      refine ⟨b, e, ?_⟩
      show Inv b e { s with ths := s.ths.set k (c, .done) }
      rw [self]; exact i

theorem inv_run (h : List Ev) : ∃ b e, Inv b e (run h) := by
  induction h using snocRec with
  | nil => exact ⟨_, _, inv_init⟩
  | append_singleton h ev ih =>
    obtain ⟨b, e, i⟩ := ih
    rw [run_snoc]
    cases ev with
    | call c => exact ⟨_, _, inv_call i c⟩
    | adv k => exact inv_adv i k

/-! ## The chains in the state are those called -/

theorem advance_calls (s : St) (k : Nat) : (advance s k).ths.map (·.1) = s.ths.map (·.1) := by
  unfold advance
  split
  · rename_i c pc hk
    show (s.ths.set k _).map _ = _
    rw [List.map_set]
    obtain ⟨hlt, he⟩ := List.getElem?_eq_some_iff.1 hk
    apply List.ext_getElem?
    intro n
    rw [List.getElem?_set]
    split
    · rename_i h; subst h
      simp [hlt, he]
    · rfl
  · rfl

theorem calls_run (h : List Ev) : (run h).ths.map (·.1) = chains h := by
  induction h using snocRec with
  | nil => rfl
  | append_singleton h ev ih =>
    rw [run_snoc]
    cases ev with
    | call c => simp [step, chains] at ih ⊢; exact ih
    | adv k =>
      have : chains (h ++ [.adv k]) = chains h := by simp [chains]
      rw [this, ← ih]; exact advance_calls _ k

/-! ## A chain that is alone -/

theorem chosen_snoc (l : List Mod) (m : Mod) : chosen (l ++ [m]) = set (chosen l) m := by
  cases m <;> simp [chosen, set]

theorem chosen_fold (l : List Mod) : l.foldl set {} = chosen l := by
  induction l using snocRec with
  | nil => rfl
  | append_singleton l m ih => rw [List.foldl_append, ih, chosen_snoc]; rfl

/-- When every chain has emitted, no modifier is set. -/
theorem clean (h : List Ev) (ha : AllEnded h) : (run h).cells[cur (run h)]? = some {} ∧ (∀ x ∈ (run h).ths, x.2 = .done) ∧
    (∀ k f t, .emitted k f t ∈ (run h).log → k < (run h).ths.length) := by
  obtain ⟨b, e, i⟩ := inv_run h
  have hlen : (chains h).length = (run h).ths.length := by rw [← calls_run]; simp
  have hd : ∀ (j : Nat) (x : Call × PC), (run h).ths[j]? = some x → x.2 = .done := by
    intro j x hx
    obtain ⟨f, t, hm⟩ := ha j (by rw [hlen]; exact (List.getElem?_eq_some_iff.1 hx).1)
    obtain ⟨y, h1, h2⟩ := i.em j f t hm
    rw [hx] at h1; cases h1; exact h2
  refine ⟨?_, ?_, ?_⟩
  · have hlt : cur (run h) < (run h).cells.length := by have := i.ne; unfold cur; omega
    obtain ⟨f, hf⟩ : ∃ f, (run h).cells[cur (run h)]? = some f := ⟨_, List.getElem?_eq_getElem hlt⟩
    have no : ∀ m, ¬ InForce m f := by
      intro m hm
      obtain ⟨j, x, h1, h2, h3⟩ := i.wr _ f m hf hm
      have h4 := h3 (hd j x h1)
      have h5 := i.dn j x h1 (hd j x h1)
      unfold cur at h4; omega
    rw [hf]
    have h1 := no (.compress true)
    have h2 := no .volatile
    obtain ⟨c, v, t⟩ := f
    simp only [InForce, true_and, Bool.not_eq_true] at h1 h2
    cases t with
    | none => rw [h1, h2]
    | some d => exact absurd rfl (no (.timeout d))
  · intro x hx
    obtain ⟨j, hj⟩ := List.mem_iff_getElem?.1 hx
    exact hd j x hj
  · intro k f t hm
    obtain ⟨x, h1, _⟩ := i.em k f t hm
    exact (List.getElem?_eq_some_iff.1 h1).1

/-- What chain `c`, alone since it began, knows. -/
def aloneAt (c : Call) (n : Nat) (cells : List F) : PC → Prop
  | .next i => i ≤ c.mods.length ∧ cells[n]? = some ((c.mods.take i).foldl set {})
  | .write i p => i < c.mods.length ∧ p = n ∧ cells[n]? = some ((c.mods.take i).foldl set {})
  | .ackRead p => c.ack = true ∧ p = n ∧ cells[n]? = some (chosen c.mods)
  | .load t => c.ack = true ∧ t = (chosen c.mods).timeout ∧ cells[n]? = some (chosen c.mods)
  | .copy t p => (t = if c.ack then (chosen c.mods).timeout else none) ∧ p = n ∧ cells[n]? = some (chosen c.mods)
  | .store t f => (t = if c.ack then (chosen c.mods).timeout else none) ∧ f = chosen c.mods
  | .done => True

structure Alone (c : Call) (s₀ s : St) : Prop where
  ths : ∃ pc, s.ths = s₀.ths ++ [(c, pc)] ∧ (pc ≠ .done → s.cells.length = s₀.cells.length) ∧ aloneAt c (cur s₀) s.cells pc
  log : ∀ f t, .emitted s₀.ths.length f t ∈ s.log → f = chosen c.mods ∧ t = if c.ack then (chosen c.mods).timeout else none

theorem alone_adv {c : Call} {s₀ s : St} (hd : ∀ x ∈ s₀.ths, x.2 = .done) (a : Alone c s₀ s) (j : Nat) : Alone c s₀ (advance s j) := by
  obtain ⟨⟨pc, hths, hlen, hat⟩, hlog⟩ := a
  cases hj : s.ths[j]? with
  | none =>
    have : advance s j = s := by unfold advance; rw [hj]
    rw [this]; exact ⟨⟨pc, hths, hlen, hat⟩, hlog⟩
  | some x =>
    obtain ⟨c', pc'⟩ := x
    have hadv : advance s j = { (act s j c' pc').1 with ths := s.ths.set j (c', (act s j c' pc').2) } := by unfold advance; rw [hj]
    have hself : s.ths.set j (c', pc') = s.ths := by
      obtain ⟨hlt, he⟩ := List.getElem?_eq_some_iff.1 hj
      rw [← he]; exact List.set_getElem_self hlt
    rw [hadv]
    have hj' := hj
    rw [hths] at hj'
    rcases snoc_get _ _ _ _ hj' with h | ⟨hjl, h⟩
    · have := hd _ (List.mem_of_getElem? h)
      simp only at this
      subst this
      show Alone c s₀ { s with ths := s.ths.set j (c', .done) }
      rw [hself]
      exact ⟨⟨pc, hths, hlen, hat⟩, hlog⟩
    · cases h
      have hset : ∀ p, s.ths.set j (c, p) = s₀.ths ++ [(c, p)] := by
        intro p
        rw [hths, hjl, List.set_append_right _ _ (Nat.le_refl _)]
        simp
      have hcur : pc ≠ .done → cur s = cur s₀ := by
        intro h; unfold cur; rw [hlen h]
      cases pc with
      | next i =>
        obtain ⟨h1, h2⟩ := hat
        simp only [act]
        split
        · rename_i hi
          exact ⟨⟨_, hset _, fun _ => hlen (by simp), hi, hcur (by simp), h2⟩, hlog⟩
        · rename_i hi
          have hi' : i = c.mods.length := by omega
          rw [hi', List.take_length, chosen_fold] at h2
          split
          · rename_i hack
            exact ⟨⟨_, hset _, fun _ => hlen (by simp), hack, hcur (by simp), h2⟩, hlog⟩
          · rename_i hack
            exact ⟨⟨_, hset _, fun _ => hlen (by simp), by rw [if_neg hack], hcur (by simp), h2⟩, hlog⟩
      | write i p =>
        obtain ⟨h1, h2, h3⟩ := hat
        simp only [act, List.getElem?_eq_getElem h1]
        refine ⟨⟨_, hset _, fun _ => ?_, h1, ?_⟩, hlog⟩
        · show (s.cells.modify p _).length = _
          rw [List.length_modify]; exact hlen (by simp)
        · show (s.cells.modify p _)[cur s₀]? = _
          rw [List.getElem?_modify, h3, List.take_succ, List.foldl_append, List.getElem?_eq_getElem h1]
          simp [h2]
      | ackRead p =>
        obtain ⟨h1, h2, h3⟩ := hat
        refine ⟨⟨_, hset _, fun _ => hlen (by simp), h1, ?_, h3⟩, hlog⟩
        rw [h2, h3]; rfl
      | load t =>
        obtain ⟨h1, h2, h3⟩ := hat
        exact ⟨⟨_, hset _, fun _ => hlen (by simp), by rw [if_pos h1]; exact h2, hcur (by simp), h3⟩, hlog⟩
      | copy t p =>
        obtain ⟨h1, h2, h3⟩ := hat
        refine ⟨⟨_, hset _, fun _ => hlen (by simp), h1, ?_⟩, hlog⟩
        rw [h2, h3]; rfl
      | store t f =>
        obtain ⟨h1, h2⟩ := hat
        refine ⟨⟨.done, hset _, fun h => absurd rfl h, trivial⟩, ?_⟩
        intro f' t' hm
        rcases List.mem_append.1 hm with hm | hm
        · exact hlog f' t' hm
        · cases List.mem_singleton.1 hm
          exact ⟨h2, h1⟩
      | done =>
        show Alone c s₀ { s with ths := s.ths.set j (c, .done) }
        rw [hself]
        exact ⟨⟨_, hths, hlen, hat⟩, hlog⟩

theorem alone_run (pre : List Ev) (c : Call) (ha : AllEnded pre) (mid : List Ev) (hm : ∀ e ∈ mid, ∃ j, e = .adv j) :
    Alone c (run pre) (run (pre ++ .call c :: mid)) := by
  obtain ⟨h1, h2, h3⟩ := clean pre ha
  induction mid using snocRec with
  | nil =>
    have : run (pre ++ [.call c]) = step (run pre) (.call c) := run_snoc _ _
    rw [this]
    refine ⟨⟨.next 0, rfl, fun _ => rfl, Nat.zero_le _, h1⟩, ?_⟩
    intro f t hmem
    rcases List.mem_append.1 hmem with h | h
    · have := h3 _ f t h; omega
    · simp at h
  | append_singleton mid ev ih =>
    obtain ⟨j, rfl⟩ := hm ev (by simp)
    have : run (pre ++ .call c :: (mid ++ [.adv j])) = advance (run (pre ++ .call c :: mid)) j := by
      rw [← List.cons_append, ← List.append_assoc, run_snoc]; rfl
    rw [this]
    exact alone_adv h2 (ih fun e he => hm e (by simp [he])) j

end Verif.FlagRace
