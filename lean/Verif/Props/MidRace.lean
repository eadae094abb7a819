import Verif.Proof.CastEnd
import Verif.Proof.MidRace

/-! # C126: middlewares that are added while clients connect -/

namespace Verif.Props
open Verif Verif.Spec Verif.MidRace

theorem used_prefix (h t : List MidRace.Ev) : usedIn h <+: usedIn (h ++ t) := by
  rw [usedIn, usedIn, List.filterMap_append]; exact List.prefix_append _ _

/-- **C126**, under every interleaving: a client is let in only if all middlewares that there were at one moment since it came have been
called for it and have let it pass. -/
theorem C126_guarded (p q : List MidRace.Ev) (letIn : .over (clientsIn p) true ∈ comes p q) :
    ∃ q₁ q₂, q = q₁ ++ q₂ ∧ ∀ i f, (usedIn (p ++ q₁))[i]? = some f →
      .called (clientsIn p) i f ∈ comes p q ∧ .answered (clientsIn p) i true ∈ comes p q := by
  cases MidRace.at_run p q with
  | fresh h no => exact absurd rfl (no _ letIn)
  | going q₁ q₂ hq h book =>
    refine ⟨q₁, q₂, hq, fun i f hi => ?_⟩
    have ha := book.passed letIn i (List.getElem?_eq_some_iff.1 hi).1
    obtain ⟨g, hg⟩ := (book.answered i true ha).1
    have := (book.called i g hg).1
    rw [hi] at this; cases this
    exact ⟨hg, ha⟩

/-- **C126**, under every interleaving: no client is let in past a middleware that was there when it came, wherever it stands and whatever is
added meanwhile. -/
theorem C126_before (p q : List MidRace.Ev) (letIn : .over (clientsIn p) true ∈ comes p q) (i f : Nat) (hf : (usedIn p)[i]? = some f) :
    .called (clientsIn p) i f ∈ comes p q ∧ .answered (clientsIn p) i true ∈ comes p q := by
  obtain ⟨q₁, q₂, hq, h⟩ := C126_guarded p q letIn
  refine h i f ?_
  obtain ⟨t, ht⟩ := used_prefix p q₁
  rw [← ht, List.getElem?_append_left (List.getElem?_eq_some_iff.1 hf).1]; exact hf

/-- **C126**, under every interleaving: middlewares are called in the order of their registration, each only when all before it have let the
client pass. -/
theorem C126_order (p q : List MidRace.Ev) (i f : Nat) (hc : .called (clientsIn p) i f ∈ comes p q) :
    (usedIn (p ++ q))[i]? = some f ∧
    ∀ i', i' < i → .answered (clientsIn p) i' true ∈ comes p q ∧
      ∃ f', (usedIn (p ++ q))[i']? = some f' ∧ .called (clientsIn p) i' f' ∈ comes p q := by
  cases MidRace.at_run p q with
  | fresh h no => exact absurd rfl (no _ hc)
  | going q₁ q₂ hq h book =>
    have up : ∀ i f, (usedIn (p ++ q₁))[i]? = some f → (usedIn (p ++ q))[i]? = some f := fun i f hi => by
      obtain ⟨t, ht⟩ := used_prefix (p ++ q₁) q₂
      rw [hq, ← List.append_assoc, ← ht, List.getElem?_append_left (List.getElem?_eq_some_iff.1 hi).1]; exact hi
    obtain ⟨h1, h2⟩ := book.called i f hc
    refine ⟨up i f h1, fun i' hi => ⟨h2 i' hi, ?_⟩⟩
    obtain ⟨g, hg⟩ := (book.answered i' true (h2 i' hi)).1
    exact ⟨g, up i' g (book.called i' g hg).1, hg⟩

/-- **C126**, under every interleaving: a client is refused only if a middleware has refused it, and is refused if one has. -/
theorem C126_refused (p q : List MidRace.Ev) :
    .over (clientsIn p) false ∈ comes p q ↔ ∃ i, .answered (clientsIn p) i false ∈ comes p q := by
  cases MidRace.at_run p q with
  | fresh h no => exact ⟨fun hm => absurd rfl (no _ hm), fun ⟨i, hm⟩ => absurd rfl (no _ hm)⟩
  | going q₁ q₂ hq h book => exact ⟨book.refused, fun ⟨i, hm⟩ => (book.answered i false hm).2⟩

/-- **C126**: under every schedule that goes on with the run, a client that every middleware lets pass that is called for it is let in in the
end, however many middlewares are added meanwhile. -/
theorem C126_let_in_in_the_end (p : List MidRace.Ev) (σ : Nat → MidRace.Ev) (fair : AgainAndAgain (.adv (clientsIn p)) σ)
    (pass : AllLetPass (clientsIn p) p σ) : ∃ n, ∀ m, n ≤ m → .over (clientsIn p) true ∈ comes p (firstOf σ m) := by
  have later : ∀ {x : MidRace.Obs} {n m : Nat}, n ≤ m → x ∈ comes p (firstOf σ n) → x ∈ comes p (firstOf σ m) := by
    intro x n m hm hx
    obtain ⟨d, rfl⟩ := Nat.exists_eq_add_of_le hm
    have := MidRace.log_later (p ++ .begin :: firstOf σ n) (firstOf (fun i => σ (n + i)) d)
    rw [comes, Acks.firstOf_add]
    simp only [List.append_assoc, List.cons_append] at this
    exact this.subset hx
  have succ : ∀ n, MidRace.run (p ++ .begin :: firstOf σ (n + 1)) = MidRace.step (MidRace.run (p ++ .begin :: firstOf σ n)) (σ n) := by
    intro n
    rw [Returns.firstOf_succ, show p ++ .begin :: (firstOf σ n ++ [σ n]) = (p ++ .begin :: firstOf σ n) ++ [σ n] by simp, MidRace.run_snoc]
  -- the middlewares have been read
  obtain ⟨n₀, L, h₀⟩ : ∃ n L, ∀ m, n ≤ m → (MidRace.run (p ++ .begin :: firstOf σ m)).runs[clientsIn p]? = some (some L) := by
    obtain ⟨n, _, hn⟩ := fair 0
    have start : ∃ L, (MidRace.run (p ++ .begin :: firstOf σ (n + 1))).runs[clientsIn p]? = some (some L) := by
      rw [succ, hn]
      cases MidRace.at_run p (firstOf σ n) with
      | fresh h no =>
        refine ⟨(MidRace.run (p ++ .begin :: firstOf σ n)).fns, ?_⟩
        simp only [MidRace.step, h]
        simp [(List.getElem?_eq_some_iff.1 h).1]
      | going q₁ q₂ hq h book => exact ⟨usedIn (p ++ q₁), by simp only [MidRace.step, h]⟩
    obtain ⟨L, hL⟩ := start
    refine ⟨n + 1, L, fun m hm => ?_⟩
    obtain ⟨d, rfl⟩ := Nat.exists_eq_add_of_le hm
    induction d with
    | zero => exact hL
    | succ d ih =>
      have ih := ih (by omega)
      rw [← Nat.add_assoc, succ]
      cases σ (n + 1 + d) with
      | use f => exact ih
      | begin => simp only [MidRace.step]; rw [List.getElem?_append_left (List.getElem?_eq_some_iff.1 ih).1]; exact ih
      | adv k =>
        simp only [MidRace.step]; split
        · next hk =>
          have hne : k ≠ clientsIn p := fun e => by rw [e, ih] at hk; cases hk
          simp only; rw [List.getElem?_set_ne hne]; exact ih
        · exact ih
      | next k i ok => simp only [MidRace.step]; split <;> (try split) <;> exact ih
  have book : ∀ m, n₀ ≤ m → MidRace.Book (clientsIn p) L (comes p (firstOf σ m)) := by
    intro m hm
    cases MidRace.at_run p (firstOf σ m) with
    | fresh h no => rw [h₀ m hm] at h; cases h
    | going q₁ q₂ hq h b => rw [h₀ m hm] at h; cases h; exact b
  -- each middleware lets the client pass
  have answers : ∀ i n, n₀ ≤ n → (∃ f, .called (clientsIn p) i f ∈ comes p (firstOf σ n)) →
      ∃ m, n ≤ m ∧ .answered (clientsIn p) i true ∈ comes p (firstOf σ m) := by
    intro i n hn ⟨f, hf⟩
    obtain ⟨m, hm, hσ⟩ := pass n i f hf
    refine ⟨m + 1, by omega, ?_⟩
    have hc := later hm hf
    have hg := ((book m (by omega)).called i f hc).1
    have hw : MidRace.wasCalled (MidRace.run (p ++ .begin :: firstOf σ m)) (clientsIn p) i L = true := by
      simp only [MidRace.wasCalled, hg]; exact decide_eq_true hc
    rw [comes, succ, hσ]
    simp only [MidRace.step, h₀ m (by omega), hw, if_true]
    simp
  have reach : ∀ i, i < L.length → ∃ n, n₀ ≤ n ∧ ∃ f, .called (clientsIn p) i f ∈ comes p (firstOf σ n) := by
    intro i
    induction i with
    | zero =>
      intro hi
      have := (book n₀ (Nat.le_refl _)).began
      cases hL : L with
      | nil => rw [hL] at hi; simp at hi
      | cons f L' => rw [hL] at this; exact ⟨n₀, Nat.le_refl _, f, this⟩
    | succ i ih =>
      intro hi
      obtain ⟨n, hn, hf⟩ := ih (by omega)
      obtain ⟨m, hm, ha⟩ := answers i n hn hf
      have := ((book m (by omega)).answered i true ha).2
      simp only [MidRace.onNext, List.getElem?_eq_getElem hi] at this
      exact ⟨m, by omega, _, this⟩
  suffices h : ∃ n, .over (clientsIn p) true ∈ comes p (firstOf σ n) by
    obtain ⟨n, hn⟩ := h; exact ⟨n, fun m hm => later hm hn⟩
  by_cases hL : L.length = 0
  · have := (book n₀ (Nat.le_refl _)).began
    rw [List.eq_nil_of_length_eq_zero hL] at this
    exact ⟨n₀, this⟩
  · obtain ⟨n, hn, hf⟩ := reach (L.length - 1) (by omega)
    obtain ⟨m, hm, ha⟩ := answers (L.length - 1) n hn hf
    have := ((book m (by omega)).answered _ true ha).2
    simp only [MidRace.onNext] at this
    rw [List.getElem?_eq_none (by omega)] at this
    exact ⟨m, this⟩

/-- A client comes when there are two middlewares; a third is added before the first run has read them, a fourth after that; another client
comes and is refused. -/
def Demo.midP : List MidRace.Ev := [.use 1, .use 2]
def Demo.midQ : List MidRace.Ev :=
  [.use 3, .adv 0, .use 4, .begin, .next 0 0 true, .adv 1, .next 1 0 false, .next 0 1 true, .next 0 2 true]

/-- The hypotheses hold here. -/
example : .over (clientsIn Demo.midP) true ∈ comes Demo.midP Demo.midQ ∧ (usedIn Demo.midP)[1]? = some 2 ∧
    .called 0 2 3 ∈ comes Demo.midP Demo.midQ ∧ .called 0 3 4 ∉ comes Demo.midP Demo.midQ ∧
    .over (clientsIn (Demo.midP ++ .begin :: Demo.midQ.take 3)) false ∈ comes (Demo.midP ++ .begin :: Demo.midQ.take 3) (Demo.midQ.drop 4) := by
  decide

/-- A second middleware is added when the client has come; then the run and the two middlewares take turns. -/
def Demo.midTurns (n : Nat) : MidRace.Ev := if n = 0 then .use 2 else if n % 3 = 1 then .adv 0 else .next 0 (n % 3 / 2) true

theorem midTurns_used (n : Nat) : usedIn (firstOf Demo.midTurns (n + 1)) = [2] := by
  induction n with
  | zero => rfl
  | succ n ih =>
    rw [Returns.firstOf_succ, usedIn, List.filterMap_append, ← usedIn, ih]
    simp only [Demo.midTurns]
    rw [if_neg (by omega)]
    split <;> rfl

/-- So do those of `C126_let_in_in_the_end`. -/
example : AgainAndAgain (.adv (clientsIn [.use 1])) Demo.midTurns ∧ AllLetPass (clientsIn [.use 1]) [.use 1] Demo.midTurns ∧
    .called 0 1 2 ∈ comes [.use 1] (firstOf Demo.midTurns 4) := by
  refine ⟨fun n => ⟨3 * n + 1, by omega, ?_⟩, fun n i f hc => ?_, by decide⟩
  · simp only [Demo.midTurns]; rw [if_neg (by omega), if_pos (by omega)]; rfl
  · have hi := (List.getElem?_eq_some_iff.1 (C126_order _ _ i f hc).1).1
    have hl : (usedIn ([.use 1] ++ firstOf Demo.midTurns n)).length ≤ 2 := by
      cases n with
      | zero => decide
      | succ n =>
        rw [usedIn, List.filterMap_append, ← usedIn, ← usedIn, midTurns_used]; decide
    have h2 : i = 0 ∨ i = 1 := by omega
    rcases h2 with rfl | rfl
    · refine ⟨3 * n + 3, by omega, ?_⟩
      simp only [Demo.midTurns]; rw [if_neg (by omega), if_neg (by omega), show (3 * n + 3) % 3 / 2 = 0 by omega]; rfl
    · refine ⟨3 * n + 2, by omega, ?_⟩
      simp only [Demo.midTurns]; rw [if_neg (by omega), if_neg (by omega), show (3 * n + 2) % 3 / 2 = 1 by omega]; rfl

end Verif.Props
