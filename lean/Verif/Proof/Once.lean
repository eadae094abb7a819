import Verif.Model.Once

/-! # Invariant of the acknowledgement function -/

namespace Verif.Once
open Verif

variable {α : Type} {mk : List Val → α}

/-- What the calls look like in each state of the `sync.Once`. -/
inductive Inv (mk : List Val → α) (s : St α) : Prop where
  | fresh (h : s.once = .fresh) (sent : s.sent = [])
      (all : ∀ (i : Nat) a pc, s.calls[i]? = some (a, pc) → pc = .start)
  | inside (k : Nat) (a : List Val) (h : s.once = .running k) (sent : s.sent = [])
      (me : s.calls[k]? = some (a, .inside))
      (all : ∀ (i : Nat) a pc, i ≠ k → s.calls[i]? = some (a, pc) → pc = .start)
  | written (k : Nat) (a : List Val) (h : s.once = .running k) (sent : s.sent = [mk a])
      (me : s.calls[k]? = some (a, .written))
      (all : ∀ (i : Nat) a pc, i ≠ k → s.calls[i]? = some (a, pc) → pc = .start)
  | done (k : Nat) (a : List Val) (h : s.once = .done) (sent : s.sent = [mk a])
      (me : s.calls[k]? = some (a, .returned))
      (all : ∀ (i : Nat) a pc, s.calls[i]? = some (a, pc) → pc = .start ∨ pc = .returned)

theorem get_snoc {α} {l : List α} {x : α} {i : Nat} {y : α} (h : (l ++ [x])[i]? = some y) :
    l[i]? = some y ∨ (i = l.length ∧ y = x) := by
  rw [List.getElem?_append] at h
  split at h
  · exact .inl h
  · rename_i hn
    rcases Nat.lt_or_ge (i - l.length) 1 with hl | hl
    · have : i - l.length = 0 := by omega
      simp [this] at h
      exact .inr ⟨by omega, h.symm⟩
    · rw [List.getElem?_eq_none (by simpa using hl)] at h; cases h

theorem get_set' {α} {l : List α} {k i : Nat} {x y : α} (h : (l.set k x)[i]? = some y) :
    (i = k ∧ y = x) ∨ (i ≠ k ∧ l[i]? = some y) := by
  rw [List.getElem?_set] at h
  by_cases hki : k = i
  · subst hki
    simp at h
    exact .inl ⟨rfl, h.2.symm⟩
  · simp [hki] at h
    exact .inr ⟨fun e => hki e.symm, h⟩

theorem set_self {α} {l : List α} {k : Nat} {y x : α} (h : l[k]? = some y) : (l.set k x)[k]? = some x := by
  rw [List.getElem?_set]
  have := (List.getElem?_eq_some_iff.1 h).1
  simp [this]

theorem set_other {α} {l : List α} {k i : Nat} {x y : α} (h : l[i]? = some y) (hne : i ≠ k) :
    (l.set k x)[i]? = some y := by
  rw [List.getElem?_set]
  have : ¬ k = i := fun e => hne e.symm
  simp [this, h]

theorem app_left {α} {l : List α} {k : Nat} {y x : α} (h : l[k]? = some y) : (l ++ [x])[k]? = some y := by
  rw [List.getElem?_append_left (List.getElem?_eq_some_iff.1 h).1]; exact h

theorem inv_init (mk : List Val → α) : Inv mk {} := .fresh rfl rfl (by simp)

theorem inv_step {s : St α} (hi : Inv mk s) (e : Ev) :
    Inv mk (step mk s e) := by
  cases e with
  | call args =>
    cases hi with
    | fresh h sent all =>
      refine .fresh h sent ?_
      intro i a pc hg
      rcases get_snoc hg with hg | ⟨_, hg⟩
      · exact all i a pc hg
      · cases hg; rfl
    | inside k a h sent me all =>
      refine .inside k a h sent (app_left me) ?_
      intro i a pc hne hg
      rcases get_snoc hg with hg | ⟨_, hg⟩
      · exact all i a pc hne hg
      · cases hg; rfl
    | written k a h sent me all =>
      refine .written k a h sent (app_left me) ?_
      intro i a pc hne hg
      rcases get_snoc hg with hg | ⟨_, hg⟩
      · exact all i a pc hne hg
      · cases hg; rfl
    | done k a h sent me all =>
      refine .done k a h sent (app_left me) ?_
      intro i a pc hg
      rcases get_snoc hg with hg | ⟨_, hg⟩
      · exact all i a pc hg
      · cases hg; exact .inl rfl
  | adv j =>
    simp only [step]
    cases hj : s.calls[j]? with
    | none => exact hi
    | some p =>
      obtain ⟨b, pc⟩ := p
      cases hi with
      | fresh h sent all =>
        have := all j b pc hj; subst this
        simp only [advCall, h]
        refine .inside j b rfl sent (set_self hj) ?_
        intro i a pc hne hg
        rcases get_set' hg with ⟨e, _⟩ | ⟨_, hg⟩
        · exact absurd e hne
        · exact all i a pc hg
      | inside k a h sent me all =>
        by_cases hjk : j = k
        · subst hjk
          rw [me] at hj; cases hj
          simp only [advCall, sent]
          refine .written j _ h rfl (set_self me) ?_
          intro i a pc hne hg
          rcases get_set' hg with ⟨e, _⟩ | ⟨_, hg⟩
          · exact absurd e hne
          · exact all i a pc hne hg
        · have := all j b pc hjk hj; subst this
          simp only [advCall, h]
          exact .inside k a h sent me all
      | written k a h sent me all =>
        by_cases hjk : j = k
        · subst hjk
          rw [me] at hj; cases hj
          simp only [advCall]
          refine .done j _ rfl sent (set_self me) ?_
          intro i a pc hg
          rcases get_set' hg with ⟨_, e⟩ | ⟨hne, hg⟩
          · cases e; exact .inr rfl
          · exact .inl (all i a pc hne hg)
        · have := all j b pc hjk hj; subst this
          simp only [advCall, h]
          exact .written k a h sent me all
      | done k a h sent me all =>
        rcases all j b pc hj with hpc | hpc
        · subst hpc
          simp only [advCall, h]
          have hjk : k ≠ j := by rintro rfl; rw [me] at hj; cases hj
          refine .done k a rfl sent (set_other me hjk) ?_
          intro i a pc hg
          rcases get_set' hg with ⟨_, e⟩ | ⟨_, hg⟩
          · cases e; exact .inr rfl
          · exact all i a pc hg
        · subst hpc
          simp only [advCall]
          exact .done k a h sent me all

theorem inv_run (mk : List Val → α) (h : List Ev) : Inv mk (run mk h) := by
  unfold run
  generalize hs : ({} : St α) = s
  have hi : Inv mk s := hs ▸ inv_init mk
  clear hs
  induction h generalizing s with
  | nil => exact hi
  | cons e h ih => exact ih _ (inv_step hi e)

/-- Nothing is written any more once one packet has been. -/
theorem sent_stable {s : St α} (hi : Inv mk s) (e : Ev) {p : α}
    (hp : s.sent = [p]) : (step mk s e).sent = [p] := by
  cases e with
  | call args => exact hp
  | adv j =>
    simp only [step]
    cases hj : s.calls[j]? with
    | none => exact hp
    | some q =>
      obtain ⟨b, pc⟩ := q
      cases pc with
      | start => simp only [advCall]; split <;> exact hp
      | written => exact hp
      | returned => exact hp
      | inside =>
        cases hi with
        | fresh h sent all => rw [sent] at hp; cases hp
        | inside k a h sent me all => rw [sent] at hp; cases hp
        | written k a h sent me all =>
          by_cases hjk : j = k
          · subst hjk; rw [me] at hj; cases hj
          · have := all j b _ hjk hj; cases this
        | done k a h sent me all => rcases all j b _ hj with h | h <;> cases h

theorem sent_stable_fold  (h : List Ev) {s : St α} (hi : Inv mk s) {p : α}
    (hp : s.sent = [p]) : (h.foldl (step mk) s).sent = [p] := by
  induction h generalizing s with
  | nil => exact hp
  | cons e h ih => exact ih (inv_step hi e) (sent_stable hi e hp)

/-- What holds of the calls in every interleaving. -/
theorem once_spec (mk : List Val → α) (h₁ h₂ : List Ev) :
    ((run mk h₁).sent = [] ∨
      ∃ (k : Nat) (args : List Val) (pc : Pc), (run mk h₁).calls[k]? = some (args, pc) ∧
        (run mk h₁).sent = [mk args] ∧
        (run mk (h₁ ++ h₂)).sent = (run mk h₁).sent) ∧
    (∀ (k : Nat) (args : List Val), (run mk h₁).calls[k]? = some (args, .returned) →
      (run mk h₁).sent ≠ []) := by
  have hi := inv_run mk h₁
  have stable : ∀ p, (run mk h₁).sent = [p] →
      (run mk (h₁ ++ h₂)).sent = (run mk h₁).sent := by
    intro p hp
    have : run mk (h₁ ++ h₂) = h₂.foldl (step mk) (run mk h₁) := by
      simp [run, List.foldl_append]
    rw [this, hp]
    exact sent_stable_fold h₂ hi hp
  cases hi with
  | fresh h sent all =>
    refine ⟨.inl sent, ?_⟩
    intro k a hk; have := all k a _ hk; cases this
  | inside k a h sent me all =>
    refine ⟨.inl sent, ?_⟩
    intro j b hj
    by_cases hjk : j = k
    · subst hjk; rw [me] at hj; cases hj
    · have := all j b _ hjk hj; cases this
  | written k a h sent me all =>
    refine ⟨.inr ⟨k, a, .written, me, sent, stable _ sent⟩, ?_⟩
    intro _ _ _; rw [sent]; simp
  | done k a h sent me all =>
    refine ⟨.inr ⟨k, a, .returned, me, sent, stable _ sent⟩, ?_⟩
    intro _ _ _; rw [sent]; simp

end Verif.Once
