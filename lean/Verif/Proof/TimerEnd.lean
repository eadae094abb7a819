import Verif.Proof.Settle
import Verif.Model.TimerRace

/-! # The function of the connect timeout comes to its end -/

namespace Verif.TimerRace
open Verif Verif.Spec

def tmoLeft : Tpc → Nat
  | .test => 3
  | .state => 2
  | .close => 1
  | _ => 0

def armLeft : Timer → Nat
  | .armed => 5
  | _ => 0

def setLeft : Setup → Nat
  | .arm => 6
  | _ => 0

def toDo (s : St) : Nat := tmoLeft s.tmo + armLeft s.timer + setLeft s.setup

def Quiet (s : St) : Prop := s.tmo = .idle ∨ s.tmo = .done

theorem tick_dec (s : St) (h : ¬Quiet s) : toDo (tmoStep s) < toDo s := by
  simp only [tmoStep]
  cases ht : s.tmo with
  | idle => exact absurd (.inl ht) h
  | done => exact absurd (.inr ht) h
  | test => simp only [toDo, ht]; split <;> simp only [tmoLeft] <;> omega
  | state => simp only [toDo, ht]; split <;> simp only [tmoLeft] <;> omega
  | close => simp only [toDo, ht, tmoLeft]; omega

/-- What the others do does not touch the function of the timer, unless they start it. -/
theorem others (s : St) (e : Ev) (he : e ≠ .tick) : toDo (step s e) < toDo s ∨ toDo (step s e) = toDo s ∧ (¬Quiet s → ¬Quiet (step s e)) := by
  cases e with
  | tick => exact absurd rfl he
  | come => exact .inr ⟨rfl, fun h => h⟩
  | leave k => exact .inr ⟨rfl, fun h => h⟩
  | hangup => exact .inr ⟨rfl, fun h => h⟩
  | fire =>
    simp only [step]
    split
    · rename_i h
      refine .inl ?_
      simp only [toDo, h, tmoLeft, armLeft]; omega
    · exact .inr ⟨rfl, fun h => h⟩
  | setup =>
    simp only [step, setupStep]
    cases hs : s.setup with
    | arm =>
      have : armLeft .armed = 5 := rfl
      exact .inl (by simp only [toDo, hs, setLeft, this]; omega)
    | store => exact .inr ⟨by simp only [toDo, hs, setLeft], fun h => h⟩
    | done => exact .inr ⟨rfl, fun h => h⟩
  | adv k =>
    simp only [step]
    cases hk : s.ths[k]? with
    | none => exact .inr ⟨rfl, fun h => h⟩
    | some pc =>
      cases pc with
      | clear =>
        simp only [advance]
        cases ht : s.timer with
        | armed => exact .inl (by simp only [toDo, if_true, ht, armLeft]; omega)
        | unset => exact .inr ⟨by simp [toDo, ht], fun h => h⟩
        | fired => exact .inr ⟨by simp [toDo, ht], fun h => h⟩
        | cleared => exact .inr ⟨by simp [toDo, ht], fun h => h⟩
      | _ => exact .inr ⟨rfl, fun h => h⟩

theorem timeout_ends (σ : Nat → Ev) (fair : AgainAndAgain .tick σ) (s : St) : ∃ n, Quiet ((firstOf σ n).foldl step s) := by
  obtain ⟨n, hn⟩ := Settle.settles step (fun _ => .tick) toDo (fun s _ => Quiet s) (fun _ => True)
    (fun s e _ => by
      by_cases he : e = .tick
      · subst he
        by_cases h : Quiet s
        · have : step s .tick = s := by
            rcases h with h | h <;> simp only [step, tmoStep, h]
          rw [this]
          exact .inr ⟨rfl, fun _ h _ => h⟩
        · exact .inl (tick_dec s h)
      · rcases others s e he with h | ⟨h1, h2⟩
        · exact .inl h
        · exact .inr ⟨h1, fun _ h _ => h2 h⟩)
    (fun s _ h => tick_dec s h) σ (fun _ => trivial) (fun _ => fair) s
  exact ⟨n, hn 0⟩

/-- Once begun it is begun. -/
theorem begun_step (s : St) (e : Ev) (h : s.tmo ≠ .idle) : (step s e).tmo ≠ .idle := by
  cases e with
  | fire => simp only [step]; split <;> first | exact h | simp
  | tick =>
    simp only [step, tmoStep]
    cases ht : s.tmo with
    | idle => exact absurd ht h
    | test => simp only []; split <;> simp
    | state => simp only []; split <;> simp
    | close => simp
    | done => simp [ht]
  | setup => simp only [step, setupStep]; cases s.setup <;> exact h
  | adv k =>
    simp only [step]
    cases s.ths[k]? with
    | none => exact h
    | some pc => cases pc <;> exact h
  | _ => exact h

theorem begun_fold (l : List Ev) (s : St) (h : s.tmo ≠ .idle) : (l.foldl step s).tmo ≠ .idle := by
  induction l generalizing s with
  | nil => exact h
  | cons e l ih => exact ih _ (begun_step s e h)

theorem fired_begun (h : List Ev) : (run h).timer = .fired → (run h).tmo ≠ .idle := by
  induction h using snocRec with
  | nil => intro h; simp [run] at h
  | append_singleton h e ih =>
    have hr : run (h ++ [e]) = step (run h) e := by simp [run]
    rw [hr]
    intro hf
    by_cases hi : (run h).timer = .fired
    · exact begun_step _ e (ih hi)
    · cases e with
      | fire =>
        simp only [step] at hf ⊢
        split at hf
        · rename_i ha; simp [ha]
        · exact absurd hf hi
      | tick =>
        exfalso
        refine hi ?_
        rw [← hf]
        simp only [step, tmoStep]
        cases (run h).tmo <;> rfl
      | setup =>
        simp only [step, setupStep] at hf
        cases hs : (run h).setup <;> simp only [hs] at hf
        · cases hf
        · exact absurd hf hi
        · exact absurd hf hi
      | adv k =>
        exfalso
        refine hi ?_
        simp only [step] at hf
        cases hk : (run h).ths[k]? with
        | none => simpa [hk] using hf
        | some pc =>
          simp only [hk] at hf
          cases pc with
          | clear =>
            simp only [advance] at hf
            split at hf
            · cases hf
            · exact hf
          | _ => exact hf
      | come => exact absurd hf hi
      | leave k => exact absurd hf hi
      | hangup => exact absurd hf hi

end Verif.TimerRace
