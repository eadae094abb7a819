import Verif.Model.SessRace

/-! # The table of the saved sessions -/

namespace Verif.Spec
open Verif.SessRace

/-- The last event of `h` is that session `n` has been saved under `pid`; `t` is what the clock was when the goroutine that saves it, in an
earlier step, looked at it. -/
def SessSaved (max : Nat) (h : List SessRace.Ev) (pid n t : Nat) : Prop :=
  ∃ a b k, h = a ++ .adv k :: b ++ [.adv k] ∧ (SessRace.run max a).tasks[k]? = some (.save pid n) ∧ t = (SessRace.run max a).now ∧
    .adv k ∉ b

/-- No session is saved under `pid` in `q`, which follows `p`. -/
def SessQuiet (max pid : Nat) (p q : List SessRace.Ev) : Prop :=
  ∀ q₁, q₁ <+: q → q₁ ≠ [] → ∀ n t, ¬ SessSaved max (p ++ q₁) pid n t

/-- No goroutine has looked at an earlier session of `pid` and not finished with it. -/
def SessFree (s : SessRace.St) (pid : Nat) : Prop :=
  ∀ a ∈ s.tasks, (∀ n t, a ≠ .test pid n t) ∧ a ≠ .drop pid ∧ ∀ start todo, a ≠ .sweep start pid todo

end Verif.Spec
