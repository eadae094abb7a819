import Verif.Model.BulkRace
import Verif.Model.SessRace
import Verif.Model.NodeRace

/-! # Calls that return -/

namespace Verif.Spec

/-- The first `n` events of a schedule that goes on for ever. -/
def firstOf {E : Type} (σ : Nat → E) (n : Nat) : List E := (List.range n).map σ

/-- An event occurs again and again: a goroutine is never forgotten by the scheduler. -/
def AgainAndAgain {E : Type} (e : E) (σ : Nat → E) : Prop := ∀ n, ∃ m, n ≤ m ∧ σ m = e

/-- What a goroutine of `Model/SessRace` is when its call has returned. -/
def sessReturned : SessRace.Task → Prop
  | .saved => True
  | .got _ _ => True
  | .visit _ [] => True
  | _ => False

/-- The steps that a call about sessions takes at most: saving one, asking for one, and the clean-up of the sessions of `order`. -/
def sessSteps : SessRace.Ev → Nat
  | .persist _ _ => 2
  | .restore _ => 3
  | .timer order => 2 * order.length + 1
  | _ => 0

/-- The event is the beginning of a call about sessions. -/
def sessBegins : SessRace.Ev → Prop
  | .persist _ _ => True
  | .restore _ => True
  | .timer _ => True
  | _ => False

end Verif.Spec
