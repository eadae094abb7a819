import Verif.Spec.RecoverRace
import Verif.Spec.Returns

/-! # The recovery comes to its end -/

namespace Verif.Spec
open Verif.RecoverRace

/-- The client has been let in, with its session or without, or the call has panicked. -/
def RecoveryOver (s : RecoverRace.St) : Prop := s.rpc = .done ∨ s.rpc = .fresh ∨ s.rpc = .panic

instance (s : RecoverRace.St) : Decidable (RecoveryOver s) := by unfold RecoveryOver; infer_instance

/-- The number of steps the recovery has taken. -/
def recoverySteps : List RecoverRace.Ev → Nat
  | [] => 0
  | .recover :: h => recoverySteps h + 1
  | _ :: h => recoverySteps h

end Verif.Spec
