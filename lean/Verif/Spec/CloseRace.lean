import Verif.Model.CloseRace

/-! # Closing from several goroutines -/

namespace Verif.Spec
open Verif.CloseRace

/-- A `disconnect` event. -/
def isDisconnect : Out → Bool
  | .disconnect _ => true
  | _ => false

/-- A `disconnecting` event. -/
def isDisconnecting : Out → Bool
  | .disconnecting _ => true
  | _ => false

/-- The number of `disconnect` events. -/
def disconnects (s : CloseRace.St) : Nat := (s.log.filter isDisconnect).length

/-- The number of `disconnecting` events. -/
def disconnectings (s : CloseRace.St) : Nat := (s.log.filter isDisconnecting).length

/-- Nobody is closing. -/
def NoCloser (s : CloseRace.St) : Prop := ∀ t ∈ s.ths, t.2 = .done

instance (s : CloseRace.St) : Decidable (NoCloser s) := by unfold NoCloser; infer_instance

/-- A socket is only closed while nobody else is closing it. -/
def CloseOneByOne (rooms : List Nat) (h : List CloseRace.Ev) : Prop :=
  ∀ p b t, h = p ++ .close b :: t → NoCloser (CloseRace.run rooms p)

/-- The sessions saved. -/
def savedRooms (s : CloseRace.St) : List (List Nat) := s.log.filterMap fun o => match o with | .saved l => some l | _ => none

end Verif.Spec
