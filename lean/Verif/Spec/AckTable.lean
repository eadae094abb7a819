import Verif.Spec.AcksLive

/-! # Which callbacks a socket still holds (C123) -/

namespace Verif.Spec
open Verif

/-- Socket `k` still holds a callback under this number. -/
def holdsAck (s : Acks.St) (k id : Nat) : Prop := s.acks.get? (k, id) ≠ none

/-- The same while goroutines are at work. -/
def stillHolds (s : Acks.CSt) (id : Nat) : Prop := s.acks.get? id ≠ none

/-- Does the event answer the emission with this number, or end its time? -/
def endsAck (id : Nat) : Acks.Ev → Bool
  | .recv i _ => i = id
  | .fire i => i = id
  | _ => false

end Verif.Spec
