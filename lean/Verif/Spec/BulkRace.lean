import Verif.Model.BulkRace
import Verif.Spec.CastRace

/-! # `SocketsJoin` and `SocketsLeave` while other things happen -/

namespace Verif.Spec
open Verif.BulkRace

/-- In `p`, then a bulk call, then `q`, the call begins after `p` and has returned at the end of `q`, and `q` has no other. -/
structure WholeBulk (p : List BulkRace.Ev) (a : BulkRace.Act) (rooms except order : List Nat) (q : List BulkRace.Ev) : Prop where
  begins : (BulkRace.run p).idle = true
  ends : (BulkRace.run (p ++ .bulk a rooms except order :: q)).idle = true
  one : ∀ b r x o, .bulk b r x o ∉ q

/-- The sockets it came to. -/
def cameTo (p : List BulkRace.Ev) (a : BulkRace.Act) (rooms except order : List Nat) (q : List BulkRace.Ev) : List Nat :=
  (BulkRace.run (p ++ .bulk a rooms except order :: q)).cast.sent

/-- What holds at every moment from the beginning of the call until the end of `q`. -/
def During (p : List BulkRace.Ev) (a : BulkRace.Act) (rooms except order : List Nat) (q : List BulkRace.Ev) (P : BulkRace.St → Prop) : Prop :=
  ∀ q₁ q₂, q = q₁ ++ q₂ → P (BulkRace.run (p ++ .bulk a rooms except order :: q₁))

/-- The calls of the adapter that the bulk call is to make for a socket: one that joins all the rooms, or one for each room to leave. -/
def wanted : BulkRace.Act → List RoomRace.Call
  | .join rs => [.join rs]
  | .leave rs => rs.map .leave

/-- The calls of the adapter for socket `id` that goroutine 0, the one in the bulk call, makes in `q`. -/
def callsFor (id : Nat) (p : List BulkRace.Ev) (a : BulkRace.Act) (rooms except order : List Nat) (q : List BulkRace.Ev) :
    List RoomRace.Call :=
  (BulkRace.trace (BulkRace.run (p ++ [.bulk a rooms except order])) q).filterMap fun e => match e with
    | .room (.call k i c) => if k = 0 ∧ i = id then some c else none
    | _ => none

end Verif.Spec
