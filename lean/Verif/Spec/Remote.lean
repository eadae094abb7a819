import Verif.Model.Remote

/-! # Remote sockets -/

namespace Verif.Spec
open Verif Verif.Remote

/-- The ids of sockets that an event mentions. -/
def idsIn : Remote.Ev → List Sid
  | .connect id _ => [id]
  | _ => []

/-- The rooms a program joins and leaves in an event.  (The session of a recovered socket contains the room of its own id.) -/
def roomsIn : Remote.Ev → List Room
  | .connect id rooms => rooms.filter (· ≠ id)
  | .join _ rooms => rooms
  | .leave _ room => [room]
  | .bulkJoin _ _ rooms => rooms
  | .bulkLeave _ _ rooms => rooms
  | .rJoin _ rooms => rooms
  | .rLeave _ rooms => rooms
  | _ => []

/-- The program never joins or leaves a room whose name is the id of a socket. -/
def RoomsAreNoIds (h : List Remote.Ev) : Prop := ∀ e ∈ h, ∀ e' ∈ h, ∀ id ∈ idsIn e, id ∉ roomsIn e'

end Verif.Spec
