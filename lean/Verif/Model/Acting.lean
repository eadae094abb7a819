import Verif.Model.Operator
import Verif.Model.Delivery

/-!
# What a program does through an operator besides emitting (socket/broadcast-operator.go:271-380)

One namespace on one server; calls are atomic.
-/

namespace Verif.Acting
open Verif Verif.Operator Verif.Delivery

/-- The calls: `AllSockets`, `FetchSockets`, `SocketsJoin`, `SocketsLeave`, `DisconnectSockets`. -/
inductive Act where
  | allSockets
  | fetchSockets
  | socketsJoin (rooms : List Room)
  | socketsLeave (rooms : List Room)
  | disconnectSockets (close : Bool)
deriving DecidableEq, Repr

/-- The options an operator passes to the adapter (socket/broadcast-operator.go:307-311, 337-341, 356-360, 375-379): its three pointers. -/
def options (st : Operator.St) (o : OpPtr) : Option Opts :=
  some { rooms := some (st.set o.rooms), except := some (st.set o.except), flags := some (st.flag o.flags) }

/-- A call: what becomes of the namespace, and the ids returned (socket/broadcast-operator.go:274-279, 305-323, 336-342, 355-361, 374-380).
`d`: what `Set.Delete` returns, as in `Model/Adapter`. -/
def act (d : Bool) (st : Operator.St) (o : OpPtr) (n : Nsp) : Act → Nsp × List Sid
  | .allSockets => (n, Delivery.allSockets n (st.set o.rooms))
  | .fetchSockets => (n, (Delivery.fetchSockets n (options st o)).map n.sidOf)
  | .socketsJoin rooms => (addSockets n (options st o) rooms, [])
  | .socketsLeave rooms => (delSockets d n (options st o) rooms, [])
  | .disconnectSockets close => (Delivery.disconnectSockets d n (options st o) close, [])

end Verif.Acting
