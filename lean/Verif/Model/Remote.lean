import Verif.Model.Delivery

/-!
# `FetchSockets` and the sockets it returns (socket/remote-socket.go, socket/broadcast-operator.go:305-323)

One namespace on one server; calls are atomic.
-/

namespace Verif.Remote
open Verif Verif.Adapter Verif.Delivery

/-- A `RemoteSocket` (socket/remote-socket.go:18-25): the id, and the rooms copied when it was made
(socket/remote-socket.go:57-65).  Left out: the handshake and the data, which are copied the same way. -/
structure Details where
  id : Sid
  rooms : List Room
deriving DecidableEq, Repr

/-- `NewRemoteSocket` (socket/remote-socket.go:33-39, 57-65) for a socket of this server. -/
def details (n : Nsp) (ref : Nat) : Details := { id := n.sidOf ref, rooms := roomsOf n.ad (n.sidOf ref) }

/-- The namespace, the remote sockets the program holds, the number of sockets made so far. -/
structure St where
  n : Nsp
  remotes : List Details := []
  next : Nat := 0

/-- The options of the operator of a remote socket (socket/remote-socket.go:62-64). -/
def only (d : Details) : Option Opts := some { rooms := some [d.id], except := some [], flags := some { expectSingle := true } }

/-- The options of an operator (socket/broadcast-operator.go:191-195). -/
def opts (rooms except : List Room) : Option Opts := some { rooms := some rooms, except := some except, flags := some {} }

/-- A socket with this id is connected: a recovered one joins the rooms of its session first (socket/socket.go:171-178), every one is
registered and joins the room of its id (socket/namespace.go:348-364, socket/socket.go:509-531).  Ignored if the id is registered. -/
def connect (s : St) (id : Sid) (rooms : List Room) : St :=
  match s.n.sockets.get? id with
  | some _ => s
  | none =>
    { s with
      n := { s.n with
        ad := (addAll (addAll s.n.ad id rooms).1 id [id]).1
        sockets := s.n.sockets.insert id s.next
        sidOf := fun r => if r = s.next then id else s.n.sidOf r
        canJoin := fun r => if r = s.next then true else s.n.canJoin r }
      next := s.next + 1 }

inductive Ev where
  | connect (id : Sid) (rooms : List Room)
  /-- `socket.Join`, `socket.Leave`, `socket.Disconnect` on a socket of this server -/
  | join (ref : Nat) (rooms : List Room)
  | leave (ref : Nat) (room : Room)
  | disconnect (ref : Nat) (close : Bool)
  /-- `To(...).Except(...).SocketsJoin`, `SocketsLeave`, `DisconnectSockets` -/
  | bulkJoin (rooms except joined : List Room)
  | bulkLeave (rooms except left : List Room)
  | bulkDisconnect (rooms except : List Room) (close : Bool)
  /-- `In(...).Except(...).FetchSockets()` -/
  | fetch (rooms except : List Room)
  /-- methods of the `k`-th remote socket (socket/remote-socket.go:93-117) -/
  | rJoin (k : Nat) (rooms : List Room)
  | rLeave (k : Nat) (rooms : List Room)
  | rDisconnect (k : Nat) (close : Bool)
  | rEmit (k : Nat) (p : Pkt)

/-- `d` is the parameter of `Set.Delete` (`Model/Adapter`). -/
def step (d : Bool) (s : St) : Ev → St
  | .connect id rooms => connect s id rooms
  | .join ref rooms => { s with n := Delivery.join rooms s.n ref }
  | .leave ref room => { s with n := Delivery.leave d s.n ref room }
  | .disconnect ref close => if s.n.sockets.get? (s.n.sidOf ref) = some ref then { s with n := kick d close s.n ref } else s
  | .bulkJoin rooms except joined => { s with n := addSockets s.n (opts rooms except) joined }
  | .bulkLeave rooms except left => { s with n := delSockets d s.n (opts rooms except) left }
  | .bulkDisconnect rooms except close => { s with n := disconnectSockets d s.n (opts rooms except) close }
  | .fetch rooms except => { s with remotes := s.remotes ++ (fetchSockets s.n (opts rooms except)).map (details s.n) }
  | .rJoin k rooms => match s.remotes[k]? with
    | some r => { s with n := addSockets s.n (only r) rooms }
    | none => s
  | .rLeave k rooms => match s.remotes[k]? with
    | some r => { s with n := delSockets d s.n (only r) rooms }
    | none => s
  | .rDisconnect k close => match s.remotes[k]? with
    | some r => { s with n := disconnectSockets d s.n (only r) close }
    | none => s
  | .rEmit k p => match s.remotes[k]? with
    | some r => { s with n := broadcast s.n p (only r) }
    | none => s

def run (d : Bool) (h : List Ev) : St := h.foldl (step d) { n := { sidOf := fun _ => "", canJoin := fun _ => false } }

end Verif.Remote
