import Verif.Model.Adapter

/-!
# `SetAdapter` on a running server (socket/server.go:260-267)

One namespace.  A socket keeps the adapter its namespace had when it was made (socket/socket.go:212), an operator the one of the
namespace or socket it comes from (socket/broadcast-operator.go:31-50).  Calls are atomic.  A socket is identified by its id: no two
have the same here (sockets made from a recovered session, which take the id of an earlier one, are the subject of `Model/World`).
-/

namespace Verif.Swap
open Verif Verif.Adapter

/-- A table with one entry changed. -/
def put {α β : Type} [DecidableEq α] (f : α → β) (a : α) (b : β) : α → β := fun x => if x = a then b else f x

/-- `tabs g`: the tables of the adapter made `g`-th (0: the one of `NewServer`); `cur`: `nsp.adapter` (socket/namespace.go:79);
`own`: `socket.adapter` (socket/socket.go:117) of the sockets made so far; `reg`: `nsp.sockets`; `canJoin`: socket/socket.go:124;
`kept`: the operators the program holds; `saved`: the sessions persisted, in which adapter, and their rooms; `closed`: the adapters
`Close` was called on; `last`: the sockets reached by the last broadcast. -/
structure St where
  tabs : Nat → Ad := fun _ => {}
  cur : Nat := 0
  own : Sid → Option Nat := fun _ => none
  reg : Sid → Bool := fun _ => false
  canJoin : Sid → Bool := fun _ => false
  kept : Nat → Option Nat := fun _ => none
  saved : List (Nat × Sid × List Room) := []
  closed : List Nat := []
  last : List Sid := []

/-- Through what a call is made: `io.Of(..)`, a socket, or the `k`-th operator the program holds. -/
inductive Who where
  | nsp
  | socket (id : Sid)
  | operator (k : Nat)
deriving DecidableEq, Repr

/-- The adapter the call goes to: `n.Proto().Adapter()` (socket/namespace.go:133, 404), `s.adapter` (socket/socket.go:1014),
`b.adapter` (socket/broadcast-operator.go:191). -/
def via (s : St) : Who → Option Nat
  | .nsp => some s.cur
  | .socket id => s.own id
  | .operator k => s.kept k

/-- What `apply` of adapter `g` sees (socket/adapter.go:269-306): its own tables, and the sockets of the namespace. -/
def view (g : Nat) : View St Sid where
  ad := fun s => s.tabs g
  sock := fun s id => if s.reg id then some id else none

/-- `Socket.Join` (socket/socket.go:473-480). -/
def join (rooms : List Room) (s : St) (id : Sid) : St :=
  match s.own id with
  | some g => if s.canJoin id then { s with tabs := put s.tabs g (addAll (s.tabs g) id rooms).1 } else s
  | none => s

/-- `Socket.Leave` (socket/socket.go:495-498). -/
def leave (d : Bool) (s : St) (id : Sid) (room : Room) : St :=
  match s.own id with
  | some g => { s with tabs := put s.tabs g (del d (s.tabs g) id room).1 }
  | none => s

/-- `_cleanup` (socket/socket.go:642-646): the socket leaves all rooms, is removed from the namespace and joins no room any more. -/
def cleanup (d : Bool) (s : St) (id : Sid) : St :=
  match s.own id with
  | some g => { s with tabs := put s.tabs g (delAll d (s.tabs g) id).1, reg := put s.reg id false, canJoin := put s.canJoin id false }
  | none => s

/-- `Socket.Rooms` (socket/socket.go:861-866). -/
def rooms (s : St) (id : Sid) : List Room :=
  match s.own id with
  | some g => ((s.tabs g).sids.get? id).getD []
  | none => []

/-- `_onclose` with one of the recoverable reasons (socket/socket.go:618-639): the session is saved in the adapter of the socket. -/
def drop (d : Bool) (s : St) (id : Sid) : St :=
  match s.own id with
  | some g => if s.reg id then cleanup d { s with saved := s.saved ++ [(g, id, rooms s id)] } id else s
  | none => s

/-- What `RestoreSession` of the namespace's adapter finds for a client that had the id (socket/namespace.go:336).  Simplified:
sessions do not expire and are not used up (`Model/Session`). -/
def restore (s : St) (id : Sid) : Option (List Room) := (s.saved.find? fun x => x.1 == s.cur && x.2.1 == id).map (·.2.2)

/-- The options of an operator (socket/broadcast-operator.go:191-195). -/
def opts (rooms except : List Room) : Option Opts := some { rooms := some rooms, except := some except, flags := some {} }

inductive Ev where
  /-- `server.SetAdapter` -/
  | setAdapter
  /-- a socket is made, before the middlewares run (socket/namespace.go:331-346) -/
  | create (id : Sid)
  /-- it is connected, after they have run (socket/namespace.go:348-364, socket/socket.go:509-531) -/
  | connect (id : Sid)
  | join (id : Sid) (rooms : List Room)
  | leave (id : Sid) (room : Room)
  /-- it is disconnected, or a middleware refuses it (socket/namespace.go:276-283, socket/socket.go:618-639) -/
  | close (id : Sid)
  /-- it loses its connection -/
  | drop (id : Sid)
  /-- the program keeps an operator: `op := who.To(...)` -/
  | keep (k : Nat) (who : Who)
  /-- `who.To(rooms).Except(except)` and `Emit` or `FetchSockets`, `SocketsJoin`, `SocketsLeave`, `DisconnectSockets` -/
  | cast (who : Who) (rooms except : List Room)
  | bulkJoin (who : Who) (rooms except joined : List Room)
  | bulkLeave (who : Who) (rooms except left : List Room)
  | bulkDisconnect (who : Who) (rooms except : List Room)
  /-- `server.Close`: `order` are the sockets in the order of `Range` -/
  | shutdown (order : List Sid)
deriving DecidableEq, Repr

/-- The sockets `apply` calls its callback for (socket/adapter.go:269-306). -/
def reached (s : St) (who : Who) (rooms except : List Room) : List Sid :=
  match via s who with
  | some g => (apply (view g) (opts rooms except) (fun s _ => s) s).2
  | none => []

/-- One event.  `SetAdapter` (socket/server.go:260-267, socket/namespace.go:160-162) gives the namespace a new adapter and does
nothing else; `Server.Close` (socket/server.go:617-627) closes the adapter the namespace has. -/
def step (d : Bool) (s : St) : Ev → St
  | .setAdapter => { s with cur := s.cur + 1 }
  | .create id =>
    match s.own id with
    | some _ => s
    | none => { s with own := put s.own id (some s.cur), canJoin := put s.canJoin id true }
  | .connect id => if s.canJoin id then join [id] { s with reg := put s.reg id true } id else s
  | .join id rooms => join rooms s id
  | .leave id room => leave d s id room
  | .close id => cleanup d s id
  | .drop id => drop d s id
  | .keep k who => { s with kept := put s.kept k (via s who) }
  | .cast who rooms except => { s with last := reached s who rooms except }
  | .bulkJoin who rooms except joined =>
    match via s who with
    | some g => (apply (view g) (opts rooms except) (join joined) s).1
    | none => s
  | .bulkLeave who rooms except left =>
    match via s who with
    | some g => (apply (view g) (opts rooms except) (fun s id => left.foldl (fun s r => leave d s id r) s) s).1
    | none => s
  | .bulkDisconnect who rooms except =>
    match via s who with
    | some g => (apply (view g) (opts rooms except) (cleanup d) s).1
    | none => s
  | .shutdown order =>
    let s := order.foldl (drop d) s
    { s with closed := s.closed ++ [s.cur] }

/-- A history (socket/server.go:260-267). -/
def run (d : Bool) (h : List Ev) : St := h.foldl (step d) {}

end Verif.Swap
