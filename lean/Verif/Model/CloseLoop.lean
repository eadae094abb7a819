import Verif.Model.World

/-!
# Closing many sockets while sockets come and go (socket/server.go:617-625, socket/adapter.go:263-266, socket/socket.go:618-646)

`Server.Close` and `DisconnectSockets` go through sockets and call `_onclose` on each; sockets are connected meanwhile, and others
disconnect sockets, by calls of the same kind or for one socket.  Every access to shared state is one step.  Sockets are numbers, never
used twice.  Left out: the rooms (Model/BulkRace), the sessions (Model/CloseRace), what the client knows (Model/ConnRace), the first
test of `Disconnect` and its packet (socket/socket.go:669-677).
-/

namespace Verif.CloseLoop
open Verif Verif.World

/-- What the goroutine that connects a socket does next: `n.sockets.Store` (socket/namespace.go:350), then `s.connected.Store(true)`
(socket/socket.go:512). -/
inductive CPC where
  | idle
  | store
  | flag
  | done
deriving DecidableEq, Repr

/-- A socket: whether it is in `nsp.Sockets()`, `connected`, `canJoin`, and how far its connection is. -/
structure Sk where
  inNsp : Bool := false
  connected : Bool := false
  canJoin : Bool := true
  conn : CPC := .idle
deriving DecidableEq, Repr

/-- What a call does next: the loop; or `_onclose` for a socket. -/
inductive LPC where
  /-- the next socket, if it is still in the namespace (socket/server.go:619, socket/adapter.go:292-293, 303-304) -/
  | next
  /-- `if !s.Connected()` (socket/socket.go:619) -/
  | check (id : Nat)
  /-- `EmitReserved("disconnecting")` (socket/socket.go:623) -/
  | disconnecting (id : Nat)
  /-- `s.nsp.Remove(s)` (socket/socket.go:644) -/
  | remove (id : Nat)
  /-- `s.canJoin.Store(false)` (socket/socket.go:645) -/
  | forbid (id : Nat)
  /-- `s.connected.Store(false)` (socket/socket.go:636) -/
  | unflag (id : Nat)
  /-- `EmitReserved("disconnect")` (socket/socket.go:637) -/
  | disconnect (id : Nat)
deriving DecidableEq, Repr

/-- The sockets; the calls, each with the sockets still to be closed; the `disconnect` events, by socket. -/
structure St where
  sk : Nat → Sk := fun _ => {}
  calls : List (List Nat × LPC) := []
  log : List Nat := []

/-- `connect`: the middlewares have let socket `id` pass; `conn`: the next step of the goroutine that connects it; `close`: a call that
closes these sockets begins; `adv`: the next step of call `k`. -/
inductive Ev where
  | connect (id : Nat)
  | conn (id : Nat)
  | close (ids : List Nat)
  | adv (k : Nat)
deriving DecidableEq, Repr

/-- The next step of the connection of a socket (socket/namespace.go:350, socket/socket.go:512). -/
def connect (x : Sk) : Sk :=
  match x.conn with
  | .store => { x with inNsp := true, conn := .flag }
  | .flag => { x with connected := true, conn := .done }
  | _ => x

/-- One step of a call. -/
def act (s : St) (todo : List Nat) : LPC → St × (List Nat × LPC)
  | .next => match todo with
    | [] => (s, ([], .next))
    | id :: ids => (s, (ids, if (s.sk id).inNsp then .check id else .next))
  | .check id => (s, (todo, if (s.sk id).connected then .disconnecting id else .next))
  | .disconnecting id => (s, (todo, .remove id))
  | .remove id => ({ s with sk := upd s.sk id { s.sk id with inNsp := false } }, (todo, .forbid id))
  | .forbid id => ({ s with sk := upd s.sk id { s.sk id with canJoin := false } }, (todo, .unflag id))
  | .unflag id => ({ s with sk := upd s.sk id { s.sk id with connected := false } }, (todo, .disconnect id))
  | .disconnect id => ({ s with log := s.log ++ [id] }, (todo, .next))

def advance (s : St) (k : Nat) : St :=
  match s.calls[k]? with
  | some (todo, pc) => { (act s todo pc).1 with calls := s.calls.set k (act s todo pc).2 }
  | none => s

def step (s : St) : Ev → St
  | .connect id => if (s.sk id).conn = .idle then { s with sk := upd s.sk id { s.sk id with conn := .store } } else s
  | .conn id => { s with sk := upd s.sk id (connect (s.sk id)) }
  | .close ids => { s with calls := s.calls ++ [(ids, .next)] }
  | .adv k => advance s k

def run (h : List Ev) : St := h.foldl step {}

end Verif.CloseLoop
