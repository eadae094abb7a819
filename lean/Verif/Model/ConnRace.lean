import Verif.Lib.ListExtra

/-!
# A connection that closes while a socket is being connected (socket/namespace.go:267-303, 348-364; socket/client.go:120-130, 153-159, 233-247)

The middlewares have let a socket pass; a goroutine connects it (socket/namespace.go:275-301).  Meanwhile the connection closes, and
`onclose` is called by the engine or by `close`; and the socket may be disconnected by a packet or by `Disconnect`.  Every access
to shared state is one step.  One socket, whose id no other socket has: what happens to the others of the same client does not touch
it, except `Clear`.  Of the rooms only that named after its id is kept (Model/JoinRace has the others), and no session is saved
(Model/CloseRace).
-/

namespace Verif.ConnRace

/-- What the goroutine that connects the socket does next. -/
inductive CPC where
  /-- it has not started -/
  | idle
  /-- `client.conn.ReadyState() != "open"` (socket/namespace.go:276) -/
  | test
  /-- `n.sockets.Store` (socket/namespace.go:350) -/
  | store
  /-- `s.connected.Store(true)` (socket/socket.go:512) -/
  | flag
  /-- `s.Join(Room(s.id))` (socket/socket.go:514) -/
  | join
  /-- the CONNECT packet, dropped if the connection is not open (socket/socket.go:515-531, socket/client.go:163-166) -/
  | write
  /-- `c.sockets.Store` (socket/client.go:123) -/
  | register
  /-- `c.nsps.Store` (socket/client.go:124) -/
  | name
  /-- `EmitReserved("connect")`, `EmitReserved("connection")` (socket/namespace.go:362-363) -/
  | announce
  | done
  /-- the connection was closed: `_cleanup` (socket/namespace.go:276-280) -/
  | refused
deriving DecidableEq, Repr

/-- What a call of `onclose` or of `_onclose` does next. -/
inductive KPC where
  /-- `c.sockets.Range` gets to the socket, or not (socket/client.go:240) -/
  | range
  /-- `if !s.Connected()` (socket/socket.go:619) -/
  | check
  /-- `EmitReserved("disconnecting")` (socket/socket.go:623) -/
  | disconnecting
  /-- `s.leaveAll()` (socket/socket.go:643) -/
  | leave
  /-- `s.nsp.Remove(s)` (socket/socket.go:644) -/
  | remove
  /-- `s.canJoin.Store(false)` (socket/socket.go:645) -/
  | forbid
  /-- `s.client._remove(s)` (socket/socket.go:635) -/
  | unregister
  /-- `s.connected.Store(false)` (socket/socket.go:636) -/
  | unflag
  /-- `EmitReserved("disconnect")` (socket/socket.go:637) -/
  | disconnect
  /-- `c.sockets.Clear()` (socket/client.go:244) -/
  | clear
  | done
deriving DecidableEq, Repr

inductive Out where
  | connectPacket
  | connection
  | disconnecting
  | disconnect
deriving DecidableEq, Repr

/-- `isOpen`: `conn.ReadyState() == "open"`; `inNsp`: the socket is in `nsp.Sockets()`; `inRoom`: in its own room; `registered`,
`named`: in `client.sockets`, `client.nsps`.  `closers`: whether the call is one of `onclose` (or of `_onclose` alone), and where it
is. -/
structure St where
  isOpen : Bool := true
  inNsp : Bool := false
  connected : Bool := false
  canJoin : Bool := true
  inRoom : Bool := false
  registered : Bool := false
  named : Bool := false
  conn : CPC := .idle
  closers : List (Bool × KPC) := []
  log : List Out := []
deriving DecidableEq, Repr

/-- The next step of the goroutine that connects the socket (socket/namespace.go:275-301, 348-364; socket/client.go:122-128).  Simplified:
`_cleanup` of a refused socket is one step. -/
def connect (s : St) : CPC → St
  | .idle => s
  | .test => if s.isOpen then { s with conn := .store } else { s with inRoom := false, inNsp := false, canJoin := false, conn := .refused }
  | .store => { s with inNsp := true, conn := .flag }
  | .flag => { s with connected := true, conn := .join }
  | .join => { s with inRoom := if s.canJoin then true else s.inRoom, conn := .write }
  | .write => { s with log := if s.isOpen then s.log ++ [.connectPacket] else s.log, conn := .register }
  | .register => { s with registered := true, conn := .name }
  | .name => { s with named := true, conn := .announce }
  | .announce => { s with log := s.log ++ [.connection], conn := .done }
  | .done => s
  | .refused => s

/-- After `_onclose` (socket/client.go:240-244). -/
def after (whole : Bool) : KPC := if whole then .clear else .done

/-- The next step of a call of `onclose` or `_onclose` (socket/client.go:233-247, socket/socket.go:618-646). -/
def close (s : St) (whole : Bool) : KPC → St × KPC
  | .range => (s, if s.registered then .check else .clear)
  | .check => (s, if s.connected then .disconnecting else after whole)
  | .disconnecting => ({ s with log := s.log ++ [.disconnecting] }, .leave)
  | .leave => ({ s with inRoom := false }, .remove)
  | .remove => ({ s with inNsp := false }, .forbid)
  | .forbid => ({ s with canJoin := false }, .unregister)
  | .unregister => (if s.registered then { s with registered := false, named := false } else s, .unflag)
  | .unflag => ({ s with connected := false }, .disconnect)
  | .disconnect => ({ s with log := s.log ++ [.disconnect] }, after whole)
  | .clear => ({ s with registered := false }, .done)
  | .done => (s, .done)

/-- `pass`: the middlewares have let the socket pass; `conn`: the next step of the goroutine started then; `hangup`: the connection
closes; `onclose`: it is called, which happens after that (socket/client.go:76, 153-159); `leave`: a disconnect packet for the
namespace has arrived, or `Disconnect` found the socket connected (socket/client.go:215-216, socket/socket.go:668-680); `adv k`: the next
step of the `k`-th call. -/
inductive Ev where
  | pass
  | conn
  | hangup
  | onclose
  | leave
  | adv (k : Nat)
deriving DecidableEq, Repr

/-- One step of the `k`-th call (socket/client.go:233-247, socket/socket.go:618-646). -/
def advance (s : St) (k : Nat) : St :=
  match s.closers[k]? with
  | some (w, pc) => { (close s w pc).1 with closers := s.closers.set k (w, (close s w pc).2) }
  | none => s

/-- One event (socket/namespace.go:267-303, socket/client.go:233-247). -/
def step (s : St) : Ev → St
  | .pass => if s.conn = .idle then { s with conn := .test } else s
  | .conn => connect s s.conn
  | .hangup => { s with isOpen := false }
  | .onclose => if s.isOpen then s else { s with closers := s.closers ++ [(true, .range)] }
  | .leave => if s.connected ∨ s.named then { s with closers := s.closers ++ [(false, .check)] } else s
  | .adv k => advance s k

/-- A history (socket/namespace.go:267-303, socket/client.go:233-247). -/
def run (h : List Ev) : St := h.foldl step {}

end Verif.ConnRace
