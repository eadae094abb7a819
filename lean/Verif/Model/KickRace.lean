import Verif.Model.BulkRace

/-!
# `DisconnectSockets` while other things happen (socket/adapter.go:263-318; socket/socket.go:618-681)

Goroutine 0 of `Model/RoomRace` calls `DisconnectSockets(false)` for some rooms: it is in the loop of `Model/CastRace`, and where a
broadcast sends something it calls `Disconnect(false)` on the socket, each step of which is one step here.  The other goroutines call
the adapter, and connect and disconnect sockets, as they like.  A socket is connected once.  Left out: the sessions, which are not saved
for this reason (C14); the tables of the client (`Model/ConnRace`); the clean-up of the namespace (`Model/DynRace`).
-/

namespace Verif.KickRace
open Verif Verif.World

/-- What `Disconnect(false)` does next for a socket. -/
inductive Step where
  /-- `if !s.Connected()` (socket/socket.go:670) -/
  | first
  /-- the DISCONNECT packet (socket/socket.go:676-678) -/
  | packet
  /-- `if !s.Connected()` in `_onclose` (socket/socket.go:619) -/
  | check
  /-- `EmitReserved("disconnecting")` (socket/socket.go:623) -/
  | disconnecting
  /-- `s.leaveAll()` (socket/socket.go:643), a call of the adapter -/
  | leave
  /-- `s.nsp.Remove(s)` (socket/socket.go:644) -/
  | remove
  /-- `s.canJoin.Store(false)` (socket/socket.go:645) -/
  | forbid
  /-- `s.connected.Store(false)` (socket/socket.go:636) -/
  | unflag
  /-- `EmitReserved("disconnect")` (socket/socket.go:637) -/
  | event
deriving DecidableEq, Repr

/-- What the call does to a socket that is seen. -/
inductive Obs where
  | packet (id : Nat)
  | disconnecting (id : Nat)
  | disconnect (id : Nat)
deriving DecidableEq, Repr

/-- How far a socket is: not yet in the namespace; in it; its connection is finished. -/
inductive Phase where
  | new
  | stored
  | finished
deriving DecidableEq, Repr

/-- `cast`: the tables, the sockets of the namespace, and the loop; the flags of the sockets; `pc`: the socket the loop is at, and what is
done for it next; `log`: what this call has done so far. -/
structure St where
  cast : CastRace.St := {}
  phase : Nat → Phase := fun _ => .new
  connected : Nat → Bool := fun _ => false
  canJoin : Nat → Bool := fun _ => true
  pc : Option (Nat × Step) := none
  log : List Obs := []

/-- `room`: another goroutine calls the adapter, or goes on in such a call.  `store`: a socket is stored in the namespace
(socket/namespace.go:350); `flag`: `connected` becomes true (socket/socket.go:512).  `remove`, `forbid`, `unflag`: what another goroutine that
disconnects a socket does (socket/socket.go:644, 645, 636).  `kick`: goroutine 0 calls `DisconnectSockets`, if it is not in one; `adv`: its
next step. -/
inductive Ev where
  | room (e : RoomRace.Ev)
  | store (id : Nat)
  | flag (id : Nat)
  | remove (id : Nat)
  | forbid (id : Nat)
  | unflag (id : Nat)
  | kick (rooms except order : List Nat)
  | adv
deriving DecidableEq, Repr

/-- Goroutine 0 is in no call. -/
def St.idle (s : St) : Bool := s.cast.pc = .idle && s.pc = none && (s.cast.tab.th 0).2 = .done

/-- What happens to the tables, the namespace and the loop (socket/adapter.go:269-318; socket/namespace.go:350, 375). -/
def does (s : St) : Ev → List CastRace.Ev
  | .room e => if BulkRace.who e = 0 then [] else [.room e]
  | .store id => if s.phase id = .new then [.connect id] else []
  | .remove id => [.disconnect id]
  | .kick rooms except order => if s.idle then [.cast rooms except order] else []
  | .adv =>
    if (s.cast.tab.th 0).2 ≠ .done then [.room (.adv 0)]
    else match s.pc with
      | none => [.adv]
      | some (id, .leave) => [.room (.call 0 id .leaveAll)]
      | some (id, .remove) => [.disconnect id]
      | some _ => []
  | _ => []

/-- A step of `Disconnect(false)` (socket/socket.go:669-681, 618-646), but for what `does` says. -/
def work (s : St) (id : Nat) : Step → St
  | .first => { s with pc := if s.connected id then some (id, .packet) else none }
  | .packet => { s with log := s.log ++ [.packet id], pc := some (id, .check) }
  | .check => { s with pc := if s.connected id then some (id, .disconnecting) else none }
  | .disconnecting => { s with log := s.log ++ [.disconnecting id], pc := some (id, .leave) }
  | .leave => { s with pc := some (id, .remove) }
  | .remove => { s with pc := some (id, .forbid) }
  | .forbid => { s with canJoin := upd s.canJoin id false, pc := some (id, .unflag) }
  | .unflag => { s with connected := upd s.connected id false, pc := some (id, .event) }
  | .event => { s with log := s.log ++ [.disconnect id], pc := none }

/-- What happens to the rest (socket/adapter.go:263-318; socket/socket.go:512, 618-681). -/
def other (s : St) : Ev → St
  | .store id => if s.phase id = .new then { s with phase := upd s.phase id .stored } else s
  | .flag id => if s.phase id = .stored then { s with phase := upd s.phase id .finished, connected := upd s.connected id true } else s
  | .forbid id => { s with canJoin := upd s.canJoin id false }
  | .unflag id => { s with connected := upd s.connected id false }
  | .kick _ _ _ => if s.idle then { s with log := [] } else s
  | .adv =>
    if (s.cast.tab.th 0).2 ≠ .done then s
    else match s.pc with
      | some (id, st) => work s id st
      | none => { s with pc := (BulkRace.reached s.cast (CastRace.step s.cast .adv)).map (·, .first) }
  | _ => s

/-- One event (socket/adapter.go:263-318; socket/socket.go:618-681). -/
def step (s : St) (e : Ev) : St := { other s e with cast := (does s e).foldl CastRace.step s.cast }

/-- A history (socket/adapter.go:263-318). -/
def run (h : List Ev) : St := h.foldl step {}

/-- The same history for the tables, the namespace and the loop (socket/adapter.go:269-318). -/
def trace : St → List Ev → List CastRace.Ev
  | _, [] => []
  | s, e :: h => does s e ++ trace (step s e) h

end Verif.KickRace
