import Verif.Model.BulkRace
import Verif.Model.Collector

/-!
# A broadcast with acknowledgement while other things happen (socket/broadcast-operator.go:184-251; socket/adapter.go:173-203)

The loop is that of `Model/CastRace`.  For each socket it comes to, the callback is stored in the socket's map of acknowledgements and then
the packet is written (socket/adapter.go:191-201), while other goroutines call the adapter, sockets come and go, and clients answer.  When
the loop has ended the number of sockets is reported and the number of servers is read.  What the callbacks of the operator do is
`Model/Collector`, operation by operation.  One server, one broadcast with `ExpectSingleResponse` not set.
-/

namespace Verif.PollRace
open Verif Verif.World

/-- Where the call is. -/
inductive PC where
  /-- there is none -/
  | idle
  /-- `apply` (socket/adapter.go:191) -/
  | loop
  /-- before `socket.Acks().Store` (socket/adapter.go:195) -/
  | store (id : Nat)
  /-- before `WriteToEngine` (socket/adapter.go:199) -/
  | write (id : Nat)
  /-- before `clientCountCallback` (socket/adapter.go:201) -/
  | report
  /-- before `expectedServerCount = b.adapter.ServerCount()` (socket/broadcast-operator.go:248) -/
  | read
deriving DecidableEq, Repr

/-- `cast`: the tables, the sockets of the namespace, and the loop; `acks`: whether the callback is in the socket's map (under the id of this
packet, which no other has, C30); `stored`: the sockets it has been stored for, whose number is `clientCount`; `written`: the sockets the
packet has been written to; `heard`: the answers for which the callback has been called; `hist`: what has happened to the variables of the
operator, which are `Collector.crun hist`. -/
structure St where
  cast : CastRace.St := {}
  pc : PC := .idle
  acks : Nat → Bool := fun _ => false
  stored : List Nat := []
  written : List Nat := []
  heard : List (Nat × List Val) := []
  hist : List Collector.CEv := []

/-- `room`, `connect`, `disconnect`: as in `Model/CastRace`; `emit`: the call begins, if there is none; `adv`: its next step; `answer`: an ACK
packet with the id of this broadcast comes from the client; `fire`: the timer; `coll`: a goroutine goes on in the callbacks of the operator. -/
inductive Ev where
  | room (e : RoomRace.Ev)
  | connect (id : Nat)
  | disconnect (id : Nat)
  | emit (rooms except order : List Nat)
  | adv
  | answer (id : Nat) (args : List Val)
  | fire
  | coll (k : Nat)
deriving DecidableEq, Repr

/-- What happens to the tables, the namespace and the loop (socket/adapter.go:269-318). -/
def does (s : St) : Ev → List CastRace.Ev
  | .room e => [.room e]
  | .connect id => [.connect id]
  | .disconnect id => [.disconnect id]
  | .emit rooms except order => if s.pc = .idle then [.cast rooms except order] else []
  | .adv => if s.pc = .loop then [.adv] else []
  | _ => []

/-- What happens to the rest; `cast` is what `does` gives (socket/broadcast-operator.go:184-251; socket/adapter.go:191-201;
socket/socket.go:584-592).  Simplified: an answer takes the callback out of the map before it is called, in the code this is done after; but
the packets of one client are handled one after the other.  What the goroutine of the call does in the callbacks of the operator may
overlap with what it does next, which allows more than the code. -/
def other (s : St) (cast : CastRace.St) : Ev → St
  | .emit _ _ _ =>
    if s.pc = .idle then { s with pc := .loop, acks := fun _ => false, stored := [], written := [], heard := [], hist := [] } else s
  | .adv => match s.pc with
    | .idle => s
    | .loop => match BulkRace.reached s.cast cast with
      | some id => { s with pc := .store id }
      | none => if cast.pc = .idle then { s with pc := .report } else s
    | .store id => { s with pc := .write id, acks := upd s.acks id true, stored := s.stored ++ [id] }
    | .write id => { s with pc := .loop, written := s.written ++ [id] }
    | .report => { s with pc := .read, hist := s.hist ++ [.start (.count s.stored.length)] }
    | .read => { s with pc := .idle, hist := s.hist ++ [.start (.servers 1)] }
  | .answer id args =>
    if s.acks id then
      { s with acks := upd s.acks id false, heard := s.heard ++ [(id, args)], hist := s.hist ++ [.start (.answer args)] }
    else s
  | .fire => { s with hist := s.hist ++ [.start .fire] }
  | .coll k => { s with hist := s.hist ++ [.adv k] }
  | _ => s

/-- One event (socket/broadcast-operator.go:184-251). -/
def step (s : St) (e : Ev) : St :=
  { other s ((does s e).foldl CastRace.step s.cast) e with cast := (does s e).foldl CastRace.step s.cast }

/-- A history (socket/broadcast-operator.go:184-251). -/
def run (h : List Ev) : St := h.foldl step {}

/-- The same history for the tables, the namespace and the loop (socket/adapter.go:269-318). -/
def trace : St → List Ev → List CastRace.Ev
  | _, [] => []
  | s, e :: h => does s e ++ trace (step s e) h

/-- The variables of the operator (socket/broadcast-operator.go:202-221). -/
def St.coll (s : St) : Collector.CSt := Collector.crun s.hist

end Verif.PollRace
