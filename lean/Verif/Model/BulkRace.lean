import Verif.Model.CastRace

/-!
# `SocketsJoin` and `SocketsLeave` while other things happen (socket/adapter.go:247-260, 269-318; socket/socket.go:473-498)

Goroutine 0 of `Model/RoomRace` makes bulk calls: it is in the loop of `Model/CastRace`, and where a broadcast sends something it calls
`Join` or `Leave` on the socket, each step of which is one step here.  The other goroutines call the adapter, and sockets come and go,
as they like.
-/

namespace Verif.BulkRace
open Verif Verif.World

/-- The bulk calls (socket/broadcast-operator.go:337-367), with the rooms to join or to leave. -/
inductive Act where
  | join (rs : List Nat)
  | leave (rs : List Nat)
deriving DecidableEq, Repr

/-- The calls of the adapter for one socket: `AddSockets` (socket/adapter.go:247-251) makes one call of `Join`, which makes none if the
socket cannot join rooms any more (socket/socket.go:473-480); `DelSockets` (socket/adapter.go:254-260) makes one call of `Leave` for
every room (socket/socket.go:495-498). -/
def Act.calls (shut : Bool) : Act → List RoomRace.Call
  | .join rs => if shut then [] else [.join rs]
  | .leave rs => rs.map .leave

/-- `cast`: the tables, the sockets of the namespace, and the loop; `shut`: the sockets with `canJoin` false; `act`: the bulk call;
`now`, `todo`: the socket the loop is at, and the calls of the adapter still to be made for it. -/
structure St where
  cast : CastRace.St := {}
  shut : Nat → Bool := fun _ => false
  act : Act := .join []
  now : Nat := 0
  todo : List RoomRace.Call := []

/-- `room`, `connect` and `disconnect` as in `Model/CastRace`, but not for goroutine 0; `shut`: `canJoin` becomes false
(socket/socket.go:645); `bulk`: goroutine 0 makes a bulk call, if it is not in one; `adv`: its next step. -/
inductive Ev where
  | room (e : RoomRace.Ev)
  | connect (id : Nat)
  | disconnect (id : Nat)
  | shut (id : Nat)
  | bulk (a : Act) (rooms except order : List Nat)
  | adv
deriving DecidableEq, Repr

/-- The goroutine of an event. -/
def who : RoomRace.Ev → Nat
  | .call k _ _ => k
  | .adv k => k

/-- Goroutine 0 is in no bulk call. -/
def St.idle (s : St) : Bool := s.cast.pc = .idle && s.todo = [] && (s.cast.tab.th 0).2 = .done

/-- What happens to the tables and to the loop. -/
def does (s : St) : Ev → List CastRace.Ev
  | .room e => if who e = 0 then [] else [.room e]
  | .connect id => [.connect id]
  | .disconnect id => [.disconnect id]
  | .shut _ => []
  | .bulk _ rooms except order => if s.idle then [.cast rooms except order] else []
  | .adv =>
    if (s.cast.tab.th 0).2 ≠ .done then [.room (.adv 0)]
    else match s.todo with
      | c :: _ => [.room (.call 0 s.now c)]
      | [] => [.adv]

/-- The socket the loop has come to, if the step was one of the loop that calls the callback. -/
def reached (old new : CastRace.St) : Option Nat := (new.sent.drop old.sent.length).head?

/-- One event. -/
def step (s : St) (e : Ev) : St :=
  let cast := (does s e).foldl CastRace.step s.cast
  match e with
  | .shut id => { s with shut := upd s.shut id true }
  | .bulk a _ _ _ => if s.idle then { s with cast := cast, act := a } else s
  | .adv =>
    if (s.cast.tab.th 0).2 ≠ .done then { s with cast := cast }
    else match s.todo with
      | _ :: cs => { s with cast := cast, todo := cs }
      | [] => match reached s.cast cast with
        | some id => { s with cast := cast, now := id, todo := s.act.calls (s.shut id) }
        | none => { s with cast := cast }
  | _ => { s with cast := cast }

def run (h : List Ev) : St := h.foldl step {}

/-- The same history for the tables and the loop. -/
def trace : St → List Ev → List CastRace.Ev
  | _, [] => []
  | s, e :: h => does s e ++ trace (step s e) h

end Verif.BulkRace
