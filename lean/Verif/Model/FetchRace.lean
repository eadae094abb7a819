import Verif.Model.CastRace

/-!
# `FetchSockets` while other things happen (socket/broadcast-operator.go:305-323; socket/adapter.go:236-244, 269-318)

The loop is that of `Model/CastRace`: where a broadcast sends something, the socket is appended to the list.  When the loop has ended, a
`RemoteSocket` is made of each socket of the list, with a copy of its rooms (socket/remote-socket.go:57-66), in two steps: the set of rooms
is loaded (socket/adapter.go:228-233), then its elements are copied.  Other goroutines call the adapter, and sockets come and go, as they
like.  Left out of the remote sockets: handshake and data.  `AllSockets` is the loop alone (socket/adapter.go:219-225).
-/

namespace Verif.FetchRace
open Verif Verif.World

/-- Where the call is. -/
inductive PC where
  /-- there is none -/
  | idle
  /-- `apply` (socket/adapter.go:239-241) -/
  | loop
  /-- the sockets of which remote sockets are still to be made (socket/broadcast-operator.go:313) -/
  | wrap (todo : List Nat)
  /-- the set of rooms of socket `id` has been loaded (socket/socket.go:862) -/
  | keys (id x : Nat) (todo : List Nat)
deriving DecidableEq, Repr

/-- `cast`: the tables, the sockets of the namespace, and the loop; `pc`: where the call is; `result`: the remote sockets made so far, with
their rooms. -/
structure St where
  cast : CastRace.St := {}
  pc : PC := .idle
  result : List (Nat × List Nat) := []

/-- `room`, `connect`, `disconnect`: as in `Model/CastRace`; `fetch`: the call begins, if there is none; `adv`: its next step. -/
inductive Ev where
  | room (e : RoomRace.Ev)
  | connect (id : Nat)
  | disconnect (id : Nat)
  | fetch (rooms except order : List Nat)
  | adv
deriving DecidableEq, Repr

/-- What happens to the tables, the namespace and the loop (socket/adapter.go:269-318). -/
def does (s : St) : Ev → List CastRace.Ev
  | .room e => [.room e]
  | .connect id => [.connect id]
  | .disconnect id => [.disconnect id]
  | .fetch rooms except order => if s.pc = .idle then [.cast rooms except order] else []
  | .adv => if s.pc = .loop then [.adv] else []

/-- What happens to the rest; `cast` is what `does` gives (socket/broadcast-operator.go:305-323; socket/remote-socket.go:57-66). -/
def other (s : St) (cast : CastRace.St) : Ev → St
  | .fetch _ _ _ => if s.pc = .idle then { s with pc := .loop, result := [] } else s
  | .adv => match s.pc with
    | .idle => s
    | .loop => if cast.pc = .idle then { s with pc := .wrap cast.sent } else s
    | .wrap [] => { s with pc := .idle }
    | .wrap (id :: todo) => match s.cast.tab.sids id with
      | some x => { s with pc := .keys id x todo }
      | none => { s with pc := .wrap todo, result := s.result ++ [(id, [])] }
    | .keys id x todo => { s with pc := .wrap todo, result := s.result ++ [(id, s.cast.tab.sset x)] }
  | _ => s

/-- One event (socket/broadcast-operator.go:305-323). -/
def step (s : St) (e : Ev) : St :=
  { other s ((does s e).foldl CastRace.step s.cast) e with cast := (does s e).foldl CastRace.step s.cast }

/-- A history (socket/broadcast-operator.go:305-323). -/
def run (h : List Ev) : St := h.foldl step {}

/-- The same history for the tables, the namespace and the loop (socket/adapter.go:269-318). -/
def trace : St → List Ev → List CastRace.Ev
  | _, [] => []
  | s, e :: h => does s e ++ trace (step s e) h

end Verif.FetchRace
