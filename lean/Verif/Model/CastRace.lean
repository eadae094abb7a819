import Verif.Model.RoomRace

/-!
# A broadcast while sockets join, leave, come and go (socket/adapter.go:269-318)

One goroutine is in `apply`, every operation on a map or a set being one step; any number of others run the calls of
`Model/RoomRace`, and sockets are added to the namespace and removed from it.  Other broadcasts change none of these tables.  The
same loop is behind `Broadcast`, `BroadcastWithAck`, `FetchSockets` and `Sockets`.
-/

namespace Verif.CastRace
open Verif Verif.World

/-- Where `apply` is; `acc`: `except`, `done`: `ids`. -/
inductive PC where
  | idle
  /-- `computeExceptSids` (socket/adapter.go:308-318): the loop over the rooms `ex`, `a.rooms.Load` -/
  | x (ex rooms acc : List Nat)
  /-- `ids.Keys()` of the set `t` of room `q` -/
  | xk (q t : Nat) (ex rooms acc : List Nat)
  /-- the loop over the rooms (:288-289): `a.rooms.Load` -/
  | r (rooms acc done : List Nat)
  /-- `_ids.Keys()` (:290) -/
  | rk (q t : Nat) (rooms acc done : List Nat)
  /-- the loop over the ids (:290-298) -/
  | ri (keys rooms acc done : List Nat)
  /-- `a.sids.Range` (:301-309) -/
  | all (keys acc : List Nat)
deriving DecidableEq, Repr

/-- `tab`: the tables of the adapter and the calls under way; `reg`: whether the socket is in `nsp.Sockets()`; `sent`: the sockets
`callback` was called for, in this broadcast.  `known` is a ghost variable: the sockets for which there has been a call of the
adapter; `order`: see `cast`. -/
structure St where
  tab : RoomRace.St := {}
  reg : Nat → Bool := fun _ => false
  known : List Nat := []
  order : List Nat := []
  pc : PC := .idle
  sent : List Nat := []

/-- Each element once. -/
def once : List Nat → List Nat
  | [] => []
  | a :: l => a :: (once l).filter (· ≠ a)

/-- One step of `apply` (socket/adapter.go:269-318).  `Range` goes through the ids there are when it begins, in any order, and
leaves out those that are gone when it gets to them.  Simplified: the socket is loaded and the callback called in one step. -/
def act (s : St) : PC → St × PC
  | .idle => (s, .idle)
  | .x [] [] acc => (s, .all (once ((s.order ++ s.known).filter fun i => (s.tab.sids i).isSome)) acc)
  | .x [] rooms acc => (s, .r rooms acc [])
  | .x (q :: ex) rooms acc =>
    match s.tab.rooms q with
    | some t => (s, .xk q t ex rooms acc)
    | none => (s, .x ex rooms acc)
  | .xk _ t ex rooms acc => (s, .x ex rooms (acc ++ s.tab.rset t))
  | .r [] _ _ => (s, .idle)
  | .r (q :: rooms) acc done =>
    match s.tab.rooms q with
    | some t => (s, .rk q t rooms acc done)
    | none => (s, .r rooms acc done)
  | .rk _ t rooms acc done => (s, .ri (s.tab.rset t) rooms acc done)
  | .ri [] rooms acc done => (s, .r rooms acc done)
  | .ri (id :: keys) rooms acc done =>
    if id ∈ done ∨ id ∈ acc then (s, .ri keys rooms acc done)
    else if s.reg id then ({ s with sent := s.sent ++ [id] }, .ri keys rooms acc (done ++ [id]))
    else (s, .ri keys rooms acc done)
  | .all [] _ => (s, .idle)
  | .all (id :: keys) acc =>
    if (s.tab.sids id).isSome ∧ id ∉ acc ∧ s.reg id then ({ s with sent := s.sent ++ [id] }, .all keys acc)
    else (s, .all keys acc)

/-- `room`: something happens in the adapter; `connect`, `disconnect`: the socket is stored in `nsp.Sockets()`
(socket/namespace.go:350) or removed (:375); `cast`: a broadcast begins (if none is under way), `order` says in which order
`Range` goes through the ids; `adv`: one step of it. -/
inductive Ev where
  | room (e : RoomRace.Ev)
  | connect (id : Nat)
  | disconnect (id : Nat)
  | cast (rooms except order : List Nat)
  | adv
deriving DecidableEq, Repr

/-- One event (socket/adapter.go:269-318; socket/namespace.go:350, 375). -/
def step (s : St) : Ev → St
  | .room e => { s with
      tab := RoomRace.step s.tab e
      known := match e with
        | .call _ id _ => s.known ++ [id]
        | .adv _ => s.known }
  | .connect id => { s with reg := upd s.reg id true }
  | .disconnect id => { s with reg := upd s.reg id false }
  | .cast rooms except order => if s.pc = .idle then { s with pc := .x except rooms [], order := order, sent := [] } else s
  | .adv => { (act s s.pc).1 with pc := (act s s.pc).2 }

/-- A history (socket/adapter.go:269-318). -/
def run (h : List Ev) : St := h.foldl step {}

end Verif.CastRace
