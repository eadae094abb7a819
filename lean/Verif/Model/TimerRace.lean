import Verif.Model.Types

/-!
# The connect timeout, goroutine by goroutine (socket/client.go:72-85, 120-130)

One client.  Its sockets are numbered in the order in which the middlewares let them pass; each is connected by a goroutine of its own
(socket/namespace.go:275-301).
-/

namespace Verif.TimerRace
open Verif

/-- Before `SetTimeout`, started, gone off, stopped. -/
inductive Timer where
  | unset | armed | fired | cleared
deriving DecidableEq, Repr

/-- Where `setup` is: before `SetTimeout` (socket/client.go:77), before `connectTimeout.Store` (:77), after. -/
inductive Setup where
  | arm | store | done
deriving DecidableEq, Repr

/-- Where a goroutine that connects a socket is: before `connected.Store(true)` (socket/socket.go:512), before the CONNECT packet is written
(socket/socket.go:515-529), before `nsps.Store` (socket/client.go:124), before `connectTimeout.Load` (:125), before `ClearTimeout` (:126),
before `connectTimeout.Store(nil)` (:127), after. -/
inductive Pc where
  | flag | write | name | load | clear | forget | done
deriving DecidableEq, Repr

/-- Where the function of the timer is: not begun, before `nsps.Len` (socket/client.go:78), before `ReadyState` (socket/client.go:154), before
`conn.Close` (socket/client.go:156), after. -/
inductive Tpc where
  | idle | test | state | close | done
deriving DecidableEq, Repr

/-- `ptr`: `connectTimeout` holds the timer; `live`: the sockets that are connected; `told`: those whose CONNECT packet was written; `nsps`: those
the client has noted; `cut`: the sockets that were connected when the function of the timer closed the connection. -/
structure St where
  isOpen : Bool := true
  timer : Timer := .unset
  ptr : Bool := false
  setup : Setup := .arm
  ths : List Pc := []
  live : List Nat := []
  told : List Nat := []
  nsps : List Nat := []
  tmo : Tpc := .idle
  cut : Option (List Nat) := none
deriving DecidableEq, Repr

/-- The next step of `setup` (socket/client.go:72-85); the listeners are there already (:73-76). -/
def setupStep (s : St) : St :=
  match s.setup with
  | .arm => { s with timer := .armed, setup := .store }
  | .store => { s with ptr := true, setup := .done }
  | .done => s

/-- The next step of the goroutine that connects socket `k` (socket/socket.go:509-530, socket/client.go:122-129).  Simplified: what does not
concern the timer is left out. -/
def advance (s : St) (k : Nat) : Pc → St × Pc
  | .flag => ({ s with live := LSet.add s.live k }, .write)
  | .write => ({ s with told := if s.isOpen then LSet.add s.told k else s.told }, .name)
  | .name => ({ s with nsps := LSet.add s.nsps k }, .load)
  | .load => (s, if s.ptr then .clear else .done)
  | .clear => ({ s with timer := if s.timer = .armed then .cleared else s.timer }, .forget)
  | .forget => ({ s with ptr := false }, .done)
  | .done => (s, .done)

/-- The next step of the function of the timer (socket/client.go:77-84, 153-159). -/
def tmoStep (s : St) : St :=
  match s.tmo with
  | .idle => s
  | .test => { s with tmo := if s.nsps = [] then .state else .done }
  | .state => { s with tmo := if s.isOpen then .close else .done }
  | .close => { s with isOpen := false, cut := some s.live, tmo := .done }
  | .done => s

/-- `setup`, `adv k`, `tick`: the next step of `setup`, of the goroutine of socket `k`, of the function of the timer; `come`: the middlewares have let
a socket pass; `leave k`: socket `k` is disconnected (socket/socket.go:618-639, socket/client.go:143-150; in one step); `fire`: the timer goes
off; `hangup`: the connection closes for another reason. -/
inductive Ev where
  | setup
  | come
  | adv (k : Nat)
  | leave (k : Nat)
  | fire
  | tick
  | hangup
deriving DecidableEq, Repr

/-- One event (socket/client.go:72-159). -/
def step (s : St) : Ev → St
  | .setup => setupStep s
  | .come => { s with ths := s.ths ++ [.flag] }
  | .adv k =>
    match s.ths[k]? with
    | none => s
    | some pc => { (advance s k pc).1 with ths := s.ths.set k (advance s k pc).2 }
  | .leave k => { s with live := LSet.del s.live k, nsps := LSet.del s.nsps k }
  | .fire => if s.timer = .armed then { s with timer := .fired, tmo := .test } else s
  | .tick => tmoStep s
  | .hangup => { s with isOpen := false }

/-- A history (socket/client.go:72-159). -/
def run (h : List Ev) : St := h.foldl step {}

end Verif.TimerRace
