import Verif.Model.World

/-!
# The table of the other servers (adapter/cluster-adapter-with-heartbeat.go:75-84, 112-145, 328-340)

Messages of other servers are handled by any number of goroutines, as the transport delivers them, while the clean-up timer fires.
Every access to `nodesMap` and every reading of the clock is one step.  Servers are numbers; the server itself and the emitters, whose
messages are not recorded, are none of them.  The clock never goes back.  Left out: what messages do besides (Model/Cluster), and the
requests that wait for a server that is removed (Model/RequestsConc).
-/

namespace Verif.NodeRace
open Verif Verif.World

/-- What a goroutine that handles a message does next. -/
inductive MPC where
  /-- `time.Now()` (adapter/cluster-adapter-with-heartbeat.go:121) -/
  | stamp
  /-- `a.nodesMap.Store` (adapter/cluster-adapter-with-heartbeat.go:121) -/
  | store (t : Nat)
  /-- `a.nodesMap.Delete` in `removeNode` (adapter/cluster-adapter-with-heartbeat.go:339) -/
  | drop
  | done
deriving DecidableEq, Repr

/-- A message of server `uid`, which may be ADAPTER_CLOSE. -/
structure Msg where
  uid : Nat
  close : Bool
  pc : MPC := .stamp
deriving DecidableEq, Repr

/-- What a clean-up does next. -/
inductive CPC where
  /-- `now := time.Now()` (adapter/cluster-adapter-with-heartbeat.go:76); the servers in the order in which `Range` will visit them -/
  | start (order : List Nat)
  /-- the next server (adapter/cluster-adapter-with-heartbeat.go:77-80) -/
  | visit (now : Nat) (todo : List Nat)
  /-- `a.nodesMap.Delete` in `removeNode` (adapter/cluster-adapter-with-heartbeat.go:339) -/
  | drop (now : Nat) (uid : Nat) (todo : List Nat)
deriving DecidableEq, Repr

/-- The clock; when each server was last seen (`nodesMap`); the messages being handled; the clean-ups. -/
structure St where
  now : Nat := 0
  seen : Nat → Option Nat := fun _ => none
  msgs : List Msg := []
  cleans : List CPC := []

/-- Time passes; a message arrives; its next step; the clean-up timer fires; the next step of the clean-up. -/
inductive Ev where
  | tick (d : Nat)
  | msg (uid : Nat) (close : Bool)
  | onMsg (k : Nat)
  | clean (order : List Nat)
  | onClean (k : Nat)
deriving DecidableEq, Repr

def actMsg (s : St) (m : Msg) : St × Msg :=
  match m.pc with
  | .stamp => (s, { m with pc := .store s.now })
  | .store t => ({ s with seen := upd s.seen m.uid (some t) }, { m with pc := if m.close then .drop else .done })
  | .drop => ({ s with seen := upd s.seen m.uid none }, { m with pc := .done })
  | .done => (s, m)

/-- `timeout` is `HeartbeatTimeout()`. -/
def actClean (timeout : Nat) (s : St) : CPC → St × CPC
  | .start order => (s, .visit s.now order)
  | .visit now [] => (s, .visit now [])
  | .visit now (u :: todo) => match s.seen u with
    | none => (s, .visit now todo)
    | some t => (s, if now - t > timeout then .drop now u todo else .visit now todo)
  | .drop now u todo => ({ s with seen := upd s.seen u none }, .visit now todo)

def step (timeout : Nat) (s : St) : Ev → St
  | .tick d => { s with now := s.now + d }
  | .msg uid close => { s with msgs := s.msgs ++ [{ uid := uid, close := close }] }
  | .onMsg k => match s.msgs[k]? with
    | some m => { (actMsg s m).1 with msgs := s.msgs.set k (actMsg s m).2 }
    | none => s
  | .clean order => { s with cleans := s.cleans ++ [.start order] }
  | .onClean k => match s.cleans[k]? with
    | some c => { (actClean timeout s c).1 with cleans := s.cleans.set k (actClean timeout s c).2 }
    | none => s

def run (timeout : Nat) (h : List Ev) : St := h.foldl (step timeout) {}

end Verif.NodeRace
