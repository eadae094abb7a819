import Verif.Model.Heartbeat

/-!
# Responses to one request, handled by concurrent goroutines
(adapter/cluster-adapter-with-heartbeat.go:283-326)

Each call of `OnResponse` is a thread; every access to the maps and sets is one step.
-/

namespace Verif.RequestsConc
open Verif Verif.Heartbeat

/-- Where a call of `OnResponse` is: before `customRequests.Load` (:292), before `Responses.Push` (:294),
before `MissingUids.Delete` (:296), before `MissingUids.Len() == 0` (:297), before `Resolve` (:299), before
`customRequests.Delete` (:301), after. -/
inductive Pc where
  | load | push | delete | check | resolve | erase | done
deriving DecidableEq, Repr

/-- `stored`: the request is in `customRequests`; `calls`: the values given to the callback, per call. -/
structure St where
  stored : Bool := true
  missing : List Uid := []
  responses : List Val := []
  calls : List (List Val) := []
  threads : List (Uid × List Val × Pc) := []
deriving DecidableEq, Repr

inductive Ev where
  | respond (u : Uid) (l : List Val)
  | adv (k : Nat)
deriving DecidableEq, Repr

/-- One step of a thread: new shared state and new position. -/
def advance (s : St) (u : Uid) (l : List Val) : Pc → St × Pc
  | .load => (s, if s.stored then .push else .done)
  | .push => ({ s with responses := s.responses ++ l }, .delete)
  | .delete => ({ s with missing := LSet.del s.missing u }, .check)
  | .check => (s, if s.missing.length = 0 then .resolve else .done)
  | .resolve => ({ s with calls := s.calls ++ [s.responses] }, .erase)
  | .erase => ({ s with stored := false }, .done)
  | .done => (s, .done)

def step (s : St) : Ev → St
  | .respond u l => { s with threads := s.threads ++ [(u, l, .load)] }
  | .adv k =>
    match s.threads[k]? with
    | none => s
    | some (u, l, pc) =>
      let r := advance s u l pc
      { r.1 with threads := s.threads.set k (u, l, r.2) }

/-- A request of the servers `missing`, then any schedule. -/
def run (missing : List Uid) (here : List Val) (h : List Ev) : St :=
  h.foldl step { missing := missing, responses := here }

end Verif.RequestsConc
