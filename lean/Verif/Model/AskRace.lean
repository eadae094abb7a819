import Verif.Model.Heartbeat

/-!
# One request to the cluster, while servers answer, come and leave and the timer runs
(adapter/cluster-adapter-with-heartbeat.go:153-218, 220-281, 283-340)

Every access to the maps, sets and timers is one step.  One request; `kind` says of which sort, `here` are the values of this server.
-/

namespace Verif.AskRace
open Verif Verif.Heartbeat

/-- Where the call that asks is: before `nodesMap.Len()` (:169, 235), before `SetTimeout` (:188, 249), before `nodesMap.Keys()` (:206, 266),
before `customRequests.Store` (:198, 256), before `Publish` (:210, 272), after. -/
inductive APc where
  | count | timer | keys | store | publish | done
deriving DecidableEq, Repr

/-- Where a call of `OnResponse` or `removeNode` is: before `customRequests.Load` (:292, 312) or the `Range` (:329), before `Responses.Push`
(:293, 313; only `OnResponse`), before `MissingUids.Delete` (:297, 315, 330), before `MissingUids.Len() == 0` (:298, 316, 331), before
`ClearTimeout` (:299, 317, 332), before `Resolve` (:300, 318, 333), before `customRequests.Delete` (:301, 319, 334), before
`nodesMap.Delete` (:339; only `removeNode`), after. -/
inductive Pc where
  | load | push | delete | check | clear | resolve | erase | forget | done
deriving DecidableEq, Repr

/-- The function of the timer (:188-196, 249-254): not started, before `Load`, before the call, before `Delete`, after. -/
inductive TPc where
  | idle | load | call | erase | done
deriving DecidableEq, Repr

inductive Timer where
  | unset | armed | fired | cleared
deriving DecidableEq, Repr

/-- `answer`: the values of an answer; `none` is `removeNode`. -/
structure Th where
  uid : Uid
  answer : Option (List Val)
  pc : Pc := .load
deriving DecidableEq, Repr

/-- `nodes`: the keys of `nodesMap`; `asked`: `MissingUids` as it was made, a ghost variable; `stored`: the request is in
`customRequests`; `calls`: how the callback was called. -/
structure St where
  nodes : List Uid := []
  asker : APc := .count
  asked : Option (List Uid) := none
  stored : Bool := false
  missing : List Uid := []
  responses : List Val := []
  timer : Timer := .unset
  tmo : TPc := .idle
  ths : List Th := []
  calls : List Call := []
deriving DecidableEq, Repr

/-- The call that asks. -/
def askStep (here : List Val) (s : St) : St :=
  match s.asker with
  | .count => if s.nodes.length = 0 then { s with calls := s.calls ++ [.ok here], asker := .done } else { s with asker := .timer }
  | .timer => { s with timer := .armed, asker := .keys }
  | .keys => { s with missing := s.nodes, responses := here, asked := some s.nodes, asker := .store }
  | .store => { s with stored := true, asker := .publish }
  | .publish => { s with asker := .done }
  | .done => s

/-- What is left to do when the request needs nothing. -/
def rest : Option (List Val) → Pc
  | some _ => .done
  | none => .forget

/-- One step of `OnResponse` or `removeNode`. -/
def advance (s : St) (u : Uid) (a : Option (List Val)) : Pc → St × Pc
  | .load => (s, if s.stored then (match a with
      | some _ => .push
      | none => .delete) else rest a)
  | .push => ({ s with responses := s.responses ++ a.getD [] }, .delete)
  | .delete => ({ s with missing := LSet.del s.missing u }, .check)
  | .check => (s, if s.missing.length = 0 then .clear else rest a)
  | .clear => ({ s with timer := if s.timer = .armed then .cleared else s.timer }, .resolve)
  | .resolve => ({ s with calls := s.calls ++ [.ok s.responses] }, .erase)
  | .erase => ({ s with stored := false }, rest a)
  | .forget => ({ s with nodes := LSet.del s.nodes u }, .done)
  | .done => (s, .done)

/-- The function of the timer. -/
def tmoStep (kind : Kind) (s : St) : St :=
  match s.tmo with
  | .idle => s
  | .load => { s with tmo := if s.stored then .call else .done }
  | .call => { s with calls := s.calls ++ [.err (if kind = .sse then s.responses else [])], tmo := .erase }
  | .erase => { s with stored := false, tmo := .done }
  | .done => s

/-- `ask`, `adv`, `tick`: the next step of the call that asks, of the `k`-th of the other calls, of the function of the timer; `arrive`: a
message of another server (:121; `nodesMap.Store`); `respond`: the answer of a server arrives, once it can have been asked; `leave`:
`removeNode` is called for a server (:80, 137); `fire`: the timer goes off. -/
inductive Ev where
  | ask
  | arrive (u : Uid)
  | respond (u : Uid) (l : List Val)
  | leave (u : Uid)
  | adv (k : Nat)
  | fire
  | tick
deriving DecidableEq, Repr

def step (kind : Kind) (here : List Val) (s : St) : Ev → St
  | .ask => askStep here s
  | .arrive u => { s with nodes := LSet.add s.nodes u }
  | .respond u l => if s.asker = .done then { s with ths := s.ths ++ [⟨u, some l, .load⟩] } else s
  | .leave u => { s with ths := s.ths ++ [⟨u, none, .load⟩] }
  | .adv k =>
    match s.ths[k]? with
    | none => s
    | some t => { (advance s t.uid t.answer t.pc).1 with ths := s.ths.set k { t with pc := (advance s t.uid t.answer t.pc).2 } }
  | .fire => if s.timer = .armed then { s with timer := .fired, tmo := .load } else s
  | .tick => tmoStep kind s

def run (kind : Kind) (here : List Val) (h : List Ev) : St := h.foldl (step kind here) {}

end Verif.AskRace
