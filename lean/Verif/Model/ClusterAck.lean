import Verif.Model.Collector

/-!
# A broadcast with acknowledgement in a cluster (adapter/cluster-adapter.go:92-118, 226-248, 331-363)

Server 0 makes the call; servers `1 … n-1` are the others.  `clients j` lists the answers of the clients
selected on server `j`.  Messages, answers of clients and timers interleave in any order.  The transport
delivers requests and responses once.
-/

namespace Verif.ClusterAck
open Verif

structure Cfg where
  n : Nat
  clients : Nat → List (List Val)
  /-- the Local flag -/
  isLocal : Bool
  /-- what `ServerCount()` returns -/
  serverCount : Nat

/-- `requests`: servers the BROADCAST message is under way to.  `reporting`: servers that have notified their
clients and not yet called `clientCountCallback`.  `waiting`: clients that have been notified and have not
answered.  `responses`: responses under way to server 0.  `open_`: the entry in `ackRequests` exists.
`read`: `ServerCount()` has been read.  `evs` is a ghost variable: what has reached the collector. -/
structure St where
  requests : List Nat
  reporting : List Nat
  waiting : List (Nat × List Val)
  responses : List Collector.Ev := []
  open_ : Bool := true
  read : Bool := false
  col : Collector.St := {}
  evs : List Collector.Ev := []
deriving DecidableEq, Repr

/-- One of the two closures given to the adapter, the read of the number of servers, or the timer
(socket/broadcast-operator.go:210-250). -/
def St.collect (s : St) (e : Collector.Ev) : St :=
  { s with col := Collector.step false s.col e, evs := s.evs ++ [e] }

/-- After `Publish` and after the in-memory adapter of server 0 has notified its own clients
(adapter/cluster-adapter.go:331-362, socket/adapter.go:190-201). -/
def init (c : Cfg) : St where
  requests := if c.isLocal then [] else (List.range (c.n - 1)).map (· + 1)
  reporting := [0]
  waiting := (c.clients 0).map (fun a => (0, a))

inductive Ev where
  /-- the `k`-th request under way arrives (adapter/cluster-adapter.go:92-96) -/
  | arrive (k : Nat)
  /-- the `k`-th server that has to reports its number of clients (adapter/cluster-adapter.go:97-106;
  on server 0 the callback itself, socket/broadcast-operator.go:239-243) -/
  | report (k : Nat)
  /-- the `k`-th client that has to answers (adapter/cluster-adapter.go:107-116; on server 0 the callback
  itself, socket/broadcast-operator.go:244-248) -/
  | answer (k : Nat)
  /-- the `k`-th response under way arrives (adapter/cluster-adapter.go:226-248) -/
  | deliver (k : Nat)
  /-- `BroadcastWithAck` has returned (socket/broadcast-operator.go:249-250) -/
  | servers
  /-- the request is forgotten (adapter/cluster-adapter.go:357-359) -/
  | expire
  /-- the timer of the collector (socket/broadcast-operator.go:210-217) -/
  | fire
deriving DecidableEq, Repr

def step (c : Cfg) (s : St) : Ev → St
  | .arrive k => match s.requests[k]? with
    | some j => { s with requests := s.requests.eraseIdx k, reporting := s.reporting ++ [j],
                         waiting := s.waiting ++ (c.clients j).map (fun a => (j, a)) }
    | none => s
  | .report k => match s.reporting[k]? with
    | some j =>
      let s := { s with reporting := s.reporting.eraseIdx k }
      if j = 0 then s.collect (.count (c.clients j).length)
      else { s with responses := s.responses ++ [.count (c.clients j).length] }
    | none => s
  | .answer k => match s.waiting[k]? with
    | some (j, a) =>
      let s := { s with waiting := s.waiting.eraseIdx k }
      if j = 0 then s.collect (.answer a) else { s with responses := s.responses ++ [.answer a] }
    | none => s
  | .deliver k => match s.responses[k]? with
    | some e =>
      let s := { s with responses := s.responses.eraseIdx k }
      if s.open_ then s.collect e else s
    | none => s
  | .servers => if s.read then s else { s with read := true }.collect (.servers c.serverCount)
  | .expire => { s with open_ := false }
  | .fire => s.collect .fire

def run (c : Cfg) (h : List Ev) : St := h.foldl (step c) (init c)

end Verif.ClusterAck
