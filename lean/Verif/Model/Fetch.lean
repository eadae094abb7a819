import Verif.Model.Cluster
import Verif.Model.RoomRace

/-!
# One `FetchSockets` on a cluster, with everything that happens meanwhile
(adapter/cluster-adapter-with-heartbeat.go, adapter/cluster-adapter.go)

Server `me` calls `FetchSockets` once.  The call, the way of the request to each server and of its answer back, the handling
of each answer, the removal of servers and the timer are goroutines of which every access to shared state is one step.  On
every server sockets come, go, join and leave.  Other requests have other ids and do not touch this one.  The uid of a server
is its number.
-/

namespace Verif.Fetch
open Verif Verif.World Verif.Delivery

/-- What the call does next: after the local sockets are fetched, the count (adapter/cluster-adapter-with-heartbeat.go:237),
`nodesMap.Keys()` (:264), `customRequests.Store` (:256), `Publish` (:272), nothing; `returned`: the callback was called at once
(:239-242). -/
inductive Main where
  | idle
  | count (here : List Sid)
  | keys (here : List Sid)
  | store (here : List Sid) (asked : List Nat)
  | publish
  | finished
  | returned
deriving DecidableEq, Repr

/-- What became of the request on one server.  `under`: the message is under way; `back`: so is the answer; then the calls
of `OnResponse` (adapter/cluster-adapter-with-heartbeat.go:283-303): before `customRequests.Load`, `Responses.Push`,
`MissingUids.Delete`, `MissingUids.Len`, `Resolve`, `customRequests.Delete`, and after.  `l`: the ids in the answer. -/
inductive Way where
  | none
  | under
  | back (l : List Sid)
  | load (l : List Sid)
  | push (l : List Sid)
  | delete (l : List Sid)
  | check (l : List Sid)
  | resolve (l : List Sid)
  | erase (l : List Sid)
  | done (l : List Sid)
deriving DecidableEq, Repr

/-- Where a call of `removeNode` is (adapter/cluster-adapter-with-heartbeat.go:328-340): before `customRequests.Range` gets
the request, `MissingUids.Delete`, `MissingUids.Len`, `Resolve`, `customRequests.Delete`, `nodesMap.Delete`, and after. -/
inductive Rem where
  | load | delete | check | resolve | erase | forget | done
deriving DecidableEq, Repr

/-- The timer (adapter/cluster-adapter-with-heartbeat.go:249-254): not fired; before `customRequests.Load`, the callback,
`customRequests.Delete`; over (or cleared). -/
inductive Tm where
  | idle | load | call | erase | over
deriving DecidableEq, Repr

/-- `nsps`: the namespace on each server; `known`: the keys of `nodesMap`; `stored`: whether the request is in
`customRequests`; `missing`, `responses`: `MissingUids`, `Responses`; `calls`: what the callback was called with, `none` being
an error. -/
structure St where
  nsps : Nat → Nsp
  known : List Nat := []
  main : Main := .idle
  stored : Bool := false
  missing : List Nat := []
  responses : List Sid := []
  ways : Nat → Way := fun _ => .none
  rems : List (Nat × Rem) := []
  timer : Tm := .idle
  calls : List (Option (List Sid)) := []

/-- The ids of the sockets `FetchSockets` of the in-memory adapter finds (socket/adapter.go:236-244, and
adapter/cluster-adapter.go:163-179 for the answer of another server). -/
def found (o : Option Opts) (n : Nsp) : List Sid := (fetchSockets n o).map n.sidOf

/-- The options for the local sockets (adapter/cluster-adapter-with-heartbeat.go:221-234). -/
def localOpts (o : Option Opts) : Option Opts :=
  some { rooms := match o with | some o => o.rooms | none => some []
         except := match o with | some o => o.except | none => some []
         flags := some { isLocal := true } }

/-- The options the others get (adapter/cluster-adapter-with-heartbeat.go:275, adapter/cluster-adapter.go:163). -/
def remoteOpts (o : Option Opts) : Option Opts :=
  Cluster.decodeOptions (Cluster.encodeOptions (some (match o with | some o => o | none => { rooms := some [], except := some [] })))

section
variable (me n : Nat) (o : Option Opts)

/-- The next step of the call (adapter/cluster-adapter-with-heartbeat.go:237-278).  `ok`: whether `DoPublish` succeeds.  The
message is handed to every server but `me`, which would ignore it (:114). -/
def main (s : St) (ok : Bool) : Main → St
  | .idle => s
  | .count here =>
    if Cluster.onlyLocal o ∨ s.known.length = 0 then { s with calls := s.calls ++ [some here], main := .returned }
    else { s with main := .keys here }
  | .keys here => { s with main := .store here s.known }
  | .store here asked => { s with stored := true, missing := asked, responses := here, main := .publish }
  | .publish =>
    { s with main := .finished
             ways := fun j => if ok ∧ j < n ∧ j ≠ me then .under else s.ways j }
  | .finished => s
  | .returned => s

/-- The callback is called with the responses, the timer cleared
(adapter/cluster-adapter-with-heartbeat.go:298-299, 333-334). -/
def resolve (s : St) : St :=
  { s with calls := s.calls ++ [some s.responses]
           timer := if s.timer = .idle then .over else s.timer }

/-- The next step for the request on server `j` (adapter/cluster-adapter.go:151-184, then
adapter/cluster-adapter-with-heartbeat.go:283-303 on the server that asked). -/
def way (s : St) (j : Nat) : Way → St
  | .none => s
  | .under => { s with ways := upd s.ways j (.back (found (remoteOpts o) (s.nsps j))) }
  | .back l => { s with ways := upd s.ways j (.load l) }
  | .load l => { s with ways := upd s.ways j (if s.stored then .push l else .done l) }
  | .push l => { s with responses := s.responses ++ l, ways := upd s.ways j (.delete l) }
  | .delete l => { s with missing := LSet.del s.missing j, ways := upd s.ways j (.check l) }
  | .check l => { s with ways := upd s.ways j (if s.missing.length = 0 then .resolve l else .done l) }
  | .resolve l => { resolve s with ways := upd s.ways j (.erase l) }
  | .erase l => { s with stored := false, ways := upd s.ways j (.done l) }
  | .done _ => s

/-- The next step of the `k`-th call of `removeNode`, for server `u` (adapter/cluster-adapter-with-heartbeat.go:328-340). -/
def rem (s : St) (k u : Nat) : Rem → St
  | .load => { s with rems := s.rems.set k (u, if s.stored then .delete else .forget) }
  | .delete => { s with missing := LSet.del s.missing u, rems := s.rems.set k (u, .check) }
  | .check => { s with rems := s.rems.set k (u, if s.missing.length = 0 then .resolve else .forget) }
  | .resolve => { resolve s with rems := s.rems.set k (u, .erase) }
  | .erase => { s with stored := false, rems := s.rems.set k (u, .forget) }
  | .forget => { s with known := LSet.del s.known u, rems := s.rems.set k (u, .done) }
  | .done => s

/-- The next step of the timer (adapter/cluster-adapter-with-heartbeat.go:249-254); `idle`: it fires. -/
def tick (s : St) : Tm → St
  | .idle => { s with timer := .load }
  | .load => { s with timer := if s.stored then .call else .over }
  | .call => { s with calls := s.calls ++ [none], timer := .erase }
  | .erase => { s with stored := false, timer := .over }
  | .over => s

/-- `change`: something happens to the namespace of a server; `learn`: a message of another server arrives (:118-121);
`forget`: `removeNode` is called (:80, 136); `fetch`: `FetchSockets` is called; `main`, `way`, `rem`, `tick`: one step. -/
inductive Ev where
  | change (j : Nat) (x : Nsp)
  | learn (u : Nat)
  | forget (u : Nat)
  | fetch
  | main (ok : Bool)
  | way (j : Nat)
  | rem (k : Nat)
  | tick

/-- One event (adapter/cluster-adapter-with-heartbeat.go:75-84, 113-141, 220-340).  The timer is armed once `nodesMap` has been
counted (:249). -/
def step (s : St) : Ev → St
  | .change j x => { s with nsps := upd s.nsps j x }
  | .learn u => if u = me then s else { s with known := LSet.add s.known u }
  | .forget u => { s with rems := s.rems ++ [(u, .load)] }
  | .fetch => if s.main = .idle then { s with main := .count (found (localOpts o) (s.nsps me)) } else s
  | .main ok => main me n o s ok s.main
  | .way j => way o s j (s.ways j)
  | .rem k =>
    match s.rems[k]? with
    | some (u, pc) => rem s k u pc
    | none => s
  | .tick =>
    match s.main with
    | .store _ _ | .publish | .finished => tick s s.timer
    | _ => s

/-- A history from the given state of the servers (adapter/cluster-adapter-with-heartbeat.go:220-340). -/
def run (init : Nat → Nsp) (h : List Ev) : St := h.foldl (step me n o) { nsps := init }

end

end Verif.Fetch
