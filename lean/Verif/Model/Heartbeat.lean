import Verif.Model.Values

/-!
# Cluster membership and cluster-wide requests
(adapter/cluster-adapter-with-heartbeat.go, adapter/cluster-adapter.go)

One adapter of one server.  Calls are handled one at a time; `Model/RequestsConc` interleaves them.
-/

namespace Verif.Heartbeat
open Verif

abbrev Uid := String

/-- `EMITTER_UID` (adapter/cluster-adapter-type.go:132). -/
def EMITTER : Uid := "emitter"

/-- The two kinds of request (adapter/cluster-adapter-with-heartbeat.go:199, 257). -/
inductive Kind where
  | fetch | sse
deriving DecidableEq, Repr

/-- How the user's callback is called.  A failed `FetchSockets` passes nil, a failed `ServerSideEmit` the
responses so far (adapter/cluster-adapter-with-heartbeat.go:190-193, 251). -/
inductive Call where
  | ok (responses : List Val)
  | err (responses : List Val)
deriving DecidableEq, Repr

/-- `CustomClusterRequest` (adapter/cluster-adapter-type.go): `MissingUids`, `Responses`. -/
structure Custom where
  kind : Kind
  missing : List Uid
  responses : List Val
deriving DecidableEq, Repr

/-- `ClusterRequest` (adapter/cluster-adapter-type.go): `Expected`, `Current`, `Responses`. -/
structure Base where
  expected : Nat
  current : Nat
  responses : List Val
deriving DecidableEq, Repr

/-- A response; `req` is the request id.  A FETCH_SOCKETS_RESPONSE carries sockets, a
SERVER_SIDE_EMIT_RESPONSE one packet (adapter/cluster-adapter.go:226-290). -/
inductive Resp where
  | clientCount (req : Nat) (count : Nat)
  | ack (req : Nat) (packet : List Val)
  | fetch (req : Nat) (sockets : List Val)
  | sse (req : Nat) (packet : Val)
deriving DecidableEq, Repr

/-- Messages by what `OnMessage` does with them; `other` are those handled by the base adapter
(`Model/Cluster`), here without effect. -/
inductive MType where
  | initialHeartbeat | heartbeat | close
  | response (r : Resp)
  | other
deriving DecidableEq, Repr

/-- What the callbacks of a broadcast with acknowledgement get. -/
inductive AckCall where
  | count (req n : Nat)
  | answer (req : Nat) (packet : List Val)
deriving DecidableEq, Repr

/-- `nodes`: `nodesMap`, uid ↦ time of the last message; `custom`: `customRequests`; `base`: `requests` and
`acks`: `ackRequests` of the embedded cluster adapter.  `calls`, `ackCalls`: calls of users' callbacks;
`heartbeats`: number of HEARTBEAT messages published in answer to INITIAL_HEARTBEAT. -/
structure St where
  nodes : FMap Uid Nat := []
  custom : FMap Nat Custom := []
  base : FMap Nat Base := []
  acks : List Nat := []
  calls : List (Nat × Call) := []
  ackCalls : List AckCall := []
  heartbeats : Nat := 0
deriving DecidableEq, Repr

/-- One request in the loop of `removeNode` (adapter/cluster-adapter-with-heartbeat.go:330-336). -/
def dropMissing (u : Uid) (s : St) (id : Nat) : St :=
  match s.custom.get? id with
  | none => s
  | some r =>
    let missing := LSet.del r.missing u
    if missing.length = 0 then
      { s with calls := s.calls ++ [(id, .ok r.responses)], custom := s.custom.erase id }
    else { s with custom := s.custom.insert id { r with missing := missing } }

/-- `removeNode` (adapter/cluster-adapter-with-heartbeat.go:328-340). -/
def removeNode (s : St) (u : Uid) : St :=
  let s := s.custom.keys.foldl (dropMissing u) s
  { s with nodes := s.nodes.erase u }

/-- One node in the loop of the clean-up timer (adapter/cluster-adapter-with-heartbeat.go:77-83); `T` is
HeartbeatTimeout. -/
def cleanNode (T now : Nat) (s : St) (u : Uid) : St :=
  match s.nodes.get? u with
  | none => s
  | some lastSeen => if lastSeen + T < now then removeNode s u else s

/-- The clean-up timer (adapter/cluster-adapter-with-heartbeat.go:75-84).  The nodes are visited in any
order: first those in `order`, then the others. -/
def cleanup (T : Nat) (s : St) (now : Nat) (order : List Uid) : St :=
  (order ++ s.nodes.keys).foldl (cleanNode T now) s

/-- `OnResponse` of the base adapter (adapter/cluster-adapter.go:226-290). -/
def onResponseBase (s : St) (r : Resp) : St :=
  let push (req : Nat) (l : List Val) : St :=
    match s.base.get? req with
    | none => s
    | some q =>
      let q := { q with current := q.current + 1, responses := q.responses ++ l }
      if q.current = q.expected then
        { s with calls := s.calls ++ [(req, .ok q.responses)], base := s.base.erase req }
      else { s with base := s.base.insert req q }
  match r with
  | .clientCount req n => if req ∈ s.acks then { s with ackCalls := s.ackCalls ++ [.count req n] } else s
  | .ack req packet => if req ∈ s.acks then { s with ackCalls := s.ackCalls ++ [.answer req packet] } else s
  | .fetch req sockets => push req sockets
  | .sse req packet => push req [packet]

/-- The body shared by the two cases of `OnResponse` (adapter/cluster-adapter-with-heartbeat.go:292-303,
312-321). -/
def answer (s : St) (u : Uid) (req : Nat) (l : List Val) : St :=
  match s.custom.get? req with
  | none => s
  | some q =>
    let q := { q with responses := q.responses ++ l, missing := LSet.del q.missing u }
    if q.missing.length = 0 then
      { s with calls := s.calls ++ [(req, .ok q.responses)], custom := s.custom.erase req }
    else { s with custom := s.custom.insert req q }

/-- `OnResponse` with heartbeats (adapter/cluster-adapter-with-heartbeat.go:283-326). -/
def onResponse (s : St) (u : Uid) : Resp → St
  | .fetch req sockets => answer s u req sockets
  | .sse req packet => answer s u req [packet]
  | r => onResponseBase s r

/-- `OnMessage` of the base adapter for responses (adapter/cluster-adapter.go:76-80, 215-218): `c.OnResponse`
is the method of the base adapter, whatever type embeds it. -/
def onMessageBase (self : Uid) (s : St) (u : Uid) (r : Resp) : St :=
  if u = self then s else onResponseBase s r

/-- `OnMessage` with heartbeats (adapter/cluster-adapter-with-heartbeat.go:113-141). -/
def onMessage (self : Uid) (s : St) (u : Uid) (m : MType) (now : Nat) : St :=
  if u = self then s else
  let s := if u ≠ EMITTER then { s with nodes := s.nodes.insert u now } else s
  match m with
  | .initialHeartbeat => { s with heartbeats := s.heartbeats + 1 }
  | .heartbeat => s
  | .close => removeNode s u
  | .response r => onMessageBase self s u r
  | .other => s

/-- `ServerCount` (adapter/cluster-adapter-with-heartbeat.go:143-145). -/
def serverCount (s : St) : Nat := s.nodes.length + 1

/-- `FetchSockets` (adapter/cluster-adapter-with-heartbeat.go:220-280, not Local) and `ServerSideEmit` with
acknowledgement (:169-216).  `here` are the local sockets, empty for `ServerSideEmit`; `id` is the fresh
request id. -/
def request (s : St) (id : Nat) (kind : Kind) (here : List Val) : St :=
  if s.nodes.length = 0 then { s with calls := s.calls ++ [(id, .ok here)] }
  else { s with custom := s.custom.insert id ⟨kind, s.nodes.keys, here⟩ }

/-- The timer of a request (adapter/cluster-adapter-with-heartbeat.go:188-196, 249-254). -/
def timeout (s : St) (id : Nat) : St :=
  match s.custom.get? id with
  | none => s
  | some q =>
    { s with calls := s.calls ++ [(id, .err (match q.kind with | .fetch => [] | .sse => q.responses))]
             custom := s.custom.erase id }

inductive Ev where
  | message (u : Uid) (m : MType) (now : Nat)
  | response (u : Uid) (r : Resp)
  | cleanup (now : Nat) (order : List Uid)
  | request (id : Nat) (kind : Kind) (here : List Val)
  | timeout (id : Nat)
deriving DecidableEq, Repr

def step (self : Uid) (T : Nat) (s : St) : Ev → St
  | .message u m now => onMessage self s u m now
  | .response u r => onResponse s u r
  | .cleanup now order => cleanup T s now order
  | .request id kind here => request s id kind here
  | .timeout id => timeout s id

def run (self : Uid) (T : Nat) (h : List Ev) : St := h.foldl (step self T) {}

/-! ## The base adapter's own `FetchSockets` -/

/-- What a call of the base adapter's `FetchSockets` does: it calls the callback at once, or stores a request
and publishes it. -/
inductive FetchResult where
  | callback (sockets : List Val)
  | published (expected : Int)
deriving DecidableEq, Repr

/-- `ServerCount` of the embedded in-memory adapter (socket/adapter.go:88-90). -/
def inMemoryServerCount : Int := 1

/-- `clusterAdapter.FetchSockets` (adapter/cluster-adapter.go:422-472) called on an adapter that embeds it and
overrides `ServerCount` to return `reported`: `c.ServerCount()` is the method promoted from the embedded
in-memory adapter, so `reported` is not used. -/
def fetchSocketsBase (reported : Int) (isLocal : Bool) (here : List Val) : FetchResult :=
  let _ := reported
  let expected := inMemoryServerCount - 1
  if isLocal ∨ expected ≤ 0 then .callback here else .published expected

end Verif.Heartbeat
