import Verif.Model.Cluster

/-!
# What a server does with any message of another server
(adapter/cluster-adapter.go:76-290, adapter/cluster-adapter-with-heartbeat.go:113-141, 283-340)

`Model/Cluster` and `Model/Heartbeat` take messages for what the code itself sends.  Here a message is a Go value: its data
may be of any type, pointers may be nil, the type of the message may not be that of its data.  A handler yields `none` if it
panics (nil pointer, failed type assertion).  Simplified: the message itself is not nil (`DoPublish` of the user hands it
over); encoding a packet (library socket.io-go-parser) does not panic; uids are numbers, one being that of emitters; of time
only the order is kept.
-/

namespace Verif.Wire
open Verif Verif.Cluster

/-- `EMITTER_UID` (adapter/cluster-adapter-type.go:132) or the uid of a server. -/
inductive Uid where
  | emitter
  | server (i : Nat)
deriving DecidableEq, Repr

/-- `BroadcastMessage` (adapter/cluster-adapter-type.go:38-42); `none` is a nil pointer, here and below. -/
structure BroadcastMessage where
  opts : Option PacketOptions := none
  packet : Option Pkt := none
  requestId : Option Nat := none
deriving DecidableEq, Repr

/-- `SocketsJoinLeaveMessage` (adapter/cluster-adapter-type.go:45-48). -/
structure RoomsMessage where
  opts : Option PacketOptions := none
  rooms : List Room := []
deriving DecidableEq, Repr

/-- `DisconnectSocketsMessage` (adapter/cluster-adapter-type.go:51-54). -/
structure DisconnectMessage where
  opts : Option PacketOptions := none
  close : Bool := false
deriving DecidableEq, Repr

/-- `FetchSocketsMessage` (adapter/cluster-adapter-type.go:57-60). -/
structure FetchMessage where
  opts : Option PacketOptions := none
  requestId : Nat := 0
deriving DecidableEq, Repr

/-- `ServerSideEmitMessage` (adapter/cluster-adapter-type.go:63-66). -/
structure EmitMessage where
  requestId : Option Nat := none
  packet : List Val := []
deriving DecidableEq, Repr

/-- `BroadcastClientCount` (adapter/cluster-adapter-type.go:97-100). -/
structure CountResponse where
  requestId : Nat := 0
  clientCount : Nat := 0
deriving DecidableEq, Repr

/-- `BroadcastAck` (adapter/cluster-adapter-type.go:102-105) and `ServerSideEmitResponse` (:92-95), two types with the same
fields. -/
structure PacketResponse where
  requestId : Nat := 0
  packet : List Val := []
deriving DecidableEq, Repr

/-- `FetchSocketsResponse` (adapter/cluster-adapter-type.go:87-90); of a `SocketResponse` (:80-85) only the id is kept. -/
structure SocketsResponse where
  requestId : Nat := 0
  sockets : List (Option Sid) := []
deriving DecidableEq, Repr

/-- The field `Data any` of a message (adapter/cluster-adapter-type.go:27), by the type of the value in it; `other` is nil or
a value of any other type. -/
inductive Data where
  | other
  | broadcast (d : Option BroadcastMessage)
  | rooms (d : Option RoomsMessage)
  | disconnect (d : Option DisconnectMessage)
  | fetch (d : Option FetchMessage)
  | emit (d : Option EmitMessage)
  | count (d : Option CountResponse)
  | ack (d : Option PacketResponse)
  | sockets (d : Option SocketsResponse)
  | reply (d : Option PacketResponse)
deriving DecidableEq, Repr

/-- `ClusterMessage` (adapter/cluster-adapter-type.go:23-28).  `type` is the `MessageType`, an `int`: 1 INITIAL_HEARTBEAT,
2 HEARTBEAT, 3 BROADCAST, 4 SOCKETS_JOIN, 5 SOCKETS_LEAVE, 6 DISCONNECT_SOCKETS, 7 FETCH_SOCKETS, 8 FETCH_SOCKETS_RESPONSE,
9 SERVER_SIDE_EMIT, 10 SERVER_SIDE_EMIT_RESPONSE, 11 BROADCAST_CLIENT_COUNT, 12 BROADCAST_ACK, 13 ADAPTER_CLOSE (:136-150). -/
structure Message where
  uid : Uid
  type : Nat
  data : Data := .other
deriving DecidableEq, Repr

/-- The requests that are answered: `FetchSockets`, `ServerSideEmit` with acknowledgement, `BroadcastWithAck`. -/
inductive Kind where
  | fetch | sse | ack
deriving DecidableEq, Repr

/-- The elements of `Responses`, a slice of `any`: a `SocketDetails`, or the packet of a server-side answer
(adapter/cluster-adapter.go:259-261, 279). -/
inductive Item where
  | socket (id : Sid)
  | packet (l : List Val)
deriving DecidableEq, Repr

/-- `CustomClusterRequest` (adapter/cluster-adapter-with-heartbeat-type.go:11-17). -/
structure Custom where
  kind : Kind
  missing : List Uid
  responses : List Item
deriving DecidableEq, Repr

/-- `ClusterRequest` (adapter/cluster-adapter-type.go:69-76). -/
structure Base where
  kind : Kind
  expected : Int
  current : Int
  responses : List Item
deriving DecidableEq, Repr

/-- What the handlers do that is seen outside: calls of the in-memory adapter, events of the namespace, calls of users'
callbacks.  `to`, `req`: where and under which request id answers go. -/
inductive Effect where
  | broadcast (p : Pkt) (o : Option Opts)
  | broadcastAck (p : Pkt) (o : Option Opts) (to : Uid) (req : Nat)
  | join (o : Option Opts) (rooms : List Room)
  | leave (o : Option Opts) (rooms : List Room)
  | disconnect (o : Option Opts) (close : Bool)
  | fetch (o : Option Opts) (to : Uid) (req : Nat)
  | event (args : List Val)
  | eventAck (args : List Val) (to : Uid) (req : Nat)
  | count (req n : Nat)
  | answer (req : Nat) (l : List Val)
  | resolved (req : Nat) (l : List Item)
  | timedOut (req : Nat)
  | heartbeat
deriving DecidableEq, Repr

/-- `nodes`: the keys of `nodesMap`; `custom`: `customRequests`; `base`: `requests`, `acks`: `ackRequests` of the embedded
adapter. -/
structure St where
  nodes : List Uid := []
  custom : FMap Nat Custom := []
  base : FMap Nat Base := []
  acks : List Nat := []
  log : List Effect := []
deriving DecidableEq, Repr

/-- `DecodeOptions` (adapter/util.go:35-49), also of a nil pointer. -/
def decode : Option PacketOptions → Option Opts
  | none => some { rooms := some [], except := some [], flags := none }
  | some p => decodeOptions p

/-- `addOffsetIfNecessary` (adapter/cluster-adapter.go:315-329): `none` if the packet is nil, or an event whose data is not
an argument list (`packet.Data.([]any)`). -/
def addOffsetW (recovery : Bool) (p : Option Pkt) (o : Option Opts) (offset : String) : Option (Option Pkt) :=
  if recovery = false then some p else
  match p with
  | none => none
  | some p =>
    if p.type = .event ∧ p.id = none ∧ notVolatile o = true then
      match p.data with
      | .args l => some (some { p with data := .args (l ++ [.str offset]) })
      | _ => none
    else some (some p)

/-- The function `Resolve` of a request (adapter/cluster-adapter.go:448-452, 518-520,
adapter/cluster-adapter-with-heartbeat.go:200-202, 258-262): that of `FetchSockets` asserts every response to be a socket. -/
def resolve (k : Kind) (req : Nat) (l : List Item) (s : St) : Option St :=
  match k with
  | .fetch => if l.all (fun i => match i with | .socket _ => true | .packet _ => false)
      then some { s with log := s.log ++ [.resolved req l] } else none
  | _ => some { s with log := s.log ++ [.resolved req l] }

/-- `SliceMap(data.Sockets, …NewRemoteSocket…)` (adapter/cluster-adapter.go:259-261, adapter/remote-socket.go:21-27, 45-50):
`none` if one of the pointers is nil. -/
def remoteSockets : List (Option Sid) → Option (List Item)
  | [] => some []
  | none :: _ => none
  | some id :: l => (remoteSockets l).map (.socket id :: ·)

/-- The common part of the two last cases of the base adapter's `OnResponse` (adapter/cluster-adapter.go:257-268, 277-286);
`l` yields what is pushed. -/
def pushBase (s : St) (req : Nat) (l : Option (List Item)) : Option St :=
  match s.base.get? req with
  | none => some s
  | some q =>
    match l with
    | none => none
    | some l =>
      let q := { q with current := q.current + 1, responses := q.responses ++ l }
      if q.current = q.expected then
        (resolve q.kind req q.responses s).map (fun s => { s with base := s.base.erase req })
      else some { s with base := s.base.insert req q }

/-- `OnResponse` of the base adapter (adapter/cluster-adapter.go:226-290). -/
def onResponseBase (s : St) (m : Message) : Option St :=
  match m.type with
  | 11 => match m.data with
    | .count none => none
    | .count (some d) =>
      some (if d.requestId ∈ s.acks then { s with log := s.log ++ [.count d.requestId d.clientCount] } else s)
    | _ => some s
  | 12 => match m.data with
    | .ack none => none
    | .ack (some d) =>
      some (if d.requestId ∈ s.acks then { s with log := s.log ++ [.answer d.requestId d.packet] } else s)
    | _ => some s
  | 8 => match m.data with
    | .sockets none => none
    | .sockets (some d) => pushBase s d.requestId (remoteSockets d.sockets)
    | _ => some s
  | 10 => match m.data with
    | .reply none => none
    | .reply (some d) => pushBase s d.requestId (some [.packet d.packet])
    | _ => some s
  | _ => some s

/-- `OnMessage` of the base adapter (adapter/cluster-adapter.go:76-221); `offset` is the offset the transport gives with the
message.  In-memory calls dereference the packet (socket/adapter.go:156, 183). -/
def onMessageBase (self : Uid) (recovery : Bool) (s : St) (m : Message) (offset : String) : Option St :=
  if m.uid = self then some s else
  match m.type with
  | 3 => match m.data with
    | .broadcast none => none
    | .broadcast (some d) =>
      match d.requestId with
      | some req =>
        match d.packet with
        | none => none
        | some p => some { s with log := s.log ++ [.broadcastAck p (decode d.opts) m.uid req] }
      | none =>
        match addOffsetW recovery d.packet (decode d.opts) offset with
        | none => none
        | some none => none
        | some (some p) => some { s with log := s.log ++ [.broadcast p (decode d.opts)] }
    | _ => some s
  | 4 => match m.data with
    | .rooms none => none
    | .rooms (some d) => some { s with log := s.log ++ [.join (decode d.opts) d.rooms] }
    | _ => some s
  | 5 => match m.data with
    | .rooms none => none
    | .rooms (some d) => some { s with log := s.log ++ [.leave (decode d.opts) d.rooms] }
    | _ => some s
  | 6 => match m.data with
    | .disconnect none => none
    | .disconnect (some d) => some { s with log := s.log ++ [.disconnect (decode d.opts) d.close] }
    | _ => some s
  | 7 => match m.data with
    | .fetch none => none
    | .fetch (some d) => some { s with log := s.log ++ [.fetch (decode d.opts) m.uid d.requestId] }
    | _ => some s
  | 9 => match m.data with
    | .emit none => none
    | .emit (some d) =>
      match d.requestId with
      | none => some { s with log := s.log ++ [.event d.packet] }
      | some req => some { s with log := s.log ++ [.eventAck d.packet m.uid req] }
    | _ => some s
  | 8 => onResponseBase s m
  | 10 => onResponseBase s m
  | 11 => onResponseBase s m
  | 12 => onResponseBase s m
  | _ => some s

/-- The common part of the two cases of `OnResponse` with heartbeats (adapter/cluster-adapter-with-heartbeat.go:292-303,
312-322). -/
def pushCustom (s : St) (u : Uid) (req : Nat) (l : Option (List Item)) : Option St :=
  match s.custom.get? req with
  | none => some s
  | some q =>
    match l with
    | none => none
    | some l =>
      let q := { q with responses := q.responses ++ l, missing := LSet.del q.missing u }
      if q.missing.length = 0 then
        (resolve q.kind req q.responses s).map (fun s => { s with custom := s.custom.erase req })
      else some { s with custom := s.custom.insert req q }

/-- `OnResponse` with heartbeats (adapter/cluster-adapter-with-heartbeat.go:283-326). -/
def onResponse (s : St) (m : Message) : Option St :=
  match m.type with
  | 8 => match m.data with
    | .sockets none => none
    | .sockets (some d) => pushCustom s m.uid d.requestId (remoteSockets d.sockets)
    | _ => some s
  | 10 => match m.data with
    | .reply none => none
    | .reply (some d) => pushCustom s m.uid d.requestId (some [.packet d.packet])
    | _ => some s
  | _ => onResponseBase s m

/-- One request in the loop of `removeNode` (adapter/cluster-adapter-with-heartbeat.go:330-336). -/
def dropMissing (u : Uid) (s : Option St) (req : Nat) : Option St :=
  match s with
  | none => none
  | some s =>
    match s.custom.get? req with
    | none => some s
    | some q =>
      let q := { q with missing := LSet.del q.missing u }
      if q.missing.length = 0 then
        (resolve q.kind req q.responses s).map (fun s => { s with custom := s.custom.erase req })
      else some { s with custom := s.custom.insert req q }

/-- `removeNode` (adapter/cluster-adapter-with-heartbeat.go:328-340). -/
def removeNode (s : St) (u : Uid) : Option St :=
  (s.custom.keys.foldl (dropMissing u) (some s)).map (fun s => { s with nodes := LSet.del s.nodes u })

/-- `OnMessage` with heartbeats (adapter/cluster-adapter-with-heartbeat.go:113-141). -/
def onMessage (self : Uid) (recovery : Bool) (s : St) (m : Message) (offset : String) : Option St :=
  if m.uid = self then some s else
  let s := if m.uid ≠ .emitter then { s with nodes := LSet.add s.nodes m.uid } else s
  match m.type with
  | 1 => some { s with log := s.log ++ [.heartbeat] }
  | 2 => some s
  | 13 => removeNode s m.uid
  | _ => onMessageBase self recovery s m offset

/-- The part of `FetchSockets` (adapter/cluster-adapter-with-heartbeat.go:237-270, not Local) and `ServerSideEmit` with
acknowledgement (:169-209) that concerns the own tables; `here` are the local sockets, empty for `ServerSideEmit`. -/
def request (s : St) (req : Nat) (kind : Kind) (here : List Sid) : St :=
  if s.nodes.length = 0 then { s with log := s.log ++ [.resolved req (here.map .socket)] }
  else { s with custom := s.custom.insert req ⟨kind, s.nodes, here.map .socket⟩ }

/-- The timer of a request (adapter/cluster-adapter-with-heartbeat.go:188-196, 249-254). -/
def timeout (s : St) (req : Nat) : St :=
  match s.custom.get? req with
  | none => s
  | some _ => { s with log := s.log ++ [.timedOut req], custom := s.custom.erase req }

/-! ## One server -/

/-- What happens to a server: messages and responses arrive, the user asks, timers fire, servers are given up (the clean-up
timer, adapter/cluster-adapter-with-heartbeat.go:75-84), a broadcast waits for acknowledgements or stops waiting
(adapter/cluster-adapter.go:336-339, 357-359). -/
inductive Ev where
  | message (m : Message) (offset : String)
  | response (m : Message)
  | request (req : Nat) (kind : Kind) (here : List Sid)
  | timeout (req : Nat)
  | down (u : Uid)
  | await (req : Nat)
  | forget (req : Nat)
deriving DecidableEq, Repr

/-- One thing happens; a server that has panicked does nothing any more. -/
def step (self : Uid) (recovery : Bool) (s : Option St) (e : Ev) : Option St :=
  match s with
  | none => none
  | some s =>
    match e with
    | .message m offset => onMessage self recovery s m offset
    | .response m => onResponse s m
    | .request req kind here => some (request s req kind (match kind with | .fetch => here | _ => []))
    | .timeout req => some (timeout s req)
    | .down u => removeNode s u
    | .await req => some { s with acks := LSet.add s.acks req }
    | .forget req => some { s with acks := LSet.del s.acks req }

/-- `none`: the server has panicked. -/
def run (self : Uid) (recovery : Bool) (h : List Ev) : Option St := h.foldl (step self recovery) (some {})

/-! ## A cluster of servers running this code -/

/-- `kinds`: ghost, the kind of the request with that id; ids are handed out in order (the code draws 8 random bytes,
adapter/util.go:51-57, taken to be all different).  `sent`: everything published, with its offset; `backs`: every response
published and to whom.  Nothing is removed: a message may arrive any number of times, at any time, or never. -/
structure Net where
  nodes : Nat → Option St := fun _ => some {}
  kinds : List Kind := []
  sent : List (Message × String) := []
  backs : List (Nat × Message) := []

/-- What happens in the cluster.  The first events are calls of users on server `i`: the packets of broadcasts are those of
`BroadcastOperator.Emit` (socket/broadcast-operator.go:175-243), events with an argument list.  Then answers: of a user's
handler, of a client, with the number of clients, with the sockets found.  Then deliveries of published messages and of
responses, the latter to `OnResponse` or, for transports that make no distinction, to `OnMessage`. -/
inductive NetEv where
  | broadcast (i : Nat) (args : List Val) (o : Option Opts) (offset : String)
  | broadcastAck (i : Nat) (args : List Val) (o : Option Opts) (offset : String)
  | join (i : Nat) (o : Option Opts) (rooms : List Room) (offset : String)
  | leave (i : Nat) (o : Option Opts) (rooms : List Room) (offset : String)
  | disconnect (i : Nat) (o : Option Opts) (close : Bool) (offset : String)
  | fetch (i : Nat) (o : Option Opts) (here : List Sid) (offset : String)
  | emit (i : Nat) (args : List Val) (offset : String)
  | emitAck (i : Nat) (args : List Val) (offset : String)
  | init (i : Nat) (offset : String)
  | beat (i : Nat) (offset : String)
  | close (i : Nat) (offset : String)
  | replies (i : Nat) (to req : Nat) (l : List Val)
  | clientAnswers (i : Nat) (to req : Nat) (l : List Val)
  | counts (i : Nat) (to req n : Nat)
  | finds (i : Nat) (to req : Nat) (l : List Sid)
  | deliver (i k : Nat)
  | back (k : Nat) (asMessage : Bool)
  | timeout (i req : Nat)
  | forget (i req : Nat)
  | down (i : Nat) (u : Uid)
deriving DecidableEq, Repr

/-- Server `i` does something, if it has not panicked. -/
def onNode (x : Net) (i : Nat) (f : St → Option St) : Net :=
  { x with nodes := fun j => if j = i then (x.nodes j).bind f else x.nodes j }

/-- A running server does something and publishes a message (`PublishAndReturnOffset`,
adapter/cluster-adapter.go:546-550). -/
def say (x : Net) (i : Nat) (f : St → Option St) (type : Nat) (d : Data) (offset : String) : Net :=
  match x.nodes i with
  | none => x
  | some _ => { onNode x i f with sent := x.sent ++ [(⟨.server i, type, d⟩, offset)] }

/-- A running server publishes a response (`PublishResponse`, adapter/cluster-adapter.go:557-565). -/
def reply (x : Net) (i to : Nat) (e : Effect → Bool) (type : Nat) (d : Data) : Net :=
  match x.nodes i with
  | none => x
  | some s => if s.log.any e then { x with backs := x.backs ++ [(to, ⟨.server i, type, d⟩)] } else x

/-- One thing happens in the cluster.  Calls publish what adapter/cluster-adapter.go:292-420 and
adapter/cluster-adapter-with-heartbeat.go:87-91, 105-109, 153-280 publish, responses are those of
adapter/cluster-adapter.go:93-114, 163-185, 196-211.  Failures of `DoPublish` are messages that never arrive. -/
def netStep (recovery : Bool) (x : Net) : NetEv → Net
  | .broadcast i args o offset =>
    let p : Pkt := { type := .event, data := .args args }
    say x i (fun s => (addOffsetW recovery (some p) o offset).bind (fun p => p.map (fun p =>
      { s with log := s.log ++ [.broadcast p o] }))) 3 (.broadcast (some ⟨some (encodeOptions o), some p, none⟩)) offset
  | .broadcastAck i args o offset =>
    let p : Pkt := { type := .event, data := .args args }
    let req := x.kinds.length
    say { x with kinds := x.kinds ++ [.ack] } i (fun s => some { s with acks := LSet.add s.acks req })
      3 (.broadcast (some ⟨some (encodeOptions o), some p, some req⟩)) offset
  | .join i o rooms offset =>
    say x i (fun s => some { s with log := s.log ++ [.join o rooms] }) 4 (.rooms (some ⟨some (encodeOptions o), rooms⟩)) offset
  | .leave i o rooms offset =>
    say x i (fun s => some { s with log := s.log ++ [.leave o rooms] }) 5 (.rooms (some ⟨some (encodeOptions o), rooms⟩)) offset
  | .disconnect i o close offset =>
    say x i (fun s => some { s with log := s.log ++ [.disconnect o close] }) 6
      (.disconnect (some ⟨some (encodeOptions o), close⟩)) offset
  | .fetch i o here offset =>
    let req := x.kinds.length
    say { x with kinds := x.kinds ++ [.fetch] } i (fun s => some (request s req .fetch here))
      7 (.fetch (some ⟨some (encodeOptions o), req⟩)) offset
  | .emit i args offset => say x i some 9 (.emit (some ⟨none, args⟩)) offset
  | .emitAck i args offset =>
    let req := x.kinds.length
    say { x with kinds := x.kinds ++ [.sse] } i (fun s => some (request s req .sse [])) 9 (.emit (some ⟨some req, args⟩)) offset
  | .init i offset => say x i some 1 .other offset
  | .beat i offset => say x i some 2 .other offset
  | .close i offset => say x i some 13 .other offset
  | .replies i to req l =>
    reply x i to (fun e => match e with | .eventAck _ t r => t = .server to ∧ r = req | _ => false)
      10 (.reply (some ⟨req, l⟩))
  | .clientAnswers i to req l =>
    reply x i to (fun e => match e with | .broadcastAck _ _ t r => t = .server to ∧ r = req | _ => false)
      12 (.ack (some ⟨req, l⟩))
  | .counts i to req n =>
    reply x i to (fun e => match e with | .broadcastAck _ _ t r => t = .server to ∧ r = req | _ => false)
      11 (.count (some ⟨req, n⟩))
  | .finds i to req l =>
    reply x i to (fun e => match e with | .fetch _ t r => t = .server to ∧ r = req | _ => false)
      8 (.sockets (some ⟨req, l.map some⟩))
  | .deliver i k => match x.sent[k]? with
    | none => x
    | some (m, offset) => onNode x i (fun s => onMessage (.server i) recovery s m offset)
  | .back k asMessage => match x.backs[k]? with
    | none => x
    | some (i, m) => onNode x i (fun s => if asMessage then onMessage (.server i) recovery s m "" else onResponse s m)
  | .timeout i req => onNode x i (fun s => some (timeout s req))
  | .forget i req => onNode x i (fun s => some { s with acks := LSet.del s.acks req })
  | .down i u => onNode x i (fun s => removeNode s u)

def netRun (recovery : Bool) (h : List NetEv) : Net := h.foldl (netStep recovery) {}

end Verif.Wire
