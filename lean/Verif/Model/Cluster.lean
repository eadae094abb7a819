import Verif.Model.Delivery

/-!
# The cluster adapter (adapter/cluster-adapter.go): calls that act on every server

`n` servers hold the same namespace.  What the in-memory adapter of a server does is a parameter
(`exec`), since `clusterAdapter` only decides on which servers, how often and with which options it runs.
The transport (`DoPublish`, implemented by users) hands a published message to every other server, and to
the publisher itself if it echoes; messages are delivered in any order.
-/

namespace Verif.Cluster
open Verif

/-- Calls of the in-memory adapter, and the delivery of a server-side event to the namespace. -/
inductive Op where
  | broadcast (p : Pkt) (o : Option Opts)
  | join (o : Option Opts) (rooms : List Room)
  | leave (o : Option Opts) (rooms : List Room)
  | disconnect (o : Option Opts) (close : Bool)
  | event (args : List Val)
deriving DecidableEq, Repr

/-- The calls users make.  `emit`: `ServerSideEmit(packet)`; `expected` is the number of responses the
adapter waits for (`ServerCount() - 1`, or `nodesMap.Len()` with heartbeats) and `req` the fresh request id,
both only used if the last element of the packet is an acknowledgement function. -/
inductive Cmd where
  | broadcast (p : Pkt) (o : Option Opts)
  | join (o : Option Opts) (rooms : List Room)
  | leave (o : Option Opts) (rooms : List Room)
  | disconnect (o : Option Opts) (close : Bool)
  | emit (packet : List Val) (expected req : Nat)
deriving DecidableEq, Repr

/-- `PacketOptions` (adapter/cluster-adapter-type.go:31-35). -/
structure PacketOptions where
  rooms : List Room := []
  except : List Room := []
  flags : Option Flags := none
deriving DecidableEq, Repr

/-- `EncodeOptions` (adapter/util.go:16-32). -/
def encodeOptions : Option Opts → PacketOptions
  | none => {}
  | some o => { rooms := o.rooms.getD [], except := o.except.getD [], flags := o.flags }

/-- `DecodeOptions` (adapter/util.go:35-49), for the non-nil pointers `EncodeOptions` yields.
`Set.Add` drops duplicates. -/
def decodeOptions (p : PacketOptions) : Option Opts :=
  some { rooms := some (LSet.addAll [] p.rooms), except := some (LSet.addAll [] p.except), flags := p.flags }

/-- The messages published by these calls (adapter/cluster-adapter.go:296-302, 369-375, 388-394,
407-413, 482-487, 528-534); `req` is the request id of a server-side event with acknowledgement. -/
inductive Body where
  | broadcast (p : Pkt) (o : PacketOptions)
  | join (o : PacketOptions) (rooms : List Room)
  | leave (o : PacketOptions) (rooms : List Room)
  | disconnect (o : PacketOptions) (close : Bool)
  | event (args : List Val) (req : Option Nat)
deriving DecidableEq, Repr

/-- `ClusterMessage` with the offset the transport assigned; `src` is the uid of the sender, i.e. its
number. -/
structure Msg where
  src : Nat
  offset : String
  body : Body
deriving DecidableEq, Repr

/-- `opts != nil && opts.Flags != nil && opts.Flags.Local` (adapter/cluster-adapter.go:293). -/
def onlyLocal : Option Opts → Bool
  | some { flags := some f, .. } => f.isLocal
  | _ => false

/-- `notVolatile` (adapter/cluster-adapter.go:324). -/
def notVolatile : Option Opts → Bool
  | some { flags := some f, .. } => !f.volatile
  | _ => true

/-- `addOffsetIfNecessary` (adapter/cluster-adapter.go:315-329); `recovery` says whether the option
ConnectionStateRecovery is set.  A packet of type EVENT always carries an argument array. -/
def addOffset (recovery : Bool) (p : Pkt) (o : Option Opts) (offset : String) : Pkt :=
  if recovery = true ∧ p.type = .event ∧ p.id = none ∧ notVolatile o = true then
    match p.data with
    | .args l => { p with data := .args (l ++ [.str offset]) }
    | _ => p
  else p

/-- The cluster: the state of the in-memory adapter of each server, and the messages under way with their
destinations.  `hist` is a ghost variable: the in-memory calls each server has executed. -/
structure St (σ : Type) where
  nodes : Nat → σ
  hist : Nat → List Op := fun _ => []
  net : List (Nat × Msg) := []

section
variable {σ : Type} (exec : Op → σ → σ) (n : Nat) (echo recovery : Bool)

/-- Server `i` executes a call of its in-memory adapter. -/
def local_ (s : St σ) (i : Nat) (op : Op) : St σ :=
  { s with nodes := fun j => if j = i then exec op (s.nodes j) else s.nodes j
           hist := fun j => if j = i then s.hist j ++ [op] else s.hist j }

/-- `DoPublish` of a message of server `i`. -/
def publish (s : St σ) (i : Nat) (offset : String) (b : Body) : St σ :=
  { s with net := s.net ++ ((List.range n).filter (fun j => echo || j != i)).map (fun j => (j, ⟨i, offset, b⟩)) }

/-- `PublishAndReturnOffset` (adapter/cluster-adapter.go:546-550); `res` is the offset returned by
`DoPublish`, `none` an error. -/
def tryPublish (s : St σ) (i : Nat) (res : Option String) (b : Body) : St σ :=
  match res with
  | some offset => publish n echo s i offset b
  | none => s

/-- The call made on server `i`: `Broadcast` (adapter/cluster-adapter.go:292-311), `AddSockets`
(:365-382), `DelSockets` (:384-401), `DisconnectSockets` (:403-420), `ServerSideEmit` (:474-537 and, with
heartbeats, cluster-adapter-with-heartbeat.go:153-218; the callback and its timer are modelled in
`Model/Heartbeat`). -/
def call (s : St σ) (i : Nat) (op : Cmd) (res : Option String) : St σ :=
  match op with
  | .broadcast p o =>
    if onlyLocal o then local_ exec s i (.broadcast p o)
    else match res with
      | none => s
      | some offset =>
        local_ exec (publish n echo s i offset (.broadcast p (encodeOptions o))) i
          (.broadcast (addOffset recovery p o offset) o)
  | .join o rooms =>
    local_ exec (if onlyLocal o then s else tryPublish n echo s i res (.join (encodeOptions o) rooms)) i
      (.join o rooms)
  | .leave o rooms =>
    local_ exec (if onlyLocal o then s else tryPublish n echo s i res (.leave (encodeOptions o) rooms)) i
      (.leave o rooms)
  | .disconnect o close =>
    local_ exec (if onlyLocal o then s else tryPublish n echo s i res (.disconnect (encodeOptions o) close)) i
      (.disconnect o close)
  | .emit packet expected req =>
    match packet.getLast? with
    | none => s
    | some (.fn _) =>
      if expected = 0 then s else tryPublish n echo s i res (.event packet.dropLast (some req))
    | some _ => tryPublish n echo s i res (.event packet none)

/-- `OnMessage` on server `j` (adapter/cluster-adapter.go:76-149, 186-214).  The callback appended to a
server-side event with acknowledgement is the function `fn req`. -/
def onMessage (s : St σ) (j : Nat) (m : Msg) : St σ :=
  if m.src = j then s else
  match m.body with
  | .broadcast p o =>
    local_ exec s j (.broadcast (addOffset recovery p (decodeOptions o) m.offset) (decodeOptions o))
  | .join o rooms => local_ exec s j (.join (decodeOptions o) rooms)
  | .leave o rooms => local_ exec s j (.leave (decodeOptions o) rooms)
  | .disconnect o close => local_ exec s j (.disconnect (decodeOptions o) close)
  | .event args none => local_ exec s j (.event args)
  | .event args (some req) => local_ exec s j (.event (args ++ [.fn req]))

/-- A user calls the adapter of server `i`, or the `k`-th message under way arrives. -/
inductive Ev where
  | call (i : Nat) (op : Cmd) (res : Option String)
  | deliver (k : Nat)
deriving DecidableEq, Repr

def step (s : St σ) : Ev → St σ
  | .call i op res => if i < n then call exec n echo recovery s i op res else s
  | .deliver k => match s.net[k]? with
    | some (j, m) => onMessage exec recovery { s with net := s.net.eraseIdx k } j m
    | none => s

def run (init : Nat → σ) (h : List Ev) : St σ :=
  h.foldl (step exec n echo recovery) { nodes := init }

end

/-- `NAMESPACE_RESERVED_EVENTS` (socket/namespace.go:15). -/
def reserved : List String := ["connect", "connection", "new_namespace"]

/-- `Namespace.ServerSideEmit` (socket/namespace.go:460-466): the packet given to the adapter, `none` is the
error. -/
def nspServerSideEmit (ev : String) (args : List Val) : Option (List Val) :=
  if ev ∈ reserved then none else some (.str ev :: args)

/-- `Namespace.OnServerSideEmit` (socket/namespace.go:488-502): the event emitted to the listeners of the
namespace, if any. -/
def onServerSideEmit (args : List Val) : Option (String × List Val) :=
  match args with
  | [] => none
  | .at (.str ev) :: rest => some (ev, rest)
  | _ :: _ => none

/-- A server with the in-memory adapter of `Model/Delivery`; `heard` are the server-side events its
listeners got. -/
structure Node where
  nsp : Delivery.Nsp
  heard : List (String × List Val) := []

/-- The calls of the in-memory adapter and of the namespace (socket/adapter.go:145-164, 247-267,
socket/namespace.go:488-502). -/
def execNode (d : Bool) : Op → Node → Node
  | .broadcast p o, s => { s with nsp := Delivery.broadcast s.nsp p o }
  | .join o rooms, s => { s with nsp := Delivery.addSockets s.nsp o rooms }
  | .leave o rooms, s => { s with nsp := Delivery.delSockets d s.nsp o rooms }
  | .disconnect o close, s => { s with nsp := Delivery.disconnectSockets d s.nsp o close }
  | .event args, s => { s with heard := s.heard ++ (onServerSideEmit args).toList }

end Verif.Cluster
