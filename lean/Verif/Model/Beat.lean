import Verif.Model.Heartbeat

/-!
# Servers with heartbeats in time (adapter/cluster-adapter-with-heartbeat.go)

`n` servers that hold the same namespace, each with the adapter of `Model/Heartbeat`, and the messages under way between
them.  A server here is one adapter: a process started anew gets a new uid.
-/

namespace Verif.Beat
open Verif Verif.Heartbeat

/-- A published message under way to server `dst`; `sent` is the time of `DoPublish`. -/
structure Packet where
  src : Nat
  dst : Nat
  type : MType
  sent : Nat
deriving DecidableEq, Repr

/-- Before `NewClusterAdapterWithHeartbeat`, until `Close`, and after it (adapter/cluster-adapter-with-heartbeat.go:48,
105). -/
inductive Phase where
  | absent | up | closed
deriving DecidableEq, Repr

/-- `I`: HeartbeatInterval, `T`: HeartbeatTimeout, in milliseconds; `uid`: the uids of the servers.  `deaf`: the transport
hands nothing to a server any more once it has been closed; the adapters modelled here do not see to it themselves. -/
structure Cfg where
  n : Nat
  I : Nat
  T : Nat
  uid : Nat → Uid
  deaf : Bool

/-- `deadline`: when the heartbeat timer fires, if it is set; `nodes`: the state of each adapter.  `sentTo` is a ghost
variable: the times at which the first server published, through `Publish` of the adapter with heartbeats, a message that was
handed to the transport for the second. -/
structure St where
  now : Nat := 0
  phase : Nat → Phase := fun _ => .absent
  deadline : Nat → Option Nat := fun _ => none
  nodes : Nat → Heartbeat.St := fun _ => {}
  net : List Packet := []
  sentTo : Nat → Nat → List Nat := fun _ _ => []

/-- A message reaches `OnMessage` of server `j` (adapter/cluster-adapter-with-heartbeat.go:113; `Close`, :105-111, does not
stop it). -/
def listens (cfg : Cfg) (s : St) (j : Nat) : Bool :=
  match s.phase j with
  | .absent => false
  | .up => true
  | .closed => !cfg.deaf

/-- `Publish` and `PublishAndReturnOffset` of the base adapter (adapter/cluster-adapter.go:539-550): `DoPublish` hands the
message to the other servers there are at that moment.  Simplified: this succeeds. -/
def send (cfg : Cfg) (s : St) (i : Nat) (m : MType) : St :=
  { s with
    net := s.net ++ ((List.range cfg.n).filter (fun j => j != i && listens cfg s j)).map (fun j => ⟨i, j, m, s.now⟩) }

/-- `Publish` (adapter/cluster-adapter-with-heartbeat.go:147-151) of server `i`: `scheduleHeartbeat` (:93-103) starts the
timer or, if there is one, restarts it, also if it has fired or was cleared (assumed of `Timer.Refresh`).  Simplified: two
first messages published at the same time start one timer. -/
def publish (cfg : Cfg) (s : St) (i : Nat) (m : MType) : St :=
  send cfg { s with
    deadline := fun k => if k = i then some (s.now + cfg.I) else s.deadline k
    sentTo := fun a b => if a = i ∧ b < cfg.n ∧ b ≠ i ∧ listens cfg s b then s.sentTo a b ++ [s.now] else s.sentTo a b } i m

/-- `OnMessage` of server `j` (adapter/cluster-adapter-with-heartbeat.go:113-141): INITIAL_HEARTBEAT is answered by a
HEARTBEAT to everybody. -/
def receive (cfg : Cfg) (s : St) (p : Packet) : St :=
  if listens cfg s p.dst then
    let s := { s with nodes := fun k => if k = p.dst then onMessage (cfg.uid k) (s.nodes k) (cfg.uid p.src) p.type s.now
                                        else s.nodes k }
    if p.type = .initialHeartbeat then publish cfg s p.dst .heartbeat else s
  else s

/-- `tick`: time passes; `create`: the adapter of server `i` is constructed (adapter/cluster-adapter-with-heartbeat.go:48-56,
64-85; nothing in this repository calls `Init`); `init`: `Init` (:87-91); `request`: `ServerSideEmit` or `FetchSockets` ask
the others (:161, 210, 272; here also if none is known); `broadcast`: any other message of the base adapter, whose
`c.Publish` is its own and not that of the type that embeds it (adapter/cluster-adapter.go:296, 341, 369, 388, 407); `fire`:
the heartbeat timer (:97-101); `cleanup`: the clean-up timer (:75-84), cleared by `Close`; `close`: `Close` (:105-111).  The
user calls nothing on an adapter that has been closed. -/
inductive Ev where
  | tick (d : Nat)
  | create (i : Nat)
  | init (i : Nat)
  | request (i : Nat)
  | broadcast (i : Nat)
  | fire (i : Nat)
  | cleanup (i : Nat) (order : List Uid)
  | deliver (k : Nat)
  | close (i : Nat)
deriving DecidableEq, Repr

/-- One event (adapter/cluster-adapter-with-heartbeat.go:64-151). -/
def step (cfg : Cfg) (s : St) : Ev → St
  | .tick d => { s with now := s.now + d }
  | .create i => if i < cfg.n ∧ s.phase i = .absent then { s with phase := fun k => if k = i then .up else s.phase k } else s
  | .init i => if s.phase i = .up then publish cfg s i .initialHeartbeat else s
  | .request i => if s.phase i = .up then publish cfg s i .other else s
  | .broadcast i => if s.phase i = .up then send cfg s i .other else s
  | .fire i => match s.deadline i with
    | some d => if d ≤ s.now then publish cfg s i .heartbeat else s
    | none => s
  | .cleanup i order =>
    if s.phase i = .up then
      { s with nodes := fun k => if k = i then Heartbeat.cleanup cfg.T (s.nodes k) s.now order else s.nodes k }
    else s
  | .deliver k => match s.net[k]? with
    | some p => receive cfg { s with net := s.net.eraseIdx k } p
    | none => s
  | .close i =>
    if s.phase i = .up then
      let s := publish cfg s i .close
      { s with deadline := fun k => if k = i then none else s.deadline k
               phase := fun k => if k = i then .closed else s.phase k }
    else s

/-- A history (adapter/cluster-adapter-with-heartbeat.go). -/
def run (cfg : Cfg) (h : List Ev) : St := h.foldl (step cfg) {}

end Verif.Beat
