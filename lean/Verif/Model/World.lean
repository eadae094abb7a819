import Verif.Model.Adapter
import Verif.Model.Session

/-!
# The server: clients, namespaces, sockets and their lifecycle
(socket/client.go, socket/namespace.go, socket/socket.go, socket/server.go, socket/parent-namespace.go)

The state holds every client, namespace and socket ever created; they are named by numbers (pointers).
One step is one callback of the engine, one call of the API, or one goroutine started by the library, run
without interruption; the steps of several goroutines are interleaved in any order.
Not modelled here: event arguments and acknowledgements (`Model/Acks`), event middlewares
(`Model/EventGate`), the bytes on the connection (`Model/Writer`), the operators (`Model/Operator`),
other servers (`Model/Cluster`).
-/

namespace Verif.World
open Verif Verif.Adapter

/-- Updating a heap cell. -/
def upd {α : Type} (f : Nat → α) (i : Nat) (x : α) : Nat → α := fun j => if j = i then x else f j

/-- `Socket` (socket/socket.go:81-125): the fields that matter for the lifecycle. -/
structure Sock where
  ns : Nat := 0
  client : Nat := 0
  sid : Sid := ""
  pid : Session.Pid := ""
  connected : Bool := false
  canJoin : Bool := true
  recovered : Bool := false
  data : Option Val := none
deriving DecidableEq, Repr

/-- `conn.ReadyState()` of the engine (library engine.io). -/
inductive Conn where
  | opened | closing | closed
deriving DecidableEq, Repr

/-- `Client` (socket/client.go:17-29).  `listening`: the listeners of `setup` are registered; `timer`: the
connect timer is armed. -/
structure Client where
  proto3 : Bool := false
  conn : Conn := .closed
  sockets : FMap Sid Nat := []
  nsps : FMap String Nat := []
  timer : Bool := false
  listening : Bool := false
deriving DecidableEq, Repr

/-- `namespace` (socket/namespace.go:67-89) with its adapter.  `fns`: number of middlewares; `auto`: the
clean-up function of a child namespace is set (socket/parent-namespace.go:87-96). -/
structure Ns where
  name : String := ""
  ad : Ad := {}
  sockets : FMap Sid Nat := []
  sess : Session.St := {}
  fns : Nat := 0
  auto : Bool := false
deriving DecidableEq, Repr

/-- The error a middleware passes to `next` (`ExtendedError`, socket/namespace-type.go:173-192). -/
structure Err where
  message : String
  data : Option Val := none
deriving DecidableEq, Repr

/-- What a goroutine started by the library will do: the end of the middleware chain
(socket/namespace.go:274-301) or a received packet (socket/client.go:216). -/
inductive Task where
  | result (ref : Nat) (err : Option Err)
  | packet (ref : Nat) (type : PType)
deriving DecidableEq, Repr

/-- A running middleware chain (socket/namespace.go:184-208): the socket, the number of middlewares at the
start, the last middleware called so far and the `next` functions that have been called. -/
structure Chain where
  ref : Nat
  len : Nat
  reached : Nat := 0
  used : List Nat := []
deriving DecidableEq, Repr

/-- What can be observed, in order: events seen by the user's listeners, sessions saved, packets handed to
the engine for a client, on behalf of a socket (`none`: by the client itself), sockets a packet was sent to by
a broadcast. -/
inductive Obs where
  | connection (ref : Nat)
  | disconnecting (ref : Nat) (reason : String)
  | disconnect (ref : Nat) (reason : String)
  | saved (ref : Nat) (s : Session.Sess)
  | packet (client : Nat) (ref : Option Nat) (p : Pkt)
  | received (ref : Nat) (type : PType)
deriving DecidableEq, Repr

structure W where
  nss : Nat → Ns := fun _ => {}
  nNs : Nat := 0
  socks : Nat → Sock := fun _ => {}
  nSock : Nat := 0
  clients : Nat → Client := fun _ => {}
  nClient : Nat := 0
  /-- `server._nsps` (socket/server.go) -/
  nsps : FMap String Nat := []
  tasks : List Task := []
  chains : List Chain := []
  now : Int := 0
  log : List Obs := []

/-- What a "disconnecting" listener of the user does. -/
inductive Act where
  | join (ref : Nat) (rooms : List Room)
  | leave (ref : Nat) (room : Room)
deriving DecidableEq, Repr

/-- Parameters.  `recovery`: the session store's parameters and SkipMiddlewares, if connection state recovery
is enabled; `newSid`, `newPid`: `Base64Id().GenerateId()` for the n-th socket; `connId`: `conn.Id()` of the n-th
client; `admit`: the matchers of the parent namespaces accept that name (`Model/Registry` has the details),
`childFns`: number of middlewares of the parent, `autoClean`: CleanupEmptyChildNamespaces; `syncClose`: the reason
with which the engine emits "close" inside `conn.Close()` for that client, if it does; `hook`: what the
listeners of "disconnecting" do for that socket; `delRet`: see `Adapter.deleteResult`. -/
structure Cfg where
  recovery : Option (Session.Cfg × Bool) := none
  newSid : Nat → Sid
  newPid : Nat → Session.Pid
  connId : Nat → String
  admit : String → Bool := fun _ => false
  childFns : Nat := 0
  autoClean : Bool := false
  syncClose : Nat → Option String := fun _ => none
  hook : Nat → List Act := fun _ => []
  delRet : Bool := false

section
variable (cfg : Cfg)

def setSock (w : W) (ref : Nat) (f : Sock → Sock) : W := { w with socks := upd w.socks ref (f (w.socks ref)) }
def setNs (w : W) (n : Nat) (f : Ns → Ns) : W := { w with nss := upd w.nss n (f (w.nss n)) }
def setClient (w : W) (c : Nat) (f : Client → Client) : W :=
  { w with clients := upd w.clients c (f (w.clients c)) }
def obs (w : W) (o : Obs) : W := { w with log := w.log ++ [o] }

/-- `Client._packet` (socket/client.go:162-173).  Simplified: a packet accepted for writing is handed to the
engine (volatile packets: `Model/Writer`). -/
def clientPacket (w : W) (c : Nat) (ref : Option Nat) (p : Pkt) : W :=
  if (w.clients c).conn = .opened then obs w (.packet c ref p) else w

/-- `Socket.packet` (socket/socket.go:453-459). -/
def sockPacket (w : W) (ref : Nat) (p : Pkt) : W :=
  clientPacket w (w.socks ref).client (some ref) { p with nsp := (w.nss (w.socks ref).ns).name }

/-- `Socket.Join` (socket/socket.go:473-480). -/
def join (w : W) (ref : Nat) (rooms : List Room) : W :=
  if (w.socks ref).canJoin then
    setNs w (w.socks ref).ns fun n => { n with ad := (addAll n.ad (w.socks ref).sid rooms).1 }
  else w

/-- `Socket.Leave` (socket/socket.go:495-498). -/
def leave (w : W) (ref : Nat) (room : Room) : W :=
  setNs w (w.socks ref).ns fun n => { n with ad := (del cfg.delRet n.ad (w.socks ref).sid room).1 }

/-- The loop of `DelSockets` (socket/adapter.go:256-258). -/
def leaveEach (rooms : List Room) (w : W) (ref : Nat) : W := rooms.foldl (fun w r => leave cfg w ref r) w

/-- One action of a listener. -/
def act (w : W) : Act → W
  | .join ref rooms => if ref < w.nSock then join w ref rooms else w
  | .leave ref room => if ref < w.nSock then leave cfg w ref room else w

/-- `Socket.leaveAll` (socket/socket.go:501-503). -/
def leaveAll (w : W) (ref : Nat) : W :=
  setNs w (w.socks ref).ns fun n => { n with ad := (delAll cfg.delRet n.ad (w.socks ref).sid).1 }

/-- The clean-up function of a child namespace (socket/parent-namespace.go:88-95): the entry of `_nsps` is
deleted by name.  Simplified: `children.Delete` and `Adapter().Close()` are left out. -/
def autoClean (w : W) (n : Nat) : W :=
  if (w.nss n).auto ∧ (w.nss n).sockets.length = 0 then { w with nsps := w.nsps.erase (w.nss n).name } else w

/-- `namespace.Remove` (socket/namespace.go:374-381). -/
def nsRemove (w : W) (ref : Nat) : W :=
  let w := setNs w (w.socks ref).ns fun n => { n with sockets := n.sockets.erase (w.socks ref).sid }
  autoClean w (w.socks ref).ns

/-- `Socket._cleanup` (socket/socket.go:642-646). -/
def cleanup (w : W) (ref : Nat) : W :=
  let w := nsRemove (leaveAll cfg w ref) ref
  setSock w ref fun s => { s with canJoin := false }

/-- `Client._remove` (socket/client.go:143-150): the namespace name is that of the socket found in the
table. -/
def clientRemove (w : W) (ref : Nat) : W :=
  let c := (w.socks ref).client
  match (w.clients c).sockets.get? (w.socks ref).sid with
  | some found =>
    setClient w c fun k => { k with
      sockets := k.sockets.erase (w.socks ref).sid
      nsps := k.nsps.erase (w.nss (w.socks found).ns).name }
  | none => w

/-- `RECOVERABLE_DISCONNECT_REASONS` (socket/socket.go:22). -/
def recoverable : List String :=
  ["transport error", "transport close", "forced close", "ping timeout", "server shutting down",
   "forced server close"]

/-- What `_onclose` saves (socket/socket.go:627-632). -/
def session (w : W) (ref : Nat) : Session.Sess :=
  { sid := (w.socks ref).sid, pid := (w.socks ref).pid
    rooms := roomsOf (w.nss (w.socks ref).ns).ad (w.socks ref).sid, data := (w.socks ref).data }

/-- `PersistSession` if recovery is enabled and the reason allows it (socket/socket.go:625-633). -/
def persist (w : W) (ref : Nat) (reason : String) : W :=
  if cfg.recovery.isSome ∧ reason ∈ recoverable then
    let s := session w ref
    obs (setNs w (w.socks ref).ns fun n => { n with sess := Session.persist w.now s n.sess }) (.saved ref s)
  else w

/-- `Socket._onclose` (socket/socket.go:618-639).  The listeners of "disconnecting" run `cfg.hook`; those of
"disconnect" act in later steps (simplified). -/
def onclose (w : W) (ref : Nat) (reason : String) : W :=
  if (w.socks ref).connected then
    let w := obs w (.disconnecting ref reason)
    let w := (cfg.hook ref).foldl (act cfg) w
    let w := persist cfg w ref reason
    let w := cleanup cfg w ref
    let w := clientRemove w ref
    let w := setSock w ref fun s => { s with connected := false }
    obs w (.disconnect ref reason)
  else w

/-- `Socket.Disconnect(false)` (socket/socket.go:668-681). -/
def disconnectNs (w : W) (ref : Nat) : W :=
  if (w.socks ref).connected then
    onclose cfg (sockPacket w ref { type := .disconnect }) ref "server namespace disconnect"
  else w

/-- `sockets.Range` with a body that removes entries: the keys present at the start, skipping those removed
before their turn (contract of `types.Map.Range`). -/
def eachSocket (c : Nat) (body : W → Nat → W) (w : W) (sid : Sid) : W :=
  match (w.clients c).sockets.get? sid with
  | some ref => body w ref
  | none => w

/-- `Client.onclose` with `destroy` (socket/client.go:233-260). -/
def clientOnclose (w : W) (c : Nat) (reason : String) : W :=
  let w := setClient w c fun k => { k with listening := false, timer := false }
  let w := (w.clients c).sockets.keys.foldl (eachSocket c fun w ref => onclose cfg w ref reason) w
  setClient w c fun k => { k with sockets := [] }

/-- `conn.Close(false)` of the engine on an open connection (library engine.io): the connection is no longer
open; the engine may emit "close" at once. -/
def connClose (w : W) (c : Nat) : W :=
  if (w.clients c).conn = .opened then
    let w := setClient w c fun k => { k with conn := .closing }
    match cfg.syncClose c with
    | some reason => if (w.clients c).listening then clientOnclose cfg w c reason else w
    | none => w
  else w

/-- `Client.close` (socket/client.go:153-159). -/
def clientClose (w : W) (c : Nat) : W :=
  if (w.clients c).conn = .opened then clientOnclose cfg (connClose cfg w c) c "forced server close" else w

/-- `Client._disconnect` (socket/client.go:133-140). -/
def clientDisconnect (w : W) (c : Nat) : W :=
  let w := (w.clients c).sockets.keys.foldl (eachSocket c (disconnectNs cfg)) w
  let w := setClient w c fun k => { k with sockets := [] }
  clientClose cfg w c

/-- `Socket.Disconnect` (socket/socket.go:668-681). -/
def disconnect (status : Bool) (w : W) (ref : Nat) : W :=
  if (w.socks ref).connected then
    if status then clientDisconnect cfg w (w.socks ref).client else disconnectNs cfg w ref
  else w

/-- `namespace._doConnect` (socket/namespace.go:348-364) with `_onconnect` (socket/socket.go:509-530) and the
function passed by `doConnect` (socket/client.go:120-130).  Simplified: the "connect" and "connection" events
are one. -/
def doConnect (w : W) (ref : Nat) : W :=
  let n := (w.socks ref).ns
  let c := (w.socks ref).client
  let sid := (w.socks ref).sid
  let w := setNs w n fun k => { k with sockets := k.sockets.insert sid ref }
  let w := setSock w ref fun s => { s with connected := true }
  let w := join w ref [sid]
  let w := sockPacket w ref
    { type := .connect, data := if (w.clients c).proto3 then .nil else .connect sid (w.socks ref).pid }
  let w := setClient w c fun k => { k with
    sockets := k.sockets.insert sid ref, nsps := k.nsps.insert (w.nss n).name ref, timer := false }
  obs w (.connection ref)

/-- The id of a socket that is not recovered (socket/socket.go:228-237). -/
def freshSid (w : W) (n c : Nat) : Sid :=
  if (w.clients c).proto3 then
    if (w.nss n).name = "/" then cfg.connId c else (w.nss n).name ++ "#" ++ cfg.connId c
  else cfg.newSid w.nSock

/-- Allocates a socket. -/
def alloc (w : W) (s : Sock) : W := { w with socks := upd w.socks w.nSock s, nSock := w.nSock + 1 }

/-- `NewSocket` without a session (socket/socket.go:227-242). -/
def newSocket (w : W) (n c : Nat) : W :=
  alloc w { ns := n, client := c, sid := freshSid cfg w n c
            pid := if cfg.recovery.isSome then cfg.newPid w.nSock else "" }

/-- `NewSocket` with a session (socket/socket.go:213-226): the rooms are joined and the missed packets written
at once. -/
def recoverSocket (w : W) (n c : Nat) (s : Session.Sess) (missed : List (List Val)) : W :=
  let ref := w.nSock
  let w := alloc w { ns := n, client := c, sid := s.sid, pid := s.pid, data := s.data, recovered := true }
  let w := s.rooms.foldl (fun w r => join w ref [r]) w
  missed.foldl (fun w l => sockPacket w ref { type := .event, data := .args l }) w

/-- `_createSocket` (socket/namespace.go:331-346); `auth` is the pid and offset of the auth payload, if both are
there (socket/namespace-type.go:194-225).  A panic of `RestoreSession` does not happen
(theorem `C62_no_panic`; `Model/RecoverRace` has the one caused by the clean-up timer). -/
def createSocket (w : W) (n c : Nat) (auth : Option (Session.Pid × String)) : W :=
  match cfg.recovery, auth with
  | some (sc, _), some (pid, offset) =>
    let r := Session.restore sc w.now pid offset (w.nss n).sess
    let w := setNs w n fun k => { k with sess := r.1 }
    match r.2 with
    | .ok s missed => recoverSocket w n c s missed
    | _ => newSocket cfg w n c
  | _, _ => newSocket cfg w n c

/-- `SkipMiddlewares()`. -/
def skips (cfg : Cfg) : Bool := match cfg.recovery with | some (_, b) => b | none => false

/-- `namespace.Add` (socket/namespace.go:267-301) up to the first middleware. -/
def add (w : W) (n c : Nat) (auth : Option (Session.Pid × String)) : W :=
  let ref := w.nSock
  let w := createSocket cfg w n c auth
  if skips cfg ∧ (w.socks ref).recovered ∧ (w.clients c).conn = .opened then doConnect w ref
  else if (w.nss n).fns = 0 then { w with tasks := w.tasks ++ [.result ref none] }
  else { w with chains := w.chains ++ [{ ref := ref, len := (w.nss n).fns }] }

/-- `NewNamespace` and `_nsps.Store` (socket/server.go:600-602, socket/parent-namespace.go:77-103). -/
def newNs (w : W) (s : Ns) : W :=
  { w with nss := upd w.nss w.nNs s, nNs := w.nNs + 1, nsps := w.nsps.insert s.name w.nNs }

/-- `Client.connect` and `doConnect` (socket/client.go:93-130).  The name starts with a slash, so `Of` finds the
namespace just created (socket/server.go:570-585). -/
def connect (w : W) (c : Nat) (name : String) (auth : Option (Session.Pid × String)) : W :=
  match w.nsps.get? name with
  | some n => add cfg w n c auth
  | none =>
    if cfg.admit name then
      let n := w.nNs
      add cfg (newNs w { name := name, fns := cfg.childFns, auto := cfg.autoClean }) n c auth
    else clientPacket w c none { type := .connectError, nsp := name, data := .error "Invalid namespace" none }

/-- `Client.ondecoded` (socket/client.go:199-221); `name` and `auth` are those of the packet, whichever the
protocol. -/
def ondecoded (w : W) (c : Nat) (type : PType) (name : String) (auth : Option (Session.Pid × String)) : W :=
  match (w.clients c).nsps.get? name with
  | none => if type = .connect then connect cfg w c name auth else clientClose cfg w c
  | some ref =>
    if type ≠ .connect ∧ type ≠ .connectError then { w with tasks := w.tasks ++ [.packet ref type] }
    else clientClose cfg w c

/-- A call of the `next` function of the `i`-th middleware (socket/namespace.go:189-202). -/
def next (w : W) (k i : Nat) (err : Option Err) : W :=
  match w.chains[k]? with
  | none => w
  | some ch =>
    if i ≤ ch.reached then
      let done := { w with chains := w.chains.set k { ch with used := i :: ch.used } }
      if err.isSome ∨ ch.len - 1 ≤ i then { done with tasks := done.tasks ++ [.result ch.ref err] }
      else { w with chains := w.chains.set k { ch with used := i :: ch.used, reached := max ch.reached (i + 1) } }
    else w

/-- The payload of CONNECT_ERROR (socket/namespace.go:281-297).  Simplified: with protocol 3 the payload is the
data, or the message. -/
def errorData (proto3 : Bool) (e : Err) : PData :=
  if proto3 then (match e.data with | some v => .args [v] | none => .error e.message none)
  else .error e.message e.data

/-- The goroutine at the end of the chain (socket/namespace.go:275-301). -/
def result (w : W) (ref : Nat) (err : Option Err) : W :=
  let c := (w.socks ref).client
  if (w.clients c).conn ≠ .opened then cleanup cfg w ref
  else match err with
    | some e => sockPacket (cleanup cfg w ref) ref { type := .connectError, data := errorData (w.clients c).proto3 e }
    | none => doConnect w ref

/-- `Socket._onpacket` (socket/socket.go:534-548); events and acknowledgements are only noted. -/
def onpacket (w : W) (ref : Nat) (type : PType) : W :=
  if type = .disconnect then onclose cfg w ref "client namespace disconnect" else obs w (.received ref type)

def runTask (w : W) : Task → W
  | .result ref err => result cfg w ref err
  | .packet ref type => onpacket cfg w ref type

/-- What `apply` sees of namespace `n`. -/
def view (n : Nat) : View W Nat where
  ad := fun w => (w.nss n).ad
  sock := fun w sid => (w.nss n).sockets.get? sid

/-- The options built by a `BroadcastOperator` (never nil). -/
def options (rooms except : List Room) (flags : Flags) : Option Opts :=
  some { rooms := some rooms, except := some except, flags := some flags }

/-- `Broadcast` of the namespace's adapter, with the session store if recovery is enabled
(socket/session-aware-adapter.go:124-144, socket/adapter.go:145-164). -/
def broadcast (w : W) (n : Nat) (p : Pkt) (opts : Option Opts) : W :=
  match cfg.recovery with
  | some (sc, _) =>
    let r := Session.broadcast sc w.now p opts (w.nss n).sess
    let w := setNs w n fun k => { k with sess := r.1 }
    (apply (view n) opts (fun w ref => sockPacket w ref r.2) w).1
  | none => (apply (view n) opts (fun w ref => sockPacket w ref p) w).1

/-- `Socket.Emit` (socket/socket.go:280-314) of an event without acknowledgement. -/
def emit (w : W) (ref : Nat) (args : List Val) (flags : Flags) : W :=
  match cfg.recovery with
  | some _ => broadcast cfg w (w.socks ref).ns { type := .event, data := .args args }
      (options [(w.socks ref).sid] [] flags)
  | none => sockPacket w ref { type := .event, data := .args args }

/-- One namespace in `Server.Close` (socket/server.go:619-622); the namespace may have been removed before its
turn. -/
def closeNs (w : W) (name : String) : W :=
  match w.nsps.get? name with
  | none => w
  | some n => (w.nss n).sockets.keys.foldl (fun w sid =>
      match (w.nss n).sockets.get? sid with
      | some ref => onclose cfg w ref "server shutting down"
      | none => w) w

/-- `Server.Close` (socket/server.go:617-625).  The engine then closes the connections; that is a later
`transportClose` step for each client. -/
def serverClose (w : W) : W := w.nsps.keys.foldl (closeNs cfg) w

/-- `onconnection` (socket/server.go:515-522) with `setup` (socket/client.go:72-86). -/
def accept (w : W) (proto3 : Bool) : W :=
  let c := w.nClient
  let w := { w with
    clients := upd w.clients c { proto3 := proto3, conn := .opened, timer := true, listening := true }
    nClient := c + 1 }
  if proto3 then connect cfg w c "/" none else w

/-- The connect timer (socket/client.go:78-85). -/
def timerFires (w : W) (c : Nat) : W :=
  if (w.clients c).timer then
    let w := setClient w c fun k => { k with timer := false }
    if (w.clients c).nsps.length = 0 then clientClose cfg w c else w
  else w

end

inductive Ev where
  /-- the engine accepts a connection -/
  | accept (proto3 : Bool)
  /-- the decoder of client `c` emits a packet -/
  | recv (c : Nat) (type : PType) (name : String) (auth : Option (Session.Pid × String))
  /-- the `k`-th goroutine waiting runs -/
  | task (k : Nat)
  /-- a middleware calls `next` -/
  | next (k i : Nat) (err : Option Err)
  /-- the engine reports that the connection is closed -/
  | transportClose (c : Nat) (reason : String)
  /-- the connection has an error -/
  | connError (c : Nat)
  | timer (c : Nat)
  /-- `Of(name)` for a new or existing namespace, `Use` -/
  | «of» (name : String)
  | use (n : Nat)
  | join (ref : Nat) (rooms : List Room)
  | leave (ref : Nat) (room : Room)
  | setData (ref : Nat) (v : Val)
  | disconnect (ref : Nat) (status : Bool)
  | disconnectSockets (n : Nat) (rooms except : List Room) (flags : Flags) (status : Bool)
  | socketsJoin (n : Nat) (rooms except : List Room) (flags : Flags) (target : List Room)
  | socketsLeave (n : Nat) (rooms except : List Room) (flags : Flags) (target : List Room)
  | broadcast (n : Nat) (args : List Val) (id : Option Nat) (rooms except : List Room) (flags : Flags)
  | emit (ref : Nat) (args : List Val) (flags : Flags)
  /-- time passes; the clean-up timer of a session store fires -/
  | clock (now : Int)
  | tick (n : Nat)
  | serverClose
  /-- the order in which the tables are iterated changes -/
  | reorderClient (c : Nat) (l : FMap Sid Nat)
  | reorderNs (n : Nat) (l : FMap Sid Nat)
  | reorderNsps (l : FMap String Nat)
deriving DecidableEq, Repr

/-- One step.  Steps about clients, sockets and namespaces that do not exist do nothing. -/
def step (cfg : Cfg) (w : W) : Ev → W
  | .accept p => accept cfg w p
  | .recv c type name auth =>
    if c < w.nClient ∧ (w.clients c).listening then ondecoded cfg w c type name auth else w
  | .task k =>
    match w.tasks[k]? with
    | some t => runTask cfg { w with tasks := w.tasks.eraseIdx k } t
    | none => w
  | .next k i err => next w k i err
  | .transportClose c reason =>
    if c < w.nClient then
      let l := (w.clients c).listening
      let w := setClient w c fun k => { k with conn := .closed }
      if l then clientOnclose cfg w c reason else w
    else w
  | .connError c => if c < w.nClient ∧ (w.clients c).listening then connClose cfg w c else w
  | .timer c => if c < w.nClient then timerFires cfg w c else w
  | .of name => match w.nsps.get? name with | some _ => w | none => newNs w { name := name }
  | .use n => if n < w.nNs then setNs w n fun k => { k with fns := k.fns + 1 } else w
  | .join ref rooms => act cfg w (.join ref rooms)
  | .leave ref room => act cfg w (.leave ref room)
  | .setData ref v => if ref < w.nSock then setSock w ref fun s => { s with data := some v } else w
  | .disconnect ref status => if ref < w.nSock then disconnect cfg status w ref else w
  | .disconnectSockets n rooms except flags status =>
    (apply (view n) (options rooms except flags) (disconnect cfg status) w).1
  | .socketsJoin n rooms except flags target =>
    (apply (view n) (options rooms except flags) (fun w ref => join w ref target) w).1
  | .socketsLeave n rooms except flags target =>
    (apply (view n) (options rooms except flags) (leaveEach cfg target) w).1
  | .broadcast n args id rooms except flags =>
    if n < w.nNs then
      broadcast cfg w n { type := .event, data := .args args, id := id } (options rooms except flags)
    else w
  | .emit ref args flags => if ref < w.nSock then emit cfg w ref args flags else w
  | .clock now => { w with now := now }
  | .tick n => match cfg.recovery with
    | some (sc, _) => setNs w n fun k => { k with sess := Session.tick sc w.now k.sess }
    | none => w
  | .serverClose => serverClose cfg w
  | .reorderClient c l =>
    if l.isPerm (w.clients c).sockets then setClient w c fun k => { k with sockets := l } else w
  | .reorderNs n l => if l.isPerm (w.nss n).sockets then setNs w n fun k => { k with sockets := l } else w
  | .reorderNsps l => if l.isPerm w.nsps then { w with nsps := l } else w

/-- A new server has the namespace "/" (socket/server.go:166, 600-602). -/
def init : W := newNs {} { name := "/" }

def run (cfg : Cfg) (h : List Ev) : W := h.foldl (step cfg) init

end Verif.World
