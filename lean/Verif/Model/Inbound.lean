import Verif.Model.Values

/-!
# Packets of a client as dynamic values (socket/client.go:199-221, socket/socket.go:534-613, 753-768)

The data of a packet is whatever the decoder made of the bytes of the client.  Every type assertion of the code that looks at it is
explicit here: a failed one ends the program (`panicked`).  One connection, any number of namespaces; every goroutine the library starts
is a task, run at any later moment.  User code (listeners, middlewares, callbacks) does not panic and leaves the arguments alone.
-/

namespace Verif.Inbound
open Verif

/-- Go values of type `any` the code may meet: what JSON gives, byte buffers, `[]string`, `map[string]string`, `url.Values`, and the
acknowledgement function the library appends to the arguments (socket/socket.go:558). -/
inductive JVal where
  | null
  | bool (b : Bool)
  | num (n : Int)
  | str (s : String)
  | bin (l : List Nat)
  | arr (l : List JVal)
  | obj (l : List (String × JVal))
  | strs (l : List String)
  | strMap (l : List (String × String))
  | query (l : List (String × List String))
  | ackFn (id : Nat)
deriving Repr

/-- `parser.Packet`. -/
structure Packet where
  type : PType
  nsp : String := "/"
  data : JVal := .null
  id : Option Nat := none
deriving Repr

/-- What is in the table of acknowledgements (socket/socket.go:118): a callback of `socket.Emit` or of a broadcast, or one of an
emission that expects a single response (socket/remote-socket.go:63, socket/broadcast-operator.go:226-228). -/
inductive AckFn where
  | plain
  | single
deriving DecidableEq, Repr

/-- A socket: its namespace, `connected`, the number of middlewares (`fns`), the table of acknowledgements. -/
structure Sock where
  nsp : String
  connected : Bool := true
  fns : Nat := 0
  acks : List (Nat × AckFn) := []
deriving Repr

/-- Goroutines: `go socket._onpacket(packet)` (socket/client.go:216), an event that is in the middlewares (socket/socket.go:801-826),
`go func(err error)` (socket/socket.go:756), the same after it found the socket connected (socket/socket.go:762).  `none`: it has ended. -/
inductive Task where
  | onpacket (ref : Nat) (p : Packet)
  | gate (ref : Nat) (args : List JVal)
  | deliver (ref : Nat) (args : List JVal) (ok : Bool)
  | fire (ref : Nat) (name : String) (args : List JVal)
deriving Repr

/-- What is observed: the connection to a namespace is attempted with this payload, the catch-all listeners are called, the listeners
of an event are called, a callback is called, the connection is closed. -/
inductive Obs where
  | attempt (nsp : String) (auth : JVal)
  | catchAll (ref : Nat) (args : List JVal)
  | fired (ref : Nat) (name : String) (args : List JVal)
  | answered (ref : Nat) (id : Nat) (args : List JVal)
  | closed
deriving Repr

structure St where
  /-- the listeners of the connection are in place (socket/client.go:250-260) -/
  listening : Bool := true
  socks : List Sock := []
  /-- `nsps`: the socket of each namespace (socket/client.go:25) -/
  nsps : List (String × Nat) := []
  tasks : List (Option Task) := []
  log : List Obs := []
  panicked : Bool := false
deriving Repr

def setSock (s : St) (ref : Nat) (f : Sock → Sock) : St := { s with socks := s.socks.modify ref f }

def spawn (s : St) (t : Task) : St := { s with tasks := s.tasks ++ [some t] }

def out (s : St) (o : Obs) : St := { s with log := s.log ++ [o] }

/-- A failed type assertion or an index out of range in any goroutine. -/
def panic (s : St) : St := { s with panicked := true }

def isConnected (s : St) (ref : Nat) : Bool := ((s.socks[ref]?).map (·.connected)).getD false

/-- `Socket._onclose` (socket/socket.go:618-640).  Simplified: rooms, sessions and tables of the namespace are in `Model/World`; the
entry of the socket is removed from `nsps` by its reference. -/
def onclose (s : St) (ref : Nat) (reason : String) : St :=
  if isConnected s ref then
    let s := out s (.fired ref "disconnecting" [.str reason])
    let s := { setSock s ref ({ · with connected := false }) with nsps := s.nsps.filter (·.2 != ref) }
    out s (.fired ref "disconnect" [.str reason])
  else s

/-- `Client.onclose` (socket/client.go:233-247). -/
def clientOnclose (s : St) (reason : String) : St :=
  (List.range s.socks.length).foldl (fun s ref => onclose s ref reason) { s with listening := false }

/-- `Client.close` (socket/client.go:153-159). -/
def clientClose (s : St) : St := clientOnclose (out s .closed) "forced server close"

/-- `Client.ondecoded` (socket/client.go:199-221), protocol 4. -/
def ondecoded (s : St) (p : Packet) : St :=
  match s.nsps.find? (·.1 == p.nsp) with
  | none => if p.type = .connect then out s (.attempt p.nsp p.data) else clientClose s
  | some (_, ref) => if p.type = .connect ∨ p.type = .connectError then clientClose s else spawn s (.onpacket ref p)

/-- `Client.onerror` (socket/client.go:224-230): "error" on every socket, then `conn.Close`; that the connection is then lost is a
separate step. -/
def onerror (s : St) : St :=
  out ((List.range s.socks.length).foldl (fun s ref => if isConnected s ref then out s (.fired ref "error" [.null]) else s) s) .closed

/-- `dispatch` (socket/socket.go:753-768) up to the goroutine. -/
def dispatch (s : St) (ref : Nat) (args : List JVal) : St :=
  if ((s.socks[ref]?).map (·.fns)).getD 0 = 0 then spawn s (.deliver ref args true) else spawn s (.gate ref args)

/-- `onevent` (socket/socket.go:553-565); `packet.Data.([]any)`. -/
def onevent (s : St) (ref : Nat) (p : Packet) : St :=
  match p.data with
  | .arr l =>
    let args := match p.id with
      | some id => l ++ [.ackFn id]
      | none => l
    dispatch (out s (.catchAll ref args)) ref args
  | _ => panic s

/-- The callback of an emission that expects one response gets the arguments of the answer: they are pushed one by one, and when there
is as many as the one client expected the first is asserted to be a `[]any` (socket/broadcast-operator.go:223-233, 247-249).
Simplified: every server has reported before the client answers, and no answer came before (see `Model/Collector`). -/
def answerSingle (s : St) (ref id : Nat) : List JVal → St
  | [.arr l] => out s (.answered ref id l)
  | [_] => panic s
  | _ => s

/-- `onack` (socket/socket.go:585-598); `packet.Data.([]any)`. -/
def onack (s : St) (ref : Nat) (p : Packet) : St :=
  match p.id with
  | none => s
  | some id =>
    match (((s.socks[ref]?).map (·.acks)).getD []).lookup id with
    | none => s
    | some f =>
      match p.data with
      | .arr l =>
        let s := match f with
          | .plain => out s (.answered ref id l)
          | .single => answerSingle s ref id l
        setSock s ref (fun k => { k with acks := k.acks.filter (·.1 != id) })
      | _ => panic s

/-- `_onpacket` (socket/socket.go:534-548). -/
def onpacket (s : St) (ref : Nat) (p : Packet) : St :=
  match p.type with
  | .event | .binaryEvent => onevent s ref p
  | .ack | .binaryAck => onack s ref p
  | .disconnect => onclose s ref "client namespace disconnect"
  | .connect | .connectError => s

/-- The goroutine of `dispatch` (socket/socket.go:756-766); `event[0].(string)`.  Between the test of `Connected` and the call of the
listeners other goroutines run. -/
def deliver (s : St) (ref : Nat) (args : List JVal) (ok : Bool) : St :=
  if ok = false then out s (.fired ref "error" [.null])
  else if isConnected s ref then
    match args with
    | .str name :: rest => spawn s (.fire ref name rest)
    | _ => panic s
  else s

/-- The `k`-th goroutine goes on; `ok`: what the middlewares say.  A middleware may call `next` any number of times. -/
def runTask (s : St) (k : Nat) (ok : Bool) : St :=
  match s.tasks[k]? with
  | some (some (.onpacket ref p)) => onpacket { s with tasks := s.tasks.set k none } ref p
  | some (some (.deliver ref args ok)) => deliver { s with tasks := s.tasks.set k none } ref args ok
  | some (some (.fire ref name args)) => out { s with tasks := s.tasks.set k none } (.fired ref name args)
  | some (some (.gate ref args)) => spawn s (.deliver ref args ok)
  | _ => s

inductive Ev where
  /-- the decoder has a packet -/
  | recv (p : Packet)
  /-- the server lets the client into a namespace (socket/client.go:120-130) -/
  | join (nsp : String)
  | run (k : Nat) (ok : Bool)
  /-- `socket.Use` -/
  | use (ref : Nat)
  /-- an emission with an acknowledgement; `single`: of a `RemoteSocket` -/
  | emitAck (ref id : Nat) (single : Bool)
  /-- the timeout of an acknowledgement -/
  | expire (ref id : Nat)
  /-- `socket.Disconnect(false)` -/
  | disconnect (ref : Nat)
  /-- the decoder refuses what it was given (socket/client.go:190-196) -/
  | invalid
  /-- the connection is lost -/
  | lost (reason : String)

def step (s : St) (e : Ev) : St :=
  if s.panicked then s else
  match e with
  | .recv p => if s.listening then ondecoded s p else s
  | .join nsp => { s with socks := s.socks ++ [{ nsp := nsp }], nsps := (nsp, s.socks.length) :: s.nsps.filter (·.1 != nsp) }
  | .run k ok => runTask s k ok
  | .use ref => setSock s ref (fun k => { k with fns := k.fns + 1 })
  | .emitAck ref id single => setSock s ref (fun k => { k with acks := (id, if single then .single else .plain) :: k.acks.filter (·.1 != id) })
  | .expire ref id => setSock s ref (fun k => { k with acks := k.acks.filter (·.1 != id) })
  | .disconnect ref => onclose s ref "server namespace disconnect"
  | .invalid => if s.listening then onerror s else s
  | .lost reason => if s.listening then clientOnclose s reason else s

def run (h : List Ev) : St := h.foldl step {}

/-! ## The payload of a connection -/

/-- `parseSessionData` (socket/namespace.go:305-329): `Pid` and `Offset` of a payload of one of two types; `url.Values` is neither. -/
def parseSessionData : JVal → Option (Option JVal × Option JVal)
  | .obj l => some (l.lookup "pid", l.lookup "offset")
  | .strMap l => some ((l.lookup "pid").map .str, (l.lookup "offset").map .str)
  | _ => none

/-- `GetPid`, `GetOffset` (socket/namespace-type.go:199-225): the string, or the last of the strings; `none` if that is empty. -/
def getString : Option JVal → Option String
  | some (.str s) => if s.length > 0 then some s else none
  | some (.strs l) => match l.getLast? with
    | some s => if s.length > 0 then some s else none
    | none => none
  | _ => none

/-- `_createSocket` (socket/namespace.go:331-346) up to `RestoreSession`: what it is called with, if it is. -/
def asks (recovery : Bool) (auth : JVal) : Option (String × String) :=
  match parseSessionData auth with
  | none => none
  | some (pid, offset) =>
    match getString pid, getString offset with
    | some p, some o => if recovery then some (p, o) else none
    | _, _ => none

/-- The payload of a connection (socket/client.go:201-211): the data of the packet, or for protocol 3 the query of its namespace.
`parse` is `url.Parse`: the path and the query, or an error. -/
def authOf (parse : String → Option (String × List (String × List String))) (proto3 : Bool) (p : Packet) : String × JVal :=
  if proto3 then
    match parse p.nsp with
    | some (path, q) => (path, .query q)
    | none => ("", .null)
  else (p.nsp, p.data)

end Verif.Inbound
