import Verif.Model.World

/-!
# Variables that are written while other goroutines read them

Goroutines make calls of the library; every access to a variable that is neither atomic nor protected by a lock is one step.  The
variables are the ones that are written after the object they belong to can be reached by others: the modifiers of a socket, the
settings of the server, the adapter of a namespace, the number of servers that a broadcast with an acknowledgement waits for, the
outcome of a dynamic namespace and the packet of a cluster broadcast.  Fields that are only set by constructors, before the object is
handed out, atomics, and the types of the `types` package, which have locks of their own, are left out.

A socket's modifiers are in a structure behind an atomic pointer (socket/socket.go:120); a new one is stored by every emission
(socket/socket.go:299, socket/socket.go:1013).  The structures of socket `s` are numbered `(s, 0)`, `(s, 1)`, … in the order in which
they are stored.
-/

namespace Verif.DataRace
open Verif Verif.World

/-- The fields of `BroadcastFlags` (socket/adapter-type.go); `rest` are those that no method of a socket sets. -/
inductive Field where
  | compress | volatile | timeout | rest
deriving DecidableEq, Repr

/-- Variables other than the modifiers. -/
inductive Place where
  /-- `flags` of an operator (socket/broadcast-operator.go:47-49) -/
  | operator (k : Nat)
  /-- `expectedServerCount` of a broadcast (socket/broadcast-operator.go:219) -/
  | count (q : Nat)
  /-- `adapter` of a namespace (socket/namespace.go:79) -/
  | adapterOf (n : Nat)
  /-- `_adapter` of the server (socket/server.go:261) -/
  | builder
  /-- `_connectTimeout` (socket/server.go:93) -/
  | connectTimeout
  /-- `_path` (socket/server.go:90) -/
  | path
  /-- `clientPathRegex` (socket/server.go:91) -/
  | regex
  /-- `_serveClient` (socket/server.go:85) -/
  | serveClient
  /-- `eio` (socket/server.go:89) -/
  | eio
  /-- `engine` (socket/server.go:509) -/
  | engine
  /-- `httpServer` (socket/server.go:94) -/
  | http
  /-- `_corsMiddleware` (socket/server.go:95) -/
  | cors
  /-- `status` and `end` of one attempt to connect to a dynamic namespace (socket/server.go:204-206), one variable here -/
  | verdict (m : Nat)
  /-- the fields of one packet (socket/adapter.go:156, adapter/cluster-adapter.go:327), one variable here -/
  | packet (p : Nat)
deriving DecidableEq, Repr

/-- A variable: a field of a structure of modifiers, or one of the others. -/
inductive Cell where
  | flag (s k : Nat) (f : Field)
  | at (x : Place)
deriving DecidableEq, Repr

/-- One step of a goroutine. -/
inductive Instr where
  /-- `s.flags.Load()` -/
  | load (s : Nat)
  /-- a field of the structure that was loaded is read -/
  | rdF (s : Nat) (f : Field)
  /-- a field of the structure that was loaded is written -/
  | wrF (s : Nat) (f : Field)
  /-- `s.flags.Store(&BroadcastFlags{})` -/
  | reset (s : Nat)
  | rd (x : Place)
  | wr (x : Place)
  /-- something that does not concern these variables, as sending a packet -/
  | other
deriving DecidableEq, Repr

/-- The calls. -/
inductive Call where
  /-- `socket.Emit`, with or without an acknowledgement -/
  | emit (s : Nat) (ack : Bool)
  /-- `socket.Compress`, `Volatile` or `Timeout` -/
  | modify (s : Nat) (f : Field)
  /-- `socket.To`, `In`, `Except`, `Broadcast`, `Local` -/
  | derive_ (s : Nat)
  /-- any method of an operator, but for an emission with an acknowledgement -/
  | useOp (k : Nat)
  /-- the emission number `q` with an acknowledgement, through an operator -/
  | ask (k q : Nat)
  /-- a client's answer to the emission `q`, or the number of clients of another server -/
  | answer (q : Nat)
  /-- any method of a namespace that uses its adapter; a client that connects to it -/
  | through (n : Nat)
  /-- `server.Of` with a new name; a child namespace that is created -/
  | of
  | setConnectTimeout
  /-- a new connection; `server.ConnectTimeout` -/
  | connection
  | setPath
  /-- `server.Path` -/
  | getPath
  | setServeClient
  /-- `server.ServeClient` -/
  | getServeClient
  /-- `server.Attach`, `Listen` -/
  | attach
  /-- the end of the constructor, with the option `cors` -/
  | finish
  /-- a request for a file of the client -/
  | file
  /-- `server.ServeHandler`, the first time or later -/
  | handler (first : Bool)
  /-- `server.Bind` -/
  | bind
  /-- `server.SetAdapter` while the namespaces are these -/
  | setAdapter (ns : List Nat)
  /-- `server.Close` while the namespaces are these -/
  | close (ns : List Nat)
  /-- the attempt `m` to connect to a dynamic namespace -/
  | admit (m : Nat)
  /-- the program answers the attempt `m` from a goroutine of its own -/
  | next (m : Nat)
  /-- a broadcast of an adapter of a cluster -/
  | cast (p : Nat)
  /-- the adapter's connection to the other servers encodes a packet in a goroutine of its own -/
  | transmit (p : Nat)
deriving DecidableEq, Repr

/-- `*s.flags.Load()`: all fields are copied (socket/socket.go:298, socket/socket.go:1012). -/
def copy (s : Nat) : List Instr := [.load s, .rdF s .compress, .rdF s .volatile, .rdF s .timeout, .rdF s .rest]

/-- `SetAdapter` goes through the namespaces (socket/server.go:260-267); `InitAdapter` (socket/namespace.go:160-162). -/
def inits (ns : List Nat) : List Instr := ns.flatMap (fun n => [.rd .builder, .wr (.adapterOf n)])

/-- The accesses of each call, in order. -/
def code : Call → List Instr
  -- socket/socket.go:280-316; `registerAckCallback` (socket/socket.go:346-351) comes first if there is an acknowledgement
  | .emit s true => [.load s, .rdF s .timeout] ++ copy s ++ [.reset s, .other]
  | .emit s false => copy s ++ [.reset s, .other]
  -- socket/socket.go:691-694, socket/socket.go:704-707, socket/socket.go:747-750
  | .modify s f => [.load s, .wrF s f]
  -- socket/socket.go:1011-1015
  | .derive_ s => copy s ++ [.reset s]
  -- socket/broadcast-operator.go:67-157, 175-198
  | .useOp k => [.rd (.operator k)]
  -- socket/broadcast-operator.go:200-252: the broadcast comes before the write
  | .ask k q => [.rd (.operator k), .other, .wr (.count q), .rd (.count q)]
  -- socket/broadcast-operator.go:223-233, 239-248
  | .answer q => [.rd (.count q)]
  -- socket/namespace.go:133-135
  | .through n => [.rd (.adapterOf n)]
  -- socket/namespace.go:160-162; the adapter of a namespace that nobody can reach yet is left out
  | .of => [.rd .builder]
  -- socket/server.go:248-251
  | .setConnectTimeout => [.wr .connectTimeout]
  -- socket/client.go:75-82, socket/server.go:253-255
  | .connection => [.rd .connectTimeout]
  -- socket/server.go:234-238
  | .setPath => [.wr .path, .rd .path, .wr .regex]
  -- socket/server.go:241-243
  | .getPath => [.rd .path]
  -- socket/server.go:186-189
  | .setServeClient => [.wr .serveClient]
  -- socket/server.go:192-194
  | .getServeClient => [.rd .serveClient]
  -- socket/server.go:287-321, 357-372, 508-512; the handler of the files is there before the last three steps
  | .attach => [.rd .path, .wr .eio, .rd .serveClient, .rd .path, .wr .http, .rd .eio, .wr .engine, .rd .engine]
  -- socket/server.go:174-176
  | .finish => [.wr .cors]
  -- socket/server.go:375-394
  | .file => [.rd .regex, .rd .cors]
  -- socket/server.go:326-350
  | .handler true => [.rd .eio, .rd .path, .wr .eio, .rd .eio, .wr .engine, .rd .engine]
  | .handler false => [.rd .eio]
  -- socket/server.go:508-512
  | .bind => [.wr .engine, .rd .engine]
  -- socket/server.go:260-267
  | .setAdapter ns => .wr .builder :: inits ns
  -- socket/server.go:617-642
  | .close ns => ns.map (fun n => .rd (.adapterOf n)) ++ [.rd .http, .rd .engine]
  -- socket/server.go:203-231: the function of the program is called, then the variables are read
  | .admit m => [.other, .rd (.verdict m)]
  -- socket/server.go:207-226
  | .next m => [.wr (.verdict m)]
  -- adapter/cluster-adapter.go:292-311: published first, then changed (adapter/cluster-adapter.go:327, socket/adapter.go:156)
  | .cast p => [.other, .wr (.packet p), .rd (.packet p)]
  -- the adapter's own code, not in this repository
  | .transmit p => [.rd (.packet p)]

/-- A goroutine: what it has still to do, and the number of the structure that it loaded last. -/
structure G where
  code : List Instr
  reg : Nat := 0
deriving DecidableEq, Repr

/-- The structure that each socket has now; the goroutines. -/
structure St where
  ptr : Nat → Nat := fun _ => 0
  gs : List G

def exec (ptr : Nat → Nat) (g : G) : (Nat → Nat) × G :=
  match g.code with
  | [] => (ptr, g)
  | .load s :: r => (ptr, { code := r, reg := ptr s })
  | .reset s :: r => (upd ptr s (ptr s + 1), { g with code := r })
  | _ :: r => (ptr, { g with code := r })

/-- Goroutine `i` takes a step. -/
def step (st : St) (i : Nat) : St :=
  match st.gs[i]? with
  | some g => { ptr := (exec st.ptr g).1, gs := st.gs.set i (exec st.ptr g).2 }
  | none => st

/-- Every goroutine makes the calls of its program, in order. -/
def start (progs : List (List Call)) : St := { gs := progs.map (fun p => { code := p.flatMap code }) }

def run (progs : List (List Call)) (sched : List Nat) : St := sched.foldl step (start progs)

/-- The access that a goroutine is about to make: the variable, and whether it is written. -/
def access (g : G) : Option (Cell × Bool) :=
  match g.code with
  | .rdF s f :: _ => some (.flag s g.reg f, false)
  | .wrF s f :: _ => some (.flag s g.reg f, true)
  | .rd x :: _ => some (.at x, false)
  | .wr x :: _ => some (.at x, true)
  | _ => none

end Verif.DataRace
