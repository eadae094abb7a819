import Verif.Model.Values

/-!
# Broadcast operators, socket modifiers and emission (socket/broadcast-operator.go, socket/socket.go)

Go passes sets and flag records by pointer, and a socket's modifiers write through a pointer.  The
model therefore has a heap: `sets` and `flags` are lists of cells, a pointer is an index, allocation
appends a cell.
-/

namespace Verif.Operator
open Verif

/-- `BroadcastOperator` (socket/broadcast-operator.go:14-19); the three fields are pointers. -/
structure OpPtr where
  rooms : Nat
  except : Nat
  flags : Nat
deriving DecidableEq, Repr

/-- The part of `Socket` concerned with emission (socket/socket.go:81-125): `id`, the pointer `flags`,
and `acks`, which maps an acknowledgement id to the callback registered and its timeout. -/
structure Sock where
  id : Sid
  flags : Nat
  acks : List (Nat × Nat × Option Nat) := []
deriving DecidableEq, Repr

/-- What leaves this layer: a call of the adapter's `Broadcast` or `BroadcastWithAck` with the
options, or a packet for one socket with its flags. -/
inductive Out where
  | broadcast (p : Pkt) (rooms except : List Room) (f : Flags)
  | broadcastAck (p : Pkt) (rooms except : List Room) (f : Flags) (callback : Nat)
  | packet (sock : Nat) (p : Pkt) (f : Flags)
  | error (reserved : String)
deriving DecidableEq, Repr

/-- The heap, the operators and sockets created so far, the namespace's counter `_ids`
(socket/namespace.go:82; unbounded here, 64 bits in the code), whether connection state recovery is
enabled, and the output. -/
structure St where
  sets : List (List Room) := []
  flags : List Flags := []
  ops : List OpPtr := []
  socks : List Sock := []
  ids : Nat := 0
  recovery : Bool := false
  out : List Out := []
deriving DecidableEq, Repr

/-- Modifiers of an operator. -/
inductive Mod where
  | to (rooms : List Room)
  | except (rooms : List Room)
  | compress (b : Bool)
  | volatile
  | isLocal
  | timeout (t : Nat)
deriving DecidableEq, Repr

/-- Modifiers of a socket. -/
inductive SMod where
  | compress (b : Bool)
  | volatile
  | timeout (t : Nat)
deriving DecidableEq, Repr

/-- Calls.  `In` is `To`; `socket.To(r)`, `socket.In`, `socket.Except`, `socket.Local` and
`socket.Broadcast` are `sockOp` followed by the modifier (socket/socket.go:383-422, 719-734); the
operators a namespace makes (socket/namespace.go:227-264, 518-556) are `nspOp` followed by the
modifier. -/
inductive Cmd where
  | newSock (id : Sid)
  | nspOp
  | remoteOp (id : Sid)
  | sockOp (s : Nat)
  | chain (k : Nat) (m : Mod)
  | sockMod (s : Nat) (m : SMod)
  | emit (k : Nat) (ev : String) (args : List Val)
  | sockEmit (s : Nat) (ev : String) (args : List Val)
deriving DecidableEq, Repr

/-- Reading through a pointer. -/
def St.set (st : St) (p : Nat) : List Room := st.sets.getD p []
def St.flag (st : St) (p : Nat) : Flags := st.flags.getD p {}

/-- `types.NewSet(rooms...)`. -/
def St.newSet (st : St) (l : List Room) : St × Nat :=
  ({ st with sets := st.sets ++ [LSet.addAll [] l] }, st.sets.length)

/-- `&BroadcastFlags{...}` or the address of a copied local. -/
def St.newFlags (st : St) (f : Flags) : St × Nat :=
  ({ st with flags := st.flags ++ [f] }, st.flags.length)

/-- `NewBroadcastOperator` (socket/broadcast-operator.go:31-37): the pointers are stored as given. -/
def St.newOp (st : St) (o : OpPtr) : St := { st with ops := st.ops ++ [o] }

/-- `set.Add(rooms...)` through a pointer. -/
def St.addTo (st : St) (p : Nat) (l : List Room) : St :=
  { st with sets := st.sets.set p (LSet.addAll (st.set p) l) }

/-- Write of one field through a flags pointer. -/
def St.writeFlags (st : St) (p : Nat) (f : Flags) : St := { st with flags := st.flags.set p f }

/-- `SOCKET_RESERVED_EVENTS` (socket/socket.go:21). -/
def reserved : List String :=
  ["connect", "connect_error", "disconnect", "disconnecting", "newListener", "removeListener"]

/-- The modifiers of an operator: `To`/`In` (socket/broadcast-operator.go:67-83), `Except` (100-104),
`Compress` (113-117), `Volatile` (124-128), `Local` (136-140), `Timeout` (153-157). -/
def chain (st : St) (o : OpPtr) : Mod → St
  | .to l =>
    let (st, p) := st.newSet (st.set o.rooms)
    let st := st.addTo p l
    st.newOp { o with rooms := p }
  | .except l =>
    let (st, p) := st.newSet (st.set o.except)
    let st := st.addTo p l
    st.newOp { o with except := p }
  | .compress b =>
    let (st, p) := st.newFlags { st.flag o.flags with compress := b }
    st.newOp { o with flags := p }
  | .volatile =>
    let (st, p) := st.newFlags { st.flag o.flags with volatile := true }
    st.newOp { o with flags := p }
  | .isLocal =>
    let (st, p) := st.newFlags { st.flag o.flags with isLocal := true }
    st.newOp { o with flags := p }
  | .timeout t =>
    let (st, p) := st.newFlags { st.flag o.flags with timeout := some t }
    st.newOp { o with flags := p }

/-- `MakeBroadcastOperator` with nil arguments to `Construct` (socket/broadcast-operator.go:21-50). -/
def nspOp (st : St) : St :=
  let (st, r) := st.newSet []
  let (st, e) := st.newSet []
  let (st, f) := st.newFlags {}
  st.newOp ⟨r, e, f⟩

/-- The operator inside a `RemoteSocket` (socket/remote-socket.go:57-65). -/
def remoteOp (st : St) (id : Sid) : St :=
  let (st, r) := st.newSet [id]
  let (st, e) := st.newSet []
  let (st, f) := st.newFlags { expectSingle := true }
  st.newOp ⟨r, e, f⟩

/-- `newBroadcastOperator` (socket/socket.go:1011-1015). -/
def sockOp (st : St) (i : Nat) (s : Sock) : St :=
  let copy := st.flag s.flags
  let (st, fresh) := st.newFlags {}
  let st := { st with socks := st.socks.set i { s with flags := fresh } }
  let (st, r) := st.newSet []
  let (st, e) := st.newSet [s.id]
  let (st, f) := st.newFlags copy
  st.newOp ⟨r, e, f⟩

/-- `Compress`, `Volatile` and `Timeout` of a socket (socket/socket.go:691-707, 747-750). -/
def sockMod (st : St) (s : Sock) : SMod → St
  | .compress b => st.writeFlags s.flags { st.flag s.flags with compress := b }
  | .volatile => st.writeFlags s.flags { st.flag s.flags with volatile := true }
  | .timeout t => st.writeFlags s.flags { st.flag s.flags with timeout := some t }

/-- The type test `data[data_len-1].(Ack)` on the argument array with the event name in front
(socket/broadcast-operator.go:188, socket/socket.go:291): the callback and the remaining data. -/
def splitAck (data : List Val) : Option (Nat × List Val) :=
  match data.getLast? with
  | some (.fn k) => some (k, data.dropLast)
  | _ => none

/-- `BroadcastOperator.Emit` (socket/broadcast-operator.go:175-252).  The collection of the
acknowledgements is modelled in `Model/Collector`. -/
def emit (st : St) (o : OpPtr) (ev : String) (args : List Val) : St :=
  if ev ∈ reserved then { st with out := st.out ++ [.error ev] }
  else
    let data := Val.str ev :: args
    match splitAck data with
    | none => { st with out := st.out ++
        [.broadcast { type := .event, data := .args data } (st.set o.rooms) (st.set o.except) (st.flag o.flags)] }
    | some (k, data') => { st with out := st.out ++
        [.broadcastAck { type := .event, data := .args data' } (st.set o.rooms) (st.set o.except)
          (st.flag o.flags) k] }

/-- The last part of `Socket.Emit` (socket/socket.go:298-311): copy the flags, install fresh ones,
send.  Simplified: outgoing listeners are in `Model/Listeners`. -/
def sockSend (st : St) (i : Nat) (s : Sock) (p : Pkt) : St :=
  let copy := st.flag s.flags
  let (st, fresh) := st.newFlags {}
  let st := { st with socks := st.socks.set i { s with flags := fresh } }
  if st.recovery then { st with out := st.out ++ [.broadcast p [s.id] [] copy] }
  else { st with out := st.out ++ [.packet i p copy] }

/-- `Socket.Emit` (socket/socket.go:280-314) with `registerAckCallback` (346-361), which reads the
timeout from the socket's flags. -/
def sockEmit (st : St) (i : Nat) (s : Sock) (ev : String) (args : List Val) : St :=
  if ev ∈ reserved then { st with out := st.out ++ [.error ev] }
  else
    let data := Val.str ev :: args
    match splitAck data with
    | none => sockSend st i s { type := .event, data := .args data }
    | some (k, data') =>
      let id := st.ids + 1
      let st := { st with ids := id }
      let s := { s with acks := s.acks ++ [(id, k, (st.flag s.flags).timeout)] }
      sockSend st i s { type := .event, data := .args data', id := some id }

/-- One call.  A call on an operator or socket that does not exist cannot be made; it changes
nothing. -/
def step (st : St) : Cmd → St
  | .newSock id =>
    let (st, f) := st.newFlags {}
    { st with socks := st.socks ++ [{ id := id, flags := f }] }
  | .nspOp => nspOp st
  | .remoteOp id => remoteOp st id
  | .sockOp i => match st.socks[i]? with
    | some s => sockOp st i s
    | none => st
  | .chain k m => match st.ops[k]? with
    | some o => chain st o m
    | none => st
  | .sockMod i m => match st.socks[i]? with
    | some s => sockMod st s m
    | none => st
  | .emit k ev args => match st.ops[k]? with
    | some o => emit st o ev args
    | none => st
  | .sockEmit i ev args => match st.socks[i]? with
    | some s => sockEmit st i s ev args
    | none => st

/-- A program. -/
def run (recovery : Bool) (prog : List Cmd) : St := prog.foldl step { recovery := recovery }

end Verif.Operator
