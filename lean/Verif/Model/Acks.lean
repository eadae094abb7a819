import Verif.Model.Values

/-!
# Acknowledgements of outgoing events (socket/socket.go)

All sockets of one namespace share the counter of acknowledgement ids.  A callback is a number; `log`
records the invocations of callbacks.
-/

namespace Verif.Acks
open Verif

/-- How a callback is invoked: `ack(args, nil)` or `ack(nil, "operation has timed out")`. -/
inductive Res where
  | ok (args : List Val)
  | timeout
deriving DecidableEq, Repr

/-- A function stored in `acks`: the callback itself, or the wrapper that first clears a timer
(socket/socket.go:349, 357-360). -/
structure Entry where
  cb : Nat
  timer : Option Nat
deriving DecidableEq, Repr

/-- `_ids` of the namespace (socket/namespace.go:82), the maps `acks` of its sockets
(socket/socket.go:118), keyed by socket and id, the timers that have neither fired nor been cleared,
keyed by the acknowledgement id they were created for.  Simplified: `_ids` does not wrap at 2^64
(`Model/Ids` covers that). -/
structure St where
  ids : Nat := 0
  acks : FMap (Nat × Nat) Entry := []
  timers : FMap Nat (Nat × Nat) := []
  log : List (Nat × Res) := []
deriving DecidableEq, Repr

/-- `Ids` (socket/namespace.go:141-143). -/
def nextId (s : St) : Nat × St := (s.ids + 1, { s with ids := s.ids + 1 })

/-- `registerAckCallback` (socket/socket.go:346-361). -/
def register (s : St) (sock id cb : Nat) (timed : Bool) : St :=
  if timed then
    { s with timers := s.timers.insert id (sock, cb)
             acks := s.acks.insert (sock, id) ⟨cb, some id⟩ }
  else { s with acks := s.acks.insert (sock, id) ⟨cb, none⟩ }

/-- The acknowledgement part of `Socket.Emit` (socket/socket.go:291-297); `timed` says whether the
socket's flags carry a timeout. -/
def emit (s : St) (sock cb : Nat) (timed : Bool) : St :=
  register (nextId s).2 sock (nextId s).1 cb timed

/-- The acknowledgement part of `BroadcastWithAck` (socket/adapter.go:184-200); `socks` are the sockets
selected. -/
def bcast (s : St) (socks : List Nat) (cb : Nat) : St :=
  socks.foldl (fun s' k => { s' with acks := s'.acks.insert (k, (nextId s).1) ⟨cb, none⟩ }) (nextId s).2

/-- Calls the function stored in `acks` (socket/socket.go:349, 357-360). -/
def call (s : St) (e : Entry) (args : List Val) : St :=
  match e.timer with
  | some t => { s with timers := s.timers.erase t, log := s.log ++ [(e.cb, .ok args)] }
  | none => { s with log := s.log ++ [(e.cb, .ok args)] }

/-- `onack` (socket/socket.go:585-597); `id = none` is a packet without id. -/
def onack (s : St) (sock : Nat) (id : Option Nat) (args : List Val) : St :=
  match id with
  | none => s
  | some id => match s.acks.get? (sock, id) with
    | some e => { call s e args with acks := (call s e args).acks.erase (sock, id) }
    | none => s

/-- The timer callback (socket/socket.go:352-356), if the timer is still pending. -/
def expire (s : St) (id : Nat) : St :=
  match s.timers.get? id with
  | some (sock, cb) =>
    { s with timers := s.timers.erase id, acks := s.acks.erase (sock, id),
             log := s.log ++ [(cb, .timeout)] }
  | none => s

inductive Op where
  | emit (sock cb : Nat) (timed : Bool)
  | bcast (socks : List Nat) (cb : Nat)
  | answer (sock : Nat) (id : Option Nat) (args : List Val)
  | expire (id : Nat)
deriving DecidableEq, Repr

def step (s : St) : Op → St
  | .emit k cb t => emit s k cb t
  | .bcast ks cb => bcast s ks cb
  | .answer k id args => onack s k id args
  | .expire id => expire s id

def run (h : List Op) : St := h.foldl step {}

/-! ## The same code with its individual map operations interleaved

Each received packet is handled in its own goroutine (`go socket._onpacket(packet)`,
socket/client.go:216) and timers run in their own goroutines.  One socket; the goroutines are listed in
`threads`, `adv k` runs the next map operation of goroutine `k`. -/

/-- A goroutine.  `emitter`: before the timer is set, before the `Store`, done
(socket/socket.go:292-295, 346-361).  `handler`: before the `Load`, before the timer is cleared, before
the call, before the `Delete`, done (socket/socket.go:585-597).  `timer`: before the `Delete`, before the
call, done (socket/socket.go:352-356). -/
inductive Thread where
  | emitter (id cb : Nat) (timed : Bool) (pc : Nat)
  | handler (id : Nat) (args : List Val) (pc : Nat) (entry : Option Entry)
  | timer (id cb : Nat) (pc : Nat)
deriving DecidableEq, Repr

/-- Shared state of the interleaving machine; `timers` are the pending timers. -/
structure CSt where
  ids : Nat := 0
  acks : FMap Nat Entry := []
  timers : FMap Nat Nat := []
  threads : List Thread := []
  log : List (Nat × Res) := []
deriving DecidableEq, Repr

/-- The next operation of one goroutine. -/
def advThread (s : CSt) : Thread → CSt × Thread
  | .emitter id cb timed pc =>
    match pc with
    | 0 => (if timed then { s with timers := s.timers.insert id cb } else s, .emitter id cb timed 1)
    | 1 => ({ s with acks := s.acks.insert id ⟨cb, if timed then some id else none⟩ },
            .emitter id cb timed 2)
    | pc => (s, .emitter id cb timed pc)
  | .handler id args pc e =>
    match pc, e with
    | 0, _ => match s.acks.get? id with
      | some e => (s, .handler id args 1 (some e))
      | none => (s, .handler id args 4 none)
    | 1, some e => ((match e.timer with
        | some t => { s with timers := s.timers.erase t }
        | none => s), .handler id args 2 (some e))
    | 2, some e => ({ s with log := s.log ++ [(e.cb, .ok args)] }, .handler id args 3 (some e))
    | 3, e => ({ s with acks := s.acks.erase id }, .handler id args 4 e)
    | pc, e => (s, .handler id args pc e)
  | .timer id cb pc =>
    match pc with
    | 0 => ({ s with acks := s.acks.erase id }, .timer id cb 1)
    | 1 => ({ s with log := s.log ++ [(cb, .timeout)] }, .timer id cb 2)
    | pc => (s, .timer id cb pc)

/-- Scheduling events: a goroutine calls `Emit`, a packet arrives, a pending timer fires, goroutine `k`
makes a step. -/
inductive Ev where
  | emit (cb : Nat) (timed : Bool)
  | recv (id : Nat) (args : List Val)
  | fire (id : Nat)
  | adv (k : Nat)
deriving DecidableEq, Repr

def cstep (s : CSt) : Ev → CSt
  | .emit cb timed =>
    { s with ids := s.ids + 1, threads := s.threads ++ [.emitter (s.ids + 1) cb timed 0] }
  | .recv id args => { s with threads := s.threads ++ [.handler id args 0 none] }
  | .fire id => match s.timers.get? id with
    | some cb => { s with timers := s.timers.erase id, threads := s.threads ++ [.timer id cb 0] }
    | none => s
  | .adv k => match s.threads[k]? with
    | some t => { (advThread s t).1 with threads := s.threads.set k (advThread s t).2 }
    | none => s

def crun (h : List Ev) : CSt := h.foldl cstep {}

end Verif.Acks
