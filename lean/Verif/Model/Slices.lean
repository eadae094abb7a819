import Verif.Model.Values

/-!
# The slices that hold the arguments of events (socket/socket.go, socket/broadcast-operator.go, socket/session-aware-adapter.go)

In Go, passing `args...` hands over the slice itself, and `append` writes into the array of its first argument if there is room behind
it.  This model has the arrays: what the caller of `Emit` passes, what listeners are called with, what is encoded and what is kept for
recovery are slices of them.  Elements are values; that these may in turn refer to something shared is not modelled.  Each access to an
array is one step; goroutines interleave.
-/

namespace Verif.Slices
open Verif

/-- A slice: the array, where it starts there, its length and its capacity, counted from the start. -/
structure Slice where
  arr : Nat
  off : Nat
  len : Nat
  cap : Nat
deriving DecidableEq, Repr

/-- Whom an emission is for: one socket without recovery (`Socket.Emit`), or all the sockets selected; then `id` is the offset if the
adapter keeps packets (`Socket.Emit` with recovery takes the same way).  `n` is the number of catch-all listeners for outgoing packets that
will be called. -/
inductive Kind where
  | direct (n : Nat)
  | cast (id : Option String) (n : Nat)
deriving DecidableEq, Repr

/-- What a goroutine has still to do.
* `copy`: `data := append([]any{ev}, args...)` (socket/socket.go:284, socket/broadcast-operator.go:180), for the slice that `EmitWithAck`
  has made (socket/socket.go:342, socket/broadcast-operator.go:267; `ServerSideEmitWithAck` does the same, socket/namespace.go:483, 465).
* `store`: `packet.Data = append(packet.Data.([]any), id)` and `s.packets.Push` (socket/session-aware-adapter.go:131-141).
* `encode`: the packet is encoded (socket/adapter.go:144, or `_packet` of the client, socket/socket.go:318).
* `notify`: a catch-all listener is called with the whole slice (socket/socket.go:561, 998-1006), or a middleware
  (socket/socket.go:806).
* `dispatch`: `event[0].(string)` (socket/socket.go:762).
* `hear`: a listener of the event is called with `event[1:]` (socket/socket.go:762). -/
inductive Act where
  | copy (kind : Kind)
  | store (id : String)
  | encode
  | notify
  | dispatch
  | hear
deriving DecidableEq, Repr

/-- An emission or an event that has arrived. -/
structure Th where
  ev : String
  data : Slice
  todo : List Act
deriving DecidableEq, Repr

/-- `mem` are the arrays, of which `next` have been made; `own` are those the program made, `held` the slices it has (its own and those
its listeners were called with).  Of the emissions and arrived events, by number: the calls of listeners (`seen`), the packets encoded
(`sent`), the acknowledgement callbacks registered, the packets kept for recovery, those sent again, the event names whose listeners
were called (`fired`). -/
structure St where
  mem : Nat → List Val := fun _ => []
  next : Nat := 0
  own : List Nat := []
  held : List Slice := []
  ths : List Th := []
  seen : List (Nat × List Val) := []
  sent : List (Nat × List Val) := []
  callbacks : List (Nat × Nat) := []
  stored : List (Nat × Slice) := []
  replayed : List (Nat × List Val) := []
  fired : List (Nat × String) := []
  panicked : Bool := false

/-- What the slice holds. -/
def cells (mem : Nat → List Val) (s : Slice) : List Val := ((mem s.arr).drop s.off).take s.len

/-- The array with these elements written from position `i` on. -/
def put (l : List Val) (i : Nat) (xs : List Val) : List Val := l.take i ++ xs ++ l.drop (i + xs.length)

/-- Writes into an array. -/
def St.write (s : St) (arr i : Nat) (xs : List Val) : St :=
  { s with mem := fun a => if a = arr then put (s.mem arr) i xs else s.mem a }

/-- An element that was not set (`nil`). -/
def blank : Val := .num 0

/-- A new array with these elements and room for `extra` more. -/
def St.alloc (s : St) (l : List Val) (extra : Nat) : St :=
  { s with mem := (fun a => if a = s.next then l ++ List.replicate extra blank else s.mem a), next := s.next + 1 }

/-- The slice of all of a new array. -/
def St.fresh (s : St) (l : List Val) (extra : Nat) : Slice := ⟨s.next, 0, l.length, l.length + extra⟩

/-- Go's `append(a, x)`: if there is room the array of `a` is written to, otherwise a new one is made, with `spare n` more room than its
`n` elements need. -/
def St.append (spare : Nat → Nat) (s : St) (a : Slice) (x : Val) : St × Slice :=
  if a.len < a.cap then (s.write a.arr (a.off + a.len) [x], { a with len := a.len + 1 })
  else (s.alloc (cells s.mem a ++ [x]) (spare (a.len + 1)), s.fresh (cells s.mem a ++ [x]) (spare (a.len + 1)))

/-- The acknowledgement callback, if the last argument is one (`data[data_len-1].(Ack)`, socket/socket.go:291, socket/broadcast-operator.go:188). -/
def ackOf (l : List Val) : Option Nat :=
  match l.getLast? with
  | some (.fn f) => some f
  | _ => none

/-- What is to do once the arguments have been copied: with one socket the listeners are called and then the packet is encoded
(socket/socket.go:317-318); otherwise it is kept if nobody is to acknowledge it (socket/session-aware-adapter.go:130-141; an emission with
acknowledgement takes `BroadcastWithAck`, which keeps nothing), encoded, and the listeners of the sockets it is for are called
(socket/adapter.go:143-150). -/
def plan (kind : Kind) (ack : Bool) : List Act :=
  match kind with
  | .direct n => List.replicate n .notify ++ [.encode]
  | .cast id n => (if ack then [] else id.toList.map .store) ++ .encode :: List.replicate n .notify

/-- `Emit` up to the listeners (socket/socket.go:284-297, socket/broadcast-operator.go:180-200): `args` are copied into a new array; a callback is registered and not sent. -/
def enter (spare : Nat → Nat) (s : St) (k : Nat) (kind : Kind) (ev : String) (args : List Val) : St × Th :=
  let data := .str ev :: args
  let full := s.fresh data (spare data.length)
  let s' := s.alloc data (spare data.length)
  match ackOf data with
  | some f => ({ s' with callbacks := s.callbacks ++ [(k, f)] }, ⟨ev, { full with len := full.len - 1 }, plan kind true⟩)
  | none => (s', ⟨ev, full, plan kind false⟩)

/-- One step of goroutine `k`. -/
def act (spare : Nat → Nat) (s : St) (k : Nat) (t : Th) (todo : List Act) : Act → St × Th
  | .copy kind => enter spare s k kind t.ev (cells s.mem t.data)
  | .store id =>
    let r := s.append spare t.data (.str id)
    ({ r.1 with stored := r.1.stored ++ [(k, r.2)] }, { t with data := r.2, todo := todo })
  | .encode => ({ s with sent := s.sent ++ [(k, cells s.mem t.data)] }, { t with todo := todo })
  | .notify => ({ s with seen := s.seen ++ [(k, cells s.mem t.data)], held := s.held ++ [t.data] }, { t with todo := todo })
  | .dispatch =>
    match (cells s.mem t.data).head? with
    | some (.at (.str name)) => ({ s with fired := s.fired ++ [(k, name)] }, { t with todo := todo })
    | _ => ({ s with panicked := true }, { t with todo := todo })
  | .hear =>
    let d : Slice := ⟨t.data.arr, t.data.off + 1, t.data.len - 1, t.data.cap - 1⟩
    ({ s with seen := s.seen ++ [(k, cells s.mem d)], held := s.held ++ [d] }, { t with todo := todo })

/-- What can happen; `k` is the number of a slice the program has.
* `make`, `reslice`, `scribble`: the program makes a slice with some room behind it, takes a part of one (`a[i:j]`), writes into one, also
  behind its end (by `append`).
* `emit`: `Emit` on a socket or an operator; `emitAck`: `EmitWithAck(ev, args...)(f)`.
* `recv`: an event arrives; `ack` is the function to answer with, if the client asked for an answer (socket/socket.go:552-559); `n`
  catch-all listeners and middlewares and `m` listeners of the event will be called.
* `replay`: a client recovers and is sent the `i`-th packet kept (socket/socket.go:220-225).
* `adv`: a goroutine makes a step. -/
inductive Ev where
  | make (l : List Val) (extra : Nat)
  | reslice (k i j : Nat)
  | scribble (k : Nat) (xs : List Val)
  | emit (kind : Kind) (ev : String) (k : Nat)
  | emitAck (kind : Kind) (ev : String) (k f : Nat)
  | recv (args : List Val) (ack : Option Nat) (n m : Nat)
  | replay (i : Nat)
  | adv (k : Nat)
deriving DecidableEq, Repr

/-- An event arrives: the decoder's slice, with the function to answer with (socket/socket.go:552-563). -/
def receive (spare : Nat → Nat) (s : St) (args : List Val) (ack : Option Nat) (n m : Nat) : St × Th :=
  let s' := s.alloc args (spare args.length)
  let d := s.fresh args (spare args.length)
  let todo := List.replicate n .notify ++ .dispatch :: List.replicate m .hear
  match ack with
  | none => (s', ⟨"", d, todo⟩)
  | some f => ((s'.append spare d (.fn f)).1, ⟨"", (s'.append spare d (.fn f)).2, todo⟩)

def step (spare : Nat → Nat) (s : St) (e : Ev) : St :=
  if s.panicked then s else
  match e with
  | .make l extra => { s.alloc l extra with own := s.next :: s.own, held := s.held ++ [s.fresh l extra] }
  | .reslice k i j =>
    match s.held[k]? with
    | some a => if i ≤ j ∧ j ≤ a.cap then { s with held := s.held ++ [⟨a.arr, a.off + i, j - i, a.cap - i⟩] } else s
    | none => s
  | .scribble k xs =>
    match s.held[k]? with
    | some a => s.write a.arr a.off (xs.take a.cap)
    | none => s
  | .emit kind ev k =>
    match s.held[k]? with
    | some a =>
      let r := enter spare s s.ths.length kind ev (cells s.mem a)
      { r.1 with ths := s.ths ++ [r.2] }
    | none => s
  | .emitAck kind ev k f =>
    match s.held[k]? with
    | some a =>
      let r := s.append spare a (.fn f)
      { r.1 with ths := s.ths ++ [⟨ev, r.2, [.copy kind]⟩] }
    | none => s
  | .recv args ack n m =>
    let r := receive spare s args ack n m
    { r.1 with ths := s.ths ++ [r.2] }
  | .replay i =>
    match s.stored[i]? with
    | some (k, d) => { s with replayed := s.replayed ++ [(k, cells s.mem d)] }
    | none => s
  | .adv k =>
    match s.ths[k]? with
    | some t =>
      match t.todo with
      | a :: todo =>
        let r := act spare s k t todo a
        { r.1 with ths := s.ths.set k r.2 }
      | [] => s
    | none => s

def run (spare : Nat → Nat) (h : List Ev) : St := h.foldl (step spare) {}

end Verif.Slices
