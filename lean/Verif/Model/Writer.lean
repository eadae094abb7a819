import Verif.Model.Values

/-!
# Writing packets to the connection of one client (socket/client.go:161-187)

Goroutines write packets concurrently; the transport may open, close and become (un)writable at any
moment.  `adv k` runs the next operation of goroutine `k`.
-/

namespace Verif.Writer
open Verif

/-- A packet handed to the client: its encoded frames, the volatile flag, and whether the write goes
through `_packet` (which looks at the ready state, socket/client.go:162-166) or directly to
`WriteToEngine` (broadcasts, socket/adapter.go:162). -/
structure Job where
  frames : List String
  volatile : Bool := false
  direct : Bool := false
deriving DecidableEq, Repr

/-- Why a packet was dropped. -/
inductive Drop where
  | notOpen
  | notWritable
deriving DecidableEq, Repr

/-- Program counter of a write: before the ready-state check, waiting for the mutex, holding the mutex
before the check of the flags, writing with `n` frames written, finished and unlocked, dropped. -/
inductive Pc where
  | start
  | waiting
  | locked
  | writing (n : Nat)
  | done
  | dropped (d : Drop)
deriving DecidableEq, Repr

/-- The connection (`ReadyState() == "open"`, `Transport().Writable()`), the mutex `mu`
(socket/client.go:28), the writes, and the frames handed to `conn.Write` so far. -/
structure St where
  opened : Bool := true
  writable : Bool := true
  lock : Option Nat := none
  jobs : List (Job × Pc) := []
  wire : List String := []
deriving DecidableEq, Repr

/-- What happens: the transport changes, a goroutine starts a write, goroutine `k` makes a step. -/
inductive Ev where
  | setOpen (b : Bool)
  | setWritable (b : Bool)
  | write (j : Job)
  | adv (k : Nat)
deriving DecidableEq, Repr

/-- Next operation of write `k`. -/
def advJob (s : St) (k : Nat) (j : Job) (pc : Pc) : St :=
  match pc with
  | .start =>
    -- socket/client.go:163-166
    if j.direct || s.opened then { s with jobs := s.jobs.set k (j, .waiting) }
    else { s with jobs := s.jobs.set k (j, .dropped .notOpen) }
  | .waiting =>
    -- socket/client.go:176
    match s.lock with
    | none => { s with lock := some k, jobs := s.jobs.set k (j, .locked) }
    | some _ => s
  | .locked =>
    -- socket/client.go:179-182; the deferred Unlock runs on return
    if j.volatile && !s.writable then
      { s with lock := none, jobs := s.jobs.set k (j, .dropped .notWritable) }
    else { s with jobs := s.jobs.set k (j, .writing 0) }
  | .writing n =>
    -- socket/client.go:184-186
    match j.frames[n]? with
    | some f => { s with wire := s.wire ++ [f], jobs := s.jobs.set k (j, .writing (n + 1)) }
    | none => { s with lock := none, jobs := s.jobs.set k (j, .done) }
  | .done => s
  | .dropped _ => s

def step (s : St) : Ev → St
  | .setOpen b => { s with opened := b }
  | .setWritable b => { s with writable := b }
  | .write j => { s with jobs := s.jobs ++ [(j, .start)] }
  | .adv k => match s.jobs[k]? with
    | some (j, pc) => advJob s k j pc
    | none => s

def run (h : List Ev) : St := h.foldl step {}

end Verif.Writer
