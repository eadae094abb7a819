import Verif.Model.Session

/-!
# The packets kept for recovery (socket/session-aware-adapter.go:58-69, 124-144)

Any number of goroutines broadcast, each storing its packet, and the clean-up timer fires.  Every access to `packets` and every reading of
the clock is one step.  The clock never goes back.  A packet is the number of the goroutine that broadcasts it, here.  Left out: the
sessions (Model/SessRace) and what becomes of a packet once it is stored (Model/Order, Model/RecoverRace).
-/

namespace Verif.PackRace
open Verif

/-- What a goroutine does next. -/
inductive Task where
  /-- `Broadcast`: `time.Now()` (socket/session-aware-adapter.go:138) -/
  | stamp
  /-- `Broadcast`: `packets.Push` (socket/session-aware-adapter.go:136-141) -/
  | push (t : Nat)
  | stored
  /-- the timer: `time.Now()` (socket/session-aware-adapter.go:59) -/
  | clean
  /-- the timer: `packets.RangeAndSplice` (socket/session-aware-adapter.go:66-68); the time at which it started stands for `threshold` -/
  | splice (start : Nat)
  | cleaned
deriving DecidableEq, Repr

/-- The clock; the packets with `EmittedAt`, oldest first; the goroutines. -/
structure St where
  now : Nat := 0
  packets : List (Nat × Nat) := []
  tasks : List Task := []
deriving DecidableEq, Repr

/-- Time passes; a packet that is to be kept is broadcast; the timer fires; a goroutine takes a step. -/
inductive Ev where
  | tick (d : Nat)
  | cast
  | timer
  | adv (k : Nat)
deriving DecidableEq, Repr

/-- `RangeAndSplice` from the end: at the last packet that is too old, remove it and all before it (socket/session-aware-adapter.go:66-68). -/
def prune (max start : Nat) : List (Nat × Nat) → List (Nat × Nat)
  | [] => []
  | p :: ps =>
    if ps.any (fun q => decide (q.2 + max < start)) then prune max start ps
    else if p.2 + max < start then ps
    else p :: ps

/-- The next step of goroutine `k`; `max` is `maxDisconnectionDuration`. -/
def act (max : Nat) (s : St) (k : Nat) : Task → St × Task
  | .stamp => (s, .push s.now)
  | .push t => ({ s with packets := s.packets ++ [(k, t)] }, .stored)
  | .stored => (s, .stored)
  | .clean => (s, .splice s.now)
  | .splice start => ({ s with packets := prune max start s.packets }, .cleaned)
  | .cleaned => (s, .cleaned)

def step (max : Nat) (s : St) : Ev → St
  | .tick d => { s with now := s.now + d }
  | .cast => { s with tasks := s.tasks ++ [.stamp] }
  | .timer => { s with tasks := s.tasks ++ [.clean] }
  | .adv k => match s.tasks[k]? with
    | some a => { (act max s k a).1 with tasks := s.tasks.set k (act max s k a).2 }
    | none => s

def run (max : Nat) (h : List Ev) : St := h.foldl (step max) {}

end Verif.PackRace
