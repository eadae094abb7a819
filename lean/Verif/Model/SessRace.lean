import Verif.Model.World

/-!
# The table of the saved sessions (socket/session-aware-adapter.go:58-69, 74-90)

Sockets that close save their sessions, clients that come back ask for them, and the clean-up timer fires, each in a goroutine of its
own.  Every access to `sessions` and every reading of the clock is one step.  Private ids are numbers, and so are the sessions saved
under them.  The clock never goes back.  Left out: the packets, which have a clean-up of their own in the same timer (Model/Session,
Model/RecoverRace); a session that is found here is one whose packets are then looked for (socket/session-aware-adapter.go:92-121).
-/

namespace Verif.SessRace
open Verif Verif.World

/-- What a goroutine does next. -/
inductive Task where
  /-- `PersistSession`: `time.Now()` (socket/session-aware-adapter.go:75) -/
  | save (pid n : Nat)
  /-- `PersistSession`: `sessions.Store` (socket/session-aware-adapter.go:75) -/
  | store (pid n t : Nat)
  | saved
  /-- `RestoreSession`: `sessions.Load` (socket/session-aware-adapter.go:79-83) -/
  | look (pid : Nat)
  /-- `RestoreSession`: has it expired? (socket/session-aware-adapter.go:85-86) -/
  | test (pid n t : Nat)
  /-- `RestoreSession`: `sessions.Delete` (socket/session-aware-adapter.go:88-89) -/
  | drop (pid : Nat)
  /-- the session that `RestoreSession` goes on with -/
  | got (pid : Nat) (res : Option Nat)
  /-- the timer: `threshold` (socket/session-aware-adapter.go:59), the ids in the order in which `Range` will visit them -/
  | clean (order : List Nat)
  /-- the timer: the next session (socket/session-aware-adapter.go:60-61); the time at which it started stands for `threshold` -/
  | visit (start : Nat) (todo : List Nat)
  /-- the timer: `sessions.Delete` (socket/session-aware-adapter.go:62) -/
  | sweep (start : Nat) (pid : Nat) (todo : List Nat)
deriving DecidableEq, Repr

/-- The clock; the session saved under each private id, with `DisconnectedAt`; the goroutines. -/
structure St where
  now : Nat := 0
  tab : Nat → Option (Nat × Nat) := fun _ => none
  tasks : List Task := []

/-- Time passes; a session is to be saved; a client asks for one; the timer fires; a goroutine takes a step. -/
inductive Ev where
  | tick (d : Nat)
  | persist (pid n : Nat)
  | restore (pid : Nat)
  | timer (order : List Nat)
  | adv (k : Nat)
deriving DecidableEq, Repr

/-- `max` is `maxDisconnectionDuration`. -/
def act (max : Nat) (s : St) : Task → St × Task
  | .save pid n => (s, .store pid n s.now)
  | .store pid n t => ({ s with tab := upd s.tab pid (some (n, t)) }, .saved)
  | .saved => (s, .saved)
  | .look pid => (s, match s.tab pid with
    | none => .got pid none
    | some (n, t) => .test pid n t)
  | .test pid n t => (s, if t + max < s.now then .drop pid else .got pid (some n))
  | .drop pid => ({ s with tab := upd s.tab pid none }, .got pid none)
  | .got pid res => (s, .got pid res)
  | .clean order => (s, .visit s.now order)
  | .visit start [] => (s, .visit start [])
  | .visit start (pid :: todo) => (s, match s.tab pid with
    | none => .visit start todo
    | some (_, t) => if t + max < start then .sweep start pid todo else .visit start todo)
  | .sweep start pid todo => ({ s with tab := upd s.tab pid none }, .visit start todo)

def step (max : Nat) (s : St) : Ev → St
  | .tick d => { s with now := s.now + d }
  | .persist pid n => { s with tasks := s.tasks ++ [.save pid n] }
  | .restore pid => { s with tasks := s.tasks ++ [.look pid] }
  | .timer order => { s with tasks := s.tasks ++ [.clean order] }
  | .adv k => match s.tasks[k]? with
    | some a => { (act max s a).1 with tasks := s.tasks.set k (act max s a).2 }
    | none => s

def run (max : Nat) (h : List Ev) : St := h.foldl (step max) {}

end Verif.SessRace
