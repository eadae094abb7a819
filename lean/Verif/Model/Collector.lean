import Verif.Model.Values

/-!
# Collecting the acknowledgements of a broadcast (socket/broadcast-operator.go:200-250)
-/

namespace Verif.Collector
open Verif

/-- How the user's callback is called: `ack(args, nil)` or `ack(args, "operation has timed out")`. -/
inductive Call where
  | ok (args : List Val)
  | err (args : List Val)
deriving DecidableEq, Repr

/-- The variables captured by the closures (socket/broadcast-operator.go:202-221): `timedOut`, `responses`,
`expectedServerCount`, `actualServerCount`, `expectedClientCount`, and whether the timer is still pending.
`panicked`: a failed type assertion has ended the program; nothing runs afterwards.
Simplified: `expectedClientCount` does not wrap at 2^64. -/
structure St where
  timedOut : Bool := false
  responses : List Val := []
  expectedServers : Int := -1
  actualServers : Nat := 0
  expectedClients : Nat := 0
  timer : Bool := true
  calls : List Call := []
  panicked : Bool := false
deriving DecidableEq, Repr

/-- Delivers the result (socket/broadcast-operator.go:225-231).  With `single` (`ExpectSingleResponse`) the
first response is asserted to be a `[]any`; `responses.Get(0)` of an empty slice yields `nil`. -/
def finish (single : Bool) (s : St) : St :=
  let s := { s with timer := false }
  if single then
    match s.responses with
    | .arr l :: _ => { s with calls := s.calls ++ [.ok (l.map .at)] }
    | _ => { s with panicked := true }
  else { s with calls := s.calls ++ [.ok s.responses] }

/-- `checkCompleteness` (socket/broadcast-operator.go:223-233). -/
def check (single : Bool) (s : St) : St :=
  if s.timedOut = false ∧ s.expectedServers = s.actualServers ∧ s.responses.length = s.expectedClients then
    finish single s
  else s

/-- The timer function (socket/broadcast-operator.go:210-217). -/
def fire (single : Bool) (s : St) : St :=
  if s.timer then
    { s with timer := false, timedOut := true,
             calls := s.calls ++ [.err (if single then [] else s.responses)] }
  else s

/-- What can happen: a server reports the number of clients it notified, a client answers, `ServerCount()`
is read after `BroadcastWithAck` returned, the timer expires. -/
inductive Ev where
  | count (n : Nat)
  | answer (args : List Val)
  | servers (k : Nat)
  | fire
deriving DecidableEq, Repr

/-- The closures run one at a time (socket/broadcast-operator.go:239-250). -/
def step (single : Bool) (s : St) (e : Ev) : St :=
  if s.panicked then s else
  match e with
  | .count n => check single { s with expectedClients := s.expectedClients + n,
                                      actualServers := s.actualServers + 1 }
  | .answer args => check single { s with responses := s.responses ++ args }
  | .servers k => check single { s with expectedServers := k }
  | .fire => fire single s

def run (single : Bool) (h : List Ev) : St := h.foldl (step single) {}

/-! ## The same closures with their individual operations interleaved

Counts and answers arrive in different goroutines.  A goroutine is the list of operations it still has to
do; `reg` holds the length it read. -/

/-- Operations on the shared variables, in the order of the source: `add`, `addServer`
(socket/broadcast-operator.go:241-242), `push` (:246), `set` (:249), the four reads of the condition (:224,
Go evaluates `&&` and `==` from left to right), clearing the timer (:225), the call (:230), and the two
operations of the timer function (:211, :215). -/
inductive Micro where
  | add (n : Nat)
  | addServer
  | push (args : List Val)
  | set (k : Nat)
  | ckTimeout
  | ckServers
  | ckLen
  | ckClients
  | clear
  | call
  | markTimeout
  | callErr
deriving DecidableEq, Repr

/-- The operations of `checkCompleteness`. -/
def checkProg : List Micro := [.ckTimeout, .ckServers, .ckLen, .ckClients, .clear, .call]

structure Thread where
  prog : List Micro
  reg : Nat := 0
deriving DecidableEq, Repr

/-- Only broadcasts to several clients (`ExpectSingleResponse` not set); the variables are those of `St`. -/
structure CSt where
  s : St := {}
  threads : List Thread := []
deriving DecidableEq, Repr

/-- The goroutine an event starts. -/
def prog : Ev → List Micro
  | .count n => .add n :: .addServer :: checkProg
  | .answer args => .push args :: checkProg
  | .servers k => .set k :: checkProg
  | .fire => [.markTimeout, .callErr]

/-- One operation of a goroutine; a failed test ends it. -/
def micro (s : St) (reg : Nat) (rest : List Micro) : Micro → St × Thread
  | .add n => ({ s with expectedClients := s.expectedClients + n }, ⟨rest, reg⟩)
  | .addServer => ({ s with actualServers := s.actualServers + 1 }, ⟨rest, reg⟩)
  | .push args => ({ s with responses := s.responses ++ args }, ⟨rest, reg⟩)
  | .set k => ({ s with expectedServers := k }, ⟨rest, reg⟩)
  | .ckTimeout => (s, ⟨if s.timedOut then [] else rest, reg⟩)
  | .ckServers => (s, ⟨if s.expectedServers = s.actualServers then rest else [], reg⟩)
  | .ckLen => (s, ⟨rest, s.responses.length⟩)
  | .ckClients => (s, ⟨if reg = s.expectedClients then rest else [], reg⟩)
  | .clear => ({ s with timer := false }, ⟨rest, reg⟩)
  | .call => ({ s with calls := s.calls ++ [.ok s.responses] }, ⟨rest, reg⟩)
  | .markTimeout => ({ s with timedOut := true }, ⟨rest, reg⟩)
  | .callErr => ({ s with calls := s.calls ++ [.err s.responses] }, ⟨rest, reg⟩)

/-- Scheduling events. -/
inductive CEv where
  | start (e : Ev)
  | adv (k : Nat)
deriving DecidableEq, Repr

def cstep (c : CSt) : CEv → CSt
  | .start .fire =>
    if c.s.timer then { s := { c.s with timer := false }, threads := c.threads ++ [⟨prog .fire, 0⟩] } else c
  | .start e => { c with threads := c.threads ++ [⟨prog e, 0⟩] }
  | .adv k => match c.threads[k]? with
    | some ⟨m :: rest, reg⟩ =>
      { s := (micro c.s reg rest m).1, threads := c.threads.set k (micro c.s reg rest m).2 }
    | _ => c

def crun (h : List CEv) : CSt := h.foldl cstep {}

end Verif.Collector
