import Verif.Model.PollRace
import Verif.Spec.CastRace
import Verif.Spec.Collector
import Verif.Spec.Returns

/-! # A broadcast with acknowledgement while other things happen -/

namespace Verif.Spec
open Verif.PollRace

/-- In `p`, then a broadcast with acknowledgement, then `q`, the broadcast begins after `p` and is over at the end of `q`, and `q` has no
other. -/
structure WholePoll (p : List PollRace.Ev) (rooms except order : List Nat) (q : List PollRace.Ev) : Prop where
  begins : (PollRace.run p).pc = .idle
  ends : (PollRace.run (p ++ .emit rooms except order :: q)).pc = .idle
  one : ∀ r x o, .emit r x o ∉ q

/-- Everything after the broadcast. -/
def polled (p : List PollRace.Ev) (rooms except order : List Nat) (q : List PollRace.Ev) : PollRace.St :=
  PollRace.run (p ++ .emit rooms except order :: q)

/-- What holds at every moment from the beginning of the broadcast until the end of `q`. -/
def WhilePolling (p : List PollRace.Ev) (rooms except order : List Nat) (q : List PollRace.Ev) (P : PollRace.St → Prop) : Prop :=
  ∀ q₁ q₂, q = q₁ ++ q₂ → P (polled p rooms except order q₁)

/-- What holds until the loop has come to socket `id`. -/
def UntilPolled (p : List PollRace.Ev) (rooms except order : List Nat) (q : List PollRace.Ev) (id : Nat) (P : PollRace.St → Prop) : Prop :=
  WhilePolling p rooms except order q fun s => id ∉ s.cast.sent → P s

/-- The sockets whose answers have been counted. -/
def heardFrom (s : PollRace.St) : List Nat := s.heard.map (·.1)

/-- The values of the answers that have been counted. -/
def replies (s : PollRace.St) : List Val := s.heard.flatMap (·.2)

/-- Every answer that has been counted is one value. -/
def OneValue (s : PollRace.St) : Prop := ∀ x ∈ s.heard, x.2.length = 1

/-- The calls of the program's callback. -/
def outcomes (s : PollRace.St) : List Collector.Call := (PollRace.St.coll s).s.calls

/-- No goroutine is in the callbacks of the operator. -/
def NobodyInside (s : PollRace.St) : Prop := ∀ t ∈ (PollRace.St.coll s).threads, t.prog = []

/-- Nobody joins, leaves, comes or goes. -/
def NobodyMoves (q : List PollRace.Ev) : Prop := ∀ e ∈ q, (∀ r, e ≠ .room r) ∧ (∀ id, e ≠ .connect id) ∧ ∀ id, e ≠ .disconnect id

end Verif.Spec
