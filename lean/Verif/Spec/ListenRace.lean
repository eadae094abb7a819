import Verif.Model.ListenRace
import Verif.Spec.Listeners
import Verif.Spec.Returns

/-! # Catch-all listeners that come and go while events are handled (C121) -/

namespace Verif.Spec
open Verif Verif.Listeners Verif.ListenRace

/-- The calls that change listeners, as calls of C50. -/
def listenEdits : List ListenRace.Ev → List Listeners.Op
  | [] => []
  | .edit k i (.on l) :: h => .on k i l :: listenEdits h
  | .edit k i (.prepend l) :: h => .prepend k i l :: listenEdits h
  | .edit k i (.off l) :: h => .off k i l :: listenEdits h
  | _ :: h => listenEdits h

/-- The event as a call of C50. -/
def eventOp (k : Kind) (i : Nat) (args : List Val) : Listeners.Op :=
  match k with
  | .incoming => .recv i args
  | .outgoing => .emit i args

/-- No two listeners that occur in the history are made from one function literal, which is what C50 needs. -/
def ListenDistinct (code : Nat → Nat) (h : List ListenRace.Ev) : Prop :=
  ∀ a ∈ mentioned (listenEdits h), ∀ b ∈ mentioned (listenEdits h), code a = code b → a = b

/-- The number of events before: the goroutine of the next one. -/
def eventsOf : List ListenRace.Ev → Nat
  | [] => 0
  | .event .. :: h => eventsOf h + 1
  | _ :: h => eventsOf h

/-- What goroutine `j` has called, in order, with what. -/
def calledBy (j : Nat) (s : ListenRace.St) : List (Nat × List Val) :=
  (s.calls.filter fun c => c.1 == j).map fun c => c.2

/-- Goroutine `j` has notified all it has to. -/
def Notified (j : Nat) (s : ListenRace.St) : Prop := ∃ n, s.notes[j]? = some n ∧ n.pc = .loop []

/-- How often `l` is registered at each moment from the event after `p` until the end of `q`. -/
def RegisteredThroughout (k : Kind) (i l times : Nat) (p q : List ListenRace.Ev) : Prop :=
  ∀ q₁, q₁ <+: q → (listening k i (listenEdits (p ++ q₁))).count l = times

end Verif.Spec
