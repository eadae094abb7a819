import Verif.Model.EventGate

/-! # Middlewares of events -/

namespace Verif.Spec
open Verif Verif.EventGate

/-- The middlewares are entered one after the other, starting with number `i`, and each lets the event pass. -/
def passing (e : Nat) : Nat → List Nat → List Obs
  | _, [] => []
  | i, m :: ms => .enter e i m :: .next e i true :: passing e (i + 1) ms

/-- The middlewares registered with `Use` in a history, in order. -/
def uses : List EventGate.Ev → List Nat
  | [] => []
  | .use m :: h => m :: uses h
  | _ :: h => uses h

/-- The number of events that have arrived. -/
def eventsArrived : List EventGate.Ev → Nat
  | [] => 0
  | .recv :: h => eventsArrived h + 1
  | _ :: h => eventsArrived h

/-- What can finally become of event `e`. -/
def isOutcome (e : Nat) : Obs → Bool
  | .handler e' => e' == e
  | .error e' => e' == e
  | .dropped e' => e' == e
  | _ => false

/-- Every middleware calls `next` at most once for every event. -/
def NextAtMostOnce (log : List Obs) : Prop :=
  ∀ e i, (log.filter fun o => match o with | .next e' i' _ => e' == e && i' == i | _ => false).length ≤ 1

/-- The event handlers called, in order. -/
def handled : List Obs → List Nat
  | [] => []
  | .handler e :: l => e :: handled l
  | _ :: l => handled l

end Verif.Spec
