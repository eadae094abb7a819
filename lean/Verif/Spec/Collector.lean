import Verif.Model.Collector

/-! # What arrives for a broadcast with acknowledgement -/

namespace Verif.Spec
open Verif Verif.Collector

/-- The answers in a history, in order of arrival. -/
def answersOf : List Collector.Ev → List Val
  | [] => []
  | .answer args :: h => args ++ answersOf h
  | _ :: h => answersOf h

/-- Number of servers that have reported. -/
def reports (h : List Collector.Ev) : Nat := h.countP (fun e => match e with | .count _ => true | _ => false)

/-- Number of clients notified according to the reports. -/
def notified : List Collector.Ev → Nat
  | [] => 0
  | .count n :: h => n + notified h
  | _ :: h => notified h

/-- Number of clients that have answered. -/
def answered (h : List Collector.Ev) : Nat := h.countP (fun e => match e with | .answer _ => true | _ => false)

/-- Number of times the number of servers was read. -/
def serverReads (h : List Collector.Ev) : Nat :=
  h.countP (fun e => match e with | .servers _ => true | _ => false)

/-- Everything that has to arrive for a broadcast to `k` servers, in any order: one report of every server,
one answer of every client notified, each consisting of one value; the number of servers is read once. -/
structure Full (k : Nat) (h : List Collector.Ev) : Prop where
  servers : reports h = k
  read : serverReads h = 1
  readVal : ∀ k', .servers k' ∈ h → k' = k
  clients : answered h = notified h
  one : ∀ args, .answer args ∈ h → args.length = 1

/-- Something other than the timer. -/
def isArrival : Collector.Ev → Bool
  | .fire => false
  | _ => true

/-- The arrivals started in a schedule. -/
def started : List Collector.CEv → List Collector.Ev
  | [] => []
  | .start e :: h => e :: started h
  | .adv _ :: h => started h

/-- The callback is called with an error. -/
def isErr : Collector.Call → Bool
  | .err _ => true
  | _ => false

end Verif.Spec
