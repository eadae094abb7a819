import Verif.Model.Acks
import Verif.Model.Ids

/-!
# What should happen to an acknowledgement callback, read off the history

Uses the calls of the model, none of its functions.
-/

namespace Verif.Spec
open Verif Verif.Acks

/-- The calls that draw an acknowledgement id. -/
def drawsId : Acks.Op → Bool
  | .emit .. => true
  | .bcast .. => true
  | _ => false

/-- The id of a request made after the calls `pre`: ids are 1, 2, 3, ... -/
def idAfter (pre : List Acks.Op) : Nat := pre.countP drawsId + 1

/-- The callback mentioned by a request. -/
def cbOf : Acks.Op → Option Nat
  | .emit _ cb _ => some cb
  | .bcast _ cb => some cb
  | _ => none

/-- The calls of one callback in a log. -/
def callsOf (cb : Nat) (l : List (Nat × Res)) : List Res :=
  l.filterMap (fun p => if p.1 = cb then some p.2 else none)

/-- The fate of a request with the given id made by socket `sock`: the first answer of that socket to that
id, or the expiry of its timer if it has one, whichever comes first. -/
def outcome (sock id : Nat) (timed : Bool) : List Acks.Op → Option Res
  | [] => none
  | .answer k (some i) args :: post =>
    if k = sock ∧ i = id then some (.ok args) else outcome sock id timed post
  | .expire i :: post => if timed = true ∧ i = id then some .timeout else outcome sock id timed post
  | _ :: post => outcome sock id timed post

/-- The answers to a broadcast: the first answer of each socket reached, in order of arrival. -/
def firstAnswers (id : Nat) : List Nat → List Acks.Op → List (List Val)
  | _, [] => []
  | socks, .answer k (some i) args :: post =>
    if i = id ∧ k ∈ socks then args :: firstAnswers id (socks.filter (· ≠ k)) post
    else firstAnswers id socks post
  | socks, _ :: post => firstAnswers id socks post

/-! ## Reading schedules -/

/-- Number of received packets with the given id in a schedule. -/
def answersTo (id : Nat) (h : List Acks.Ev) : Nat :=
  h.countP (fun e => match e with | .recv i _ => i = id | _ => false)

/-- Does the event pass `cb` to an emission? -/
def passes (cb : Nat) : Acks.Ev → Bool
  | .emit c _ => c = cb
  | _ => false

/-- Is the event an emission? -/
def isEmit : Acks.Ev → Bool
  | .emit .. => true
  | _ => false

/-- The id of an emission made after the schedule `pre`. -/
def emitId (pre : List Acks.Ev) : Nat := pre.countP isEmit + 1

/-- Does the event start a request? -/
def isRequest : Ids.Ev → Bool
  | .request _ => true
  | _ => false

/-- Number of requests in a schedule. -/
def requests (h : List Ids.Ev) : Nat := h.countP isRequest

/-- The id drawn by request `k`, if it has drawn one. -/
def drawn (s : Ids.St) (k : Nat) : Option (BitVec 64) := s.threads[k]?.bind (·.id)

end Verif.Spec
