import Verif.Model.Heartbeat
import Verif.Model.RequestsConc

/-! # What C40 and C41 say, in terms of the history of calls only -/

namespace Verif.Spec
open Verif Verif.Heartbeat

/-- The last message of server `u` in `h` came at `τ`, was not its goodbye, and no clean-up since then came
more than `T` after it. -/
def Heard (T : Nat) (h : List Ev) (u : Uid) (τ : Nat) : Prop :=
  ∃ pre m post, h = pre ++ .message u m τ :: post ∧ m ≠ .close ∧
    (∀ m' t', .message u m' t' ∉ post) ∧ ∀ t order, .cleanup t order ∈ post → t ≤ τ + T

/-- The other servers of the cluster after `h`, as server `self` should know them. -/
def Known (self : Uid) (T : Nat) (h : List Ev) (u : Uid) : Prop :=
  u ≠ self ∧ u ≠ "emitter" ∧ ∃ τ, Heard T h u τ

/-- `e` is an answer of server `u` to request `id`. -/
def AnswerOf (id : Nat) (u : Uid) (e : Ev) : Prop :=
  (∃ l, e = .response u (.fetch id l)) ∨ ∃ v, e = .response u (.sse id v)

/-- The values an event brings for request `id`. -/
def broughtBy (id : Nat) : Ev → List Val
  | .response _ (.fetch id' l) => if id' = id then l else []
  | .response _ (.sse id' v) => if id' = id then [v] else []
  | _ => []

/-- All the answers to `id` in `h`, in order of arrival. -/
def receivedFor (id : Nat) (h : List Ev) : List Val := h.flatMap (broughtBy id)

/-- After the request `req` issued at `pre` and then `p`, server `u` has answered or has left. -/
def Settled (self : Uid) (T : Nat) (pre : List Ev) (req : Ev) (id : Nat) (p : List Ev) (u : Uid) : Prop :=
  (∃ e ∈ p, AnswerOf id u e) ∨ ∃ p1 p2, p = p1 ++ p2 ∧ ¬ Known self T (pre ++ req :: p1) u

/-- Every server known at the time of the request has answered or left. -/
def Done (self : Uid) (T : Nat) (pre : List Ev) (req : Ev) (id : Nat) (p : List Ev) : Prop :=
  ∀ u, Known self T pre u → Settled self T pre req id p u

/-- `p` is the first moment at which every server has answered or left. -/
def FirstDone (self : Uid) (T : Nat) (pre : List Ev) (req : Ev) (id : Nat) (p : List Ev) : Prop :=
  Done self T pre req id p ∧ ∀ p1 e p2, p = p1 ++ e :: p2 → ¬ Done self T pre req id p1

/-- What comes with the error of a timeout: `FetchSockets` passes nothing, `ServerSideEmit` the answers so far. -/
def failure (kind : Kind) (received : List Val) : Call := .err (if kind = .sse then received else [])

/-- The calls of the callback of request `id`. -/
def requestCalls (id : Nat) (log : List (Nat × Call)) : List Call :=
  log.filterMap fun c => if c.1 = id then some c.2 else none

/-- The event is the first message of another server. -/
def isAnnouncement (self : Uid) : Ev → Bool
  | .message u .initialHeartbeat _ => u != self
  | _ => false

/-- The values of all answers that came. -/
def valuesAnswered (h : List RequestsConc.Ev) : List Val := h.flatMap fun e => match e with
  | .respond _ l => l
  | .adv _ => []

end Verif.Spec
