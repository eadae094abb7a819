import Verif.Model.JoinRace

/-! # Joining rooms while the socket is closed -/

namespace Verif.Spec
open Verif.JoinRace

/-- `a` happened before (some occurrence of) `b`. -/
def Before (log : List Out) (a b : Out) : Prop := ∃ l₁ l₂, log = l₁ ++ b :: l₂ ∧ a ∈ l₁

/-- Two calls overlapped: neither had returned when the other began. -/
def Overlap (log : List Out) (i k : Nat) : Prop :=
  ¬ Before log (.returned i) (.called k) ∧ ¬ Before log (.returned k) (.called i)

/-- Call `i` was a `Join` of these rooms. -/
def IsJoin (s : JoinRace.St) (i : Nat) (rs : List Nat) : Prop := ∃ pc, s.ths[i]? = some (.join rs, pc)

/-- Call `k` was a close. -/
def IsClose (s : JoinRace.St) (k : Nat) : Prop := ∃ b pc, s.ths[k]? = some (.close b, pc)

/-- The socket has been disconnected by call `k`. -/
def DisconnectedBy (s : JoinRace.St) (k : Nat) : Prop := .disconnect k ∈ s.log

/-- Every call has returned. -/
def AllReturned (s : JoinRace.St) : Prop := ∀ k < s.ths.length, .returned k ∈ s.log

/-- The handlers of "disconnecting" of close `k` are running: the event was fired and the close has not gone on. -/
def InDisconnecting (s : JoinRace.St) (k : Nat) : Prop := .disconnecting k ∈ s.log ∧ ∃ b, s.ths[k]? = some (.close b, .persist)

end Verif.Spec
