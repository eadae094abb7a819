import Verif.Model.NodeRace

/-! # The table of the other servers -/

namespace Verif.Spec
open Verif.NodeRace

/-- Server `u` is counted: `ServerCount` includes it and requests are sent to it
(adapter/cluster-adapter-with-heartbeat.go:143-145, 169, 206, 266). -/
def nodeCounted (s : NodeRace.St) (u : Nat) : Prop := s.seen u ≠ none

/-- The last event of `h` is that a message of server `u` has been recorded; `t` is what the clock was when the goroutine that handles it, in
an earlier step, looked at it. -/
def NodeRecordedAt (T : Nat) (h : List NodeRace.Ev) (u t : Nat) : Prop :=
  ∃ a b k m, h = a ++ .onMsg k :: b ++ [.onMsg k] ∧ (NodeRace.run T a).msgs[k]? = some m ∧ m.uid = u ∧ m.pc = .stamp ∧
    t = (NodeRace.run T a).now ∧ .onMsg k ∉ b

/-- The last event of `h` is that a message of server `u` has been recorded. -/
def NodeRecorded (T : Nat) (h : List NodeRace.Ev) (u : Nat) : Prop := ∃ t, NodeRecordedAt T h u t

/-- From `p` on, at every moment of `q`, a message of server `u` has been recorded not longer than `gap` ago. -/
def NodeHeard (T gap u : Nat) (p q : List NodeRace.Ev) : Prop :=
  ∀ q₁, q₁ <+: q → ∃ q₀, q₀ <+: q₁ ∧ NodeRecorded T (p ++ q₀) u ∧ (NodeRace.run T (p ++ q₁)).now ≤ (NodeRace.run T (p ++ q₀)).now + gap

/-- A message is recorded not later than `delay` after its goroutine has looked at the clock: a goroutine that has taken its first step and
not its second one has not been waiting for longer. -/
def NodePrompt (T delay : Nat) (h : List NodeRace.Ev) : Prop :=
  ∀ a b k m, a ++ .onMsg k :: b <+: h → (NodeRace.run T a).msgs[k]? = some m → m.pc = .stamp → .onMsg k ∉ b →
    (NodeRace.run T (a ++ .onMsg k :: b)).now ≤ (NodeRace.run T a).now + delay

/-- No message of server `u` is recorded in `q`, which follows `p`. -/
def NodeSilent (T u : Nat) (p q : List NodeRace.Ev) : Prop := ∀ q₁, q₁ <+: q → q₁ ≠ [] → ¬ NodeRecorded T (p ++ q₁) u

/-- Nobody is about to remove server `u`: no clean-up, and no message that it closes. -/
def NodeUnthreatened (s : NodeRace.St) (u : Nat) : Prop :=
  (∀ c ∈ s.cleans, ∀ now todo, c ≠ .drop now u todo) ∧ (∀ m ∈ s.msgs, m.uid = u → m.close = false)

end Verif.Spec
