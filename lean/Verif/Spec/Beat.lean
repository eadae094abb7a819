import Verif.Model.Beat

/-! # Being counted by the others -/

namespace Verif.Spec
open Verif Verif.Beat

/-- Server `j` counts server `i` (`ServerCount`, and the servers asked by `FetchSockets`). -/
def Counts (cfg : Beat.Cfg) (s : Beat.St) (j i : Nat) : Prop := cfg.uid i ∈ (s.nodes j).nodes.keys

/-- No timer of a running server is late by more than `slack`, no message to a running server is under way for longer than
`delay`. -/
def Prompt (slack delay : Nat) (s : Beat.St) : Prop :=
  (∀ i d, s.phase i = .up → s.deadline i = some d → s.now ≤ d + slack) ∧
  (∀ p ∈ s.net, s.phase p.dst = .up → s.now ≤ p.sent + delay)

/-- This is so all the time. -/
def AlwaysPrompt (cfg : Beat.Cfg) (slack delay : Nat) (h : List Beat.Ev) : Prop :=
  ∀ h₁ h₂, h = h₁ ++ h₂ → Prompt slack delay (Beat.run cfg h₁)

/-- The heartbeats of server `i` are under way: it called `Init`, asked the others something or answered the `Init` of another. -/
def Beating (s : Beat.St) (i : Nat) : Prop := s.deadline i ≠ none

/-- The servers have different uids, none that of an emitter. -/
structure GoodUids (cfg : Beat.Cfg) : Prop where
  inj : ∀ i j, cfg.uid i = cfg.uid j → i = j
  emitter : ∀ i, cfg.uid i ≠ "emitter"

end Verif.Spec
