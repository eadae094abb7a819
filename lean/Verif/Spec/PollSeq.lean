import Verif.Spec.PollRace

/-! # Callbacks that run one at a time -/

namespace Verif.Spec

/-- Whenever one of the callbacks of the operator begins, no other is under way. -/
def OneAtATime (h : List Collector.CEv) : Prop :=
  ∀ h₁ e h₂, h = h₁ ++ .start e :: h₂ → ∀ t ∈ (Collector.crun h₁).threads, t.prog = []

end Verif.Spec
