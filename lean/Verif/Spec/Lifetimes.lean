import Verif.Model.Lifetimes

/-! # What the adapters of a server go on doing -/

namespace Verif.Spec
open Verif.Lifetimes

/-- The adapter has a timer running. -/
def Busy (a : Lifetimes.Adp) : Prop := a.cleaning = true ∨ a.beating = true

instance (a : Lifetimes.Adp) : Decidable (Busy a) := by unfold Busy; infer_instance

/-- A namespace that the server lists has adapter `i`. -/
def InUse (s : Lifetimes.St) (i : Nat) : Prop := ∃ n, (n, i) ∈ s.nsps

/-- Adapters are replaced only while none of those in use has a timer running (as long as all are plain, or there is no namespace). -/
def SwapsIdle (k : Lifetimes.Kind) (h : List Lifetimes.Op) : Prop :=
  ∀ h₁ k', h₁ ++ [.use k'] <+: h → ∀ i, InUse (Lifetimes.run k h₁) i → ∀ a, (Lifetimes.run k h₁).adps[i]? = some a → ¬ Busy a

end Verif.Spec
