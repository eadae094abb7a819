import Verif.Model.RecoverRace

/-! # A recovery while packets are broadcast -/

namespace Verif.Spec
open Verif.RecoverRace

/-- The recovery is under way. -/
def Recovering (s : RecoverRace.St) : Prop := s.rpc ≠ .find ∧ s.rpc ≠ .done ∧ s.rpc ≠ .fresh ∧ s.rpc ≠ .panic

instance (s : RecoverRace.St) : Decidable (Recovering s) := by unfold Recovering; infer_instance

/-- The missed packets are being collected. -/
def Collecting (s : RecoverRace.St) : Prop := (∃ i, s.rpc = .alloc i) ∨ (∃ i, s.rpc = .get i)

/-- The packets broadcast. -/
def castsOf : List RecoverRace.Ev → List Nat
  | [] => []
  | .cast p :: h => p :: castsOf h
  | _ :: h => castsOf h

/-- No packet is broadcast twice. -/
def FreshPackets (old : List Nat) (h : List RecoverRace.Ev) : Prop := (old ++ castsOf h).Nodup

/-- The clean-up timer does not fire while the missed packets are being collected. -/
def NoCleaning (mine : Nat → Bool) (offset : Nat) (old : List Nat) (h : List RecoverRace.Ev) : Prop :=
  ∀ p n t, h = p ++ .clean n :: t → ¬ Collecting (RecoverRace.run mine offset old p)

/-- Nobody broadcasts while the session is being recovered. -/
def Apart (mine : Nat → Bool) (offset : Nat) (old : List Nat) (h : List RecoverRace.Ev) : Prop :=
  ∀ p t, h = p ++ t → Recovering (RecoverRace.run mine offset old p) → ∀ c ∈ (RecoverRace.run mine offset old p).casts, c.2 = .done

/-- The packets after the packet `o`. -/
def since (o : Nat) (l : List Nat) : List Nat := (l.dropWhile (· ≠ o)).tail

end Verif.Spec
