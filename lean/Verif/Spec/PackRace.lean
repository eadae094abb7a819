import Verif.Model.PackRace

/-! # The packets kept for recovery (C122) -/

namespace Verif.Spec
open Verif Verif.PackRace

/-- The last event of `h` is that goroutine `n` has stored its packet; `t` is what the clock was when it, in an earlier step, looked at it. -/
def PackStored (max : Nat) (h : List PackRace.Ev) (n t : Nat) : Prop :=
  ∃ a b, h = a ++ .adv n :: b ++ [.adv n] ∧ (PackRace.run max a).tasks[n]? = some .stamp ∧ t = (PackRace.run max a).now ∧ .adv n ∉ b

/-- Every packet is stored at most `delay` after its time was taken. -/
def PackPrompt (max delay : Nat) (h : List PackRace.Ev) : Prop :=
  ∀ h₁, h₁ <+: h → ∀ n t, PackStored max h₁ n t → (PackRace.run max h₁).now ≤ t + delay

/-- The packets kept, oldest first. -/
def keptPackets (s : PackRace.St) : List Nat := s.packets.map Prod.fst

/-- The packets that are stored during `q`, after `p`, in order: a goroutine that has its time takes its next step. -/
def packStores (max : Nat) (p : List PackRace.Ev) : List PackRace.Ev → List Nat
  | [] => []
  | .adv m :: q => (match (PackRace.run max p).tasks[m]? with | some (.push _) => [m] | _ => []) ++ packStores max (p ++ [.adv m]) q
  | e :: q => packStores max (p ++ [e]) q

/-- The packets of both models are from the same times. -/
def SamePackets (s : PackRace.St) (t : Session.St) : Prop :=
  t.packets.map (fun p => p.emittedAt) = s.packets.map fun p => (p.2 : Int)

end Verif.Spec
