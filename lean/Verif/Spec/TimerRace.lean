import Verif.Model.TimerRace

/-! The connect timeout, goroutine by goroutine (C97). -/

namespace Verif.Spec
open Verif Verif.TimerRace

/-- While the function of the timer is at work, every connected socket has been noted by the client: none is just being connected. -/
def NoneHalfway (h : List TimerRace.Ev) : Prop :=
  ∀ p t, h = p ++ t → (TimerRace.run p).tmo ∈ [Tpc.test, .state, .close] → ∀ k ∈ (TimerRace.run p).live, k ∈ (TimerRace.run p).nsps

/-- The client is set up before its first socket is let pass. -/
def SetUpFirst (h : List TimerRace.Ev) : Prop :=
  ∀ p t, h = p ++ .come :: t → (TimerRace.run p).setup = .done

/-- Socket `k` has been connected, to the end. -/
def ConnectedToTheEnd (h : List TimerRace.Ev) (k : Nat) : Prop := (TimerRace.run h).ths[k]? = some .done

instance (h : List TimerRace.Ev) (k : Nat) : Decidable (ConnectedToTheEnd h k) := by unfold ConnectedToTheEnd; infer_instance

end Verif.Spec
