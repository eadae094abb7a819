import Verif.Model.BeatRace

/-! A closed server falls silent (C95). -/

namespace Verif.Spec
open Verif

/-- Until the first message has set the timer, no second one is under way. -/
def FirstAlone (revive : Bool) (h : List BeatRace.Ev) : Prop :=
  ∀ a b, h = a ++ b → (BeatRace.run revive a).field = none → (BeatRace.run revive a).ths.length ≤ 1

/-- `Close`, the `k`-th call, is about to stop the timer. -/
def Closing (s : BeatRace.St) (k : Nat) : Prop := s.ths[k]? = some ⟨.goodbye, .clear⟩

/-- The calls made by timers. -/
def beats (s : BeatRace.St) : List BeatRace.Th := s.ths.filter fun t => decide (t.msg = .heartbeat)

end Verif.Spec
