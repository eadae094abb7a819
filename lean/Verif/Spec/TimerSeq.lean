import Verif.Model.TimerRace
import Verif.Model.World

/-! The connect timeout while nothing else happens (C97): what `Model/TimerRace` and `Model/World` have in common. -/

namespace Verif.Spec
open Verif

/-- `s`, in which no call is going on, is what the server `w` knows about the connect timeout of client `c`. -/
structure SameTimer (w : World.W) (c : Nat) (s : TimerRace.St) : Prop where
  isOpen : s.isOpen = true ↔ (w.clients c).conn = .opened
  armed : s.isOpen = true → (s.timer = .armed ↔ (w.clients c).timer = true)
  nsps : s.isOpen = true → (s.nsps = [] ↔ (w.clients c).nsps = [])
  ptr : s.isOpen = true → s.timer = .armed → s.ptr = true
  setup : s.setup = .done
  rest : s.tmo = .idle ∨ s.tmo = .done

end Verif.Spec
