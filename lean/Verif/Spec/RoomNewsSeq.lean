import Verif.Spec.RoomNews
import Verif.Spec.RoomSeq

/-! # The events of rooms when no two calls overlap -/

namespace Verif.Spec
open Verif Verif.RoomNews

variable [SetLib]

/-- In `h` these calls are made in turn: each has returned, and has emitted its events, before the next begins. -/
inductive NewsInTurn : List RoomRace.Ev → List (Nat × RoomRace.Call) → Prop where
  | nil : NewsInTurn [] []
  | call {h cs} (k id : Nat) (c : RoomRace.Call) (n : Nat) : NewsInTurn h cs →
      FreeNow (RoomNews.run (h ++ .call k id c :: List.replicate n (.adv k))) k →
      NewsInTurn (h ++ .call k id c :: List.replicate n (.adv k)) (cs ++ [(id, c)])

/-- The event of `Model/Adapter`; `ρ` and `σ` name the rooms and the sockets. -/
def asEvent (ρ : Nat → Room) (σ : Nat → Sid) : News → Adapter.Ev
  | .created r => .create (ρ r)
  | .joined r id => .join (ρ r) (σ id)
  | .left r id => .leave (ρ r) (σ id)
  | .deleted r => .delete (ρ r)

end Verif.Spec
