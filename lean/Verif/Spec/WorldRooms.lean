import Verif.Spec.World
import Verif.Spec.Targeting

/-! # The rooms of a socket over the history of a server: specifications -/

namespace Verif.Spec
open Verif Verif.World Verif.Adapter

/-- `Rooms()` of socket `r` contains the room. -/
def SitsIn (w : W) (r : Nat) (room : Room) : Prop := room ∈ roomsOf (w.nss (w.socks r).ns).ad (w.socks r).sid

instance (w : W) (r : Nat) (room : Room) : Decidable (SitsIn w r room) := inferInstanceAs (Decidable (_ ∈ _))

instance (w : W) (r : Nat) : Decidable (IsOpen w r) := inferInstanceAs (Decidable (_ ∧ _))

/-- A bulk call on namespace `n` with these rooms and exceptions is about socket `r`: it is a connected socket of this
namespace, in one of the rooms (if any are given) and in none of the exceptions. -/
def Addressed (w : W) (r n : Nat) (rooms except : List Room) : Prop :=
  (w.socks r).connected = true ∧ (w.socks r).ns = n ∧ Matches rooms except (SitsIn w r)

/-- Whether socket `r` is to be in the room after the event, when `w` is the state before it: calls of `Join` and `Leave` on it
and bulk calls about it change this, nothing else does. -/
def SitsAfter (w : W) (r : Nat) (room : Room) : World.Ev → Prop
  | .join ref rooms => SitsIn w r room ∨ (ref = r ∧ room ∈ rooms)
  | .leave ref x => SitsIn w r room ∧ ¬ (ref = r ∧ x = room)
  | .socketsJoin n rooms except _ target => SitsIn w r room ∨ (Addressed w r n rooms except ∧ room ∈ target)
  | .socketsLeave n rooms except _ target => SitsIn w r room ∧ ¬ (Addressed w r n rooms except ∧ room ∈ target)
  | _ => SitsIn w r room

/-- The event is a call of `Leave` on another socket object that has the id of `r`: one that is over. -/
def StaleLeave (w : W) (r : Nat) : World.Ev → Prop
  | .leave ref _ => ref ≠ r ∧ ref < w.nSock ∧ (w.socks ref).sid = (w.socks r).sid ∧ (w.socks ref).ns = (w.socks r).ns
  | _ => False

end Verif.Spec
