import Verif.Spec.Answer

/-! # What a server keeps (specification) -/

namespace Verif.Spec
open Verif Verif.World

/-- The connection of every client is over, and its end has been handled. -/
def AllGone (w : W) : Prop := ∀ c, c < w.nClient → (w.clients c).listening = false

instance (w : W) : Decidable (AllGone w) := by unfold AllGone; infer_instance

/-- No socket waits for its middlewares or for the goroutine started after them. -/
def NoneWaits (w : W) : Prop := ∀ r, ¬ Undecided w r

/-- The namespace keeps nothing about any socket: none in `Sockets()`, no room, no set of rooms. -/
def KeepsNothing (n : Ns) : Prop := n.sockets = [] ∧ n.ad.rooms = [] ∧ n.ad.sids = []

instance (n : Ns) : Decidable (KeepsNothing n) := by unfold KeepsNothing; infer_instance

/-- What a namespace has about this id: a socket, a set of rooms, or a place in a room. -/
def Keeps (n : Ns) (sid : Sid) : Prop :=
  n.sockets.get? sid ≠ none ∨ n.ad.sids.get? sid ≠ none ∨ ∃ room l, n.ad.rooms.get? room = some l ∧ sid ∈ l

end Verif.Spec
