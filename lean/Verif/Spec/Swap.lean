import Verif.Model.Swap

/-! # `SetAdapter` on a running server -/

namespace Verif.Spec
open Verif.Swap

/-- How often the adapter was changed. -/
def swaps (h : List Swap.Ev) : Nat := h.count .setAdapter

/-- The socket was made when the adapter had been changed `g` times. -/
def MadeUnder (h : List Swap.Ev) (id : String) (g : Nat) : Prop :=
  ∃ h₁ h₂, h = h₁ ++ .create id :: h₂ ∧ .create id ∉ h₁ ∧ swaps h₁ = g

/-- A call made now through `who` concerns the adapter that was set by the `g`-th change: the last one for the namespace, the one
there was when the socket was made for a socket, and for an operator that of what it was taken from, when it was taken. -/
inductive Through : List Swap.Ev → Who → Nat → Prop
  | nsp (h) : Through h .nsp (swaps h)
  | socket (h id g) : MadeUnder h id g → Through h (.socket id) g
  | operator (h₁ who h₂ k g) : Through h₁ who g → (∀ w, .keep k w ∉ h₂) → Through (h₁ ++ .keep k who :: h₂) (.operator k) g

/-- The adapter was not changed between the moment the socket was made and that from which `who` speaks. -/
def SameAdapter (h : List Swap.Ev) (who : Who) (id : String) : Prop := ∃ g, Through h who g ∧ MadeUnder h id g

/-- The sockets of the namespace, as `nsp.Sockets()` tells. -/
def isConnected (d : Bool) (h : List Swap.Ev) (id : String) : Prop := (Swap.run d h).reg id = true

/-- The rooms of a socket, as `socket.Rooms()` tells. -/
def inRoomOf (d : Bool) (h : List Swap.Ev) (id r : String) : Prop := r ∈ Swap.rooms (Swap.run d h) id

/-- Every change of the adapter comes at a moment when the sockets made before are all closed. -/
def SwapsAtRest (d : Bool) (h : List Swap.Ev) : Prop :=
  ∀ h₁ h₂, h = h₁ ++ .setAdapter :: h₂ → ∀ id, (Swap.run d h₁).canJoin id = false

end Verif.Spec
