import Verif.Model.CastRace
import Verif.Spec.RoomRace

/-! # A broadcast while sockets join, leave, come and go -/

namespace Verif.Spec
open Verif.RoomRace

/-- Socket `id` is in room `r` or about to join it. -/
def NearRoom (s : RoomRace.St) (id r : Nat) : Prop := InRoom s id r ∨ ∃ k, (s.th k).1 = id ∧ r ∈ joining (s.th k).2

/-- What holds in the adapter, and of the sockets of the namespace, from the moment the broadcast begins until the end of `q`. -/
def Meanwhile (p : List CastRace.Ev) (rooms except order : List Nat) (q : List CastRace.Ev) (P : RoomRace.St → (Nat → Bool) → Prop) :
    Prop :=
  ∀ q₁ q₂, q = q₁ ++ q₂ →
    P (CastRace.run (p ++ .cast rooms except order :: q₁)).tab (CastRace.run (p ++ .cast rooms except order :: q₁)).reg

/-- The same, but only until the broadcast has reached socket `id`. -/
def UntilReached (p : List CastRace.Ev) (rooms except order : List Nat) (q : List CastRace.Ev) (id : Nat)
    (P : RoomRace.St → (Nat → Bool) → Prop) : Prop :=
  ∀ q₁ q₂, q = q₁ ++ q₂ → id ∉ (CastRace.run (p ++ .cast rooms except order :: q₁)).sent →
    P (CastRace.run (p ++ .cast rooms except order :: q₁)).tab (CastRace.run (p ++ .cast rooms except order :: q₁)).reg

/-- In `p`, then a call, then `q`, the call begins after `p` and has returned at the end of `q`, and `q` has no other. -/
structure Whole (p : List CastRace.Ev) (rooms except order : List Nat) (q : List CastRace.Ev) : Prop where
  begins : (CastRace.run p).pc = .idle
  ends : (CastRace.run (p ++ .cast rooms except order :: q)).pc = .idle
  one : ∀ a b c, .cast a b c ∉ q

/-- The sockets it was sent to. -/
def sentTo (p : List CastRace.Ev) (rooms except order : List Nat) (q : List CastRace.Ev) : List Nat :=
  (CastRace.run (p ++ .cast rooms except order :: q)).sent

/-- The socket was connected, and not disconnected since. -/
def Present (h : List CastRace.Ev) (id : Nat) : Prop := ∃ h₁ h₂, h = h₁ ++ .connect id :: h₂ ∧ .disconnect id ∉ h₂

end Verif.Spec
