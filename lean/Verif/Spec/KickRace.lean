import Verif.Model.KickRace
import Verif.Spec.CastRace
import Verif.Spec.Returns

/-! # `DisconnectSockets` while other things happen -/

namespace Verif.Spec
open Verif.KickRace

/-- In `p`, then a call of `DisconnectSockets`, then `q`, the call begins after `p` and has returned at the end of `q`, and `q` has no other. -/
structure WholeKick (p : List KickRace.Ev) (rooms except order : List Nat) (q : List KickRace.Ev) : Prop where
  begins : (KickRace.run p).idle = true
  ends : (KickRace.run (p ++ .kick rooms except order :: q)).idle = true
  one : ∀ r x o, .kick r x o ∉ q

/-- Everything after the call. -/
def kicked (p : List KickRace.Ev) (rooms except order : List Nat) (q : List KickRace.Ev) : KickRace.St :=
  KickRace.run (p ++ .kick rooms except order :: q)

/-- What holds at every moment from the beginning of the call until the end of `q`. -/
def WhileKicking (p : List KickRace.Ev) (rooms except order : List Nat) (q : List KickRace.Ev) (P : KickRace.St → Prop) : Prop :=
  ∀ q₁ q₂, q = q₁ ++ q₂ → P (kicked p rooms except order q₁)

/-- What the call has done to socket `id`, in order. -/
def doneTo (id : Nat) (l : List KickRace.Obs) : List KickRace.Obs :=
  l.filter fun | .packet i => i == id | .disconnecting i => i == id | .disconnect i => i == id

/-- The socket is disconnected: it is not in the namespace, not connected, and cannot join rooms. -/
structure Kicked (s : KickRace.St) (id : Nat) : Prop where
  away : s.cast.reg id = false
  flag : s.connected id = false
  shut : s.canJoin id = false

/-- The call has come to the socket. -/
def CameTo (s : KickRace.St) (id : Nat) : Prop := id ∈ s.cast.sent

end Verif.Spec
