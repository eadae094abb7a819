import Verif.Spec.KickRace
import Verif.Model.Delivery

/-! `DisconnectSockets` during which nothing else happens (C117): what `Model/KickRace` and `Model/Delivery` have in common. -/

namespace Verif.Spec
open Verif

/-- The namespace `n` and the state `s` show the same: the rooms of each socket, the sockets of each room, which sockets are in the
namespace, which of them may join rooms; and those in the namespace are connected.  `ρ` and `σ` name the rooms and the sockets. -/
structure SameKick (ρ : Nat → Room) (σ : Nat → Sid) (n : Delivery.Nsp) (s : KickRace.St) : Prop where
  sids : ∀ id, n.ad.sids.get? (σ id) = (s.cast.tab.sids id).map fun x => (s.cast.tab.sset x).map ρ
  rooms : ∀ r, n.ad.rooms.get? (ρ r) = (s.cast.tab.rooms r).map fun x => (s.cast.tab.rset x).map σ
  reg : ∀ id, (n.sockets.get? (σ id)).isSome = s.cast.reg id
  own : ∀ id ref, n.sockets.get? (σ id) = some ref → n.sidOf ref = σ id ∧ n.canJoin ref = s.canJoin id ∧ s.connected id = true

/-- What is seen of a socket that is disconnected. -/
def goodbye (id : Nat) : List KickRace.Obs := [.packet id, .disconnecting id, .disconnect id]

end Verif.Spec
