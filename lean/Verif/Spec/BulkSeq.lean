import Verif.Spec.BulkRace
import Verif.Model.Delivery

/-! A bulk call during which nothing else happens (C107): what `Model/BulkRace` and `Model/Delivery` have in common. -/

namespace Verif.Spec
open Verif

/-- The namespace `n` and the state `s` show the same: the rooms of each socket, the sockets of each room, which sockets are in the
namespace, and which of them may join rooms.  `ρ` and `σ` name the rooms and the sockets. -/
structure SameNsp (ρ : Nat → Room) (σ : Nat → Sid) (n : Delivery.Nsp) (s : BulkRace.St) : Prop where
  sids : ∀ id, n.ad.sids.get? (σ id) = (s.cast.tab.sids id).map fun x => (s.cast.tab.sset x).map ρ
  rooms : ∀ r, n.ad.rooms.get? (ρ r) = (s.cast.tab.rooms r).map fun x => (s.cast.tab.rset x).map σ
  reg : ∀ id, (n.sockets.get? (σ id)).isSome = s.cast.reg id
  own : ∀ id ref, n.sockets.get? (σ id) = some ref → n.sidOf ref = σ id ∧ n.canJoin ref = !s.shut id

/-- The same bulk call in `Model/Delivery`. -/
def bulkAtOnce (d : Bool) (ρ : Nat → Room) (n : Delivery.Nsp) (a : BulkRace.Act) (opts : Option Opts) : Delivery.Nsp :=
  match a with
  | .join rs => Delivery.addSockets n opts (rs.map ρ)
  | .leave rs => Delivery.delSockets d n opts (rs.map ρ)

end Verif.Spec
