import Verif.Spec.CastRace
import Verif.Model.Adapter

/-! A broadcast during which nothing else happens (C74): what `Model/CastRace` and `Model/Adapter` have in common. -/

namespace Verif.Spec
open Verif

/-- The tables of `s` are those that `V` shows; `ρ` and `σ` name the rooms and the sockets. -/
structure SameTables {τ : Type} (ρ : Nat → Room) (σ : Nat → Sid) (V : Adapter.View Unit τ) (s : CastRace.St) : Prop where
  /-- the sockets of each room -/
  rooms : ∀ r, (V.ad ()).rooms.get? (ρ r) = (s.tab.rooms r).map fun x => (s.tab.rset x).map σ
  /-- which sockets the adapter knows -/
  sids : ∀ id, ((V.ad ()).sids.get? (σ id)).isSome = (s.tab.sids id).isSome
  /-- which sockets are in the namespace -/
  reg : ∀ id, (V.sock () (σ id)).isSome = s.reg id

end Verif.Spec
