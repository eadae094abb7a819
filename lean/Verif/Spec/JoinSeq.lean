import Verif.Spec.JoinRace
import Verif.Spec.CloseRace
import Verif.Model.World

/-! Calls of `Join` and closes that do not overlap (C65, C49): what `Model/JoinRace`, `Model/CloseRace` and `Model/World` have in common. -/

namespace Verif.Spec
open Verif

/-- What was saved for socket `ref`: the rooms of each session. -/
def savedOf (ref : Nat) (log : List World.Obs) : List (List Room) :=
  log.filterMap fun o => match o with | .saved r x => if r = ref then some x.rooms else none | _ => none

/-- Two lists of sets of rooms are the same, under the names `ρ`. -/
def SameSets (ρ : Nat → Room) (a : List (List Room)) (b : List (List Nat)) : Prop :=
  a.length = b.length ∧ ∀ (i : Nat) x y, a[i]? = some x → b[i]? = some y → ∀ r, ρ r ∈ x ↔ r ∈ y

/-- `s` is what the server `w` knows about socket `ref`; `ρ` names the rooms. -/
structure SameJoins (ρ : Nat → Room) (w : World.W) (ref : Nat) (s : JoinRace.St) : Prop where
  connected : s.connected = (w.socks ref).connected
  canJoin : s.canJoin = (w.socks ref).canJoin
  registered : s.registered = true ↔ (w.nss (w.socks ref).ns).sockets.get? (w.socks ref).sid = some ref
  rooms : ∀ r, ρ r ∈ Adapter.roomsOf (w.nss (w.socks ref).ns).ad (w.socks ref).sid ↔ r ∈ s.rooms
  saved : SameSets ρ (savedOf ref w.log) (s.log.filterMap fun o => match o with | .saved _ l => some l | _ => none)

/-- The same for `Model/CloseRace`. -/
structure SameCloses (ρ : Nat → Room) (w : World.W) (ref : Nat) (s : CloseRace.St) : Prop where
  connected : s.connected = (w.socks ref).connected
  rooms : ∀ r, ρ r ∈ Adapter.roomsOf (w.nss (w.socks ref).ns).ad (w.socks ref).sid ↔ r ∈ s.rooms
  saved : SameSets ρ (savedOf ref w.log) (savedRooms s)
  /-- the events -/
  disconnects : disconnects s = w.log.countP fun o => match o with | .disconnect r _ => r = ref | _ => false
  disconnectings : disconnectings s = w.log.countP fun o => match o with | .disconnecting r _ => r = ref | _ => false

end Verif.Spec
