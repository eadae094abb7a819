import Verif.Spec.ConnRace
import Verif.Model.World

/-! A socket connected or closed while nothing else happens (C77): what `Model/ConnRace` and `Model/World` have in common. -/

namespace Verif.Spec
open Verif

/-- What was seen of socket `ref`. -/
def outOf (ref : Nat) : World.Obs → Option ConnRace.Out
  | .connection r => if r = ref then some .connection else none
  | .disconnecting r _ => if r = ref then some .disconnecting else none
  | .disconnect r _ => if r = ref then some .disconnect else none
  | .packet _ (some r) p => if r = ref ∧ p.type = .connect then some .connectPacket else none
  | _ => none

/-- `s` is what the server `w` knows about socket `ref`. -/
structure SameSocket (w : World.W) (ref : Nat) (s : ConnRace.St) : Prop where
  isOpen : s.isOpen = true ↔ (w.clients (w.socks ref).client).conn = .opened
  inNsp : s.inNsp = true ↔ (w.nss (w.socks ref).ns).sockets.get? (w.socks ref).sid = some ref
  connected : s.connected = (w.socks ref).connected
  canJoin : s.canJoin = (w.socks ref).canJoin
  inRoom : s.inRoom = true ↔ (w.socks ref).sid ∈ Adapter.roomsOf (w.nss (w.socks ref).ns).ad (w.socks ref).sid
  registered : s.registered = true ↔ (w.clients (w.socks ref).client).sockets.get? (w.socks ref).sid = some ref
  named : s.named = true ↔
    (w.clients (w.socks ref).client).nsps.get? (w.nss (w.socks ref).ns).name = some ref
  log : s.log = w.log.filterMap (outOf ref)

/-- No call is going on. -/
def SockAtRest (s : ConnRace.St) : Prop := ∀ t ∈ s.closers, t.2 = .done

end Verif.Spec
