import Verif.Spec.CloseLoop

/-! A call that closes sockets, during which nothing else happens (C108): what `Model/CloseLoop` and `Model/World` have in common. -/

namespace Verif.Spec
open Verif

/-- `s` is what the server `w` knows: which sockets are in their namespace, connected, able to join, and for which a `disconnect` event
has been fired, in order. -/
structure SameClosing (w : World.W) (s : CloseLoop.St) : Prop where
  inNsp : ∀ ref, (s.sk ref).inNsp = true ↔ (w.nss (w.socks ref).ns).sockets.get? (w.socks ref).sid = some ref
  connected : ∀ ref, (s.sk ref).connected = (w.socks ref).connected
  canJoin : ∀ ref, (s.sk ref).canJoin = (w.socks ref).canJoin
  events : s.log = w.log.filterMap fun o => match o with | .disconnect ref _ => some ref | _ => none

/-- The sockets of the namespace called `name`, in the order in which the loop goes through them. -/
def socketsIn (w : World.W) (name : String) : List Nat :=
  match w.nsps.get? name with
  | some n => (w.nss n).sockets.keys.filterMap fun sid => (w.nss n).sockets.get? sid
  | none => []

/-- The server after `h` when `Server.Close` has dealt with these namespaces. -/
def closedUpTo (cfg : World.Cfg) (h : List World.Ev) (names : List String) : World.W :=
  names.foldl (World.closeNs cfg) (World.run cfg h)

end Verif.Spec
