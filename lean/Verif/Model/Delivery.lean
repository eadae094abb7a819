import Verif.Model.Adapter
import Verif.Model.Values

/-!
# Selections applied to the sockets of one namespace (socket/adapter.go, the callers of `apply`)

Sockets are pointers (`Nat`), registered in the namespace under their id.
-/

namespace Verif.Delivery
open Verif Verif.Adapter

/-- One namespace: the adapter's tables, `nsp.sockets` (socket/namespace.go:77), the fields `id` and
`canJoin` of the sockets (socket/socket.go:88, 124), the packets handed to the sockets' clients so
far and the sockets disconnected so far (with the argument of `Disconnect`). -/
structure Nsp where
  ad : Ad := {}
  sockets : FMap Sid Nat := []
  sidOf : Nat → Sid
  canJoin : Nat → Bool
  out : List (Nat × Pkt) := []
  kicked : List (Nat × Bool) := []

/-- What `apply` sees of a namespace. -/
def view : View Nsp Nat where
  ad := Nsp.ad
  sock := fun n id => n.sockets.get? id

/-- Callback of `Broadcast` (socket/adapter.go:158-163): the packet is written to the socket's client.
Simplified: outgoing listeners are not run, whether a volatile packet is dropped is decided later
(`Model/Writer`). -/
def write (p : Pkt) (n : Nsp) (ref : Nat) : Nsp := { n with out := n.out ++ [(ref, p)] }

/-- `Broadcast` (socket/adapter.go:145-164); `packet.Nsp` is set by the caller here. -/
def broadcast (n : Nsp) (p : Pkt) (opts : Option Opts) : Nsp := (apply view opts (write p) n).1

/-- `Socket.Join` (socket/socket.go:473-480). -/
def join (rooms : List Room) (n : Nsp) (ref : Nat) : Nsp :=
  if n.canJoin ref then { n with ad := (addAll n.ad (n.sidOf ref) rooms).1 } else n

/-- `Socket.Leave` (socket/socket.go:495-498). -/
def leave (d : Bool) (n : Nsp) (ref : Nat) (room : Room) : Nsp :=
  { n with ad := (del d n.ad (n.sidOf ref) room).1 }

/-- The loop of `DelSockets` (socket/adapter.go:256-258). -/
def leaveEach (d : Bool) (rooms : List Room) (n : Nsp) (ref : Nat) : Nsp :=
  rooms.foldl (fun n r => leave d n ref r) n

/-- `AddSockets` (socket/adapter.go:247-251), reached from `SocketsJoin`
(socket/broadcast-operator.go:336-342). -/
def addSockets (n : Nsp) (opts : Option Opts) (rooms : List Room) : Nsp :=
  (apply view opts (join rooms) n).1

/-- `DelSockets` (socket/adapter.go:254-260), reached from `SocketsLeave`
(socket/broadcast-operator.go:355-361). -/
def delSockets (d : Bool) (n : Nsp) (opts : Option Opts) (rooms : List Room) : Nsp :=
  (apply view opts (leaveEach d rooms) n).1

/-- `Socket.Disconnect(close)` on a connected socket (socket/socket.go:668-681), as far as this namespace is
concerned: `_cleanup` (socket/socket.go:642-646) makes it leave all rooms, unregisters it and forbids joining.
Simplified: the DISCONNECT packet, the events and, for `close`, the other namespaces of the same client are
left to `Model/World`. -/
def kick (d close : Bool) (n : Nsp) (ref : Nat) : Nsp :=
  { n with ad := (delAll d n.ad (n.sidOf ref)).1, sockets := n.sockets.erase (n.sidOf ref)
           canJoin := fun r => if r = ref then false else n.canJoin r
           kicked := n.kicked ++ [(ref, close)] }

/-- `DisconnectSockets` (socket/adapter.go:263-267). -/
def disconnectSockets (d : Bool) (n : Nsp) (opts : Option Opts) (close : Bool) : Nsp :=
  (apply view opts (kick d close) n).1

/-- `FetchSockets` (socket/adapter.go:236-244): the pointers collected, in order. -/
def fetchSockets (n : Nsp) (opts : Option Opts) : List Nat :=
  ((apply (σ := Nsp × List Nat) ⟨fun s => s.1.ad, fun s id => s.1.sockets.get? id⟩ opts
    (fun s ref => (s.1, s.2 ++ [ref])) (n, [])).1).2

/-- `Sockets` (socket/adapter.go:219-225), reached from `AllSockets`: except is nil. -/
def allSockets (n : Nsp) (rooms : List Room) : List Sid :=
  ((apply (σ := Nsp × List Sid) ⟨fun s => s.1.ad, fun s id => s.1.sockets.get? id⟩
    (some { rooms := some rooms })
    (fun s ref => (s.1, LSet.add s.2 (n.sidOf ref))) (n, [])).1).2

/-- The state of a namespace as the server keeps it: consistent tables, every registered socket is
listed under its own id, may join rooms, and has an entry in the adapter's socket table (it joined the
room named after its id).  `Model/World` proves that every reachable server state satisfies it. -/
structure OK (n : Nsp) : Prop where
  wfRooms : n.ad.rooms.WF
  wfSids : n.ad.sids.WF
  ndRooms : ∀ r l, n.ad.rooms.get? r = some l → l.Nodup
  ndSids : ∀ s l, n.ad.sids.get? s = some l → l.Nodup
  nonempty : ∀ r l, n.ad.rooms.get? r = some l → l ≠ []
  agree : ∀ s r, (∃ l, n.ad.rooms.get? r = some l ∧ s ∈ l) ↔ (∃ l, n.ad.sids.get? s = some l ∧ r ∈ l)
  ownId : ∀ s ref, n.sockets.get? s = some ref → n.sidOf ref = s
  mayJoin : ∀ s ref, n.sockets.get? s = some ref → n.canJoin ref = true
  known : ∀ s ref, n.sockets.get? s = some ref → s ∈ n.ad.sids.keys

end Verif.Delivery
