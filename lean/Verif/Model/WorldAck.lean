import Verif.Model.World

/-!
# The server with acknowledgement ids

`Model/World` extended by the counters and tables used for acknowledgements.  Calls are atomic here; the interleavings are
in `Model/Ids`, what the answers do is in `Model/Acks` and `Model/Collector`.
-/

namespace Verif.WorldAck
open Verif Verif.Adapter Verif.World

/-- `ids n`: `_ids` of namespace `n` (socket/namespace.go:82); `acks r`: the keys of the table of socket `r`
(socket/socket.go:118). -/
structure X where
  w : W
  ids : Nat → BitVec 64 := fun _ => 0
  acks : Nat → List (BitVec 64) := fun _ => []

inductive XEv where
  | plain (e : World.Ev)
  /-- `socket.Emit` whose last argument is a callback -/
  | emitAck (ref : Nat) (args : List Val) (flags : Flags)
  /-- `namespace.To(rooms...).Except(except...).Emit` whose last argument is a callback -/
  | broadcastAck (n : Nat) (args : List Val) (rooms except : List Room) (flags : Flags)

/-- `Socket.Emit` with a callback (socket/socket.go:280-314): draw an id, store the callback, send the packet with that id. -/
def emitAck (cfg : Cfg) (x : X) (ref : Nat) (args : List Val) (flags : Flags) : X :=
  let n := (x.w.socks ref).ns
  let id := x.ids n + 1
  let p : Pkt := { type := .event, data := .args args, id := some id.toNat }
  { ids := upd x.ids n id
    acks := upd x.acks ref (id :: x.acks ref)
    w := match cfg.recovery with
      | some _ => broadcast cfg x.w n p (options [(x.w.socks ref).sid] [] flags)
      | none => sockPacket x.w ref p }

/-- The callback of `BroadcastWithAck` (socket/adapter.go:189-198). -/
def ackTo (id : BitVec 64) (p : Pkt) (x : X) (ref : Nat) : X :=
  { x with acks := upd x.acks ref (id :: x.acks ref), w := sockPacket x.w ref p }

/-- `adapter.BroadcastWithAck` (socket/adapter.go:172-200) of the in-memory and of the session-aware adapter, which inherits it:
draw an id, then for every selected socket store the callback and send the packet. -/
def broadcastAck (x : X) (n : Nat) (args : List Val) (opts : Option Opts) : X :=
  let id := x.ids n + 1
  let p : Pkt := { type := .event, data := .args args, id := some id.toNat }
  (apply { ad := fun x => (x.w.nss n).ad, sock := fun x sid => (x.w.nss n).sockets.get? sid } opts (ackTo id p)
    { x with ids := upd x.ids n id }).1

def step (cfg : Cfg) (x : X) : XEv → X
  | .plain e => { x with w := World.step cfg x.w e }
  | .emitAck ref args flags => if ref < x.w.nSock then emitAck cfg x ref args flags else x
  | .broadcastAck n args rooms except flags =>
    if n < x.w.nNs then broadcastAck x n args (options rooms except flags) else x

def run (cfg : Cfg) (h : List XEv) : X := h.foldl (step cfg) { w := World.init }

end Verif.WorldAck
