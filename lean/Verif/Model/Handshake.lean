import Verif.Model.World
import Verif.Model.Inbound

/-!
# The handshake of a socket (socket/socket.go:164-166, 208-264; socket/client.go:199-221; socket/server.go:512-523)

`Model/World` extended by what `Handshake()` returns.  The packets are those of `Model/Inbound`; whether they ask for a session is read from their
payload.  The names of namespaces begin with a slash, as in `Model/World`.
-/

namespace Verif.Handshake
open Verif Verif.Inbound

/-- `Handshake` (socket/socket.go:30-50): `request` stands for the fields taken from the request and the connection of the client
(Headers, Address, Xdomain, Secure, Url, Query).  `Time` and `Issued` are left out. -/
structure Hs (ρ : Type) where
  request : ρ
  auth : JVal

/-- `request c`: the request of the connection of client `c` (socket/client.go:37-45); `parse`: `url.Parse`. -/
structure Cfg (ρ : Type) where
  world : World.Cfg
  request : Nat → ρ
  parse : String → Option (String × List (String × List String))

structure X (ρ : Type) where
  w : World.W := World.init
  hs : Nat → Option (Hs ρ) := fun _ => none

inductive XEv where
  /-- anything but a packet -/
  | other (e : World.Ev)
  /-- the decoder of client `c` emits a packet -/
  | packet (c : Nat) (p : Packet)

section
variable {ρ : Type} (cfg : Cfg ρ)

/-- `NewSocket` calls `Construct`, which calls `buildHandshake(auth)` (socket/socket.go:144-150, 243, 252-264) with the request of the
socket's own client.  An event creates one socket or none (`made_step`). -/
def record (x : X ρ) (w : World.W) (auth : JVal) : X ρ :=
  { w := w
    hs := if x.w.nSock < w.nSock then World.upd x.hs x.w.nSock (some ⟨cfg.request (w.socks x.w.nSock).client, auth⟩) else x.hs }

/-- What the packet is for `Model/World`: `ondecoded` (socket/client.go:199-221) and the payload as `_createSocket` reads it
(socket/namespace.go:331-336). -/
def worldEv (x : X ρ) (c : Nat) (p : Packet) : World.Ev :=
  .recv c p.type (authOf cfg.parse (x.w.clients c).proto3 p).1
    (asks cfg.world.recovery.isSome (authOf cfg.parse (x.w.clients c).proto3 p).2)

/-- One event.  A client of protocol 3 is connected to the main namespace on arrival, without payload (socket/server.go:518-520). -/
def step (x : X ρ) : XEv → X ρ
  | .other (.recv ..) => x
  | .other e => record cfg x (World.step cfg.world x.w e) .null
  | .packet c p => record cfg x (World.step cfg.world x.w (worldEv cfg x c p)) (authOf cfg.parse (x.w.clients c).proto3 p).2

def run (h : List XEv) : X ρ := h.foldl (step cfg) {}

end

end Verif.Handshake
