import Verif.Model.Delivery
import Verif.Model.Session
import Verif.Model.Operator

/-!
# Emitting on a parent namespace (socket/parent-namespace.go, socket/parent-broadcast-adapter.go)

All children have in-memory adapters; with connection state recovery they are session-aware.
-/

namespace Verif.Parent
open Verif

/-- A child namespace: its name, its sockets and rooms, and the store of its session-aware adapter, if that is what it
has. -/
structure Child where
  name : String
  nsp : Delivery.Nsp
  store : Option Session.St := none

/-- `nsp.Adapter().Broadcast(packet, opts)` for one child (socket/parent-broadcast-adapter.go:41): the session-aware adapter
appends the offset to `packet.Data` (socket/session-aware-adapter.go:124-144), the in-memory adapter sets `packet.Nsp`
(socket/adapter.go:156).  The second component is the packet afterwards: it is passed by reference. -/
def castChild (cfg : Session.Cfg) (now : Int) (opts : Option Opts) (ch : Child) (p : Pkt) : Child × Pkt :=
  match ch.store with
  | some st =>
    let r := Session.broadcast cfg now p opts st
    let p := { r.2 with nsp := ch.name }
    ({ ch with nsp := Delivery.broadcast ch.nsp p opts, store := some r.1 }, p)
  | none =>
    let p := { p with nsp := ch.name }
    ({ ch with nsp := Delivery.broadcast ch.nsp p opts }, p)

/-- `parentBroadcastAdapter.Broadcast` (socket/parent-broadcast-adapter.go:39-43). -/
def castAll (cfg : Session.Cfg) (now : Int) (opts : Option Opts) : List Child → Pkt → List Child
  | [], _ => []
  | ch :: cs, p =>
    let r := castChild cfg now opts ch p
    r.1 :: castAll cfg now opts cs r.2

/-- `parent.To(rooms).Except(except).Emit(ev, args...)`: `BroadcastOperator.Emit` (socket/broadcast-operator.go:175-252) on
the adapter above.  With an acknowledgement, `BroadcastWithAck` is that of the in-memory adapter of the parent, in which there
are no sockets (socket/parent-broadcast-adapter.go:12-15), so nothing is sent. -/
def emitTo (cfg : Session.Cfg) (now : Int) (rooms except : List Room) (flags : Flags) (ev : String) (args : List Val)
    (cs : List Child) : List Child :=
  if ev ∈ Operator.reserved then cs
  else match Operator.splitAck (Val.str ev :: args) with
    | some _ => cs
    | none => castAll cfg now (some { rooms := some rooms, except := some except, flags := some flags }) cs
        { type := .event, data := .args (Val.str ev :: args) }

/-- `parent.Emit(ev, args...)` (socket/parent-namespace.go:70-75): `Emit` on every child, each with an operator and a packet
of its own.  Simplified: not for an event with an acknowledgement (see `Model/Collector`), nor for a reserved name, whose error
is dropped. -/
def emitAll (cfg : Session.Cfg) (now : Int) (ev : String) (args : List Val) (cs : List Child) : List Child :=
  cs.map fun ch =>
    if ev ∈ Operator.reserved then ch
    else (castChild cfg now (some { rooms := some [], except := some [], flags := some {} }) ch
      { type := .event, data := .args (Val.str ev :: args) }).1

end Verif.Parent
