import Verif.Model.Remote

/-!
# A parent namespace and its children over time (socket/parent-namespace.go, socket/parent-broadcast-adapter.go)

Calls are atomic.  The children have the in-memory adapter; what the session-aware adapter does to the packet is in `Model/Parent`.
Which names the parent accepts, and connections that are under way when a child is removed, are in `Model/Registry` and `Model/World`.
-/

namespace Verif.Family
open Verif Verif.Adapter Verif.Delivery

/-- A namespace without sockets (socket/namespace.go:91-115). -/
def blank : Remote.St := { n := { sidOf := fun _ => "", canJoin := fun _ => false } }

/-- `self`: the tables of the parent's own adapter, which embeds an in-memory adapter (socket/parent-broadcast-adapter.go:12-15), and
`Sockets()` of the parent; `kids k`: the `k`-th child; `names k`: its name; `listed`: `p.children` (socket/parent-namespace.go:35);
`next`: the number of children made so far; `result`: what the last `FetchSockets` handed to its callback, `none` for the error. -/
structure St where
  self : Nsp := blank.n
  kids : Nat → Remote.St := fun _ => blank
  names : Nat → String := fun _ => ""
  listed : List Nat := []
  next : Nat := 0
  result : Option (List Nat) := some []

inductive Ev where
  /-- a client asks for a namespace that the parent accepts -/
  | ask (name : String)
  /-- something happens in the `k`-th child -/
  | inside (k : Nat) (e : Remote.Ev)
  /-- `parent.Emit` and `parent.To(rooms).Except(except).Emit` -/
  | emit (p : Pkt)
  | emitTo (p : Pkt) (rooms except : List Room)
  /-- `SocketsJoin`, `SocketsLeave`, `DisconnectSockets` of the parent or of `parent.To(rooms).Except(except)` -/
  | bulkJoin (rooms except joined : List Room)
  | bulkLeave (rooms except left : List Room)
  | bulkDisconnect (rooms except : List Room) (close : Bool)
  /-- `parent.FetchSockets()` and `parent.In(rooms).Except(except).FetchSockets()` -/
  | fetch
  | inFetch (rooms except : List Room)

/-- `Broadcast` on the adapters of the children (socket/parent-broadcast-adapter.go:39-43). -/
def cast (p : Pkt) (o : Option Opts) (s : St) : St :=
  { s with kids := fun k =>
      if k ∈ s.listed then { s.kids k with n := broadcast (s.kids k).n { p with nsp := s.names k } o } else s.kids k }

/-- A client connects only to a child that is there; the program may still hold one that is not. -/
def goes (s : St) (k : Nat) : Remote.Ev → Bool
  | .connect _ _ => decide (k ∈ s.listed)
  | _ => decide (k < s.next)

/-- One event.  `ask`: `CreateChild` (socket/parent-namespace.go:77-103), unless there is a namespace of that name.  `inside`: see
`goes`; with `auto` (`CleanupEmptyChildNamespaces`) the removal of the last socket takes the child out
(socket/parent-namespace.go:87-96, socket/namespace.go:374-381).  `emit`: socket/parent-namespace.go:70-75; `emitTo`:
socket/broadcast-operator.go:188-198.  The other calls of an operator are those of the embedded adapter (socket/broadcast-operator.go:305-380,
socket/adapter.go:236-267); `fetch`: socket/parent-namespace.go:105-114. -/
def step (d auto : Bool) (s : St) : Ev → St
  | .ask name =>
    if ∃ k ∈ s.listed, s.names k = name then s
    else { s with names := fun k => if k = s.next then name else s.names k, listed := s.listed ++ [s.next], next := s.next + 1 }
  | .inside k e =>
    if goes s k e then
      let r := Remote.step d (s.kids k) e
      { s with kids := fun i => if i = k then r else s.kids i
               listed := if auto ∧ (s.kids k).n.sockets ≠ [] ∧ r.n.sockets = [] then s.listed.filter (· ≠ k) else s.listed }
    else s
  | .emit p => cast p (some { rooms := some [], except := some [], flags := some {} }) s
  | .emitTo p rooms except => cast p (some { rooms := some rooms, except := some except, flags := some {} }) s
  | .bulkJoin rooms except joined => { s with self := addSockets s.self (Remote.opts rooms except) joined }
  | .bulkLeave rooms except left => { s with self := delSockets d s.self (Remote.opts rooms except) left }
  | .bulkDisconnect rooms except close => { s with self := disconnectSockets d s.self (Remote.opts rooms except) close }
  | .fetch => { s with result := none }
  | .inFetch rooms except => { s with result := some (fetchSockets s.self (Remote.opts rooms except)) }

/-- A history (socket/parent-namespace.go:31-114). -/
def run (d auto : Bool) (h : List Ev) : St := h.foldl (step d auto) {}

end Verif.Family
