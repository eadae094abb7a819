import Verif.Model.DynRace

/-!
# An event sent through a parent namespace while its children come and go (socket/parent-namespace.go:69-74, socket/parent-broadcast-adapter.go:40-44)

One goroutine sends an event through a parent namespace, with `Emit` or with the adapter of the parent (the operators); both go through
`children.Keys()` and send the event in each child.  Meanwhile clients come and go as in `Model/DynRace`.  Other emissions change
nothing of this.  Simplified: the event is sent to the sockets of one child in one step; `Model/CastRace` has the steps of that.
-/

namespace Verif.FamilyRace
open Verif Verif.World

/-- What the goroutine that sends the event does next. -/
inductive PC where
  | idle
  /-- `children.Keys()` -/
  | keys
  /-- the loop over the children -/
  | loop (todo : List Nat)
deriving DecidableEq, Repr

/-- The clients and namespaces; the emission; the clients it was sent to, in order. -/
structure St where
  dyn : DynRace.St := {}
  pc : PC := .idle
  got : List Nat := []

/-- Something happens to the clients and namespaces; an event is sent through the parent (if none is being sent); the next step of
that. -/
inductive Ev where
  | dyn (e : DynRace.Ev)
  | emit
  | adv
deriving DecidableEq, Repr

/-- One step of the emission (socket/parent-namespace.go:69-74, socket/parent-broadcast-adapter.go:40-44). -/
def act (s : St) : St :=
  match s.pc with
  | .idle => s
  | .keys => { s with pc := .loop s.dyn.children }
  | .loop [] => { s with pc := .idle }
  | .loop (n :: todo) => { s with pc := .loop todo, got := s.got ++ (s.dyn.nsp n).socks }

/-- One event (socket/parent-namespace.go:69-103, socket/parent-broadcast-adapter.go:40-44). -/
def step (c : DynRace.Cfg) (s : St) : Ev → St
  | .dyn e => { s with dyn := DynRace.step c s.dyn e }
  | .emit => if s.pc = .idle then { s with pc := .keys, got := [] } else s
  | .adv => act s

/-- A history (socket/parent-namespace.go:69-103). -/
def run (c : DynRace.Cfg) (h : List Ev) : St := h.foldl (step c) {}

end Verif.FamilyRace
