import Verif.Model.World

/-!
# What the adapters of a server go on doing (socket/namespace.go:148-162, socket/server.go:260-267, 617-640, socket/parent-namespace.go:79-97)

Every namespace has an adapter, made when the namespace is made and again whenever the program sets another kind of adapter.  Adapters
with recovery and those with heartbeats start a timer that fires for ever; those with heartbeats also send heartbeats once they have
sent anything.  Calls are atomic here (Model/BeatRace, Model/DynRace have the interleavings).  Namespaces are numbers.  Parent namespaces
have adapters without timers and are left out.
-/

namespace Verif.Lifetimes
open Verif Verif.World

/-- The in-memory adapter (or the cluster adapter without heartbeats), the one with recovery, the cluster adapter with heartbeats. -/
inductive Kind where
  | plain
  | recovery
  | heartbeat
deriving DecidableEq, Repr

/-- An adapter: does its clean-up timer fire, does it send heartbeats? -/
structure Adp where
  kind : Kind
  cleaning : Bool := false
  beating : Bool := false
deriving DecidableEq, Repr

/-- `New` (socket/session-aware-adapter.go:50-72, adapter/cluster-adapter-with-heartbeat.go:64-85). -/
def make (k : Kind) : Adp := { kind := k, cleaning := k ≠ .plain }

/-- `Close` (adapter/cluster-adapter-with-heartbeat.go:106-112); the adapter with recovery inherits that of the in-memory adapter, which
does nothing (socket/adapter.go:83-85). -/
def shut (a : Adp) : Adp := if a.kind = .heartbeat then { a with cleaning := false, beating := false } else a

/-- `Publish` starts the heartbeats (adapter/cluster-adapter-with-heartbeat.go:93-104, 147-151). -/
def send (a : Adp) : Adp := if a.kind = .heartbeat then { a with beating := true } else a

/-- What `server._adapter` makes; all adapters ever made; which of them each namespace has that the server lists. -/
structure St where
  builder : Kind
  adps : List Adp := []
  nsps : List (Nat × Nat) := []

inductive Op where
  /-- `Server.SetAdapter` -/
  | use (k : Kind)
  /-- a namespace is asked for, with `Server.Of` or by a client that a parent lets in -/
  | of (n : Nat)
  /-- a call that is sent to the cluster -/
  | publish (n : Nat)
  /-- a child namespace is removed because it is empty -/
  | remove (n : Nat)
  /-- `Server.Close` -/
  | close
deriving DecidableEq, Repr

/-- The adapters are changed that the listed namespaces `l` have. -/
def change (f : Adp → Adp) (adps : List Adp) (l : List (Nat × Nat)) : List Adp :=
  l.foldl (fun as x => match as[x.2]? with | some a => as.set x.2 (f a) | none => as) adps

/-- `InitAdapter` for every namespace (socket/server.go:262-265, socket/namespace.go:160-162). -/
def initAll (k : Kind) (adps : List Adp) : List (Nat × Nat) → List Adp × List (Nat × Nat)
  | [] => (adps, [])
  | (n, _) :: l => let r := initAll k (adps ++ [make k]) l; (r.1, (n, adps.length) :: r.2)

def step (s : St) : Op → St
  | .use k => let r := initAll k s.adps s.nsps; { builder := k, adps := r.1, nsps := r.2 }
  | .of n => if s.nsps.any (·.1 = n) then s else { s with adps := s.adps ++ [make s.builder], nsps := s.nsps ++ [(n, s.adps.length)] }
  | .publish n => { s with adps := change send s.adps (s.nsps.filter (·.1 = n)) }
  | .remove n => { s with adps := change shut s.adps (s.nsps.filter (·.1 = n)), nsps := s.nsps.filter (·.1 ≠ n) }
  | .close => { s with adps := change shut s.adps s.nsps }

def run (k : Kind) (h : List Op) : St := h.foldl step { builder := k }

end Verif.Lifetimes
