import Verif.Model.Types

/-!
# Concurrent creation of a namespace (socket/server.go, socket/client.go)

`_nsps.Load` and `_nsps.Store` are separate steps; each inbound packet is handled in a goroutine of its own
(socket/client.go:216), so two of these run concurrently when two clients ask for the same name.  Namespaces are numbers;
matchers allow the name; no namespace is removed.
-/

namespace Verif.OfRace
open Verif

/-- Where a goroutine is. -/
inductive Pc where
  | load
  | store
  | lookup
  | done (n : Nat)
deriving DecidableEq, Repr

/-- A goroutine: a call of `Of` (`joins = false`), or the connection of a client to a dynamic namespace. -/
structure Th where
  name : String
  joins : Bool
  pc : Pc := .load
deriving DecidableEq, Repr

structure St where
  nsps : FMap String Nat := []
  next : Nat := 0
  ths : List Th := []
deriving DecidableEq, Repr

/-- One step of a goroutine.
* `load`: `_nsps.Load` in `Of` (socket/server.go:584), in `Client.connect` (socket/client.go:93) and in `_checkNamespace`
  (socket/server.go:212; the one in `Client.connect` before it is the same step here).
* `store`: `NewNamespace` and `_nsps.Store` in `Of` (socket/server.go:600-602) or `CreateChild` (socket/parent-namespace.go:77-98).
* `lookup`: `Of` in `doConnect` (socket/client.go:120-121), whose result the socket is added to. -/
def advance (s : St) (t : Th) : St × Th :=
  match t.pc with
  | .load => match s.nsps.get? t.name with
    | some n => (s, { t with pc := if t.joins then .lookup else .done n })
    | none => (s, { t with pc := .store })
  | .store => ({ s with nsps := s.nsps.insert t.name s.next, next := s.next + 1 },
      { t with pc := if t.joins then .lookup else .done s.next })
  | .lookup => match s.nsps.get? t.name with
    | some n => (s, { t with pc := .done n })
    | none => (s, { t with pc := .store })
  | .done _ => (s, t)

inductive Ev where
  | spawn (name : String) (joins : Bool)
  | adv (k : Nat)
deriving DecidableEq, Repr

def step (s : St) : Ev → St
  | .spawn name joins => { s with ths := s.ths ++ [{ name := name, joins := joins }] }
  | .adv k => match s.ths[k]? with
    | some t =>
      let q := advance s t
      { q.1 with ths := s.ths.set k q.2 }
    | none => s

def run (h : List Ev) : St := h.foldl step {}

end Verif.OfRace
