import Verif.Model.World

/-!
# A dynamic namespace that is created and cleaned up (socket/client.go:92-131, socket/server.go:203-228, 584-611, socket/parent-namespace.go:77-103)

One name, which a parent namespace lets clients connect to; clients come and go, each in goroutines of its own (socket/client.go:216),
and the child of that name is created for the first and, with the option, removed after the last.  Every access to `_nsps`, to
`children`, to `Sockets()` is one step.  Namespaces are numbers, in the order of their creation; clients are numbers, each connects
once.  Simplified: the matcher answers yes at once; the program does not call `Of` with this name itself; the middlewares of the parent
are one step and do not change.
-/

namespace Verif.DynRace
open Verif Verif.World

/-- `regex`: the parent was made with a regular expression, not with a function (socket/server.go:553-567, 543-552).  `cleanup`: the
option `CleanupEmptyChildNamespaces`.  `admit`: whether the middlewares of the parent let a client pass. -/
structure Cfg where
  regex : Bool
  cleanup : Bool
  admit : Nat → Bool

/-- A namespace: whether it was made by `CreateChild` (it has then the middlewares of the parent, socket/parent-namespace.go:81); whether
its adapter has not been closed; its sockets. -/
structure Nsp where
  child : Bool := false
  isOpen : Bool := true
  socks : List Nat := []
deriving DecidableEq, Repr

/-- What happens next for a client. -/
inductive Pc where
  /-- it has not asked yet -/
  | idle
  /-- `_nsps.Load` in `connect` (socket/client.go:93) -/
  | load
  /-- `_nsps.Load` after the matcher has said yes (socket/server.go:212) -/
  | check
  /-- `NewNamespace`, `children.Add` in `CreateChild` (socket/parent-namespace.go:79-85), called by `_checkNamespace` or by `Of` -/
  | make (inOf : Bool)
  /-- `_nsps.Store` in `CreateChild` (socket/parent-namespace.go:98) -/
  | store (n : Nat) (inOf : Bool)
  /-- `_nsps.Load` in `Of`, called by `doConnect` (socket/client.go:121, socket/server.go:584) -/
  | look
  /-- `NewNamespace` and `_nsps.Store` in `Of` (socket/server.go:601-602) -/
  | plain
  /-- the middlewares (socket/namespace.go:274) -/
  | gate (n : Nat)
  /-- `n.sockets.Store` (socket/namespace.go:350) -/
  | enter (n : Nat)
  /-- it is connected -/
  | inside (n : Nat)
  /-- `n.sockets.LoadAndDelete` (socket/namespace.go:375) -/
  | remove (n : Nat)
  /-- `namespace.Sockets().Len() == 0` (socket/parent-namespace.go:89) -/
  | test (n : Nat)
  /-- `namespace.Adapter().Close()` (socket/parent-namespace.go:91) -/
  | close (n : Nat)
  /-- `_nsps.Delete(namespace.Name())` (socket/parent-namespace.go:92) -/
  | unreg (n : Nat)
  /-- `children.Delete(namespace)` (socket/parent-namespace.go:93) -/
  | unchild (n : Nat)
  /-- it has been refused or has left -/
  | gone
deriving DecidableEq, Repr

/-- The namespaces and how many there have been; the one registered under the name; the children of the parent; the clients. -/
structure St where
  nsp : Nat → Nsp := fun _ => {}
  next : Nat := 0
  reg : Option Nat := none
  children : List Nat := []
  pc : Nat → Pc := fun _ => .idle

/-- Client `k` asks for the namespace; the next step of what happens for it; it leaves (disconnects, or is
disconnected; or, before it is in the namespace, its connection is found closed, socket/namespace.go:276-280). -/
inductive Ev where
  | connect (k : Nat)
  | adv (k : Nat)
  | leave (k : Nat)
deriving DecidableEq, Repr

/-- One step for client `k`. -/
def act (c : Cfg) (s : St) (k : Nat) : Pc → St × Pc
  | .load => (s, if s.reg.isSome then .look else .check)
  | .check => (s, if s.reg.isSome then .look else .make false)
  | .make v => ({ s with nsp := upd s.nsp s.next { child := true }, next := s.next + 1, children := s.children ++ [s.next] },
      .store s.next v)
  | .store n v => ({ s with reg := some n }, if v then .gate n else .look)
  | .look => match s.reg with
    | some n => (s, .gate n)
    | none => (s, if c.regex then .make true else .plain)
  | .plain => ({ s with nsp := upd s.nsp s.next {}, next := s.next + 1, reg := some s.next }, .gate s.next)
  | .gate n => (s, if (s.nsp n).child && !c.admit k then .remove n else .enter n)
  | .enter n => ({ s with nsp := upd s.nsp n { s.nsp n with socks := (s.nsp n).socks ++ [k] } }, .inside n)
  | .remove n => ({ s with nsp := upd s.nsp n { s.nsp n with socks := (s.nsp n).socks.filter (· ≠ k) } },
      if (s.nsp n).child && c.cleanup then .test n else .gone)
  | .test n => (s, if (s.nsp n).socks = [] then .close n else .gone)
  | .close n => ({ s with nsp := upd s.nsp n { s.nsp n with isOpen := false } }, .unreg n)
  | .unreg n => ({ s with reg := none }, .unchild n)
  | .unchild n => ({ s with children := s.children.filter (· ≠ n) }, .gone)
  | .idle => (s, .idle)
  | .inside n => (s, .inside n)
  | .gone => (s, .gone)

def step (c : Cfg) (s : St) : Ev → St
  | .connect k => if s.pc k = .idle then { s with pc := upd s.pc k .load } else s
  | .adv k => { (act c s k (s.pc k)).1 with pc := upd s.pc k (act c s k (s.pc k)).2 }
  | .leave k => match s.pc k with
    | .inside n | .enter n => { s with pc := upd s.pc k (.remove n) }
    | _ => s

def run (c : Cfg) (h : List Ev) : St := h.foldl (step c) {}

end Verif.DynRace
