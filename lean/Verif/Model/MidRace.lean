/-!
# Middlewares that are added while clients connect (socket/namespace.go:174-207)

Any number of goroutines call `Use` and run the middlewares for a client.  The list is locked for one `Push` or one `All` at a time, which are
one step each; what `All` returns is a copy.  A middleware may call `next` from any goroutine, at any time after it has been called, and more
than once; what `next` does up to the next call of a middleware, or of the final function, concerns this run only and is one step.
Middlewares are numbers.  The middlewares of a socket (socket/socket.go:791-824) are run by the same code.
-/

namespace Verif.MidRace

/-- What is observed: in the `j`-th run, middleware `f`, the `i`-th of this run, is called; it calls `next`, without error or with one; the
final function is called, without error or with one. -/
inductive Obs where
  | called (j i f : Nat)
  | answered (j i : Nat) (ok : Bool)
  | over (j : Nat) (ok : Bool)
deriving DecidableEq, Repr

/-- `fns`: the middlewares (socket/namespace.go:86); `runs`: for each run what `All` returned, once it has (socket/namespace.go:185). -/
structure St where
  fns : List Nat := []
  runs : List (Option (List Nat)) := []
  log : List Obs := []
deriving DecidableEq, Repr

/-- `use`: `Use` (socket/namespace.go:174-177); `begin`: `run` is called (socket/namespace.go:184); `adv`: its next step; `next`: the `i`-th
middleware of run `j` calls `next`. -/
inductive Ev where
  | use (f : Nat)
  | begin
  | adv (j : Nat)
  | next (j i : Nat) (ok : Bool)
deriving DecidableEq, Repr

/-- What happens first, with these middlewares (socket/namespace.go:186, 204-207). -/
def first (j : Nat) : List Nat → Obs
  | [] => .over j true
  | f :: _ => .called j 0 f

/-- What the function given to the `i`-th middleware does (socket/namespace.go:189-201). -/
def onNext (j i : Nat) (fns : List Nat) : Bool → Obs
  | false => .over j false
  | true => match fns[i + 1]? with
    | none => .over j true
    | some f => .called j (i + 1) f

/-- Middleware `i` of run `j` has been called, so that it can call `next` (socket/namespace.go:189). -/
def wasCalled (s : St) (j i : Nat) (fns : List Nat) : Bool := match fns[i]? with
  | some f => decide (.called j i f ∈ s.log)
  | none => false

/-- One event (socket/namespace.go:174-207). -/
def step (s : St) : Ev → St
  | .use f => { s with fns := s.fns ++ [f] }
  | .begin => { s with runs := s.runs ++ [none] }
  | .adv j => match s.runs[j]? with
    | some none => { s with runs := s.runs.set j (some s.fns), log := s.log ++ [first j s.fns] }
    | _ => s
  | .next j i ok => match s.runs[j]? with
    | some (some fns) => if wasCalled s j i fns then { s with log := s.log ++ [.answered j i ok, onNext j i fns ok] } else s
    | _ => s

/-- A history (socket/namespace.go:174-207). -/
def run (h : List Ev) : St := h.foldl step {}

end Verif.MidRace
