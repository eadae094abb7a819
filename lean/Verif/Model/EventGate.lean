import Verif.Model.Types

/-!
# Incoming events of one socket: middlewares and handlers (socket/socket.go)

Every step is one step of some goroutine; the schedule is the list of steps.  Events are numbered in the order in which
`dispatch` is entered for them.
-/

namespace Verif.EventGate
open Verif

/-- What happens: a middleware is entered for an event (its position, and which one it is), it calls `next` (`ok`: without error),
the handlers are called, the "error" event is fired, the event is ignored, the socket is disconnected. -/
inductive Obs where
  | enter (e i m : Nat)
  | next (e i : Nat) (ok : Bool)
  | handler (e : Nat)
  | error (e : Nat)
  | dropped (e : Nat)
  | disconnect
deriving DecidableEq, Repr

/-- The goroutine started by the callback in `dispatch` (socket/socket.go:756-766). -/
inductive Phase where
  | start
  /-- the socket was found to be connected, the handlers have not been called -/
  | passed
  | finished
deriving DecidableEq, Repr

structure Go where
  e : Nat
  ok : Bool
  phase : Phase := .start
deriving DecidableEq, Repr

/-- `connected`, `fns`, for every event the middlewares there were when it arrived (`fns := s.fns.All()`, socket/socket.go:802),
the goroutines started. -/
structure St where
  connected : Bool := true
  fns : List Nat := []
  evs : List (List Nat) := []
  gos : List Go := []
  log : List Obs := []
deriving DecidableEq, Repr

/-- `dispatch` and `run(0)` (socket/socket.go:753-768, 801-826) for the next event. -/
def recv (s : St) : St :=
  let e := s.evs.length
  match s.fns with
  | [] => { s with evs := s.evs ++ [s.fns], gos := s.gos ++ [{ e := e, ok := true }] }
  | m :: _ => { s with evs := s.evs ++ [s.fns], log := s.log ++ [.enter e 0 m] }

/-- The function `next` given to middleware `i` for event `e` (socket/socket.go:807-819). -/
def goOn (s : St) (fns : List Nat) (e i : Nat) (ok : Bool) : St :=
  if ok then
    match fns[i + 1]? with
    | none => { s with log := s.log ++ [.next e i true], gos := s.gos ++ [{ e := e, ok := true }] }
    | some m => { s with log := s.log ++ [.next e i true, .enter e (i + 1) m] }
  else { s with log := s.log ++ [.next e i false], gos := s.gos ++ [{ e := e, ok := false }] }

/-- Middleware `i` calls the `next` it was given for event `e`: possible once it has been entered. -/
def next (s : St) (e i : Nat) (ok : Bool) : St :=
  match s.evs[e]? with
  | none => s
  | some fns => match fns[i]? with
    | none => s
    | some m => if .enter e i m ∈ s.log then goOn s fns e i ok else s

/-- One step of goroutine `k` (socket/socket.go:756-766). -/
def adv (s : St) (k : Nat) : St :=
  match s.gos[k]? with
  | none => s
  | some g => match g.phase with
    | .finished => s
    | .passed => { s with gos := s.gos.set k { g with phase := .finished }, log := s.log ++ [.handler g.e] }
    | .start =>
      if g.ok then
        if s.connected then { s with gos := s.gos.set k { g with phase := .passed } }
        else { s with gos := s.gos.set k { g with phase := .finished }, log := s.log ++ [.dropped g.e] }
      else { s with gos := s.gos.set k { g with phase := .finished }, log := s.log ++ [.error g.e] }

/-- `_onclose` (socket/socket.go:618-639), as far as it matters here. -/
def close (s : St) : St :=
  if s.connected then { s with connected := false, log := s.log ++ [.disconnect] } else s

/-- Steps: `Use` (socket/socket.go:791-794), an event arrives, and the above. -/
inductive Ev where
  | use (m : Nat)
  | recv
  | next (e i : Nat) (ok : Bool)
  | adv (k : Nat)
  | close
deriving DecidableEq, Repr

def step (s : St) : Ev → St
  | .use m => { s with fns := s.fns ++ [m] }
  | .recv => recv s
  | .next e i ok => next s e i ok
  | .adv k => adv s k
  | .close => close s

def run (h : List Ev) : St := h.foldl step {}

end Verif.EventGate
