import Verif.Model.Listeners

/-!
# Catch-all listeners that come and go while events are handled (socket/socket.go:560-562, 879-921, 942-1006)

Events arrive and are emitted in many goroutines, each of which goes through the listeners of a socket; meanwhile listeners are
registered and removed, by other goroutines or by a listener that is being called.  Every access to the `Slice` of listeners and every
call of a listener is one step.  Listeners and sockets are numbers, `code` is as in `Model/Listeners`.
-/

namespace Verif.ListenRace
open Verif Verif.Listeners

/-- What is done to the listeners of a socket, each in one step (`Slice` has a lock). -/
inductive Edit where
  /-- `OnAny` (socket/socket.go:879-882), `OnAnyOutgoing` (socket/socket.go:942-945) -/
  | on (l : Nat)
  /-- `PrependAny` (socket/socket.go:888-891), `PrependAnyOutgoing` (socket/socket.go:956-959) -/
  | prepend (l : Nat)
  /-- `OffAny` (socket/socket.go:911-921), `OffAnyOutgoing` (socket/socket.go:979-989); `none` is nil -/
  | off (l : Option Nat)
deriving DecidableEq, Repr

/-- What a goroutine that notifies does next: `All()` (socket/socket.go:560, 999), then the calls that are left. -/
inductive PC where
  | all
  | loop (todo : List Nat)
deriving DecidableEq, Repr

/-- A goroutine that notifies the listeners of one kind of one socket of an event with these arguments. -/
structure Note where
  kind : Kind
  sock : Nat
  args : List Val
  pc : PC := .all
deriving DecidableEq, Repr

/-- The listeners; the goroutines; the calls of listeners so far: goroutine, listener, arguments. -/
structure St where
  lists : Kind → Nat → List Nat := fun _ _ => []
  notes : List Note := []
  calls : List (Nat × Nat × List Val) := []

/-- The listeners of a socket change; an event arrives for it or is emitted to it; a goroutine takes a step. -/
inductive Ev where
  | edit (k : Kind) (i : Nat) (e : Edit)
  | event (k : Kind) (i : Nat) (args : List Val)
  | adv (j : Nat)
deriving DecidableEq, Repr

/-- The listeners of one socket after a change (socket/socket.go:880, 889, 912-919). -/
def edited (code : Nat → Nat) (ls : List Nat) : Edit → List Nat
  | .on l => ls ++ [l]
  | .prepend l => l :: ls
  | .off (some l) => ls.eraseP fun x => code x == code l
  | .off none => []

/-- The next step of goroutine `j` (socket/socket.go:560-562, 999-1005). -/
def act (s : St) (j : Nat) (n : Note) : St :=
  match n.pc with
  | .all => { s with notes := s.notes.set j { n with pc := .loop (s.lists n.kind n.sock) } }
  | .loop [] => s
  | .loop (l :: todo) => { s with notes := s.notes.set j { n with pc := .loop todo }, calls := s.calls ++ [(j, l, n.args)] }

def step (code : Nat → Nat) (s : St) : Ev → St
  | .edit k i e => { s with lists := fun k' i' => if k' = k ∧ i' = i then edited code (s.lists k i) e else s.lists k' i' }
  | .event k i args => { s with notes := s.notes ++ [{ kind := k, sock := i, args := args }] }
  | .adv j => match s.notes[j]? with
    | some n => act s j n
    | none => s

def run (code : Nat → Nat) (h : List Ev) : St := h.foldl (step code) {}

end Verif.ListenRace
