import Verif.Model.Values

/-!
# Catch-all listeners (socket/socket.go:879-1009)

A listener is a closure, here a number; `code l` is the function literal it was made from, which is what
`reflect.ValueOf(l).Pointer()` gives.  Sockets are numbers.  The library's `Slice` is a list; `All` returns a copy.
-/

namespace Verif.Listeners
open Verif

/-- The two kinds: `_anyListeners` and `_anyOutgoingListeners`. -/
inductive Kind where
  | incoming
  | outgoing
deriving DecidableEq, Repr

/-- The listeners of every socket, and what was called: kind, socket, listener, arguments. -/
structure St where
  lists : Kind → Nat → List Nat := fun _ _ => []
  calls : List (Kind × Nat × Nat × List Val) := []

/-- Replace the list of one kind of one socket. -/
def St.put (s : St) (k : Kind) (i : Nat) (l : List Nat) : St :=
  { s with lists := fun k' i' => if k' = k ∧ i' = i then l else s.lists k' i' }

/-- `onevent` up to `dispatch` (socket/socket.go:560-562) and `notifyOutgoingListeners` (socket/socket.go:998-1006): every listener
is called with the arguments, in the order of the list. -/
def notify (s : St) (k : Kind) (i : Nat) (args : List Val) : St :=
  { s with calls := s.calls ++ (s.lists k i).map fun l => (k, i, l, args) }

inductive Op where
  /-- `OnAny` (socket/socket.go:879-882), `OnAnyOutgoing` (socket/socket.go:942-945) -/
  | on (k : Kind) (i l : Nat)
  /-- `PrependAny` (socket/socket.go:888-891), `PrependAnyOutgoing` (socket/socket.go:956-959) -/
  | prepend (k : Kind) (i l : Nat)
  /-- `OffAny` (socket/socket.go:911-921), `OffAnyOutgoing` (socket/socket.go:979-989); `none` is nil -/
  | off (k : Kind) (i : Nat) (l : Option Nat)
  /-- an event arrives for a socket -/
  | recv (i : Nat) (args : List Val)
  /-- `Emit` without recovery (socket/socket.go:309) -/
  | emit (i : Nat) (args : List Val)
  /-- a broadcast that reaches these sockets, in that order (socket/adapter.go:158-161, 195-197) -/
  | cast (reached : List Nat) (args : List Val)
deriving DecidableEq, Repr

def step (code : Nat → Nat) (s : St) : Op → St
  | .on k i l => s.put k i (s.lists k i ++ [l])
  | .prepend k i l => s.put k i (l :: s.lists k i)
  | .off k i (some l) => s.put k i ((s.lists k i).eraseP fun x => code x == code l)
  | .off k i none => s.put k i []
  | .recv i args => notify s .incoming i args
  | .emit i args => notify s .outgoing i args
  | .cast reached args => reached.foldl (fun s i => notify s .outgoing i args) s

def run (code : Nat → Nat) (h : List Op) : St := h.foldl (step code) {}

end Verif.Listeners
