import Verif.Lib.ListExtra

/-!
# `EmitWithAck` and the caller's slice (socket/socket.go:340-344, socket/broadcast-operator.go:265-269, socket/namespace.go:481-485)

Go slices share arrays.  `EmitWithAck(ev, args...)` returns a function that does `Emit(ev, append(args, ack)...)`.  A call is two
steps: the `append`, and `Emit`, which begins by copying its arguments (`append([]any{ev}, args...)`, socket/socket.go:284,
socket/broadcast-operator.go:180).  Calls on several goroutines interleave.
-/

namespace Verif.Alias

/-- What an `any` holds here: an argument, or the acknowledgement of a call. -/
inductive Cell where
  | arg (n : Nat)
  | ack (call : Nat)
deriving DecidableEq, Repr

/-- A Go slice: array, offset, length and capacity. -/
structure Slice where
  arr : Nat
  off : Nat
  len : Nat
  cap : Nat
deriving DecidableEq, Repr

/-- The arrays, by number. -/
abbrev Heap := List (List Cell)

/-- The elements of a slice. -/
def cells (h : Heap) (s : Slice) : List Cell := ((h[s.arr]?.getD []).drop s.off).take s.len

/-- `append(args, x)` of the Go specification: in place if there is room, else into a new array.  (The new array's capacity is not
modelled: nobody else has it.) -/
def append (h : Heap) (s : Slice) (x : Cell) : Heap × Slice :=
  if s.len < s.cap then
    (h.set s.arr ((h[s.arr]?.getD []).set (s.off + s.len) x), { s with len := s.len + 1 })
  else
    (h ++ [cells h s ++ [x]], { arr := h.length, off := 0, len := s.len + 1, cap := s.len + 1 })

/-- Where a call is. -/
inductive PC where
  | start
  | grown (s : Slice)
  | done
deriving DecidableEq, Repr

structure St where
  heap : Heap
  pc : Nat → PC := fun _ => .start
  /-- the emissions: call and arguments, the acknowledgement last -/
  out : List (Nat × List Cell) := []

def St.at (s : St) (k : Nat) (p : PC) : Nat → PC := fun j => if j = k then p else s.pc j

/-- The next step of call `k`, made with the slice `args k`. -/
def step (args : Nat → Slice) (s : St) (k : Nat) : St :=
  match s.pc k with
  | .start => { heap := (append s.heap (args k) (.ack k)).1, pc := s.at k (.grown (append s.heap (args k) (.ack k)).2), out := s.out }
  | .grown sl => { heap := s.heap, pc := s.at k .done, out := s.out ++ [(k, cells s.heap sl)] }
  | .done => s

def run (args : Nat → Slice) (h : Heap) (sched : List Nat) : St := sched.foldl (step args) { heap := h }

end Verif.Alias
