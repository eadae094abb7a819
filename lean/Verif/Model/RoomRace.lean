import Verif.Model.World

/-!
# The room tables under concurrent calls (socket/adapter.go:93-136)

Every operation on a map or a set is one step; a goroutine that has loaded a set from a map keeps working on that set even if the
map has changed since.  Sockets, rooms and sets are numbers.  Goroutines are numbers; each runs one call at a time.  Of the events
only `delete-room` is recorded.
-/

namespace Verif.RoomRace
open Verif Verif.World

/-- Where a call is.  `x` is the set of rooms of the socket, `t` the set of sockets of the room. -/
inductive PC where
  /-- `AddAll` (socket/adapter.go:93-106): load or store the rooms of the socket -/
  | j0 (rs : List Nat)
  /-- the loop: `_rooms.Add(room)` -/
  | j1 (x : Nat) (rs : List Nat)
  /-- `a.rooms.LoadOrStore` -/
  | j2 (x r : Nat) (rs : List Nat)
  /-- `ids.Has(id)` -/
  | j3 (x r t : Nat) (rs : List Nat)
  /-- `ids.Add(id)` -/
  | j4 (x r t : Nat) (rs : List Nat)
  /-- `Del` (socket/adapter.go:109-114): `a.sids.Load` -/
  | d0 (r : Nat)
  /-- `rooms.Delete(room)` -/
  | d1 (x r : Nat)
  /-- `_del` (socket/adapter.go:116-127): `a.rooms.Load` -/
  | d2 (r : Nat)
  /-- `ids.Delete(id)` -/
  | d3 (r t : Nat)
  /-- `ids.Len() == 0` -/
  | d4 (r t : Nat)
  /-- `a.rooms.LoadAndDelete` -/
  | d5 (r : Nat)
  /-- `DelAll` (socket/adapter.go:130-137): `a.sids.Load` -/
  | a0
  /-- `rooms.Keys()` -/
  | a1 (x : Nat)
  /-- the loop; at its end `a.sids.Delete` -/
  | a2 (left : List Nat)
  /-- `_del` as above, then the rest of the loop -/
  | e2 (r : Nat) (left : List Nat)
  | e3 (r t : Nat) (left : List Nat)
  | e4 (r t : Nat) (left : List Nat)
  | e5 (r : Nat) (left : List Nat)
  | done
deriving DecidableEq, Repr

structure St where
  sids : Nat → Option Nat := fun _ => none
  rooms : Nat → Option Nat := fun _ => none
  /-- the sets of rooms, and the sets of sockets -/
  sset : Nat → List Nat := fun _ => []
  rset : Nat → List Nat := fun _ => []
  next : Nat := 0
  /-- what each goroutine is doing, and for which socket -/
  th : Nat → Nat × PC := fun _ => (0, .done)
  /-- the rooms of the `delete-room` events -/
  deleted : List Nat := []

/-- `Set.Add`. -/
def add (l : List Nat) (a : Nat) : List Nat := if a ∈ l then l else a :: l

/-- `Set.Delete`. -/
def del (l : List Nat) (a : Nat) : List Nat := l.filter (· ≠ a)

/-- `a.rooms.LoadAndDelete(room)`, with its event. -/
def loadAndDelete (s : St) (r : Nat) : St :=
  match s.rooms r with
  | some _ => { s with rooms := upd s.rooms r none, deleted := s.deleted ++ [r] }
  | none => s

/-- One step of a call for socket `id`. -/
def act (s : St) (id : Nat) : PC → St × PC
  | .j0 rs =>
    match s.sids id with
    | some x => (s, .j1 x rs)
    | none => ({ s with sids := upd s.sids id (some s.next), sset := upd s.sset s.next [], next := s.next + 1 }, .j1 s.next rs)
  | .j1 _ [] => (s, .done)
  | .j1 x (r :: rs) => ({ s with sset := upd s.sset x (add (s.sset x) r) }, .j2 x r rs)
  | .j2 x r rs =>
    match s.rooms r with
    | some t => (s, .j3 x r t rs)
    | none => ({ s with rooms := upd s.rooms r (some s.next), rset := upd s.rset s.next [], next := s.next + 1 }, .j3 x r s.next rs)
  | .j3 x r t rs => (s, if id ∈ s.rset t then .j1 x rs else .j4 x r t rs)
  | .j4 x _ t rs => ({ s with rset := upd s.rset t (add (s.rset t) id) }, .j1 x rs)
  | .d0 r =>
    match s.sids id with
    | some x => (s, .d1 x r)
    | none => (s, .d2 r)
  | .d1 x r => ({ s with sset := upd s.sset x (del (s.sset x) r) }, .d2 r)
  | .d2 r =>
    match s.rooms r with
    | some t => (s, .d3 r t)
    | none => (s, .done)
  | .d3 r t => ({ s with rset := upd s.rset t (del (s.rset t) id) }, .d4 r t)
  | .d4 r t => (s, if s.rset t = [] then .d5 r else .done)
  | .d5 r => (loadAndDelete s r, .done)
  | .a0 =>
    match s.sids id with
    | some x => (s, .a1 x)
    | none => (s, .done)
  | .a1 x => (s, .a2 (s.sset x))
  | .a2 [] => ({ s with sids := upd s.sids id none }, .done)
  | .a2 (r :: left) => (s, .e2 r left)
  | .e2 r left =>
    match s.rooms r with
    | some t => (s, .e3 r t left)
    | none => (s, .a2 left)
  | .e3 r t left => ({ s with rset := upd s.rset t (del (s.rset t) id) }, .e4 r t left)
  | .e4 r t left => (s, if s.rset t = [] then .e5 r left else .a2 left)
  | .e5 r left => (loadAndDelete s r, .a2 left)
  | .done => (s, .done)

/-- A call of the adapter. -/
inductive Call where
  | join (rs : List Nat)
  | leave (r : Nat)
  | leaveAll
deriving DecidableEq, Repr

def Call.start : Call → PC
  | .join rs => .j0 rs
  | .leave r => .d0 r
  | .leaveAll => .a0

inductive Ev where
  /-- goroutine `k` calls the adapter for socket `id` (if it is not in a call already) -/
  | call (k id : Nat) (c : Call)
  | adv (k : Nat)
deriving DecidableEq, Repr

def advance (s : St) (k : Nat) : St :=
  { (act s (s.th k).1 (s.th k).2).1 with th := upd s.th k ((s.th k).1, (act s (s.th k).1 (s.th k).2).2) }

def step (s : St) : Ev → St
  | .call k id c => if (s.th k).2 = .done then { s with th := upd s.th k (id, c.start) } else s
  | .adv k => advance s k

def run (h : List Ev) : St := h.foldl step {}

end Verif.RoomRace
