import Verif.Model.Adapter

/-!
# The sets `Socket.Rooms()` returns (socket/socket.go:861-866, socket/adapter.go:228-233)

`Rooms()` returns the set that is in the adapter's table, not a copy.  A program that keeps it sees later changes, and changes the table
when it adds or removes rooms.  `DelAll` takes the set out of the table as it is; from then on it is the program's alone.
-/

namespace Verif.RoomSet
open Verif Verif.Adapter

/-- A set the program has: the one in the table under `id`, or one of its own. -/
inductive Handle where
  | live (id : Sid)
  | own (l : List Room)
deriving DecidableEq, Repr

structure St where
  ad : Ad := {}
  handles : List Handle := []

/-- * `call`: a call that changes the membership (`Model/Adapter`).
* `take`: `Socket.Rooms()` of socket `id`.
* `add`, `remove`: the program adds a room to, or removes it from, the `k`-th set it has got. -/
inductive Ev where
  | call (op : Op)
  | take (id : Sid)
  | add (k : Nat) (r : Room)
  | remove (k : Nat) (r : Room)
deriving DecidableEq, Repr

/-- What the set holds. -/
def contents (s : St) : Handle → List Room
  | .live id => roomsOf s.ad id
  | .own l => l

/-- `DelAll` of `id` takes the set out of the table (socket/adapter.go:135). -/
def detach (s : St) (id : Sid) (h : Handle) : Handle :=
  if h = .live id then .own (contents s h) else h

/-- A change of the `k`-th set by the program. -/
def edit (s : St) (k : Nat) (f : List Room → List Room) : St :=
  match s.handles[k]? with
  | some (.live id) =>
    match s.ad.sids.get? id with
    | some l => { s with ad := { s.ad with sids := s.ad.sids.insert id (f l) } }
    | none => s
  | some (.own l) => { s with handles := s.handles.set k (.own (f l)) }
  | none => s

def step (d : Bool) (s : St) : Ev → St
  | .call op =>
    { ad := (Adapter.step d s.ad op).1
      handles := match op with
        | .delAll id => s.handles.map (detach s id)
        | _ => s.handles }
  | .take id =>
    { s with handles := s.handles ++ [match socketRooms s.ad id with
        | some _ => .live id
        | none => .own []] }
  | .add k r => edit s k fun l => LSet.add l r
  | .remove k r => edit s k fun l => LSet.del l r

def run (d : Bool) (h : List Ev) : St := h.foldl (step d) {}

end Verif.RoomSet
