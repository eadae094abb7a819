import Verif.Model.Types

/-!
# The in-memory adapter (socket/adapter.go)

One call of the API is one atomic step here; the interleaving of the individual map operations is
the subject of `Model/RoomRace`.  Listeners of the adapter's events are user code and are not run
inside the calls.
-/

namespace Verif.Adapter
open Verif

/-- The two tables of the adapter: `rooms : Map[Room, *Set[SocketId]]` and
`sids : Map[SocketId, *Set[Room]]` (socket/adapter.go, struct `adapter`). -/
structure Ad where
  rooms : FMap Room (List Sid) := []
  sids : FMap Sid (List Room) := []
deriving Repr, DecidableEq

/-- The events emitted by the adapter ("create-room", "join-room", "leave-room", "delete-room";
socket/adapter.go:99, 103, 119, 123). -/
inductive Ev where
  | create (r : Room)
  | join (r : Room) (s : Sid)
  | leave (r : Room) (s : Sid)
  | delete (r : Room)
deriving DecidableEq, Repr

/-- `sids.LoadOrStore(id, NewSet())` (socket/adapter.go:94). -/
def loadOrStoreSid (a : Ad) (id : Sid) : Ad :=
  match a.sids.get? id with
  | some _ => a
  | none => { a with sids := a.sids.insert id [] }

/-- The body of the loop of `AddAll` (socket/adapter.go:95-105).  `_rooms` is the set that is stored
under `id`, so `_rooms.Add(room)` updates the table; likewise `ids.Add(id)`. -/
def addRoom (id : Sid) (p : Ad × List Ev) (room : Room) : Ad × List Ev :=
  let a := p.1
  let a := match a.sids.get? id with
    | some mine => { a with sids := a.sids.insert id (LSet.add mine room) }
    | none => a
  let q : List Sid × Ad × List Ev := match a.rooms.get? room with
    | some ids => (ids, a, [])
    | none => ([], { a with rooms := a.rooms.insert room [] }, [Ev.create room])
  if id ∈ q.1 then (q.2.1, p.2 ++ q.2.2)
  else ({ q.2.1 with rooms := q.2.1.rooms.insert room (LSet.add q.1 id) },
        p.2 ++ q.2.2 ++ [Ev.join room id])

/-- `AddAll` (socket/adapter.go:93-106); `rooms` are the keys of the set in iteration order. -/
def addAll (a : Ad) (id : Sid) (rooms : List Room) : Ad × List Ev :=
  rooms.foldl (addRoom id) (loadOrStoreSid a id, [])

/-- What the boolean result of `types.Set.Delete` is for an absent key is not specified by /repo:
`delRet` is that value; for a present key the result is `true`. -/
def deleteResult (delRet : Bool) (present : Bool) : Bool := present || delRet

/-- `_del` (socket/adapter.go:116-127). -/
def del_ (delRet : Bool) (a : Ad) (room : Room) (id : Sid) : Ad × List Ev :=
  match a.rooms.get? room with
  | none => (a, [])
  | some ids =>
    let ids' := LSet.del ids id
    let ev1 := if deleteResult delRet (decide (id ∈ ids)) then [Ev.leave room id] else []
    if ids'.length = 0 then
      ({ a with rooms := a.rooms.erase room }, ev1 ++ [Ev.delete room])
    else
      ({ a with rooms := a.rooms.insert room ids' }, ev1)

/-- `Del` (socket/adapter.go:109-114). -/
def del (delRet : Bool) (a : Ad) (id : Sid) (room : Room) : Ad × List Ev :=
  let a := match a.sids.get? id with
    | some mine => { a with sids := a.sids.insert id (LSet.del mine room) }
    | none => a
  del_ delRet a room id

/-- The loop of `DelAll` (socket/adapter.go:132-134). -/
def delLoop (delRet : Bool) (id : Sid) (p : Ad × List Ev) (room : Room) : Ad × List Ev :=
  let q := del_ delRet p.1 room id
  (q.1, p.2 ++ q.2)

/-- `DelAll` (socket/adapter.go:130-137). -/
def delAll (delRet : Bool) (a : Ad) (id : Sid) : Ad × List Ev :=
  match a.sids.get? id with
  | none => (a, [])
  | some rooms =>
    let q := rooms.foldl (delLoop delRet id) (a, [])
    ({ q.1 with sids := q.1.sids.erase id }, q.2)

/-- `SocketRooms` (socket/adapter.go:228-233); `none` is the nil result. -/
def socketRooms (a : Ad) (id : Sid) : Option (List Room) := a.sids.get? id

/-- What `apply` sees of the state: the adapter's tables and `nsp.Sockets().Load(id)`.  `ρ` is the
type of socket pointers. -/
structure View (σ ρ : Type) where
  ad : σ → Ad
  sock : σ → Sid → Option ρ

/-- The loop body of `computeExceptSids` (socket/adapter.go:312-314). -/
def exceptStep (a : Ad) (acc : List Sid) (r : Room) : List Sid :=
  match a.rooms.get? r with
  | some ids => LSet.addAll acc ids
  | none => acc

/-- `computeExceptSids` (socket/adapter.go:308-318). -/
def computeExceptSids (a : Ad) (except : Option (List Room)) : List Sid :=
  match except with
  | none => []
  | some rs => rs.foldl (exceptStep a) []

section apply
variable {σ ρ : Type} (V : View σ ρ) (cb : σ → ρ → σ) (except : List Sid)

/-- The inner loop over `_ids.Keys()` (socket/adapter.go:285-293).  The second component of the
state is the set `ids` of sockets already visited, in the order of the visits. -/
def applyIds : List Sid → σ × List Sid → σ × List Sid
  | [], st => st
  | id :: l, (s, ids) =>
    if id ∈ ids ∨ id ∈ except then applyIds l (s, ids)
    else match V.sock s id with
      | some p => applyIds l (cb s p, ids ++ [id])
      | none => applyIds l (s, ids)

/-- The outer loop over `rooms.Keys()` (socket/adapter.go:283-295): the room is looked up when its
turn comes, i.e. in the state left by the previous callbacks. -/
def applyRooms : List Room → σ × List Sid → σ × List Sid
  | [], st => st
  | r :: rs, (s, ids) =>
    match (V.ad s).rooms.get? r with
    | some l => applyRooms rs (applyIds V cb except l (s, ids))
    | none => applyRooms rs (s, ids)

/-- The `sids.Range` loop (socket/adapter.go:297-305): over the keys present at the start, skipping
those deleted before their turn (contract of `types.Map.Range`). -/
def applyAll : List Sid → σ × List Sid → σ × List Sid
  | [], st => st
  | id :: l, (s, ids) =>
    match (V.ad s).sids.get? id with
    | none => applyAll l (s, ids)
    | some _ =>
      if id ∈ except then applyAll l (s, ids)
      else match V.sock s id with
        | some p => applyAll l (cb s p, ids ++ [id])
        | none => applyAll l (s, ids)

end apply

/-- The default for a nil options pointer (socket/adapter.go:270-275). -/
def normOpts : Option Opts → Opts
  | some o => o
  | none => { rooms := some [], except := some [] }

/-- `apply` (socket/adapter.go:269-306).  Returns the final state and the ids for which the callback
was called, in order.  `opts = none` is the nil pointer. -/
def apply {σ ρ : Type} (V : View σ ρ) (opts : Option Opts) (cb : σ → ρ → σ) (s : σ) :
    σ × List Sid :=
  let except := computeExceptSids (V.ad s) (normOpts opts).except
  match (normOpts opts).rooms with
  | some (r :: rs) => applyRooms V cb except (r :: rs) (s, [])
  | _ => applyAll V cb except (V.ad s).sids.keys (s, [])

end Verif.Adapter

namespace Verif.Adapter
open Verif

/-- `Socket.Rooms()` (socket/socket.go:861-866): the adapter's answer, or an empty set for nil. -/
def roomsOf (a : Ad) (id : Sid) : List Room :=
  match socketRooms a id with
  | some l => l
  | none => []

/-- One call that changes the membership: `Join`/`AddAll`, `Leave`/`Del`, `leaveAll`/`DelAll`. -/
inductive Op where
  | addAll (id : Sid) (rooms : List Room)
  | del (id : Sid) (room : Room)
  | delAll (id : Sid)
deriving DecidableEq, Repr

/-- Runs one call; returns the new tables and the events emitted. -/
def step (d : Bool) (a : Ad) : Op → Ad × List Ev
  | .addAll id rooms => addAll a id rooms
  | .del id room => del d a id room
  | .delAll id => delAll d a id

/-- `b` holds the same tables as `a`, possibly listed in another order.  Used to let the iteration
order of maps and sets change arbitrarily between two calls. -/
structure Reordered (a b : Ad) : Prop where
  rooms : a.rooms.WF → b.rooms.WF
  sids : a.sids.WF → b.sids.WF
  roomOf : ∀ r, match a.rooms.get? r, b.rooms.get? r with
    | some l, some l' => l.Perm l'
    | none, none => True
    | _, _ => False
  sidOf : ∀ s, match a.sids.get? s, b.sids.get? s with
    | some l, some l' => l.Perm l'
    | none, none => True
    | _, _ => False

/-- `Reach d h a evs`: after the calls `h` (oldest first) on a new adapter its tables may be `a` and
the events emitted so far are `evs`. -/
inductive Reach (d : Bool) : List Op → Ad → List Ev → Prop where
  | init : Reach d [] {} []
  | step {h a evs} (op : Op) : Reach d h a evs →
      Reach d (h ++ [op]) (step d a op).1 (evs ++ (step d a op).2)
  | reorder {h a evs b} : Reach d h a evs → Reordered a b → Reach d h b evs

end Verif.Adapter
