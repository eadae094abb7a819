import Verif.Model.RoomRace

/-!
# The events of rooms under concurrent calls (socket/adapter.go:93-137)

`Model/RoomRace` with the four events.  Each is emitted by the goroutine that has done the operation, in a step of its own after it, so that
other goroutines may do things, and emit, in between.
-/

namespace Verif.RoomNews
open Verif Verif.World

/-- `create-room`, `join-room`, `leave-room`, `delete-room`. -/
inductive News where
  | created (r : Nat)
  | joined (r id : Nat)
  | left (r id : Nat)
  | deleted (r : Nat)
deriving DecidableEq, Repr

/-- `tab`: the tables and the goroutines; `due`: what a goroutine emits before it goes on; `news`: what has been emitted, and by whom. -/
structure St where
  tab : RoomRace.St := {}
  due : Nat → Option News := fun _ => none
  news : List (Nat × News) := []

/-- What the boolean result of `types.Set.Delete` is for an absent key is not specified by /repo (see `deleteResult` in `Model/Adapter`):
`absent` is that value. -/
class SetLib where
  absent : Bool

variable [SetLib]

/-- What a goroutine in a call for socket `id` emits after its next operation (socket/adapter.go:98-104, 117-126). -/
def announces (s : RoomRace.St) (id : Nat) : RoomRace.PC → Option News
  | .j2 _ r _ => if s.rooms r = none then some (.created r) else none
  | .j4 _ r _ _ => some (.joined r id)
  | .d3 r t | .e3 r t _ => if id ∈ s.rset t ∨ SetLib.absent = true then some (.left r id) else none
  | .d5 r | .e5 r _ => if s.rooms r = none then none else some (.deleted r)
  | _ => none

/-- One event: a call begins, if the goroutine is free; or a goroutine emits what is due, or else does its next operation
(socket/adapter.go:93-137). -/
def step (s : St) : RoomRace.Ev → St
  | .call k id c => if s.due k = none then { s with tab := RoomRace.step s.tab (.call k id c) } else s
  | .adv k => match s.due k with
    | some e => { s with due := upd s.due k none, news := s.news ++ [(k, e)] }
    | none => { s with tab := RoomRace.advance s.tab k, due := upd s.due k (announces s.tab (s.tab.th k).1 (s.tab.th k).2) }

/-- A history (socket/adapter.go:93-137). -/
def run (h : List RoomRace.Ev) : St := h.foldl step {}

end Verif.RoomNews
