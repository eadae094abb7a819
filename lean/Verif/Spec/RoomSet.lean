import Verif.Model.RoomSet
import Verif.Spec.Rooms

/-! Sets of rooms in the hands of the program (C93). -/

namespace Verif.Spec
open Verif

/-- The calls that change the membership, among all that happens. -/
def roomCalls (h : List RoomSet.Ev) : List Call :=
  h.filterMap fun
    | .call (.addAll id rooms) => some (.join id rooms)
    | .call (.del id room) => some (.leave id room)
    | .call (.delAll id) => some (.leaveAll id)
    | _ => none

/-- The program adds room `r` to, or removes it from, the set that is in the table under `id`. -/
def EditsRoom (s : RoomSet.St) (e : RoomSet.Ev) (id r : String) : Prop :=
  ∃ k, (e = .add k r ∨ e = .remove k r) ∧ s.handles[k]? = some (.live id)

/-- It never does so. -/
def NeverEdits (d : Bool) (h : List RoomSet.Ev) (id r : String) : Prop :=
  ∀ a e b, h = a ++ e :: b → ¬ EditsRoom (RoomSet.run d a) e id r

/-- What happens before socket `id` leaves all its rooms. -/
def untilGone (id : String) (h : List RoomSet.Ev) : List RoomSet.Ev := h.takeWhile fun e => decide (e ≠ .call (.delAll id))

/-- Some call made `s` join (rooms, or none at all) and it has not left all since. -/
def Seated (h : List Call) (s : String) : Prop := ∃ pre rs post, h = pre ++ .join s rs :: post ∧ .leaveAll s ∉ post

/-- The `k`-th set the program has got holds room `r`. -/
def SetHolds (st : RoomSet.St) (k : Nat) (r : String) : Prop := ∃ x, st.handles[k]? = some x ∧ r ∈ RoomSet.contents st x

end Verif.Spec
