/-!
# Specification of room membership

Independent of the adapter model: a history of calls determines the membership relation, and a
listener that only sees the adapter's events can maintain a mirror of the rooms.
-/

namespace Verif.Spec

/-- The calls a user makes on sockets. -/
inductive Call where
  | join (s : String) (rooms : List String)
  | leave (s : String) (room : String)
  | leaveAll (s : String)

/-- The call makes socket `s` a member of `r`. -/
def Call.joins : Call → String → String → Prop
  | .join s' rs, s, r => s' = s ∧ r ∈ rs
  | _, _, _ => False

/-- The call ends a membership of socket `s` in `r`. -/
def Call.leaves : Call → String → String → Prop
  | .leave s' r', s, r => s' = s ∧ r' = r
  | .leaveAll s', s, _ => s' = s
  | _, _, _ => False

/-- Some call made `s` a member of `r` and no later call ended it. -/
def Member (h : List Call) (s r : String) : Prop :=
  ∃ pre c post, h = pre ++ c :: post ∧ c.joins s r ∧ ∀ c' ∈ post, ¬ c'.leaves s r

/-- What a listener of the adapter's events sees. -/
inductive RoomEvent where
  | create (r : String)
  | join (r s : String)
  | leave (r s : String)
  | delete (r : String)

/-- A mirror of the rooms: `none` if the room does not exist, else its members. -/
abbrev Mirror := String → Option (List String)

def Mirror.set (m : Mirror) (r : String) (v : Option (List String)) : Mirror :=
  fun x => if x = r then v else m x

/-- The listener's reaction to one event; `none` is "protocol violation": creating an existing room,
joining a room that does not exist or twice, leaving a room that does not exist (with `strict`: or
that one is not in), deleting a room that does not exist or has members. -/
def Mirror.onEvent (strict : Bool) (m : Mirror) : RoomEvent → Option Mirror
  | .create r => match m r with
    | none => some (m.set r (some []))
    | some _ => none
  | .join r s => match m r with
    | none => none
    | some l => if s ∈ l then none else some (m.set r (some (s :: l)))
  | .leave r s => match m r with
    | none => none
    | some l => if strict && !decide (s ∈ l) then none
                else some (m.set r (some (l.filter (fun x => decide (x ≠ s)))))
  | .delete r => match m r with
    | some [] => some (m.set r none)
    | _ => none

/-- The mirror after a sequence of events. -/
def Mirror.replay (strict : Bool) : Mirror → List RoomEvent → Option Mirror
  | m, [] => some m
  | m, e :: es => match m.onEvent strict e with
    | some m' => replay strict m' es
    | none => none

end Verif.Spec
