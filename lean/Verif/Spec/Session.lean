import Verif.Model.Session

/-!
# Specification of the recovery log, in terms of the history of calls only

Uses the data types of the model (calls, stored packets, sessions) but none of its functions.
-/

namespace Verif.Spec
open Verif Verif.Session

abbrev History := List (Int × Session.Op)

/-- The calls do not go back in time. -/
def Monotone (h : History) : Prop := h.Pairwise (fun a b => a.1 ≤ b.1)

/-- The broadcasts that must be stored: events without acknowledgement that are not volatile. -/
def storable : Int × Session.Op → Option (Int × List Val × Option Opts)
  | (t, .broadcast { type := .event, id := none, data := .args l, .. } opts) =>
    match opts with
    | some { flags := some { volatile := true, .. }, .. } => none
    | _ => some (t, l, opts)
  | _ => none

/-- The complete log: every storable broadcast of the history, in order, the `i`-th one carrying the
`i`-th offset as its last argument.  Nothing is ever removed from it. -/
def fullLog (yeast : Nat → String) (h : History) : List Stored :=
  (h.filterMap storable).zipIdx.map (fun e =>
    { id := yeast e.2, emittedAt := e.1.1, data := e.1.2.1 ++ [Val.str (yeast e.2)], opts := e.1.2.2 })

/-- `x` is the session saved last under `pid`, at time `t`. -/
def LastSaved (h : History) (pid : String) (x : Sess) (t : Int) : Prop :=
  ∃ pre post, h = pre ++ (t, .persist x) :: post ∧ x.pid = pid ∧
    ∀ t' y, (t', .persist y) ∈ post → y.pid ≠ pid

/-- The rooms of non-nil options. -/
def optRooms : Option Opts → Option (List Room × List Room)
  | some { rooms := some r, except := some e, .. } => some (r, e)
  | _ => none

/-- The packet matches the rooms of a session. -/
def packetMatches (sessionRooms : List Room) (p : Stored) : Bool :=
  match optRooms p.opts with
  | some (rooms, except) =>
    (rooms.isEmpty || rooms.any (· ∈ sessionRooms)) && !except.any (· ∈ sessionRooms)
  | none => false

end Verif.Spec
