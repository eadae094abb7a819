import Verif.Spec.RoomRace
import Verif.Model.Adapter

/-! Calls of the adapter that are made one after the other (C48): what `Model/RoomRace` and `Model/Adapter` have in common. -/

namespace Verif.Spec
open Verif

/-- In `h` these calls are made in turn: each has returned before the next begins. -/
inductive RoomsInTurn : List RoomRace.Ev → List (Nat × RoomRace.Call) → Prop where
  | nil : RoomsInTurn [] []
  | call {h cs} (k id : Nat) (c : RoomRace.Call) (n : Nat) : RoomsInTurn h cs →
      ((RoomRace.run (h ++ .call k id c :: List.replicate n (.adv k))).th k).2 = .done →
      RoomsInTurn (h ++ .call k id c :: List.replicate n (.adv k)) (cs ++ [(id, c)])

/-- The same call in `Model/Adapter`; `ρ` and `σ` name the rooms and the sockets. -/
def atOnce (d : Bool) (ρ : Nat → Room) (σ : Nat → Sid) (a : Adapter.Ad) (x : Nat × RoomRace.Call) : Adapter.Ad × List Adapter.Ev :=
  match x.2 with
  | .join rs => Adapter.addAll a (σ x.1) (rs.map ρ)
  | .leave r => Adapter.del d a (σ x.1) (ρ r)
  | .leaveAll => Adapter.delAll d a (σ x.1)

/-- All these calls. -/
def allAtOnce (d : Bool) (ρ : Nat → Room) (σ : Nat → Sid) (cs : List (Nat × RoomRace.Call)) : Adapter.Ad × List Adapter.Ev :=
  cs.foldl (fun p x => ((atOnce d ρ σ p.1 x).1, p.2 ++ (atOnce d ρ σ p.1 x).2)) ({}, [])

/-- The rooms of the "delete-room" events. -/
def deletions (evs : List Adapter.Ev) : List Room := evs.filterMap fun | .delete r => some r | _ => none

end Verif.Spec
