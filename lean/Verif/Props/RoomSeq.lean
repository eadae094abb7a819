import Verif.Proof.RoomSeq

/-!
# C48, C01: calls of the adapter made one after the other

`Model/RoomRace` (every operation on a map or a set is a step) and `Model/Adapter` (a call is a step) render the same code.  When no two
calls overlap they say the same.
-/

namespace Verif.Props
open Verif Verif.Spec

/-- **C48**, when no two calls overlap: the tables are those of the calls made at once, of which C01 says that they are exactly what the
joins and leaves say; and the same rooms were announced as deleted, in the same order.  `ρ` and `σ` name rooms and sockets. -/
theorem C48_in_turn (d : Bool) (ρ : Nat → Room) (σ : Nat → Sid) (hρ : ∀ i j, ρ i = ρ j → i = j) (hσ : ∀ i j, σ i = σ j → i = j)
    (h : List RoomRace.Ev) (cs : List (Nat × RoomRace.Call)) (t : RoomsInTurn h cs) :
    (∀ id, (allAtOnce d ρ σ cs).1.sids.get? (σ id) = ((RoomRace.run h).sids id).map fun x => ((RoomRace.run h).sset x).map ρ) ∧
    (∀ r, (allAtOnce d ρ σ cs).1.rooms.get? (ρ r) = ((RoomRace.run h).rooms r).map fun x => ((RoomRace.run h).rset x).map σ) ∧
    (RoomRace.run h).deleted.map ρ = deletions (allAtOnce d ρ σ cs).2 :=
  let s := RoomRace.inTurn_same hρ hσ d t
  ⟨s.1.sids, s.1.rooms, s.2⟩

/-- The numbers as names. -/
def Demo.tally (n : Nat) : String := String.ofList (List.replicate n 'i')

theorem Demo.tally_inj (i j : Nat) (h : Demo.tally i = Demo.tally j) : i = j := by
  have := congrArg (fun s => s.toList.length) h
  simpa [Demo.tally] using this

/-- And every call that is not interrupted returns. -/
theorem C48_returns (h : List RoomRace.Ev) (cs : List (Nat × RoomRace.Call)) (t : RoomsInTurn h cs) (k id : Nat) (c : RoomRace.Call) :
    ∃ n, RoomsInTurn (h ++ .call k id c :: List.replicate n (.adv k)) (cs ++ [(id, c)]) := by
  have s := RoomRace.inTurn_same Demo.tally_inj Demo.tally_inj true t
  obtain ⟨s', ⟨n, h1⟩, _⟩ := RoomRace.call_done Demo.tally_inj Demo.tally_inj s.1 true id c
  refine ⟨n, .call k id c n t ?_⟩
  rw [RoomRace.run_call _ _ _ _ _ (RoomRace.inTurn_free t k), h1]
  simp [World.upd]

/-- Sockets 1 and 2 join room 7, socket 1 leaves everything, socket 2 leaves room 7, which is deleted. -/
example : RoomsInTurn [.call 0 1 (.join [7]), .adv 0, .adv 0, .adv 0, .adv 0, .adv 0, .adv 0,
      .call 5 2 (.join [7, 8]), .adv 5, .adv 5, .adv 5, .adv 5, .adv 5, .adv 5, .adv 5, .adv 5, .adv 5, .adv 5,
      .call 0 1 .leaveAll, .adv 0, .adv 0, .adv 0, .adv 0, .adv 0, .adv 0, .adv 0,
      .call 0 2 (.leave 7), .adv 0, .adv 0, .adv 0, .adv 0, .adv 0, .adv 0]
    [(1, .join [7]), (2, .join [7, 8]), (1, .leaveAll), (2, .leave 7)] ∧
    (allAtOnce true Demo.tally Demo.tally [(1, .join [7]), (2, .join [7, 8]), (1, .leaveAll), (2, .leave 7)]).1.rooms.keys = [Demo.tally 8] ∧
    deletions (allAtOnce true Demo.tally Demo.tally [(1, .join [7]), (2, .join [7, 8]), (1, .leaveAll), (2, .leave 7)]).2 = [Demo.tally 7] :=
  ⟨.call 0 2 (.leave 7) 6 (.call 0 1 .leaveAll 7 (.call 5 2 (.join [7, 8]) 10 (.call 0 1 (.join [7]) 6 .nil (by decide)) (by decide)) (by decide)) (by decide),
    by decide, by decide⟩

end Verif.Props
