import Verif.Proof.RoomNewsSeq
import Verif.Props.RoomSeq

/-!
# C120, C02: the events of rooms when no two calls overlap

`Model/RoomNews` (every operation and every emission is a step) and `Model/Adapter` (a call is a step) render the same code.
-/

set_option maxRecDepth 4000

namespace Verif.Props
open Verif Verif.Spec Verif.RoomNews

/-- **C120**, when no two calls overlap: the same events as those of the calls made at once, of which C02 speaks, in the same order; and the
same tables.  `ρ` and `σ` name rooms and sockets. -/
theorem C120_in_turn [SetLib] (ρ : Nat → Room) (σ : Nat → Sid) (hρ : ∀ i j, ρ i = ρ j → i = j) (hσ : ∀ i j, σ i = σ j → i = j)
    (h : List RoomRace.Ev) (cs : List (Nat × RoomRace.Call)) (t : NewsInTurn h cs) :
    (announced h).map (asEvent ρ σ) = (allAtOnce SetLib.absent ρ σ cs).2 ∧
    (∀ id, (allAtOnce SetLib.absent ρ σ cs).1.sids.get? (σ id) =
      ((RoomNews.run h).tab.sids id).map fun x => ((RoomNews.run h).tab.sset x).map ρ) ∧
    (∀ r, (allAtOnce SetLib.absent ρ σ cs).1.rooms.get? (ρ r) =
      ((RoomNews.run h).tab.rooms r).map fun x => ((RoomNews.run h).tab.rset x).map σ) :=
  let s := inTurn_news hρ hσ t
  ⟨s.2.2, s.2.1.sids, s.2.1.rooms⟩

/-- Socket 1 joins room 7, socket 2 joins rooms 7 and 8, socket 1 leaves everything, socket 2 leaves room 7, which is deleted. -/
example : letI : SetLib := ⟨false⟩
    NewsInTurn ([] ++ .call 0 1 (.join [7]) :: List.replicate 8 (.adv 0) ++ .call 5 2 (.join [7, 8]) :: List.replicate 13 (.adv 5) ++
      .call 0 1 .leaveAll :: List.replicate 8 (.adv 0) ++ .call 0 2 (.leave 7) :: List.replicate 8 (.adv 0))
      ([] ++ [(1, .join [7])] ++ [(2, .join [7, 8])] ++ [(1, .leaveAll)] ++ [(2, .leave 7)]) ∧
    (allAtOnce false Demo.tally Demo.tally [(1, .join [7]), (2, .join [7, 8]), (1, .leaveAll), (2, .leave 7)]).2 =
      [.create (Demo.tally 7), .join (Demo.tally 7) (Demo.tally 1), .join (Demo.tally 7) (Demo.tally 2), .create (Demo.tally 8),
        .join (Demo.tally 8) (Demo.tally 2), .leave (Demo.tally 7) (Demo.tally 1), .leave (Demo.tally 7) (Demo.tally 2), .delete (Demo.tally 7)] := by
  letI : SetLib := ⟨false⟩
  have free : ∀ (h : List RoomRace.Ev) (k : Nat), (((RoomNews.run h).tab.th k).2 = .done ∧ (RoomNews.run h).due k = none) →
    FreeNow (RoomNews.run h) k := fun _ _ h => h
  exact ⟨.call 0 2 (.leave 7) 8 (.call 0 1 .leaveAll 8 (.call 5 2 (.join [7, 8]) 13 (.call 0 1 (.join [7]) 8 .nil (free _ _ (by decide)))
    (free _ _ (by decide))) (free _ _ (by decide))) (free _ _ (by decide)), by decide⟩

end Verif.Props
