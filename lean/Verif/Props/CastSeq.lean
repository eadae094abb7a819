import Verif.Proof.CastSeq
import Verif.Props.RoomSeq

/-!
# C74, C02: a broadcast during which nothing else happens

`Model/CastRace` (every operation on a map or a set is a step, anything may happen in between) and `Model/Adapter` (`apply` is one step)
render the same loop.  When nothing happens in between they say the same, so that C74 is about the same function as C02.
-/

namespace Verif.Props
open Verif Verif.Spec

/-- **C74**, when nothing happens during the broadcast: it returns, and it was sent to the sockets that `apply` visits (of which C02 says
which they are), in the same order.  `order` is the order in which `Range` goes through the table of sockets. -/
theorem C74_in_turn {τ : Type} (ρ : Nat → Room) (σ : Nat → Sid) (hσ : ∀ i j, σ i = σ j → i = j) (V : Adapter.View Unit τ)
    (p : List CastRace.Ev) (rooms except order : List Nat) (hp : (CastRace.run p).pc = .idle) (same : SameTables ρ σ V (CastRace.run p))
    (hk : (V.ad ()).sids.keys = order.map σ) (hw : (V.ad ()).sids.WF) :
    (∃ n, Whole p rooms except order (List.replicate n .adv)) ∧
    ∀ n, Whole p rooms except order (List.replicate n .adv) →
      (sentTo p rooms except order (List.replicate n .adv)).map σ =
        (Adapter.apply V (some { rooms := some (rooms.map ρ), except := some (except.map ρ) }) (fun s _ => s) ()).2 := by
  have e : ∀ n, CastRace.run (p ++ .cast rooms except order :: List.replicate n .adv) =
      CastRace.advs n (CastRace.step (CastRace.run p) (.cast rooms except order)) := by
    intro n
    rw [← CastRace.advs_run]
    simp [CastRace.run, List.foldl_append]
  obtain ⟨s', ⟨n, h1⟩, h2, h3⟩ := CastRace.leads_cast hσ same hp rooms except order hk hw
  refine ⟨⟨n, hp, by rw [e, h1]; exact h2, fun a b c h => by simp [List.mem_replicate] at h⟩, fun m w => ?_⟩
  have w' := w.ends
  rw [e] at w'
  unfold sentTo
  rw [e, CastRace.advs_unique w' (by rw [h1]; exact h2), h1, h3]

/-- Sockets 1 and 2, both connected, socket 1 in room 7, socket 2 in rooms 7 and 8. -/
def Demo.joined : List RoomRace.Ev :=
  [.call 0 1 (.join [7]), .adv 0, .adv 0, .adv 0, .adv 0, .adv 0, .adv 0,
    .call 5 2 (.join [7, 8]), .adv 5, .adv 5, .adv 5, .adv 5, .adv 5, .adv 5, .adv 5, .adv 5, .adv 5, .adv 5]

/-- What the other model shows then. -/
def Demo.joinedView : Adapter.View Unit Unit where
  ad _ := (allAtOnce true Demo.tally Demo.tally [(1, .join [7]), (2, .join [7, 8])]).1
  sock _ x := if x = Demo.tally 1 then some () else if x = Demo.tally 2 then some () else none

/-- The hypotheses of `C74_in_turn` hold here, and a broadcast to room 7, except room 8, goes to socket 1 alone. -/
example : SameTables Demo.tally Demo.tally Demo.joinedView (CastRace.run (.connect 1 :: .connect 2 :: Demo.joined.map .room)) ∧
    (Demo.joinedView.ad ()).sids.keys = [2, 1].map Demo.tally ∧ (Demo.joinedView.ad ()).sids.WF ∧
    (CastRace.run (.connect 1 :: .connect 2 :: Demo.joined.map .room)).pc = .idle ∧
    (Adapter.apply Demo.joinedView (some { rooms := some ([7].map Demo.tally), except := some ([8].map Demo.tally) }) (fun s _ => s) ()).2 =
      [Demo.tally 1] := by
  have t : RoomsInTurn Demo.joined [(1, .join [7]), (2, .join [7, 8])] :=
    .call 5 2 (.join [7, 8]) 10 (.call 0 1 (.join [7]) 6 .nil (by decide)) (by decide)
  obtain ⟨h1, h2, -⟩ := C48_in_turn true Demo.tally Demo.tally Demo.tally_inj Demo.tally_inj _ _ t
  refine ⟨⟨h2, fun id => ?_, fun id => ?_⟩, by decide, by unfold FMap.WF; decide, by decide, by decide⟩
  · have := congrArg Option.isSome (h1 id)
    rw [Option.isSome_map] at this
    exact this
  · by_cases e1 : id = 1
    · subst e1; decide
    · by_cases e2 : id = 2
      · subst e2; decide
      · have n1 : Demo.tally id ≠ Demo.tally 1 := fun h => e1 (Demo.tally_inj _ _ h)
        have n2 : Demo.tally id ≠ Demo.tally 2 := fun h => e2 (Demo.tally_inj _ _ h)
        simp [Demo.joinedView, n1, n2, CastRace.run, CastRace.step, Demo.joined, World.upd, e1, e2]

end Verif.Props
