import Verif.Proof.BulkSeq
import Verif.Props.RoomSeq

/-!
# C107, C06: a bulk call during which nothing else happens

`Model/BulkRace` (every operation on a map or a set is a step, anything may happen in between) and `Model/Delivery` (a bulk call is one
step) render the same loop with the same callbacks.  When nothing happens in between they say the same.
-/

namespace Verif.Props
open Verif Verif.Spec

/-- **C107**, when nothing happens during the bulk call: it returns, and the rooms are then what the bulk call made at once leaves, of which
C06 says exactly what they are.  `order` is the order in which `Range` goes through the table of sockets. -/
theorem C107_in_turn (d : Bool) (ρ : Nat → Room) (σ : Nat → Sid) (hρ : ∀ i j, ρ i = ρ j → i = j) (hσ : ∀ i j, σ i = σ j → i = j)
    (n : Delivery.Nsp) (p : List BulkRace.Ev) (a : BulkRace.Act) (rooms except order : List Nat) (hp : (BulkRace.run p).idle = true)
    (same : SameNsp ρ σ n (BulkRace.run p)) (hk : n.ad.sids.keys = order.map σ) (hw : n.ad.sids.WF) :
    (∃ k, WholeBulk p a rooms except order (List.replicate k .adv)) ∧
    ∀ k, WholeBulk p a rooms except order (List.replicate k .adv) →
      SameNsp ρ σ (bulkAtOnce d ρ n a (some { rooms := some (rooms.map ρ), except := some (except.map ρ) }))
        (BulkRace.run (p ++ .bulk a rooms except order :: List.replicate k .adv)) := by
  have e : ∀ k, BulkRace.run (p ++ .bulk a rooms except order :: List.replicate k .adv) =
      BulkRace.advs k (BulkRace.step (BulkRace.run p) (.bulk a rooms except order)) := by
    intro k
    rw [← BulkRace.advs_run]
    simp [BulkRace.run, List.foldl_append]
  obtain ⟨wf, -⟩ := BulkRace.wf_own p
  obtain ⟨s', ⟨k, h1⟩, h2, h3, -⟩ := BulkRace.leads_bulk (d := d) (a := a) hρ hσ hp (fun b =>
    ⟨⟨same.sids, same.rooms, fun _ _ _ => wf.sidInj, fun _ _ _ => wf.roomInj, fun _ _ => wf.sidLt, fun _ _ => wf.roomLt⟩, same.reg,
      same.own, rfl, ((BulkRace.idle_iff _).1 hp).2.2⟩) rooms except order hk hw
  refine ⟨⟨k, hp, by rw [e, h1]; exact h2, fun a b c d h => by simp [List.mem_replicate] at h⟩, fun m w => ?_⟩
  have w' := w.ends
  rw [e] at w' ⊢
  rw [BulkRace.advs_unique w' (by rw [h1]; exact h2), h1]
  exact ⟨h3.tab.sids, h3.tab.rooms, h3.reg, h3.own⟩

/-- Sockets 1 and 2, both in the namespace, socket 1 in room 7, socket 2 in rooms 7 and 8. -/
def Demo.bulkJoined : List RoomRace.Ev :=
  [.call 3 1 (.join [7]), .adv 3, .adv 3, .adv 3, .adv 3, .adv 3, .adv 3,
    .call 5 2 (.join [7, 8]), .adv 5, .adv 5, .adv 5, .adv 5, .adv 5, .adv 5, .adv 5, .adv 5, .adv 5, .adv 5]

/-- What the other model shows then. -/
def Demo.bulkNsp : Delivery.Nsp where
  ad := (allAtOnce true Demo.tally Demo.tally [(1, .join [7]), (2, .join [7, 8])]).1
  sockets := [(Demo.tally 1, 1), (Demo.tally 2, 2)]
  sidOf := Demo.tally
  canJoin _ := true

/-- The hypotheses of `C107_in_turn` hold here, and a bulk call which makes room 7, except room 8, join room 9, makes socket 1 join it;
one that makes everybody in room 7 leave room 7, the room it goes through, leaves the room empty, and it is deleted. -/
example : SameNsp Demo.tally Demo.tally Demo.bulkNsp (BulkRace.run (.connect 1 :: .connect 2 :: Demo.bulkJoined.map .room)) ∧
    Demo.bulkNsp.ad.sids.keys = [2, 1].map Demo.tally ∧ Demo.bulkNsp.ad.sids.WF ∧
    (BulkRace.run (.connect 1 :: .connect 2 :: Demo.bulkJoined.map .room)).idle = true ∧
    (bulkAtOnce true Demo.tally Demo.bulkNsp (.join [9]) (some { rooms := some ([7].map Demo.tally), except := some ([8].map Demo.tally) })).ad.rooms.get?
      (Demo.tally 9) = some [Demo.tally 1] ∧
    (bulkAtOnce true Demo.tally Demo.bulkNsp (.leave [7]) (some { rooms := some ([7].map Demo.tally), except := some [] })).ad.rooms.get?
      (Demo.tally 7) = none := by
  have t : RoomsInTurn Demo.bulkJoined [(1, .join [7]), (2, .join [7, 8])] :=
    .call 5 2 (.join [7, 8]) 10 (.call 3 1 (.join [7]) 6 .nil (by decide)) (by decide)
  obtain ⟨h1, h2, -⟩ := C48_in_turn true Demo.tally Demo.tally Demo.tally_inj Demo.tally_inj _ _ t
  refine ⟨⟨h1, h2, fun id => ?_, fun id ref h => ?_⟩, by decide, by unfold FMap.WF; decide, by decide, by decide, by decide⟩
  · by_cases e1 : id = 1
    · subst e1; decide
    · by_cases e2 : id = 2
      · subst e2; decide
      · have n1 : Demo.tally 1 ≠ Demo.tally id := fun h => e1 (Demo.tally_inj _ _ h).symm
        have n2 : Demo.tally 2 ≠ Demo.tally id := fun h => e2 (Demo.tally_inj _ _ h).symm
        simp [Demo.bulkNsp, FMap.get?, n1, n2, BulkRace.run, BulkRace.step, BulkRace.does, BulkRace.who, CastRace.step, Demo.bulkJoined, World.upd, e1, e2]
  · have : ref = id := by
      simp only [Demo.bulkNsp, FMap.get?] at h
      split at h
      · next e => cases h; exact Demo.tally_inj _ _ e
      · split at h
        · next e => cases h; exact Demo.tally_inj _ _ e
        · cases h
    subst this
    exact ⟨rfl, by simp [Demo.bulkNsp, BulkRace.run, BulkRace.step, BulkRace.does, BulkRace.who, Demo.bulkJoined]⟩

end Verif.Props
