import Verif.Proof.KickSeq
import Verif.Props.BulkSeq

/-!
# C117: `DisconnectSockets` during which nothing else happens

`Model/KickRace` (every operation on a map, a set or a flag is a step, anything may happen in between) and `Model/Delivery` (the call is
one step) render the same loop with the same callback.  When nothing happens in between they say the same.
-/

set_option maxRecDepth 4000

namespace Verif.Props
open Verif Verif.Spec

/-- **C117**, when nothing happens during the call: it returns, and the tables are then what the call made at once leaves, of which C06 says
exactly what they are; those that call disconnects, in its order, are those that have been sent the packet and seen both events, and nobody
else.  `order` is the order in which `Range` goes through the table of sockets. -/
theorem C117_in_turn (d : Bool) (ρ : Nat → Room) (σ : Nat → Sid) (hρ : ∀ i j, ρ i = ρ j → i = j) (hσ : ∀ i j, σ i = σ j → i = j)
    (n : Delivery.Nsp) (p : List KickRace.Ev) (rooms except order : List Nat) (hp : (KickRace.run p).idle = true)
    (same : SameKick ρ σ n (KickRace.run p)) (hn : n.kicked = []) (hk : n.ad.sids.keys = order.map σ) (hw : n.ad.sids.WF) :
    (∃ k, WholeKick p rooms except order (List.replicate k .adv)) ∧
    ∀ k, WholeKick p rooms except order (List.replicate k .adv) →
      SameKick ρ σ (Delivery.disconnectSockets d n (some { rooms := some (rooms.map ρ), except := some (except.map ρ) }) false)
        (kicked p rooms except order (List.replicate k .adv)) ∧
      ∃ ids : List Nat, (kicked p rooms except order (List.replicate k .adv)).log = ids.flatMap goodbye ∧
        (Delivery.disconnectSockets d n (some { rooms := some (rooms.map ρ), except := some (except.map ρ) }) false).kicked.map
          (fun x => ((Delivery.disconnectSockets d n (some { rooms := some (rooms.map ρ), except := some (except.map ρ) }) false).sidOf x.1, x.2)) =
        ids.map fun id => (σ id, false) := by
  have e : ∀ k, kicked p rooms except order (List.replicate k .adv) =
      KickRace.advs k (KickRace.step (KickRace.run p) (.kick rooms except order)) := by
    intro k
    rw [← KickRace.advs_run]
    simp [kicked, KickRace.run, List.foldl_append]
  obtain ⟨wf, -⟩ := KickRace.wf_own p
  obtain ⟨s', ⟨k, h1⟩, h2, h3⟩ := KickRace.leads_kick (d := d) (w := []) hρ hσ hp
    ⟨⟨same.sids, same.rooms, fun _ _ _ => wf.sidInj, fun _ _ _ => wf.roomInj, fun _ _ => wf.sidLt, fun _ _ => wf.roomLt⟩, same.reg,
      same.own, ((KickRace.idle_iff _).1 hp).2.2, by simp [hn], rfl⟩ rooms except order hk hw
  refine ⟨⟨k, hp, ?_, fun a b c h => by simp [List.mem_replicate] at h⟩, fun m w => ?_⟩
  · show (kicked p rooms except order _).idle = true
    rw [e, h1]; exact h2
  · have w' : (kicked p rooms except order _).idle = true := w.ends
    rw [e] at w' ⊢
    rw [KickRace.advs_unique w' (by rw [h1]; exact h2), h1]
    exact ⟨⟨h3.tab.sids, h3.tab.rooms, h3.reg, h3.own⟩, s'.cast.sent, h3.log, h3.told⟩

/-- Sockets 1 and 2 come to the namespace of `Demo.bulkNsp` and are marked as connected. -/
def Demo.kickJoined : List KickRace.Ev := .store 1 :: .flag 1 :: .store 2 :: .flag 2 :: Demo.bulkJoined.map .room

/-- The hypotheses of `C117_in_turn` hold here, and a call for room 7, except room 8, disconnects socket 1. -/
example : SameKick Demo.tally Demo.tally Demo.bulkNsp (KickRace.run Demo.kickJoined) ∧
    Demo.bulkNsp.ad.sids.keys = [2, 1].map Demo.tally ∧ Demo.bulkNsp.ad.sids.WF ∧ Demo.bulkNsp.kicked = [] ∧
    (KickRace.run Demo.kickJoined).idle = true ∧
    (Delivery.disconnectSockets true Demo.bulkNsp (some { rooms := some ([7].map Demo.tally), except := some ([8].map Demo.tally) }) false).kicked =
      [(1, false)] := by
  have t : RoomsInTurn Demo.bulkJoined [(1, .join [7]), (2, .join [7, 8])] :=
    .call 5 2 (.join [7, 8]) 10 (.call 3 1 (.join [7]) 6 .nil (by decide)) (by decide)
  obtain ⟨h1, h2, -⟩ := C48_in_turn true Demo.tally Demo.tally Demo.tally_inj Demo.tally_inj _ _ t
  refine ⟨⟨h1, h2, fun id => ?_, fun id ref h => ?_⟩, by decide, by unfold FMap.WF; decide, rfl, by decide, by decide⟩
  · by_cases e1 : id = 1
    · subst e1; decide
    · by_cases e2 : id = 2
      · subst e2; decide
      · have n1 : Demo.tally 1 ≠ Demo.tally id := fun h => e1 (Demo.tally_inj _ _ h).symm
        have n2 : Demo.tally 2 ≠ Demo.tally id := fun h => e2 (Demo.tally_inj _ _ h).symm
        simp [Demo.bulkNsp, FMap.get?, n1, n2, Demo.kickJoined, KickRace.run, KickRace.step, KickRace.does, KickRace.other, BulkRace.who,
          CastRace.step, Demo.bulkJoined, World.upd, e1, e2]
  · have : ref = id ∧ (id = 1 ∨ id = 2) := by
      simp only [Demo.bulkNsp, FMap.get?] at h
      split at h
      · next e => cases h; exact ⟨Demo.tally_inj _ _ e, .inl (Demo.tally_inj _ _ e).symm⟩
      · split at h
        · next e => cases h; exact ⟨Demo.tally_inj _ _ e, .inr (Demo.tally_inj _ _ e).symm⟩
        · cases h
    obtain ⟨rfl, rfl | rfl⟩ := this <;> exact ⟨rfl, by decide, by decide⟩

end Verif.Props
