import Verif.Proof.BeatSeq

/-! # C95: undisturbed, the heartbeat timer does what it does in the model of the servers in time -/

namespace Verif.Props
open Verif Verif.Spec

/-- **C95**, when no two calls of a server overlap: the server sends what `Model/Beat` has it publish, of which C73 says how often, and its timer
runs exactly when it does there. -/
theorem C95_in_turn (cfg : Beat.Cfg) (i : Nat) (es : List Beat.Ev) (h : List BeatRace.Ev) (l : List BeatRace.Msg) (t : BeatsInTurn cfg i es h l) :
    (BeatRace.run true h).log = l ∧ (.armed ∈ (BeatRace.run true h).timers ↔ ((Beat.run cfg es).deadline i).isSome) := by
  have s := BeatRace.beats_same t
  refine ⟨s.log, ?_⟩
  rcases s.timer with ⟨_, h2, h3⟩ | ⟨x, _, h2, h3⟩
  · rw [h2, h3]; simp
  · rw [h2, ← h3]; simp [eq_comm]

/-- Two servers. -/
def Demo.beatTwo : Beat.Cfg := { n := 2, I := 5, T := 10, uid := fun k => if k = 0 then "a" else "b", deaf := true }

/-- Both come, a heartbeat is due, and the first is closed. -/
example : ∃ h, BeatsInTurn Demo.beatTwo 0 [.create 0, .create 1, .init 1, .deliver 0, .tick 5, .fire 0, .close 0] h
    [.message, .heartbeat, .goodbye] ∧ (BeatRace.run true h).timers = [.stopped] :=
  ⟨_, .next (.close 0) (.next (.fire 0) (.next (.tick 5) (.next (.deliver 0) (.next (.init 1) (.next (.create 1) (.next (.create 0) .nil)))))), by decide⟩

end Verif.Props
