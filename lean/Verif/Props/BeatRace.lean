import Verif.Proof.BeatRace

/-!
# C95: a closed server falls silent
-/

namespace Verif.Props
open Verif Verif.Spec

/-- **C95 (partial).** If the first message was published alone and nothing else is under way when `Close` stops the timer, no message is sent
after, for as long as the program publishes nothing.
Missing: `Close` while a heartbeat is under way (`C95_beats_fails`), two first messages at the same time (`C95_twins_fail`). -/
theorem C95_partial (revive : Bool) (h b : List BeatRace.Ev) (k : Nat) (ha : FirstAlone revive h) (hc : Closing (BeatRace.run revive h) k)
    (hd : ∀ j t, (BeatRace.run revive h).ths[j]? = some t → j ≠ k → t.pc = .done) (hb : ∀ e ∈ b, e ≠ .publish ∧ e ≠ .close) :
    (BeatRace.run revive (h ++ .adv k :: b)).log = (BeatRace.run revive h).log := BeatRace.silent h b ha hc hd hb

/-- **C95, if `Refresh` does not start a timer that was stopped (partial).** Whatever is under way when `Close` stops the timer and whatever the
program publishes after: no timer makes another call.
Missing: as above for timers that are started again, and two first messages at the same time. -/
theorem C95_stopped_partial (h b : List BeatRace.Ev) (k : Nat) (ha : FirstAlone false h) (hc : Closing (BeatRace.run false h) k) :
    (beats (BeatRace.run false (h ++ .adv k :: b))).length = (beats (BeatRace.run false h)).length ∧
    ∀ t : Nat, (BeatRace.run false (h ++ .adv k :: b)).timers[t]? ≠ some BeatRace.Timer.armed := by
  obtain ⟨h1, h2⟩ := BeatRace.stopped h b ha hc
  refine ⟨h2, fun t => ?_⟩
  rw [h1]; cases t <;> simp

/-- A `Close` that has returned has stopped the timer: there was a moment as in `C95_partial`. -/
theorem C95_returned (revive : Bool) (h : List BeatRace.Ev) (k : Nat) (hk : (BeatRace.run revive h).ths[k]? = some ⟨.goodbye, .done⟩) :
    ∃ a b, h = a ++ .adv k :: b ∧ Closing (BeatRace.run revive a) k := BeatRace.returned h k hk

/-- **C95, if `Refresh` does not start a timer that was stopped (partial).** When a `Close` has returned, no timer is set. -/
theorem C95_closed_partial (h : List BeatRace.Ev) (k : Nat) (ha : FirstAlone false h)
    (hk : (BeatRace.run false h).ths[k]? = some ⟨.goodbye, .done⟩) (t : Nat) : (BeatRace.run false h).timers[t]? ≠ some .armed := by
  obtain ⟨a, b, rfl, hc⟩ := C95_returned false h k hk
  exact (C95_stopped_partial a b k (fun c d e => ha c (d ++ .adv k :: b) (by rw [e, List.append_assoc])) hc).2 t

/-- A message, a heartbeat, and `Close` up to the moment when it stops the timer. -/
def Demo.beatHist : List BeatRace.Ev :=
  [.publish, .adv 0, .adv 0, .adv 0, .adv 0, .fire 0, .adv 1, .adv 1, .adv 1, .close, .adv 2, .adv 2, .adv 2]

theorem Demo.beatHist_alone (revive : Bool) : FirstAlone revive Demo.beatHist := by
  intro a b hab
  have hlen : a.length ≤ 13 := by
    have := congrArg List.length hab
    simp [Demo.beatHist] at this
    omega
  have ha : a = Demo.beatHist.take a.length := by rw [hab]; simp
  rw [ha]
  generalize a.length = n at hlen
  revert n
  cases revive <;> decide

example : Closing (BeatRace.run true Demo.beatHist) 2 ∧ (∀ j t, (BeatRace.run true Demo.beatHist).ths[j]? = some t → j ≠ 2 → t.pc = .done) ∧
    (BeatRace.run true Demo.beatHist).log = [.message, .heartbeat, .goodbye] := by
  refine ⟨by unfold Closing; decide, ?_, by decide⟩
  intro j t hj hne
  have e : (BeatRace.run true Demo.beatHist).ths = [⟨.message, .done⟩, ⟨.heartbeat, .done⟩, ⟨.goodbye, .clear⟩] := by decide
  rw [e] at hj
  match j with
  | 0 => cases hj; rfl
  | 1 => cases hj; rfl
  | 2 => exact absurd rfl hne
  | j + 3 => simp at hj

/-- Non-vacuity of `C95_returned`, `C95_closed_partial`: one step later `Close` has returned. -/
example : (BeatRace.run false (Demo.beatHist ++ [.adv 2])).ths[2]? = some ⟨.goodbye, .done⟩ ∧
    (BeatRace.run false (Demo.beatHist ++ [.adv 2])).timers = [.stopped] ∧
    (BeatRace.run false (Demo.beatHist ++ [.adv 2])).log = [.message, .heartbeat, .goodbye] := by decide

/-- The heartbeat is under way when `Close` stops the timer: it starts the timer again. -/
def Demo.beatLate : List BeatRace.Ev :=
  [.publish, .adv 0, .adv 0, .adv 0, .adv 0, .fire 0, .adv 1, .close, .adv 2, .adv 2, .adv 2, .adv 2, .adv 1, .adv 1]

/-- `n` more heartbeats. -/
def Demo.moreBeats : Nat → List BeatRace.Ev
  | 0 => []
  | n + 1 => Demo.moreBeats n ++ [.fire 0, .adv (n + 3), .adv (n + 3), .adv (n + 3)]

theorem Demo.moreBeats_run (n : Nat) :
    BeatRace.run true (Demo.beatLate ++ Demo.moreBeats n) =
      { timers := [.armed], field := some 0
        ths := [⟨.message, .done⟩, ⟨.heartbeat, .done⟩, ⟨.goodbye, .done⟩] ++ List.replicate n ⟨.heartbeat, .done⟩
        log := [.message, .goodbye, .heartbeat] ++ List.replicate n .heartbeat } := by
  induction n with
  | zero => decide
  | succ n ih =>
    simp only [Demo.moreBeats]
    rw [← List.append_assoc, BeatRace.run_append, ih]
    have hlen : ([⟨.message, .done⟩, ⟨.heartbeat, .done⟩, ⟨.goodbye, .done⟩] ++ List.replicate n ⟨.heartbeat, .done⟩ : List BeatRace.Th).length = n + 3 := by
      simp
    generalize ([⟨.message, .done⟩, ⟨.heartbeat, .done⟩, ⟨.goodbye, .done⟩] : List BeatRace.Th) = A at hlen ⊢
    have hr : ∀ {α : Type} (L : List α) (x : α), L ++ List.replicate (n + 1) x = (L ++ List.replicate n x) ++ [x] := by
      intro α L x; rw [List.replicate_succ', List.append_assoc]
    rw [hr, hr]
    generalize A ++ List.replicate n (⟨.heartbeat, .done⟩ : BeatRace.Th) = B at hlen ⊢
    subst_vars
    rw [← hlen]
    simp [BeatRace.step, BeatRace.advance, BeatRace.refreshed]

/-- If the timer goes off just before `Close` stops it, and `Refresh` starts a stopped timer: `Close` has returned, nothing is under way but the
timer, the program does nothing any more, and heartbeats are sent for ever. -/
theorem C95_beats_fails : ∃ a : List BeatRace.Ev, FirstAlone true a ∧ (∀ t ∈ (BeatRace.run true a).ths, t.pc = .done) ∧
    .goodbye ∈ (BeatRace.run true a).log ∧ ∀ n, ∃ b, (∀ e ∈ b, e ≠ .publish ∧ e ≠ .close) ∧
      (BeatRace.run true (a ++ b)).log = (BeatRace.run true a).log ++ List.replicate n .heartbeat := by
  refine ⟨Demo.beatLate, ?_, by decide, by decide, fun n => ⟨Demo.moreBeats n, ?_, ?_⟩⟩
  · intro a b hab
    have hlen : a.length ≤ 14 := by
      have := congrArg List.length hab
      simp [Demo.beatLate] at this
      omega
    have ha : a = Demo.beatLate.take a.length := by rw [hab]; simp
    rw [ha]
    generalize a.length = n at hlen
    revert n
    decide
  · induction n with
    | zero => simp [Demo.moreBeats]
    | succ n ih =>
      intro e he
      rcases List.mem_append.mp he with he | he
      · exact ih e he
      · simp at he
        rcases he with rfl | rfl <;> simp
  · rw [Demo.moreBeats_run]
    have : (BeatRace.run true Demo.beatLate).log = [.message, .goodbye, .heartbeat] := by decide
    rw [this]

/-- Two first messages at the same time make two timers, of which `Close` stops one: whatever `Refresh` does, the other sends a heartbeat after
the goodbye, and the servers that dropped this one count it again. -/
theorem C95_twins_fail (revive : Bool) : ∃ a b : List BeatRace.Ev, (∀ t ∈ (BeatRace.run revive a).ths, t.pc = .done) ∧
    (BeatRace.run revive a).log = [.message, .message, .goodbye] ∧ (∀ e ∈ b, e ≠ .publish ∧ e ≠ .close) ∧
    (BeatRace.run revive (a ++ b)).log = [.message, .message, .goodbye, .heartbeat] := by
  refine ⟨[.publish, .publish, .adv 0, .adv 1, .adv 0, .adv 1, .adv 0, .adv 1, .adv 0, .adv 1, .close, .adv 2, .adv 2, .adv 2, .adv 2],
    [.fire 0, .adv 3, .adv 3, .adv 3], ?_, ?_, by simp, ?_⟩ <;> cases revive <;> decide

end Verif.Props
