import Verif.Proof.BeatEnd
import Verif.Props.Settle

/-! # C125: a running server goes on sending heartbeats -/

namespace Verif.Props
open Verif Verif.Spec

/-- **C125**: once a server has sent anything to the cluster it sends one heartbeat after the other for as long as it is not closed, however many
goroutines publish at the same time and whenever the timers go off, provided that no goroutine is forgotten by the scheduler and that a timer
that was set goes off in the end. -/
theorem C125_goes_on (revive : Bool) (h : List BeatRace.Ev) (begun : .publish ∈ h) (notClosed : .close ∉ h) (σ : Nat → BeatRace.Ev)
    (neverClosed : ∀ n, σ n ≠ .close) (fair : ∀ k, AgainAndAgain (.adv k) σ) (timers : ∀ t, AgainAndAgain (.fire t) σ) (c : Nat) :
    ∃ n, ∀ m, n ≤ m → c ≤ heartbeatsSent (BeatRace.run revive (h ++ firstOf σ m)) := by
  have o0 : BeatRace.Open {} := ⟨by simp, by simp, by simp⟩
  have a : BeatRace.Along revive σ (BeatRace.run revive h) := ⟨BeatRace.open_fold h o0 notClosed, neverClosed, fair, timers⟩
  have l : BeatRace.Live (BeatRace.run revive h) := BeatRace.live_fold h o0 notClosed (.inr begun)
  have e : ∀ m, BeatRace.run revive (h ++ firstOf σ m) = BeatRace.after revive σ (BeatRace.run revive h) m := by
    intro m; simp [BeatRace.run, BeatRace.after]
  have some : ∃ n, c ≤ heartbeatsSent (BeatRace.after revive σ (BeatRace.run revive h) n) := by
    induction c with
    | zero => exact ⟨0, Nat.zero_le _⟩
    | succ c ih =>
      obtain ⟨n, hn⟩ := ih
      obtain ⟨m, _, hm⟩ := a.next l n
      exact ⟨m, by omega⟩
  obtain ⟨n, hn⟩ := some
  refine ⟨n, fun m hm => ?_⟩
  obtain ⟨d, rfl⟩ := Nat.exists_eq_add_of_le hm
  rw [e]
  exact Nat.le_trans hn (a.sent n d)

namespace Demo
/-- Everybody gets a turn again and again, further messages are published. -/
def beatTurn : Nat → BeatRace.Ev
  | 0 => .publish
  | k + 1 => if k % 2 = 0 then .adv (k / 2) else .fire (k / 2)
end Demo

/-- The hypotheses are met: two first messages at the same time, so that there are two timers, and more messages for ever. -/
example : BeatRace.Ev.publish ∈ [BeatRace.Ev.publish, .publish, .adv 0, .adv 1, .adv 0, .adv 1] ∧
    BeatRace.Ev.close ∉ [BeatRace.Ev.publish, .publish, .adv 0, .adv 1, .adv 0, .adv 1] ∧
    (BeatRace.run true [.publish, .publish, .adv 0, .adv 1, .adv 0, .adv 1]).timers = [.armed, .armed] ∧
    (∀ n, (fun n => Demo.beatTurn (n - 2 ^ n.log2)) n ≠ .close) ∧ (∀ k, AgainAndAgain (.adv k) fun n => Demo.beatTurn (n - 2 ^ n.log2)) ∧
    ∀ t, AgainAndAgain (.fire t) fun n => Demo.beatTurn (n - 2 ^ n.log2) := by
  refine ⟨by decide, by decide, by decide, fun n => ?_, fun k => ?_, fun t => ?_⟩
  · show Demo.beatTurn (n - 2 ^ n.log2) ≠ .close
    generalize n - 2 ^ n.log2 = j
    cases j with
    | zero => simp [Demo.beatTurn]
    | succ j => simp only [Demo.beatTurn]; split <;> simp
  · have e : Demo.beatTurn (2 * k + 1) = .adv k := by
      have h1 : 2 * k % 2 = 0 := by omega
      have h2 : 2 * k / 2 = k := by omega
      simp [Demo.beatTurn, h1, h2]
    rw [← e]
    exact everyTurn Demo.beatTurn (2 * k + 1)
  · have e : Demo.beatTurn (2 * t + 1 + 1) = .fire t := by
      have h1 : (2 * t + 1) % 2 = 1 := by omega
      have h2 : (2 * t + 1) / 2 = t := by omega
      simp [Demo.beatTurn, h1, h2]
    rw [← e]
    exact everyTurn Demo.beatTurn (2 * t + 1 + 1)

end Verif.Props
