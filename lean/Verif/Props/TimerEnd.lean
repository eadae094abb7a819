import Verif.Proof.TimerEnd
import Verif.Props.TimerRace
import Verif.Props.Settle

/-! # C97: a client that is in no namespace when time is up is disconnected in the end -/

namespace Verif.Props
open Verif Verif.Spec

/-- Part of C97.  Once time is up, the connection is closed in the end, unless the client is in a namespace when the function of the timer looks,
whatever goes on meanwhile. -/
theorem C97_idle_in_the_end (h : List TimerRace.Ev) (up : (TimerRace.run h).timer = .fired) (σ : Nat → TimerRace.Ev) (fair : AgainAndAgain .tick σ) :
    ∃ n, (TimerRace.run (h ++ firstOf σ n)).isOpen = false ∨
      ∃ p t, h ++ firstOf σ n = p ++ .tick :: t ∧ (TimerRace.run p).tmo = .test ∧ (TimerRace.run p).nsps ≠ [] := by
  obtain ⟨n, hn⟩ := TimerRace.timeout_ends σ fair (TimerRace.run h)
  have hb := TimerRace.begun_fold (firstOf σ n) _ (TimerRace.fired_begun h up)
  have e : TimerRace.run (h ++ firstOf σ n) = (firstOf σ n).foldl TimerRace.step (TimerRace.run h) := by simp [TimerRace.run]
  refine ⟨n, C97_idle _ ?_⟩
  rw [e]
  rcases hn with h1 | h1
  · exact absurd h1 hb
  · exact h1

/-- The hypotheses are met: time is up while a socket is being connected, which then leaves, and so on. -/
example : (TimerRace.run [.setup, .setup, .come, .adv 0, .fire]).timer = .fired ∧
    AgainAndAgain .tick (fun n => (fun k => match k with
      | 0 => TimerRace.Ev.tick
      | 1 => .come
      | 2 => .leave 0
      | k + 3 => .adv k) (n - 2 ^ n.log2)) :=
  ⟨by decide, everyTurn (fun k => match k with
      | 0 => TimerRace.Ev.tick
      | 1 => .come
      | 2 => .leave 0
      | k + 3 => .adv k) 0⟩

end Verif.Props
