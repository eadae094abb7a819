import Verif.Proof.TimerRace

/-! # C97: the connect timeout, goroutine by goroutine -/

namespace Verif.Props
open Verif Verif.Spec Verif.TimerRace

/-- Part of C97.  A socket that the client has noted when time is up, or before the function of the timer has looked, and that does not leave:
its connection is not closed by the timeout, then or later, whatever else happens. -/
theorem C97_stays (p q : List TimerRace.Ev) (k : Nat) (hk : k ∈ (TimerRace.run p).nsps)
    (ht : (TimerRace.run p).tmo = .idle ∨ (TimerRace.run p).tmo = .test) (hq : .leave k ∉ q) : (TimerRace.run (p ++ q)).cut = none := by
  refine (safe_run (k := k) ⟨hk, ?_, ?_⟩ q hq).cut
  · rcases ht with h | h <;> rw [h] <;> simp
  · refine Classical.byContradiction fun hc => ?_
    have := (TimerRace.inv_run p).uncut hc
    rcases ht with h | h <;> rw [h] at this <;> cases this

/-- Part of C97.  If the client was set up before its first socket was let pass: once a socket is connected, to the end, and time was not up by then,
the timeout never closes the connection, even if all sockets leave. -/
theorem C97_cleared_partial (p q : List TimerRace.Ev) (k : Nat) (hs : SetUpFirst p) (hk : ConnectedToTheEnd p k)
    (ht : (TimerRace.run p).timer ≠ .fired) : (TimerRace.run (p ++ q)).cut = none := by
  have i := TimerRace.inv_run p
  have hm := List.mem_of_getElem? hk
  have a := stop_run p hs
  have hd : (TimerRace.run p).setup = .done := by
    rcases a.first with h | h
    · exact h
    · rw [h] at hm; cases hm
  have hn := a.ths _ hm (.inr rfl)
  have hu : (TimerRace.run p).timer ≠ .unset := fun h => by have := i.set h; rw [hd] at this; cases this
  refine (off_run ⟨?_, by rw [hd]; simp, i.idle ht, ?_⟩ q).cut
  · cases h : (TimerRace.run p).timer <;> simp_all
  · refine Classical.byContradiction fun hc => ?_
    have h1 := i.uncut hc
    rw [i.idle ht] at h1; cases h1

/-- Part of C97.  If no socket is just being connected while the function of the timer is at work, the timeout cuts off no connected socket. -/
theorem C97_partial (h : List TimerRace.Ev) (hn : NoneHalfway h) (l : List Nat) (hc : (TimerRace.run h).cut = some l) : l = [] :=
  (alone_run h hn).cut l hc

/-- Part of C97.  When the function of the timer has come to its end, the connection is closed, or the client was in a namespace when it looked. -/
theorem C97_idle (h : List TimerRace.Ev) (hd : (TimerRace.run h).tmo = .done) :
    (TimerRace.run h).isOpen = false ∨ ∃ p t, h = p ++ .tick :: t ∧ (TimerRace.run p).tmo = .test ∧ (TimerRace.run p).nsps ≠ [] :=
  TimerRace.over_run h hd

/-- A client is set up, and a socket connected to the end. -/
def Demo.inTime : List TimerRace.Ev :=
  [.setup, .setup, .come, .adv 0, .adv 0, .adv 0, .adv 0, .adv 0, .adv 0]

/-- The same, but time is up between `nsps.Store` and `connectTimeout.Load`. -/
def Demo.justInTime : List TimerRace.Ev :=
  [.setup, .setup, .come, .adv 0, .adv 0, .adv 0, .fire]

/-- Time is up before the first socket is connected. -/
def Demo.nobody : List TimerRace.Ev := [.setup, .setup, .come, .fire, .tick, .tick, .tick]

example : 0 ∈ (TimerRace.run Demo.justInTime).nsps ∧ (TimerRace.run Demo.justInTime).tmo = .test ∧
    (TimerRace.run (Demo.justInTime ++ [.adv 0, .tick, .adv 0])).tmo = .done ∧ (TimerRace.run (Demo.justInTime ++ [.adv 0, .tick, .adv 0])).isOpen = true := by
  decide

example : SetUpFirst Demo.inTime ∧ ConnectedToTheEnd Demo.inTime 0 ∧ (TimerRace.run Demo.inTime).timer = .cleared := by
  refine ⟨?_, by decide, by decide⟩
  intro p t e
  have hp : p = Demo.inTime.take p.length := by rw [e]; simp
  have hg : Demo.inTime[p.length]? = some .come := by rw [e]; simp
  have hl : p.length = 2 := by
    have hlt : p.length < 9 := by
      have := congrArg List.length e; simp [Demo.inTime] at this; omega
    generalize p.length = n at hg hlt
    revert hg; revert hlt; revert n; decide
  rw [hp, hl]; decide

example : (TimerRace.run Demo.nobody).cut = some [] ∧ (TimerRace.run Demo.nobody).tmo = .done ∧ (TimerRace.run Demo.nobody).isOpen = false := by decide

example : NoneHalfway Demo.nobody := by
  intro p t e
  have hp : p = Demo.nobody.take p.length := by rw [e]; simp
  have hlt : p.length < 8 := by
    have := congrArg List.length e; simp [Demo.nobody] at this; omega
  rw [hp]
  generalize p.length = n at hlt
  revert n; decide

/-- The claim is false: a client may be told that it is connected and be cut off by the timeout at once. -/
theorem C97_fails : ∃ h l, (TimerRace.run h).cut = some l ∧ 0 ∈ l ∧ 0 ∈ (TimerRace.run h).told ∧ SetUpFirst h := by
  refine ⟨[.setup, .setup, .come, .adv 0, .adv 0, .fire, .tick, .tick, .tick], [0], by decide, by decide, by decide, ?_⟩
  intro p t e
  have hp : p = ([.setup, .setup, .come, .adv 0, .adv 0, .fire, .tick, .tick, .tick] : List TimerRace.Ev).take p.length := by rw [e]; simp
  have hg : ([.setup, .setup, .come, .adv 0, .adv 0, .fire, .tick, .tick, .tick] : List TimerRace.Ev)[p.length]? = some .come := by rw [e]; simp
  have hl : p.length = 2 := by
    have hlt : p.length < 9 := by
      have := congrArg List.length e; simp at this; omega
    generalize p.length = n at hg hlt
    revert hg; revert hlt; revert n; decide
  rw [hp, hl]; decide

/-- The same if the socket is connected, to the end, after the function of the timer has looked. -/
theorem C97_late_fails : ∃ h l, (TimerRace.run h).cut = some l ∧ ConnectedToTheEnd h 0 ∧ 0 ∈ l ∧ 0 ∈ (TimerRace.run h).nsps :=
  ⟨[.setup, .setup, .come, .fire, .tick, .adv 0, .adv 0, .adv 0, .adv 0, .adv 0, .adv 0, .tick, .tick], [0], by decide, by decide, by decide, by decide⟩

/-- And if the socket is connected before the timer is noted, the timer is not stopped: the connection is closed when all sockets have left. -/
theorem C97_setup_fails : ∃ p q, ConnectedToTheEnd p 0 ∧ (TimerRace.run p).timer ≠ .fired ∧ (TimerRace.run (p ++ q)).cut ≠ none :=
  ⟨[.setup, .come, .adv 0, .adv 0, .adv 0, .adv 0], [.setup, .leave 0, .fire, .tick, .tick, .tick], by decide, by decide, by decide⟩

end Verif.Props
