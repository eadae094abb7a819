import Verif.Props.EventGate
import Verif.Proof.EventGateLive

/-! # C54: events do get through -/

namespace Verif.Props
open Verif Verif.Spec Verif.EventGate

/-- **C54**: if every middleware that is entered for an event lets it pass, sooner or later, the handlers are called for it, unless the socket
is disconnected before: whatever else happens meanwhile, if no goroutine is forgotten by the scheduler. -/
theorem C54_reaches (h : List EventGate.Ev) (e : Nat) (arrived : e < eventsArrived h) (σ : Nat → EventGate.Ev)
    (fair : ∀ k, AgainAndAgain (.adv k) σ)
    (pass : ∀ n i m, Obs.enter e i m ∈ (EventGate.run (h ++ firstOf σ n)).log → ∃ n', Obs.next e i true ∈ (EventGate.run (h ++ firstOf σ n')).log) :
    ∃ n, Obs.handler e ∈ (EventGate.run (h ++ firstOf σ n)).log ∨
      Obs.dropped e ∈ (EventGate.run (h ++ firstOf σ n)).log ∧ Obs.disconnect ∈ (EventGate.run (h ++ firstOf σ n)).log := by
  obtain ⟨fns, hfns⟩ : ∃ fns, ∀ n, (EventGate.run (h ++ firstOf σ n)).evs[e]? = some fns := by
    have hl : e < (EventGate.run h).evs.length := by rw [evs_arrived]; exact arrived
    refine ⟨(EventGate.run h).evs[e], fun n => ?_⟩
    obtain ⟨d, hd⟩ := foldl_evs (firstOf σ n) (EventGate.run h)
    have : EventGate.run (h ++ firstOf σ n) = (firstOf σ n).foldl EventGate.step (EventGate.run h) := by simp [EventGate.run]
    rw [this, hd, List.getElem?_append_left hl, List.getElem?_eq_getElem hl]
  have all : ∀ i, i < fns.length → ∃ n, Obs.next e i true ∈ (EventGate.run (h ++ firstOf σ n)).log := by
    intro i
    induction i with
    | zero =>
      intro hi
      cases hf : fns with
      | nil => rw [hf] at hi; cases hi
      | cons m ms => exact pass 0 0 m ((fwd_run _).first e m ms (by rw [hfns 0, hf]))
    | succ i ih =>
      intro hi
      obtain ⟨n, hn⟩ := ih (by omega)
      exact pass n (i + 1) _ ((fwd_run _).onward e i fns _ hn (hfns n) (List.getElem?_eq_getElem hi))
  have go : ∃ n, ∃ g ∈ (EventGate.run (h ++ firstOf σ n)).gos, g.e = e ∧ g.ok = true := by
    by_cases hf : fns = []
    · exact ⟨0, (fwd_run _).none e (by rw [hfns 0, hf])⟩
    · have hpos := List.length_pos_iff.2 hf
      obtain ⟨n, hn⟩ := all (fns.length - 1) (by omega)
      exact ⟨n, (fwd_run _).last e _ fns hn (hfns n) (List.getElem?_eq_none (by omega))⟩
  obtain ⟨n, g, hg, rfl, hok⟩ := go
  obtain ⟨k, hk⟩ := List.getElem?_of_mem hg
  obtain ⟨m, g', h1, h2, h3, h4⟩ := go_ends h σ k (fair k) _ n g hk (Nat.le_refl _)
  refine ⟨m, ?_⟩
  have := (fwd_run (h ++ firstOf σ m)).done g' (List.mem_of_getElem? h1) h4 (h3.trans hok)
  rwa [h2] at this

/-- **C54**: an event that a middleware refuses makes "error" fire. -/
theorem C54_refused (h : List EventGate.Ev) (e i : Nat) (refused : Obs.next e i false ∈ (EventGate.run h).log) (σ : Nat → EventGate.Ev)
    (fair : ∀ k, AgainAndAgain (.adv k) σ) : ∃ n, Obs.error e ∈ (EventGate.run (h ++ firstOf σ n)).log := by
  obtain ⟨g, hg, rfl, hok⟩ := (fwd_run h).stop e i refused
  obtain ⟨k, hk⟩ := List.getElem?_of_mem hg
  obtain ⟨m, g', h1, h2, h3, h4⟩ := go_ends h σ k (fair k) _ 0 g (by simpa [firstOf] using hk) (Nat.le_refl _)
  refine ⟨m, ?_⟩
  have := (fwd_run (h ++ firstOf σ m)).err g' (List.mem_of_getElem? h1) h4 (h3.trans hok)
  rwa [h2] at this

/-- Every goroutine gets a turn again and again: 0, 0 1, 0 1 2 3, 0 1 2 3 4 5 6 7, ... -/
def Demo.turns (n : Nat) : EventGate.Ev := .adv (n - 2 ^ n.log2)

theorem demo_turns (k : Nat) : AgainAndAgain (.adv k) Demo.turns := by
  intro n
  have hk : k < 2 ^ k := Nat.lt_two_pow_self
  have hn : n < 2 ^ n := Nat.lt_two_pow_self
  have h1 : 2 ^ k ≤ 2 ^ (k + n) := Nat.pow_le_pow_right (by decide) (by omega)
  have h2 : 2 ^ n ≤ 2 ^ (k + n) := Nat.pow_le_pow_right (by decide) (by omega)
  refine ⟨2 ^ (k + n) + k, by omega, ?_⟩
  have : (2 ^ (k + n) + k).log2 = k + n := (Nat.log2_eq_iff (by omega)).2 ⟨by omega, by rw [Nat.pow_succ]; omega⟩
  simp [Demo.turns, this]

/-- Two middlewares let event 0 pass, the second refuses event 1. -/
def Demo.gated : List EventGate.Ev :=
  [.use 7, .use 8, .recv, .next 0 0 true, .recv, .next 0 1 true, .next 1 0 true, .next 1 1 false]

theorem demo_gated (n : Nat) : ∀ o ∈ (EventGate.run (Demo.gated ++ firstOf Demo.turns n)).log, o ∈ (EventGate.run Demo.gated).log ∨
    ∀ e i m, o ≠ .enter e i m := by
  induction n with
  | zero => intro o ho; exact .inl (by simpa [firstOf] using ho)
  | succ n ih =>
    intro o ho
    rw [Returns.firstOf_succ, ← List.append_assoc, EventGate.run_snoc] at ho
    simp only [Demo.turns, EventGate.step, EventGate.adv] at ho
    repeat' split at ho
    all_goals first | exact ih o ho | skip
    all_goals
      rcases List.mem_append.1 ho with ho | ho
      · exact ih o ho
      · right; rw [List.mem_singleton.1 ho]; simp

example : (∀ k, AgainAndAgain (.adv k) Demo.turns) ∧ 0 < eventsArrived Demo.gated ∧
    (∀ n i m, Obs.enter 0 i m ∈ (EventGate.run (Demo.gated ++ firstOf Demo.turns n)).log →
      ∃ n', Obs.next 0 i true ∈ (EventGate.run (Demo.gated ++ firstOf Demo.turns n')).log) ∧
    Obs.next 1 1 false ∈ (EventGate.run Demo.gated).log := by
  refine ⟨demo_turns, by decide, fun n i m h => ⟨0, ?_⟩, by decide⟩
  rcases demo_gated n _ h with h | h
  · have : (EventGate.run Demo.gated).log = [.enter 0 0 7, .next 0 0 true, .enter 0 1 8, .enter 1 0 7, .next 0 1 true, .next 1 0 true, .enter 1 1 8,
        .next 1 1 false] := by decide
    rw [this] at h
    simp only [List.mem_cons, Obs.enter.injEq, reduceCtorEq, false_or, List.not_mem_nil, or_false, Nat.zero_ne_one, false_and] at h
    rcases h with ⟨_, rfl, _⟩ | ⟨_, rfl, _⟩ <;> decide
  · exact absurd rfl (h 0 i m)

end Verif.Props
