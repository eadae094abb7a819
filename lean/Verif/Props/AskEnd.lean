import Verif.Proof.AskEnd
import Verif.Props.AskRace
import Verif.Props.Settle

/-! # C94: the callback of a request to the cluster is called in the end -/

namespace Verif.Props
open Verif Verif.Spec

/-- **C94, partial**: the callback is called in the end, whoever answers or leaves, provided that the timer does go off, not before the request
is in the table (see `C94_early_fails`), that answers and departures cease and that no goroutine is forgotten by the scheduler. -/
theorem C94_in_the_end_partial (kind : Heartbeat.Kind) (here : List Val) (h : List AskRace.Ev) (σ : Nat → AskRace.Ev)
    (noMore : ∀ n, (∀ u l, σ n ≠ .respond u l) ∧ ∀ u, σ n ≠ .leave u) (fairAsk : AgainAndAgain .ask σ) (fairTick : AgainAndAgain .tick σ)
    (fairTimer : AgainAndAgain .fire σ) (fair : ∀ k, AgainAndAgain (.adv k) σ) (late : ∀ n, FiresLate kind here (h ++ firstOf σ n)) :
    ∃ n, (AskRace.run kind here (h ++ firstOf σ n)).calls ≠ [] := by
  obtain ⟨n, hn, ht⟩ := AskRace.ask_settles true kind here σ noMore (fun k => match k with
    | 0 => fairAsk
    | 1 => fairTick
    | 2 => fairTimer
    | k + 3 => fair k) (AskRace.run kind here h)
  have e : AskRace.run kind here (h ++ firstOf σ n) = (firstOf σ n).foldl (AskRace.step kind here) (AskRace.run kind here h) := by simp [AskRace.run]
  exact ⟨n, C94_called_partial kind here _ (late n) (by rw [e]; exact hn) (by rw [e]; exact ht rfl)⟩

/-- **C94, partial**: once every server asked has answered, or was found to be gone after the request was in the table, the callback is called
in the end, whether or not the timer goes off. -/
theorem C94_prompt_in_the_end_partial (kind : Heartbeat.Kind) (here : List Val) (h : List AskRace.Ev) (σ : Nat → AskRace.Ev)
    (noMore : ∀ n, (∀ u l, σ n ≠ .respond u l) ∧ ∀ u, σ n ≠ .leave u) (fairAsk : AgainAndAgain .ask σ) (fairTick : AgainAndAgain .tick σ)
    (fair : ∀ k, AgainAndAgain (.adv k) σ) (A : List String) (hA : (AskRace.run kind here h).asked = some A) (hne : A ≠ [])
    (returned : (AskRace.run kind here h).asker = .done) (hall : ∀ u ∈ A, Answers kind here h u ∨ LeavesLater kind here h u) :
    ∃ n, (AskRace.run kind here (h ++ firstOf σ n)).calls ≠ [] := by
  obtain ⟨n, hn, _⟩ := AskRace.ask_settles false kind here σ noMore (fun k => match k with
    | 0 => fairAsk
    | 1 => fairTick
    | 2 => fairAsk
    | k + 3 => fair k) (AskRace.run kind here h)
  have e : AskRace.run kind here (h ++ firstOf σ n) = (firstOf σ n).foldl (AskRace.step kind here) (AskRace.run kind here h) := by simp [AskRace.run]
  refine ⟨n, C94_prompt_partial kind here _ A (by rw [e, (AskRace.asked_run kind here _ returned).2, hA]) hne (by rw [e]; exact hn) fun u hu => ?_⟩
  rcases hall u hu with ⟨a, l, b, rfl, h2⟩ | ⟨a, b, rfl, h2⟩
  · exact .inl ⟨a, l, b ++ firstOf σ n, by simp, h2⟩
  · exact .inr ⟨a, b ++ firstOf σ n, by simp, h2⟩

namespace Demo
/-- Every goroutine gets its turn, again and again, and the timer may go off. -/
def askEndless (n : Nat) : AskRace.Ev := AskRace.who true (n - 2 ^ n.log2)

/-- Three servers are asked; one has answered, one was found to be gone, the third answers; what they set going has not come to its end. -/
def askMidway : List AskRace.Ev :=
  [.arrive "a", .arrive "b", .arrive "c", .ask, .ask, .ask, .ask, .ask, .respond "a" [.num 1], .adv 0, .leave "b", .adv 1, .respond "c" [.num 3]]
end Demo

theorem demo_askEndless : (∀ n, (∀ u l, Demo.askEndless n ≠ .respond u l) ∧ ∀ u, Demo.askEndless n ≠ .leave u) ∧ AgainAndAgain .ask Demo.askEndless ∧
    AgainAndAgain .tick Demo.askEndless ∧ AgainAndAgain .fire Demo.askEndless ∧ ∀ k, AgainAndAgain (.adv k) Demo.askEndless := by
  refine ⟨fun n => ?_, everyTurn (AskRace.who true) 0, everyTurn (AskRace.who true) 1, everyTurn (AskRace.who true) 2, fun k => everyTurn (AskRace.who true) (k + 3)⟩
  have : ∀ k, (∀ u l, AskRace.who true k ≠ .respond u l) ∧ ∀ u, AskRace.who true k ≠ .leave u := by
    intro k
    match k with
    | 0 => exact ⟨fun u l h => (by cases h), fun u h => (by cases h)⟩
    | 1 => exact ⟨fun u l h => (by cases h), fun u h => (by cases h)⟩
    | 2 => exact ⟨fun u l h => (by cases h), fun u h => (by cases h)⟩
    | k + 3 => exact ⟨fun u l h => (by cases h), fun u h => (by cases h)⟩
  exact this _

/-- The hypotheses of both are met: once the request is in the table the timer goes off when it likes. -/
example : (AskRace.run .fetch [.num 0] Demo.askMidway).asked = some ["c", "b", "a"] ∧ (AskRace.run .fetch [.num 0] Demo.askMidway).asker = .done ∧
    (∀ u ∈ ["c", "b", "a"], Answers .fetch [.num 0] Demo.askMidway u ∨ LeavesLater .fetch [.num 0] Demo.askMidway u) ∧
    (AskRace.run .fetch [.num 0] Demo.askMidway).calls = [] ∧ ∀ n, FiresLate .fetch [.num 0] (Demo.askMidway ++ firstOf Demo.askEndless n) := by
  refine ⟨by decide, by decide, fun u hu => ?_, by decide, fun n a b hab _ => ?_⟩
  rotate_left
  · rcases List.append_eq_append_iff.1 hab with ⟨c, rfl, _⟩ | ⟨c, hc, hc'⟩
    · have e : AskRace.run .fetch [.num 0] (Demo.askMidway ++ c) = c.foldl (AskRace.step .fetch [.num 0]) (AskRace.run .fetch [.num 0] Demo.askMidway) := by
        simp [AskRace.run]
      obtain ⟨h1, h2⟩ := AskRace.asked_run .fetch [.num 0] c (s := AskRace.run .fetch [.num 0] Demo.askMidway) (by decide)
      exact .inr ⟨by rw [e]; exact h1, by rw [e, h2]; decide⟩
    · cases c with
      | nil =>
        rw [List.append_nil] at hc
        rw [← hc]
        exact .inr ⟨by decide, by decide⟩
      | cons x c =>
        simp only [List.cons_append, List.cons.injEq] at hc'
        have : AskRace.Ev.fire ∈ Demo.askMidway := by rw [hc, hc'.1]; simp
        simp [Demo.askMidway] at this
  simp only [List.mem_cons, List.not_mem_nil, or_false] at hu
  rcases hu with rfl | rfl | rfl
  · exact .inl ⟨Demo.askMidway.take 12, [.num 3], Demo.askMidway.drop 13, by decide, by decide⟩
  · exact .inr ⟨Demo.askMidway.take 10, Demo.askMidway.drop 11, by decide, .inr ⟨by decide, by decide⟩⟩
  · exact .inl ⟨Demo.askMidway.take 8, [.num 1], Demo.askMidway.drop 9, by decide, by decide⟩

end Verif.Props
