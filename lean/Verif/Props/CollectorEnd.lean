import Verif.Proof.CollectorEnd
import Verif.Props.Collector
import Verif.Props.Settle

/-! # C32: the caller of a broadcast hears in the end -/

namespace Verif.Props
open Verif Verif.Spec

/-- **C32**, every interleaving of the individual operations.  If every client notified has answered, with one value each, and all counts have
arrived, or if the timer has fired, whatever has arrived, then the callback is called in the end, provided that no goroutine is forgotten by
the scheduler. -/
theorem C32_in_the_end_partial (k : Nat) (h : List Collector.CEv) (arrived : Full k (started h) ∨ .fire ∈ started h) (σ : Nat → Collector.CEv)
    (noMore : ∀ n e, σ n ≠ .start e) (fair : ∀ k, AgainAndAgain (.adv k) σ) : ∃ n, (Collector.crun (h ++ firstOf σ n)).s.calls ≠ [] := by
  obtain ⟨n, hn⟩ := Collector.collect_settles σ noMore fair (Collector.crun h)
  have e1 : (firstOf σ n).foldl Collector.cstep (Collector.crun h) = Collector.crun (h ++ firstOf σ n) := by simp [Collector.crun]
  rw [e1] at hn
  have e2 : started (h ++ firstOf σ n) = started h := by
    refine Collector.started_quiet h _ fun e he e' => ?_
    simp only [firstOf, List.mem_map] at he
    obtain ⟨i, _, rfl⟩ := he
    exact noMore i e'
  refine ⟨n, ?_⟩
  by_cases hf : .fire ∈ started h
  · exact (C32_fired_partial (h ++ firstOf σ n)).1 (by rw [e2]; exact hf) hn
  · rcases arrived with ha | ha
    · exact (C32_interleaved_partial k (h ++ firstOf σ n) (by rw [e2]; exact ha)).2 (by rw [e2]; exact hf) hn
    · exact absurd ha hf

/-- The hypotheses are met by two answers that arrive while the count is being dealt with. -/
example : Full 1 (started [.start (.count 2), .adv 0, .start (.answer [.str "a"]), .adv 1, .start (.servers 1), .start (.answer [.str "b"])]) ∧
    (∀ k, AgainAndAgain (.adv k) fun n => Collector.CEv.adv (n - 2 ^ n.log2)) ∧ ∀ n e, Collector.CEv.adv (n - 2 ^ n.log2) ≠ .start e :=
  ⟨⟨by decide, by decide, by simp [started], by decide, by simp [started]⟩, everyTurn _, by simp⟩

end Verif.Props
