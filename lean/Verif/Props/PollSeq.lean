import Verif.Proof.PollSeq
import Verif.Props.PollRace

/-!
# C32, C119: acknowledgements that are handled one at a time

`Collector.crun` (every operation on the variables is a step) and `Collector.run` (each callback is one step) render the same closures.
When the callbacks do not overlap they say the same; and then the callback of the program is called exactly once.
-/

set_option maxRecDepth 4000

namespace Verif.Props
open Verif Verif.Spec Verif.Collector

/-- **C32**: callbacks that do not overlap do what the callbacks of the other model do. -/
theorem C32_one_at_a_time (h : List Collector.CEv) (ho : OneAtATime h) (hd : ∀ t ∈ (crun h).threads, t.prog = []) :
    (crun h).s = Collector.run false (started h) := by
  obtain ⟨k, i⟩ := inTurn h ho
  exact i.done hd

/-- **C119**, when the answers are handled one at a time and have one value each: once the broadcast is over and every client it was sent to
has answered, the callback has been called exactly once; and if the timer has not fired, without error and with the answers in the order
in which they came. -/
theorem C119_in_turn_partial (p : List PollRace.Ev) (rooms except order : List Nat) (q : List PollRace.Ev)
    (w : WholePoll p rooms except order q)
    (hall : ∀ id ∈ (polled p rooms except order q).written, id ∈ heardFrom (polled p rooms except order q))
    (h1 : OneValue (polled p rooms except order q)) (ho : OneAtATime (polled p rooms except order q).hist)
    (hd : NobodyInside (polled p rooms except order q)) :
    (outcomes (polled p rooms except order q)).length = 1 ∧
    (.fire ∉ q → outcomes (polled p rooms except order q) = [.ok (replies (polled p rooms except order q))]) := by
  have hf := poll_full w hall h1
  have t := PollRace.told rooms except order w.begins q w.one
  have e : outcomes (polled p rooms except order q) = (Collector.run false (started (polled p rooms except order q).hist)).calls := by
    unfold outcomes PollRace.St.coll
    rw [C32_one_at_a_time _ ho hd]
  rw [e, ← t.replies]
  generalize hs : started (polled p rooms except order q).hist = s at *
  have quiet : .fire ∉ s → (Collector.run false s).calls = [.ok (answersOf s)] := by
    intro hn
    have := (C32_complete_partial 1 s [] (by simpa using hf) (fun e he => by
      cases e <;> first | rfl | exact absurd he hn)).2 rfl
    simpa using this.1
  refine ⟨?_, fun hq => quiet (hs ▸ PollRace.nofire w.begins q w.one hq)⟩
  by_cases hn : .fire ∈ s
  · obtain ⟨a, b, rfl, ha⟩ := first_fire s hn
    by_cases hb : b.any isArrival = true
    · rw [C32_timeout_partial 1 a b (full_drop hf) ha hb]; rfl
    · have hb : (Collector.Ev.fire :: b).any isArrival = false := by simpa [isArrival] using hb
      rw [((C32_complete_partial 1 a (.fire :: b) hf ha).2 hb).1]; rfl
  · rw [quiet hn]; rfl

namespace Demo
/-- One after the other: the report, the number of servers, the answer of socket 2, the answer of socket 1. -/
def pollCalm : List PollRace.Ev := List.replicate 12 .adv ++ List.replicate 8 (.coll 0) ++ [.adv] ++ List.replicate 8 (.coll 1) ++
  [.answer 2 [.str "b"]] ++ List.replicate 8 (.coll 2) ++ [.answer 1 [.str "a"]] ++ List.replicate 8 (.coll 3)
end Demo

theorem oneAtATime_of (h : List Collector.CEv)
    (hc : ∀ n, n < h.length → ∀ e, h[n]? = some (.start e) → ∀ t ∈ (crun (h.take n)).threads, t.prog = []) : OneAtATime h := by
  intro h₁ e h₂ eq
  have := hc h₁.length (by rw [eq]; simp) e (by rw [eq]; simp)
  rwa [eq, List.take_left] at this

/-- The same, as a computation. -/
def Demo.calm (h : List Collector.CEv) : Bool :=
  (List.range h.length).all fun n => match h[n]? with
    | some (.start _) => (crun (h.take n)).threads.all fun t => t.prog = []
    | _ => true

theorem Demo.calm_ok (h : List Collector.CEv) (hc : Demo.calm h = true) : OneAtATime h := by
  refine oneAtATime_of h fun n hn e he t ht => ?_
  have := List.all_eq_true.1 hc n (List.mem_range.2 hn)
  simp only [he] at this
  simpa using List.all_eq_true.1 this t ht

/-- The hypotheses of `C119_in_turn_partial` are met; and the callback is called once. -/
example : WholePoll Demo.pollP [7] [] [] Demo.pollCalm ∧
    (∀ id ∈ (polled Demo.pollP [7] [] [] Demo.pollCalm).written, id ∈ heardFrom (polled Demo.pollP [7] [] [] Demo.pollCalm)) ∧
    OneValue (polled Demo.pollP [7] [] [] Demo.pollCalm) ∧ OneAtATime (polled Demo.pollP [7] [] [] Demo.pollCalm).hist ∧
    NobodyInside (polled Demo.pollP [7] [] [] Demo.pollCalm) ∧ .fire ∉ Demo.pollCalm ∧
    replies (polled Demo.pollP [7] [] [] Demo.pollCalm) = [.str "b", .str "a"] := by
  refine ⟨⟨by decide, by decide, by simp [Demo.pollCalm]⟩, by decide, by unfold OneValue; decide, Demo.calm_ok _ (by decide),
    by unfold NobodyInside; decide, by decide, by decide⟩

end Verif.Props
