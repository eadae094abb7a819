import Verif.Proof.PackEnd
import Verif.Props.PackRace
import Verif.Props.Settle

/-! # C122: packets that are too old are gone in the end -/

namespace Verif.Props
open Verif Verif.Spec

/-- **C122**, under every interleaving: once the timer fires after the time of a packet is up, the packet is gone in the end, for good, whatever
is broadcast meanwhile and after. -/
theorem C122_cleaned_in_the_end (max : Nat) (p q : List PackRace.Ev) (n t : Nat) (h₁ : List PackRace.Ev) (before : h₁ <+: p)
    (stored : PackStored max h₁ n t) (old : t + max < (PackRace.run max p).now) (σ : Nat → PackRace.Ev)
    (fair : AgainAndAgain (.adv (PackRace.run max p).tasks.length) σ) :
    ∃ m, ∀ m', m ≤ m' → n ∉ keptPackets (PackRace.run max (p ++ .timer :: (q ++ firstOf σ m'))) := by
  let k := (PackRace.run max p).tasks.length
  have e : ∀ r, PackRace.run max (p ++ .timer :: r) = r.foldl (PackRace.step max) (PackRace.step max (PackRace.run max p) .timer) := by
    intro r; simp [PackRace.run]
  have h0 : (PackRace.step max (PackRace.run max p) .timer).tasks[k]? = some .clean := by simp [PackRace.step, k]
  obtain ⟨a, h1, h2, _⟩ := PackRace.cleans_fold max q _ k _ h0 trivial
  obtain ⟨m, hm⟩ := PackRace.task_ends max σ k fair (q.foldl (PackRace.step max) (PackRace.step max (PackRace.run max p) .timer))
  obtain ⟨b, h3, h4, _⟩ := PackRace.cleans_fold max (firstOf σ m) _ k a h1 h2
  have hb : b = .cleaned := by
    simp only [PackRace.leftTo, h3] at hm
    cases b <;> first | rfl | exact h4.elim | (simp [PackRace.taskLeft] at hm)
  subst hb
  refine ⟨m, fun m' hm' => C122_cleaned max p _ n t h₁ before stored old ?_⟩
  obtain ⟨d, rfl⟩ := Nat.exists_eq_add_of_le hm'
  obtain ⟨c, h5, _, h6⟩ := PackRace.cleans_fold max (firstOf (fun i => σ (m + i)) d) _ k _ h3 h4
  rw [h6 rfl] at h5
  rw [e, Acks.firstOf_add, List.foldl_append, List.foldl_append]
  exact h5

/-- The hypotheses are met: a packet stored at time 5 and kept for 10, the timer at time 16, others broadcast. -/
example : PackStored 10 [.tick 5, .cast, .adv 0, .adv 0] 0 5 ∧ [PackRace.Ev.tick 5, .cast, .adv 0, .adv 0] <+: [.tick 5, .cast, .adv 0, .adv 0, .cast, .tick 11] ∧
    5 + 10 < (PackRace.run 10 [.tick 5, .cast, .adv 0, .adv 0, .cast, .tick 11]).now ∧
    AgainAndAgain (.adv (PackRace.run 10 [.tick 5, .cast, .adv 0, .adv 0, .cast, .tick 11]).tasks.length) fun n => PackRace.Ev.adv (n - 2 ^ n.log2) :=
  ⟨⟨[.tick 5, .cast], [], rfl, by decide, by decide, by decide⟩, by decide, by decide, everyTurn PackRace.Ev.adv _⟩

end Verif.Props
