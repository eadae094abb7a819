import Verif.Proof.AcksEnd
import Verif.Proof.Returns

/-! # Clean-ups and messages under schedules that forget nobody -/

namespace Verif.Returns
open Verif Verif.Spec

/-- What occurs again and again occurs as often as one likes, from some moment on. -/
theorem often {E : Type} [DecidableEq E] (e : E) (σ : Nat → E) (fair : AgainAndAgain e σ) (c : Nat) :
    ∃ m, ∀ m', m ≤ m' → c ≤ (firstOf σ m').count e := by
  induction c with
  | zero => exact ⟨0, fun _ _ => Nat.zero_le _⟩
  | succ c ih =>
    obtain ⟨m, hm⟩ := ih
    obtain ⟨j, hj, he⟩ := fair m
    refine ⟨j + 1, fun m' hm' => ?_⟩
    obtain ⟨d, rfl⟩ := Nat.exists_eq_add_of_le hm'
    rw [Acks.firstOf_add, List.count_append, firstOf_succ, List.count_append, he]
    have := hm j hj
    simp only [List.count_cons_self, List.count_nil]
    omega

def sessSweeps : SessRace.Task → Prop
  | .clean _ => True
  | .visit _ _ => True
  | .sweep _ _ _ => True
  | _ => False

theorem sweeps_step (M : Nat) (s : SessRace.St) (e : SessRace.Ev) (k : Nat) (h : ∃ a, s.tasks[k]? = some a ∧ sessSweeps a) :
    ∃ a, (SessRace.step M s e).tasks[k]? = some a ∧ sessSweeps a := by
  obtain ⟨a, ha, hc⟩ := h
  by_cases he : e = .adv k
  · subst he
    refine ⟨_, SessRace.tasks_self M s k a ha, ?_⟩
    cases a with
    | visit st l =>
      cases l with
      | nil => trivial
      | cons w l => simp only [SessRace.act]; split <;> try (split)
                    all_goals trivial
    | clean o => trivial
    | sweep a b c => trivial
    | _ => exact hc.elim
  · exact ⟨a, SessRace.tasks_other M s e k a ha he, hc⟩

theorem sweeps_fold (M : Nat) (q : List SessRace.Ev) (s : SessRace.St) (k : Nat) (h : ∃ a, s.tasks[k]? = some a ∧ sessSweeps a) :
    ∃ a, (q.foldl (SessRace.step M) s).tasks[k]? = some a ∧ sessSweeps a := by
  induction q generalizing s with
  | nil => exact h
  | cons e q ih => exact ih _ (sweeps_step M s e k h)

end Verif.Returns
