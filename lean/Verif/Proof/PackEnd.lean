import Verif.Proof.AcksEnd
import Verif.Model.PackRace

/-! # The goroutines that store packets and clean up come to their end -/

namespace Verif.PackRace
open Verif Verif.Spec

def taskLeft : Task → Nat
  | .stamp => 2
  | .push _ => 1
  | .stored => 0
  | .clean => 2
  | .splice _ => 1
  | .cleaned => 0

/-- The steps left to goroutine `k`. -/
def leftTo (k : Nat) (s : St) : Nat := match s.tasks[k]? with
  | some a => taskLeft a
  | none => 0

theorem other_tasks (max : Nat) (s : St) (e : Ev) (k : Nat) (he : e ≠ .adv k) (hl : k < s.tasks.length) : (step max s e).tasks[k]? = s.tasks[k]? := by
  cases e with
  | tick d => rfl
  | cast => exact List.getElem?_append_left hl
  | timer => exact List.getElem?_append_left hl
  | adv j =>
    simp only [step]
    cases hj : s.tasks[j]? with
    | none => rfl
    | some a => exact List.getElem?_set_ne (fun h => he (by rw [h]))

theorem act_left (max : Nat) (s : St) (k : Nat) (a : Task) (h : taskLeft a ≠ 0) : taskLeft (act max s k a).2 < taskLeft a := by
  cases a with
  | stamp => exact (by decide : (1 : Nat) < 2)
  | push t => exact (by decide : (0 : Nat) < 1)
  | stored => exact absurd rfl h
  | clean => exact (by decide : (1 : Nat) < 2)
  | splice t => exact (by decide : (0 : Nat) < 1)
  | cleaned => exact absurd rfl h

theorem task_ends (max : Nat) (σ : Nat → Ev) (k : Nat) (fair : AgainAndAgain (.adv k) σ) (s : St) :
    ∃ n, leftTo k ((firstOf σ n).foldl (step max) s) = 0 :=
  Returns.ends (step max) (fun s => leftTo k s = 0) (.adv k) (leftTo k) (· < ·) Nat.lt_wfRel.wf
    (fun s hd => by
      refine .inr ?_
      cases ht : s.tasks[k]? with
      | none => exact absurd (by simp only [leftTo, ht]) hd
      | some a =>
        have hl := (List.getElem?_eq_some_iff.1 ht).1
        have e1 : leftTo k (step max s (.adv k)) = taskLeft (act max s k a).2 := by
          simp only [leftTo, step, ht, List.getElem?_set_self hl]
        have e2 : leftTo k s = taskLeft a := by simp only [leftTo, ht]
        rw [e1, e2]
        exact act_left max s k a (by rw [← e2]; exact hd))
    (fun s e he hd => by
      have hl : k < s.tasks.length := by
        refine Nat.lt_of_not_le fun hn => hd ?_
        simp only [leftTo, List.getElem?_eq_none hn]
      exact .inr (by simp only [leftTo, other_tasks max s e k he hl])) σ fair s

/-- A goroutine of the timer stays one, and one that has finished stays so. -/
def Cleans : Task → Prop
  | .clean => True
  | .splice _ => True
  | .cleaned => True
  | _ => False

theorem cleans_step (max : Nat) (s : St) (e : Ev) (k : Nat) (a : Task) (h : s.tasks[k]? = some a) (hc : Cleans a) :
    ∃ b, (step max s e).tasks[k]? = some b ∧ Cleans b ∧ (a = .cleaned → b = .cleaned) := by
  have hl := (List.getElem?_eq_some_iff.1 h).1
  by_cases he : e = .adv k
  · subst he
    refine ⟨(act max s k a).2, by simp only [step, h, List.getElem?_set_self hl], ?_, ?_⟩
    · cases a <;> first | exact hc.elim | trivial
    · rintro rfl; rfl
  · exact ⟨a, by rw [other_tasks max s e k he hl]; exact h, hc, fun h => h⟩

theorem cleans_fold (max : Nat) (l : List Ev) (s : St) (k : Nat) (a : Task) (h : s.tasks[k]? = some a) (hc : Cleans a) :
    ∃ b, (l.foldl (step max) s).tasks[k]? = some b ∧ Cleans b ∧ (a = .cleaned → b = .cleaned) := by
  induction l generalizing s a with
  | nil => exact ⟨a, h, hc, fun h => h⟩
  | cons e l ih =>
    obtain ⟨b, h1, h2, h3⟩ := cleans_step max s e k a h hc
    obtain ⟨c, h4, h5, h6⟩ := ih _ b h1 h2
    exact ⟨c, h4, h5, fun h => h6 (h3 h)⟩

end Verif.PackRace
