import Verif.Proof.CastEnd
import Verif.Proof.CloseLoop

/-! # A socket that is being closed is closed in the end -/

namespace Verif.CloseLoop
open Verif Verif.Spec

theorem log_step (s : St) (e : Ev) (id : Nat) (h : id ∈ s.log) : id ∈ (step s e).log := by
  cases e with
  | connect i => simp only [step]; split <;> exact h
  | conn i => exact h
  | close ids => exact h
  | adv k =>
    simp only [step, advance]
    split
    · rename_i todo pc _
      cases pc with
      | next => cases todo <;> exact h
      | disconnect i => exact List.mem_append_left _ h
      | _ => exact h
    · exact h

/-- Call `j` will fire the event within `r` steps of its own, or it has been fired. -/
def Fires (j id r : Nat) (s : St) : Prop :=
  id ∈ s.log ∨ ∃ todo pc, s.calls[j]? = some (todo, pc) ∧ ((pc = .forbid id ∧ 3 ≤ r) ∨ (pc = .unflag id ∧ 2 ≤ r) ∨ (pc = .disconnect id ∧ 1 ≤ r))

theorem fires_count (j id : Nat) (q : List Ev) (s : St) (r : Nat) (h : Fires j id r s) (steps : r ≤ q.count (.adv j)) :
    id ∈ (q.foldl step s).log := by
  induction q generalizing s r with
  | nil =>
    simp only [List.count_nil] at steps
    rcases h with h | ⟨_, _, _, h | h | h⟩
    · exact h
    all_goals omega
  | cons e q ih =>
    by_cases he : e = .adv j
    · subst he
      refine ih _ (r - 1) ?_ (by simp at steps; omega)
      rcases h with h | ⟨todo, pc, hk, h⟩
      · exact .inl (log_step s _ id h)
      · have hc := calls_adv s j todo pc hk
        rcases h with ⟨rfl, h⟩ | ⟨rfl, h⟩ | ⟨rfl, h⟩
        · exact .inr ⟨_, _, hc, .inr (.inl ⟨rfl, by omega⟩)⟩
        · exact .inr ⟨_, _, hc, .inr (.inr ⟨rfl, by omega⟩)⟩
        · exact .inl (by simp [step, advance, hk, act])
    · refine ih _ r ?_ (by simpa [he] using steps)
      rcases h with h | ⟨todo, pc, hk, h⟩
      · exact .inl (log_step s _ id h)
      · exact .inr ⟨todo, pc, calls_other s e j _ hk he, h⟩

end Verif.CloseLoop
