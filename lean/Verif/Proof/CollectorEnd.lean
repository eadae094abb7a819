import Verif.Proof.Settle
import Verif.Proof.CollectorConc
import Verif.Spec.Collector

/-! # The goroutines that collect answers come to their end -/

namespace Verif.Collector
open Verif Verif.Spec

theorem micro_left (s : St) (reg : Nat) (rest : List Micro) (m : Micro) : (micro s reg rest m).2.prog.length ≤ rest.length := by
  cases m <;> simp only [micro] <;> (try split) <;> simp

theorem collect_dec (c : CSt) (k : Nat) (h : ∃ t, c.threads[k]? = some t ∧ t.prog ≠ []) :
    ((cstep c (.adv k)).threads.map fun t => t.prog.length).sum < (c.threads.map fun t => t.prog.length).sum := by
  obtain ⟨⟨prog, reg⟩, hk, hp⟩ := h
  cases prog with
  | nil => exact absurd rfl hp
  | cons m rest =>
    simp only [cstep, hk]
    have h1 := sum_set (fun t : Thread => t.prog.length) c.threads k ⟨m :: rest, reg⟩ (micro c.s reg rest m).2 hk
    have h2 := micro_left c.s reg rest m
    simp only [List.length_cons] at h1
    omega

theorem collect_settles (σ : Nat → CEv) (only : ∀ n e, σ n ≠ .start e) (fair : ∀ k, AgainAndAgain (.adv k) σ) (c : CSt) :
    ∃ n, ∀ t ∈ ((firstOf σ n).foldl cstep c).threads, t.prog = [] := by
  obtain ⟨n, hn⟩ := Settle.settles cstep (.adv ·) (fun c => (c.threads.map fun t => t.prog.length).sum)
    (fun c k => ∀ t, c.threads[k]? = some t → t.prog = []) (fun e => ∀ e', e ≠ .start e')
    (fun c e he => by
      cases e with
      | start e' => exact absurd rfl (he e')
      | adv j =>
        by_cases hj : ∃ t, c.threads[j]? = some t ∧ t.prog ≠ []
        · exact .inl (collect_dec c j hj)
        · right
          have : cstep c (.adv j) = c := by
            simp only [cstep]
            split
            · rename_i m rest reg hm; exact absurd ⟨_, hm, by simp⟩ hj
            · rfl
          rw [this]
          exact ⟨rfl, fun _ h _ => h⟩)
    (fun c k hk => collect_dec c k (by
      obtain ⟨t, ht⟩ := Classical.not_forall.1 hk
      exact ⟨t, Classical.not_imp.1 ht⟩))
    σ only fair c
  refine ⟨n, fun t ht => ?_⟩
  obtain ⟨k, hk⟩ := List.getElem?_of_mem ht
  exact hn k t hk

theorem started_quiet (h l : List CEv) (hl : ∀ e ∈ l, ∀ e', e ≠ .start e') : started (h ++ l) = started h := by
  induction h with
  | nil =>
    induction l with
    | nil => rfl
    | cons e l ih =>
      cases e with
      | start e' => exact absurd rfl (hl _ (by simp) e')
      | adv k => exact ih (fun e he => hl e (by simp [he]))
  | cons e h ih => cases e <;> simp [started, ih]

end Verif.Collector
