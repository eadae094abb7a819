import Verif.Proof.Settle
import Verif.Model.RequestsConc

/-! # The goroutines that handle the answers of other servers come to their end -/

namespace Verif.RequestsConc
open Verif Verif.Spec Verif.Heartbeat

/-- The steps left to a call of `OnResponse`. -/
def respLeft : Pc → Nat
  | .load => 6
  | .push => 5
  | .delete => 4
  | .check => 3
  | .resolve => 2
  | .erase => 1
  | .done => 0

theorem resp_dec (s : St) (u : Uid) (l : List Val) (pc : Pc) (h : pc ≠ .done) : respLeft (advance s u l pc).2 < respLeft pc := by
  cases pc with
  | load => simp only [advance]; cases s.stored <;> decide
  | check => simp only [advance]; split <;> decide
  | push => exact (by decide : (4 : Nat) < 5)
  | delete => exact (by decide : (3 : Nat) < 4)
  | resolve => exact (by decide : (1 : Nat) < 2)
  | erase => exact (by decide : (0 : Nat) < 1)
  | done => exact absurd rfl h

theorem resp_settles (σ : Nat → Ev) (only : ∀ n u l, σ n ≠ .respond u l) (fair : ∀ k, AgainAndAgain (.adv k) σ) (s : St) :
    ∃ n, ∀ t ∈ ((firstOf σ n).foldl step s).threads, t.2.2 = .done := by
  have dec : ∀ (s : St) (k : Nat), ¬(∀ t, s.threads[k]? = some t → t.2.2 = .done) →
      ((step s (.adv k)).threads.map fun t => respLeft t.2.2).sum < (s.threads.map fun t => respLeft t.2.2).sum := by
    intro s k hk
    obtain ⟨t, ht⟩ := Classical.not_forall.1 hk
    obtain ⟨ht, hd⟩ := Classical.not_imp.1 ht
    obtain ⟨u, l, pc⟩ := t
    simp only [step, ht]
    have h1 := sum_set (fun t : Uid × List Val × Pc => respLeft t.2.2) s.threads k (u, l, pc) (u, l, (advance s u l pc).2) ht
    have h2 := resp_dec s u l pc hd
    simp only at h1
    omega
  obtain ⟨n, hn⟩ := Settle.settles step (.adv ·) (fun s => (s.threads.map fun t => respLeft t.2.2).sum)
    (fun s k => ∀ t, s.threads[k]? = some t → t.2.2 = .done) (fun e => ∀ u l, e ≠ .respond u l)
    (fun s e he => by
      cases e with
      | respond u l => exact absurd rfl (he u l)
      | adv j =>
        by_cases hj : ∀ t, s.threads[j]? = some t → t.2.2 = .done
        · right
          have : step s (.adv j) = s := by
            simp only [step]
            cases ht : s.threads[j]? with
            | none => rfl
            | some t =>
              obtain ⟨u, l, pc⟩ := t
              have hd : pc = .done := hj _ ht
              subst hd
              simp only [advance]
              have : s.threads.set j (u, l, .done) = s.threads := by
                apply List.ext_getElem?
                intro i
                by_cases e : i = j
                · subst e; rw [List.getElem?_set_self (List.getElem?_eq_some_iff.1 ht).1, ht]
                · rw [List.getElem?_set_ne (fun h => e h.symm)]
              rw [this]
          rw [this]
          exact ⟨rfl, fun _ h _ => h⟩
        · exact .inl (dec s j hj))
    dec σ only fair s
  refine ⟨n, fun t ht => ?_⟩
  obtain ⟨k, hk⟩ := List.getElem?_of_mem ht
  exact hn k t hk

end Verif.RequestsConc
