import Verif.Proof.Returns
import Verif.Proof.Once
import Verif.Proof.Writer

/-! # Goroutines that wait for each other all come to their end -/

namespace Verif.Settle
open Verif Verif.Spec

/-- If something gets less with every step of a goroutine that can move, and nothing else makes it more or stops a goroutine that can move,
then in the end nobody can move. -/
theorem settles {S E : Type} (step : S → E → S) (adv : Nat → E) (μ : S → Nat) (idle : S → Nat → Prop) (allowed : E → Prop)
    (keep : ∀ s e, allowed e → μ (step s e) < μ s ∨ μ (step s e) = μ s ∧ ∀ k, ¬ idle s k → e ≠ adv k → ¬ idle (step s e) k)
    (dec : ∀ s k, ¬ idle s k → μ (step s (adv k)) < μ s)
    (σ : Nat → E) (hσ : ∀ n, allowed (σ n)) (fair : ∀ k, AgainAndAgain (adv k) σ) (s : S) :
    ∃ n, ∀ k, idle ((firstOf σ n).foldl step s) k := by
  have next : ∀ n, (firstOf σ (n + 1)).foldl step s = step ((firstOf σ n).foldl step s) (σ n) := by
    intro n; rw [Returns.firstOf_succ]; simp
  have key : ∀ m n, μ ((firstOf σ n).foldl step s) = m → ∃ n, ∀ k, idle ((firstOf σ n).foldl step s) k := by
    intro m
    induction m using Nat.strongRecOn with
    | _ m ih =>
      intro n hm
      by_cases hall : ∀ k, idle ((firstOf σ n).foldl step s) k
      · exact ⟨n, hall⟩
      · obtain ⟨k, hk⟩ := Classical.not_forall.1 hall
        -- until `k` has its turn, something gets less or `k` can still move
        have wait : ∀ d, (∀ j, j < d → σ (n + j) ≠ adv k) →
            (∃ n', μ ((firstOf σ n').foldl step s) < m) ∨ μ ((firstOf σ (n + d)).foldl step s) = m ∧ ¬ idle ((firstOf σ (n + d)).foldl step s) k := by
          intro d
          induction d with
          | zero => intro _; exact .inr ⟨hm, hk⟩
          | succ d ihd =>
            intro hne
            rcases ihd (fun j hj => hne j (by omega)) with h | ⟨h1, h2⟩
            · exact .inl h
            · rcases keep ((firstOf σ (n + d)).foldl step s) (σ (n + d)) (hσ _) with h | ⟨h3, h4⟩
              · exact .inl ⟨n + d + 1, by rw [next]; omega⟩
              · right
                rw [← Nat.add_assoc, next]
                exact ⟨by omega, h4 k h2 (hne d (by omega))⟩
        obtain ⟨m', hm', he⟩ := fair k n
        -- the first turn of `k` from `n` on
        have first : ∃ d, σ (n + d) = adv k ∧ ∀ j, j < d → σ (n + j) ≠ adv k := by
          have : ∀ d, σ (n + d) = adv k → ∃ d, σ (n + d) = adv k ∧ ∀ j, j < d → σ (n + j) ≠ adv k := by
            intro d
            induction d using Nat.strongRecOn with
            | _ d ih =>
              intro h
              by_cases hj : ∃ j, j < d ∧ σ (n + j) = adv k
              · obtain ⟨j, h1, h2⟩ := hj
                exact ih j h1 h2
              · exact ⟨d, h, fun j h1 h2 => hj ⟨j, h1, h2⟩⟩
          exact this (m' - n) (by rw [show n + (m' - n) = m' by omega]; exact he)
        obtain ⟨d, hd, hne⟩ := first
        rcases wait d hne with ⟨n', h⟩ | ⟨h1, h2⟩
        · exact ih _ h n' rfl
        · have := dec _ k h2
          rw [← hd, ← next] at this
          exact ih _ (by omega) (n + d + 1) rfl
  exact key _ 0 rfl

/-- The steps left to a call of an acknowledgement function. -/
def onceLeft : Once.Pc → Nat
  | .start => 3
  | .inside => 2
  | .written => 1
  | .returned => 0

/-- The call cannot move: it has returned, or another is running. -/
def onceIdle {α : Type} (s : Once.St α) (k : Nat) : Prop :=
  match s.calls[k]? with
  | none => True
  | some (_, .returned) => True
  | some (_, .start) => ∃ j, s.once = .running j
  | _ => False

theorem once_settles {α : Type} (mk : List Val → α) (σ : Nat → Once.Ev) (only : ∀ n args, σ n ≠ .call args)
    (fair : ∀ k, AgainAndAgain (.adv k) σ) (s : Once.St α) : ∃ n, ∀ k, onceIdle ((firstOf σ n).foldl (Once.step mk) s) k := by
  have dec : ∀ (s : Once.St α) k, ¬ onceIdle s k →
      ((Once.step mk s (.adv k)).calls.map fun c => onceLeft c.2).sum < (s.calls.map fun c => onceLeft c.2).sum := by
    intro s k hk
    simp only [onceIdle] at hk
    cases hc : s.calls[k]? with
    | none => simp [hc] at hk
    | some c =>
      obtain ⟨args, pc⟩ := c
      simp only [Once.step, hc, Once.advCall]
      have less (y : List Val × Once.Pc) (h : onceLeft y.2 < onceLeft pc) :
          ((s.calls.set k y).map fun c => onceLeft c.2).sum < (s.calls.map fun c => onceLeft c.2).sum := by
        have := sum_set (fun c : List Val × Once.Pc => onceLeft c.2) s.calls k (args, pc) y hc
        simp only at this
        omega
      cases pc with
      | start =>
        cases ho : s.once with
        | fresh => exact less _ (by simp [onceLeft])
        | running j => simp [hc, ho] at hk
        | done => exact less _ (by simp [onceLeft])
      | inside => exact less _ (by simp [onceLeft])
      | written => exact less _ (by simp [onceLeft])
      | returned => simp [hc] at hk
  refine settles (Once.step mk) (.adv ·) (fun s => (s.calls.map fun c => onceLeft c.2).sum) onceIdle (fun e => ∀ args, e ≠ .call args)
    ?_ dec σ only fair s
  intro s e he
  cases e with
  | call args => exact absurd rfl (he args)
  | adv j =>
    by_cases hj : onceIdle s j
    · right
      have : Once.step mk s (.adv j) = s := by
        simp only [onceIdle] at hj
        simp only [Once.step]
        cases hc : s.calls[j]? with
        | none => rfl
        | some c =>
          obtain ⟨args, pc⟩ := c
          cases pc with
          | start =>
            rw [hc] at hj
            obtain ⟨i, hi⟩ := hj
            simp [Once.advCall, hi]
          | returned => rfl
          | inside => rw [hc] at hj; exact hj.elim
          | written => rw [hc] at hj; exact hj.elim
      rw [this]
      exact ⟨rfl, fun _ h _ => h⟩
    · exact .inl (dec s j hj)

/-- The steps left to a write. -/
def writeLeft : Writer.Job × Writer.Pc → Nat
  | (j, .start) => j.frames.length + 4
  | (j, .waiting) => j.frames.length + 3
  | (j, .locked) => j.frames.length + 2
  | (j, .writing n) => j.frames.length - n + 1
  | (_, .done) => 0
  | (_, .dropped _) => 0

/-- The write cannot move: it has ended, or another has the lock. -/
def writeIdle (s : Writer.St) (k : Nat) : Prop :=
  match s.jobs[k]? with
  | none => True
  | some (_, .done) => True
  | some (_, .dropped _) => True
  | some (_, .waiting) => ∃ i, s.lock = some i
  | _ => False

theorem write_same (s : Writer.St) (k : Nat) (h : writeIdle s k) : Writer.step s (.adv k) = s := by
  simp only [writeIdle] at h
  simp only [Writer.step]
  cases hc : s.jobs[k]? with
  | none => rfl
  | some c =>
    obtain ⟨j, pc⟩ := c
    rw [hc] at h
    cases pc with
    | done => rfl
    | dropped d => rfl
    | waiting => obtain ⟨i, hi⟩ := h; simp [Writer.advJob, hi]
    | start => exact h.elim
    | locked => exact h.elim
    | writing n => exact h.elim

theorem write_settles (σ : Nat → Writer.Ev) (only : ∀ n j, σ n ≠ .write j) (fair : ∀ k, AgainAndAgain (.adv k) σ) (s : Writer.St) :
    ∃ n, ∀ k, writeIdle ((firstOf σ n).foldl Writer.step s) k := by
  have dec : ∀ (s : Writer.St) k, ¬ writeIdle s k → ((Writer.step s (.adv k)).jobs.map writeLeft).sum < (s.jobs.map writeLeft).sum := by
    intro s k hk
    simp only [writeIdle] at hk
    cases hc : s.jobs[k]? with
    | none => simp [hc] at hk
    | some c =>
      obtain ⟨j, pc⟩ := c
      simp only [Writer.step, hc]
      have less (y : Writer.Job × Writer.Pc) (h : writeLeft y < writeLeft (j, pc)) :
          ((s.jobs.set k y).map writeLeft).sum < (s.jobs.map writeLeft).sum := by
        have := sum_set writeLeft s.jobs k (j, pc) y hc
        omega
      cases pc with
      | start =>
        simp only [Writer.advJob]
        split
        · exact less _ (by simp [writeLeft])
        · exact less _ (by simp [writeLeft])
      | waiting =>
        cases hl : s.lock with
        | none => simp only [Writer.advJob, hl]; exact less _ (by simp [writeLeft])
        | some i => simp [hc, hl] at hk
      | locked =>
        simp only [Writer.advJob]
        split
        · exact less _ (by simp [writeLeft])
        · exact less _ (by simp [writeLeft])
      | writing n =>
        simp only [Writer.advJob]
        split
        · rename_i f hf
          have := (List.getElem?_eq_some_iff.1 hf).1
          exact less _ (by simp only [writeLeft]; omega)
        · exact less _ (by simp [writeLeft])
      | done => simp [hc] at hk
      | dropped d => simp [hc] at hk
  refine settles Writer.step (.adv ·) (fun s => (s.jobs.map writeLeft).sum) writeIdle (fun e => ∀ j, e ≠ .write j) ?_ dec σ only fair s
  intro s e he
  cases e with
  | write j => exact absurd rfl (he j)
  | setOpen b => exact .inr ⟨rfl, fun k hk _ => hk⟩
  | setWritable b => exact .inr ⟨rfl, fun k hk _ => hk⟩
  | adv j =>
    by_cases hj : writeIdle s j
    · right
      rw [write_same s j hj]
      exact ⟨rfl, fun _ h _ => h⟩
    · exact .inl (dec s j hj)

end Verif.Settle
