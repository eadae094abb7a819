import Verif.Model.Writer
import Verif.Lib.ListExtra

/-! # Invariants of the writing machine -/

namespace Verif.Writer
open Verif

/-- Frames of job `k`. -/
def framesOf (s : St) (k : Nat) : List String :=
  match s.jobs[k]? with
  | some (j, _) => j.frames
  | none => []

/-- What the holder of the lock has written so far. -/
def partialOf (s : St) : List String :=
  match s.lock with
  | none => []
  | some k => match s.jobs[k]? with
    | some (j, .writing n) => j.frames.take n
    | _ => []

structure Inv (s : St) (order : List Nat) : Prop where
  wire : s.wire = order.flatMap (framesOf s) ++ partialOf s
  nodup : order.Nodup
  done : ∀ (k : Nat), k ∈ order ↔ ∃ j, s.jobs[k]? = some (j, .done)
  holder : ∀ (k : Nat), s.lock = some k ↔
    (∃ j, s.jobs[k]? = some (j, .locked)) ∨ (∃ j n, s.jobs[k]? = some (j, .writing n))
  bound : ∀ (k : Nat) (j : Job) (n : Nat), s.jobs[k]? = some (j, .writing n) → n ≤ j.frames.length

theorem inv_init : Inv {} [] := by
  constructor <;> simp [partialOf]

theorem framesOf_append (s : St) (x : Job × Pc) (k : Nat) (hk : ∃ y, s.jobs[k]? = some y) :
    framesOf { s with jobs := s.jobs ++ [x] } k = framesOf s k := by
  obtain ⟨y, hy⟩ := hk
  have hlt : k < s.jobs.length := (List.getElem?_eq_some_iff.1 hy).1
  simp only [framesOf, List.getElem?_append_left hlt]

theorem framesOf_set (s : St) (j : Job) (pc pc' : Pc) (k i : Nat) (hk : s.jobs[k]? = some (j, pc)) :
    framesOf { s with jobs := s.jobs.set k (j, pc') } i = framesOf s i := by
  have hlt : k < s.jobs.length := (List.getElem?_eq_some_iff.1 hk).1
  simp only [framesOf, List.getElem?_set]
  by_cases h : k = i
  · subst h; simp only [hlt, if_true, hk]
  · simp only [h, if_false]

theorem flatMap_congr' {α β} {f g : α → List β} {l : List α} (h : ∀ x ∈ l, f x = g x) :
    l.flatMap f = l.flatMap g := by
  induction l with
  | nil => rfl
  | cons a l ih =>
    rw [List.flatMap_cons, List.flatMap_cons, h a (by simp), ih (fun x hx => h x (by simp [hx]))]

theorem inv_step (s : St) (order : List Nat) (h : Inv s order) (e : Ev) :
    ∃ more, Inv (step s e) (order ++ more) := by
  cases e with
  | setOpen b => exact ⟨[], by simpa [step] using ⟨h.wire, h.nodup, h.done, h.holder, h.bound⟩⟩
  | setWritable b => exact ⟨[], by simpa [step] using ⟨h.wire, h.nodup, h.done, h.holder, h.bound⟩⟩
  | write j =>
    refine ⟨[], ?_⟩
    rw [List.append_nil]
    have key : ∀ (k : Nat) (j' : Job) (pc : Pc), pc ≠ .start →
        ((s.jobs ++ [(j, Pc.start)])[k]? = some (j', pc) ↔ s.jobs[k]? = some (j', pc)) := by
      intro k j' pc hpc
      rw [List.getElem?_append]
      split
      · rfl
      · rename_i hk
        rw [List.getElem?_eq_none (Nat.le_of_not_lt hk)]
        constructor
        · intro hh
          rcases List.getElem?_eq_some_iff.1 hh with ⟨h1, h2⟩
          have : k - s.jobs.length = 0 := by simpa using h1
          simp [this] at hh
          exact absurd hh.2.symm hpc
        · simp
    have hpart : partialOf (step s (.write j)) = partialOf s := by
      simp only [partialOf, step]
      cases hl : s.lock with
      | none => rfl
      | some k =>
        rcases (h.holder k).1 hl with ⟨j', hj'⟩ | ⟨j', n, hj'⟩
        · simp only [(key k j' .locked (by simp)).2 hj', hj']
        · simp only [(key k j' (.writing n) (by simp)).2 hj', hj']
    constructor
    · rw [hpart]
      show s.wire = _
      rw [h.wire]
      congr 1
      apply flatMap_congr'
      intro k hk
      obtain ⟨j', hj'⟩ := (h.done k).1 hk
      exact (framesOf_append s _ k ⟨_, hj'⟩).symm
    · exact h.nodup
    · intro k
      rw [h.done]
      constructor
      · rintro ⟨j', hj'⟩; exact ⟨j', (key k j' .done (by simp)).2 hj'⟩
      · rintro ⟨j', hj'⟩; exact ⟨j', (key k j' .done (by simp)).1 hj'⟩
    · intro k
      show s.lock = some k ↔ _
      rw [h.holder]
      constructor
      · rintro (⟨j', hj'⟩ | ⟨j', n, hj'⟩)
        · exact .inl ⟨j', (key k j' _ (by simp)).2 hj'⟩
        · exact .inr ⟨j', n, (key k j' _ (by simp)).2 hj'⟩
      · rintro (⟨j', hj'⟩ | ⟨j', n, hj'⟩)
        · exact .inl ⟨j', (key k j' _ (by simp)).1 hj'⟩
        · exact .inr ⟨j', n, (key k j' _ (by simp)).1 hj'⟩
    · intro k j' n hk
      exact h.bound k j' n ((key k j' _ (by simp)).1 hk)
  | adv k =>
    simp only [step]
    cases hk : s.jobs[k]? with
    | none => exact ⟨[], by simpa using h⟩
    | some p =>
      obtain ⟨j, pc⟩ := p
      have hlt : k < s.jobs.length := (List.getElem?_eq_some_iff.1 hk).1
      have get : ∀ (pc' : Pc) (i : Nat), (s.jobs.set k (j, pc'))[i]? =
          if k = i then some (j, pc') else s.jobs[i]? := by
        intro pc' i
        rw [List.getElem?_set]
        by_cases hi : k = i
        · simp [hi, hi ▸ hlt]
        · simp [hi]
      have hfm : ∀ (pc' : Pc) (l : List Nat) (lk : Option Nat) (w : List String),
          l.flatMap (framesOf { s with jobs := s.jobs.set k (j, pc'), lock := lk, wire := w }) =
          l.flatMap (framesOf s) := by
        intro pc' l lk w
        apply flatMap_congr'
        intro i _
        exact framesOf_set s j pc pc' k i hk
      have nodone : pc ≠ .done → k ∉ order := by
        intro hne hin
        obtain ⟨j', hj'⟩ := (h.done k).1 hin
        rw [hk] at hj'
        simp at hj'
        exact hne hj'.2
      -- a change of the state of `k` that neither takes nor releases the lock nor finishes
      cases pc with
      | start =>
        simp only [advJob]
        have nl : s.lock ≠ some k := by
          intro hl
          rcases (h.holder k).1 hl with ⟨j', hj'⟩ | ⟨j', n, hj'⟩ <;> rw [hk] at hj' <;> simp at hj'
        have gen : ∀ pc', pc' ≠ .done → pc' ≠ .locked → (∀ n, pc' ≠ .writing n) →
            Inv { s with jobs := s.jobs.set k (j, pc') } order := by
          intro pc' h1 h2 h3
          constructor
          · show s.wire = _
            rw [h.wire]
            congr 1
            · exact (hfm pc' order s.lock s.wire).symm
            · simp only [partialOf]
              cases hl : s.lock with
              | none => rfl
              | some i =>
                have : k ≠ i := fun e => nl (e ▸ hl)
                simp only [get, this, if_false]
          · exact h.nodup
          · intro i
            simp only [get]
            by_cases hi : k = i
            · subst hi
              simp only [if_true]
              constructor
              · intro hin; exact absurd hin (nodone (by simp))
              · rintro ⟨j', hj'⟩; simp at hj'; exact absurd hj'.2 h1
            · simp only [hi, if_false]; exact h.done i
          · intro i
            simp only [get]
            by_cases hi : k = i
            · subst hi
              simp only [if_true]
              constructor
              · intro hin; exact absurd hin nl
              · rintro (⟨j', hj'⟩ | ⟨j', n, hj'⟩) <;> simp at hj'
                · exact absurd hj'.2 h2
                · exact absurd hj'.2 (h3 n)
            · simp only [hi, if_false]; exact h.holder i
          · intro i j' n
            simp only [get]
            by_cases hi : k = i
            · simp only [hi, if_true]
              intro hj'; simp at hj'; exact absurd hj'.2 (h3 n)
            · simp only [hi, if_false]; exact h.bound i j' n
        split
        · exact ⟨[], by rw [List.append_nil]; exact gen _ (by simp) (by simp) (by simp)⟩
        · exact ⟨[], by rw [List.append_nil]; exact gen _ (by simp) (by simp) (by simp)⟩
      | waiting =>
        simp only [advJob]
        cases hl : s.lock with
        | some i => exact ⟨[], by simpa using h⟩
        | none =>
          refine ⟨[], ?_⟩
          rw [List.append_nil]
          have hw : s.wire = order.flatMap (framesOf s) := by
            have := h.wire; simp only [partialOf, hl] at this; simpa using this
          constructor
          · show s.wire = _
            rw [hw]
            rw [hfm]
            simp only [partialOf, get, if_true, List.append_nil]
          · exact h.nodup
          · intro i
            simp only [get]
            by_cases hi : k = i
            · subst hi
              simp only [if_true]
              constructor
              · intro hin; exact absurd hin (nodone (by simp))
              · rintro ⟨j', hj'⟩; simp at hj'
            · simp only [hi, if_false]; exact h.done i
          · intro i
            simp only [get]
            by_cases hi : k = i
            · subst hi
              simp
            · have hold := (h.holder i)
              rw [hl] at hold
              simp only [hi, if_false]
              rw [← hold]
              simp [hi]
          · intro i j' n
            simp only [get]
            by_cases hi : k = i
            · simp [hi]
            · simp only [hi, if_false]; exact h.bound i j' n
      | locked =>
        have hl : s.lock = some k := (h.holder k).2 (.inl ⟨j, hk⟩)
        have only : ∀ i, i ≠ k → (¬ ∃ j', s.jobs[i]? = some (j', .locked)) ∧
            ¬ ∃ j' n, s.jobs[i]? = some (j', .writing n) := by
          intro i hi
          constructor
          · intro hh; have := (h.holder i).2 (.inl hh); rw [hl] at this; simp at this; exact hi this.symm
          · intro hh; have := (h.holder i).2 (.inr hh); rw [hl] at this; simp at this; exact hi this.symm
        have hw : s.wire = order.flatMap (framesOf s) := by
          have := h.wire; simp only [partialOf, hl, hk] at this; simpa using this
        simp only [advJob]
        split
        · refine ⟨[], ?_⟩
          rw [List.append_nil]
          constructor
          · show s.wire = _
            rw [hw, hfm]
            simp only [partialOf, List.append_nil]
          · exact h.nodup
          · intro i
            simp only [get]
            by_cases hi : k = i
            · subst hi
              simp only [if_true]
              constructor
              · intro hin; exact absurd hin (nodone (by simp))
              · rintro ⟨j', hj'⟩; simp at hj'
            · simp only [hi, if_false]; exact h.done i
          · intro i
            simp only [get]
            by_cases hi : k = i
            · simp [hi]
            · simp only [hi, if_false]
              have := only i (Ne.symm hi)
              constructor
              · simp
              · rintro (hh | hh)
                · exact absurd hh this.1
                · exact absurd hh this.2
          · intro i j' n
            simp only [get]
            by_cases hi : k = i
            · simp [hi]
            · simp only [hi, if_false]; exact h.bound i j' n
        · refine ⟨[], ?_⟩
          rw [List.append_nil]
          constructor
          · show s.wire = _
            rw [hw, hfm]
            simp only [partialOf, hl, get, if_true, List.take_zero, List.append_nil]
          · exact h.nodup
          · intro i
            simp only [get]
            by_cases hi : k = i
            · subst hi
              simp only [if_true]
              constructor
              · intro hin; exact absurd hin (nodone (by simp))
              · rintro ⟨j', hj'⟩; simp at hj'
            · simp only [hi, if_false]; exact h.done i
          · intro i
            simp only [get]
            by_cases hi : k = i
            · subst hi; simp [hl]
            · simp only [hi, if_false]; exact h.holder i
          · intro i j' n
            simp only [get]
            by_cases hi : k = i
            · simp only [hi, if_true]; intro hj'; simp at hj'; rw [← hj'.2]; exact Nat.zero_le _
            · simp only [hi, if_false]; exact h.bound i j' n
      | writing n =>
        have hl : s.lock = some k := (h.holder k).2 (.inr ⟨j, n, hk⟩)
        have only : ∀ i, i ≠ k → (¬ ∃ j', s.jobs[i]? = some (j', .locked)) ∧
            ¬ ∃ j' n, s.jobs[i]? = some (j', .writing n) := by
          intro i hi
          constructor
          · intro hh; have := (h.holder i).2 (.inl hh); rw [hl] at this; simp at this; exact hi this.symm
          · intro hh; have := (h.holder i).2 (.inr hh); rw [hl] at this; simp at this; exact hi this.symm
        have hw : s.wire = order.flatMap (framesOf s) ++ j.frames.take n := by
          have := h.wire; simp only [partialOf, hl, hk] at this; exact this
        simp only [advJob]
        cases hf : j.frames[n]? with
        | some f =>
          have hnlt : n < j.frames.length := (List.getElem?_eq_some_iff.1 hf).1
          refine ⟨[], ?_⟩
          rw [List.append_nil]
          constructor
          · show s.wire ++ [f] = _
            rw [hw, hfm]
            simp only [partialOf, hl, get, if_true]
            rw [List.append_assoc]
            congr 1
            rw [List.take_add_one, hf]
            rfl
          · exact h.nodup
          · intro i
            simp only [get]
            by_cases hi : k = i
            · subst hi
              simp only [if_true]
              constructor
              · intro hin; exact absurd hin (nodone (by simp))
              · rintro ⟨j', hj'⟩; simp at hj'
            · simp only [hi, if_false]; exact h.done i
          · intro i
            simp only [get]
            by_cases hi : k = i
            · subst hi; simp [hl]
            · simp only [hi, if_false]; exact h.holder i
          · intro i j' n'
            simp only [get]
            by_cases hi : k = i
            · simp only [hi, if_true]; intro hj'; simp at hj'; rw [← hj'.1, ← hj'.2]; exact hnlt
            · simp only [hi, if_false]; exact h.bound i j' n'
        | none =>
          have hnge : j.frames.length ≤ n := List.getElem?_eq_none_iff.1 hf
          refine ⟨[k], ?_⟩
          constructor
          · show s.wire = _
            rw [hw, hfm, List.flatMap_append, List.take_of_length_le hnge]
            simp only [partialOf, List.append_nil, List.flatMap_cons, List.flatMap_nil]
            congr 1
            simp only [framesOf, hk]
          · rw [List.nodup_append]
            refine ⟨h.nodup, by simp, ?_⟩
            intro a ha b hb
            simp at hb; subst hb
            intro e; subst e
            exact nodone (by simp) ha
          · intro i
            simp only [get]
            by_cases hi : k = i
            · subst hi; simp
            · simp only [hi, if_false]
              rw [← h.done i]
              simp [Ne.symm hi]
          · intro i
            simp only [get]
            by_cases hi : k = i
            · simp [hi]
            · simp only [hi, if_false]
              have := only i (Ne.symm hi)
              constructor
              · simp
              · rintro (hh | hh)
                · exact absurd hh this.1
                · exact absurd hh this.2
          · intro i j' n
            simp only [get]
            by_cases hi : k = i
            · simp [hi]
            · simp only [hi, if_false]; exact h.bound i j' n
      | done => exact ⟨[], by simpa [advJob] using h⟩
      | dropped d => exact ⟨[], by simpa [advJob] using h⟩

theorem run_append (h1 h2 : List Ev) : run (h1 ++ h2) = h2.foldl step (run h1) := by
  simp [run, List.foldl_append]

theorem inv_fold (h : List Ev) (s : St) (o : List Nat) (hi : Inv s o) :
    ∃ more, Inv (h.foldl step s) (o ++ more) := by
  induction h generalizing s o with
  | nil => exact ⟨[], by simpa using hi⟩
  | cons e h ih =>
    obtain ⟨m1, h1⟩ := inv_step s o hi e
    obtain ⟨m2, h2⟩ := ih _ _ h1
    exact ⟨m1 ++ m2, by rw [← List.append_assoc]; exact h2⟩

theorem inv_run (h : List Ev) : ∃ o, Inv (run h) o := by
  obtain ⟨m, hm⟩ := inv_fold h {} [] inv_init
  exact ⟨m, by simpa [run] using hm⟩

end Verif.Writer
