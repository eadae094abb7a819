import Verif.Lib.ListExtra
import Verif.Spec.MidRace
import Verif.Proof.AcksEnd
import Verif.Proof.Returns

/-! # Invariants of `Model/MidRace` -/

namespace Verif.MidRace
open Verif Verif.Spec

theorem run_snoc (h : List Ev) (e : Ev) : run (h ++ [e]) = step (run h) e := by simp [run]

theorem fns_run (h : List Ev) : (run h).fns = usedIn h := by
  induction h using snocRec with
  | nil => rfl
  | append_singleton h e ih =>
    rw [run_snoc, usedIn, List.filterMap_append, ← usedIn, ← ih]
    cases e with
    | use f => rfl
    | begin => simp [step]
    | adv j => simp only [step]; split <;> simp
    | next j i ok => simp only [step]; split <;> (try split) <;> simp

theorem length_step (s : St) (e : Ev) : (step s e).runs.length = s.runs.length + clientsIn [e] := by
  cases e with
  | use f => rfl
  | begin => simp [step, clientsIn]
  | adv j => simp only [step]; split <;> simp [clientsIn]
  | next j i ok => simp only [step]; split <;> (try split) <;> simp [clientsIn]

theorem clients_append (h t : List Ev) : clientsIn (h ++ t) = clientsIn h + clientsIn t := by
  induction h with
  | nil => simp [clientsIn]
  | cons e h ih => cases e <;> simp [clientsIn, ih] <;> omega

theorem length_run (h : List Ev) : (run h).runs.length = clientsIn h := by
  induction h using snocRec with
  | nil => rfl
  | append_singleton h e ih => rw [run_snoc, length_step, clients_append, ih]

/-- The run an entry is about. -/
def about : Obs → Nat
  | .called j _ _ => j
  | .answered j _ _ => j
  | .over j _ => j

/-- What is so of the entries about a run with these middlewares. -/
structure Book (j : Nat) (L : List Nat) (log : List Obs) : Prop where
  called : ∀ i f, .called j i f ∈ log → L[i]? = some f ∧ ∀ i', i' < i → .answered j i' true ∈ log
  passed : .over j true ∈ log → ∀ i, i < L.length → .answered j i true ∈ log
  refused : .over j false ∈ log → ∃ i, .answered j i false ∈ log
  answered : ∀ i ok, .answered j i ok ∈ log → (∃ f, .called j i f ∈ log) ∧ onNext j i L ok ∈ log
  began : first j L ∈ log

theorem about_first (j : Nat) (L : List Nat) : about (first j L) = j := by cases L <;> rfl
theorem about_next (j i : Nat) (L : List Nat) (ok : Bool) : about (onNext j i L ok) = j := by
  cases ok with
  | false => rfl
  | true => simp only [onNext]; split <;> rfl

/-- Entries about other runs change nothing. -/
theorem book_more {j : Nat} {L : List Nat} {log more : List Obs} (b : Book j L log) (h : ∀ x ∈ more, about x ≠ j) : Book j L (log ++ more) := by
  have old : ∀ x, about x = j → x ∈ log ++ more → x ∈ log := fun x hx hm =>
    (List.mem_append.1 hm).resolve_right fun hm => h x hm hx
  have new : ∀ x, x ∈ log → x ∈ log ++ more := fun x hx => List.mem_append_left _ hx
  refine ⟨fun i f hm => ?_, fun hm i hi => ?_, fun hm => ?_, fun i ok hm => ?_, new _ b.began⟩
  · obtain ⟨h1, h2⟩ := b.called i f (old _ rfl hm); exact ⟨h1, fun i' hi => new _ (h2 i' hi)⟩
  · exact new _ (b.passed (old _ rfl hm) i hi)
  · obtain ⟨i, hi⟩ := b.refused (old _ rfl hm); exact ⟨i, new _ hi⟩
  · obtain ⟨⟨f, h1⟩, h2⟩ := b.answered i ok (old _ rfl hm); exact ⟨⟨f, new _ h1⟩, new _ h2⟩

/-- The run begins. -/
theorem book_first {j : Nat} {log : List Obs} (L : List Nat) (h : ∀ x ∈ log, about x ≠ j) : Book j L (log ++ [first j L]) := by
  have only : ∀ x, about x = j → x ∈ log ++ [first j L] → x = first j L := fun x hx hm => by
    rcases List.mem_append.1 hm with hm | hm
    · exact absurd hx (h x hm)
    · simpa using hm
  refine ⟨fun i f hm => ?_, fun hm i hi => ?_, fun hm => ?_, fun i ok hm => ?_, by simp⟩
  · have := only _ rfl hm
    cases L with
    | nil => cases this
    | cons g L => cases this; exact ⟨rfl, fun i' hi => by omega⟩
  · have := only _ rfl hm
    cases L with
    | nil => simp at hi
    | cons g L => cases this
  · have := only _ rfl hm
    cases L <;> cases this
  · have := only _ rfl hm
    cases L <;> cases this

/-- A middleware of the run calls `next`. -/
theorem book_next {j : Nat} {L : List Nat} {log : List Obs} (b : Book j L log) (i : Nat) (ok : Bool) (f : Nat) (hc : .called j i f ∈ log) :
    Book j L (log ++ [.answered j i ok, onNext j i L ok]) := by
  have new : ∀ x, x ∈ log → x ∈ log ++ [.answered j i ok, onNext j i L ok] := fun x hx => List.mem_append_left _ hx
  have ha : Obs.answered j i ok ∈ log ++ [.answered j i ok, onNext j i L ok] := by simp
  obtain ⟨c1, c2⟩ := b.called i f hc
  have split : ∀ x, x ∈ log ++ [.answered j i ok, onNext j i L ok] → x ∈ log ∨ x = .answered j i ok ∨ x = onNext j i L ok := fun x hx => by
    simpa using hx
  refine ⟨fun i1 f1 hm => ?_, fun hm i1 hi => ?_, fun hm => ?_, fun i1 ok1 hm => ?_, new _ b.began⟩
  · rcases split _ hm with hm | hm | hm
    · obtain ⟨h1, h2⟩ := b.called i1 f1 hm; exact ⟨h1, fun i' hi => new _ (h2 i' hi)⟩
    · cases hm
    · cases ok with
      | false => cases hm
      | true =>
        simp only [onNext] at hm
        cases hg : L[i + 1]? with
        | none => rw [hg] at hm; cases hm
        | some g =>
          rw [hg] at hm; cases hm
          refine ⟨hg, fun i' hi => ?_⟩
          by_cases he : i' = i
          · subst he; exact ha
          · exact new _ (c2 i' (by omega))
  · rcases split _ hm with hm | hm | hm
    · exact new _ (b.passed hm i1 hi)
    · cases hm
    · cases ok with
      | false => cases hm
      | true =>
        simp only [onNext] at hm
        cases hg : L[i + 1]? with
        | some g => rw [hg] at hm; cases hm
        | none =>
          have := List.getElem?_eq_none_iff.1 hg
          by_cases he : i1 = i
          · subst he; exact ha
          · exact new _ (c2 i1 (by omega))
  · rcases split _ hm with hm | hm | hm
    · obtain ⟨i1, hi⟩ := b.refused hm; exact ⟨i1, new _ hi⟩
    · cases hm
    · cases ok with
      | false => exact ⟨i, ha⟩
      | true =>
        simp only [onNext] at hm
        split at hm <;> cases hm
  · rcases split _ hm with hm | hm | hm
    · obtain ⟨⟨f, h1⟩, h2⟩ := b.answered i1 ok1 hm; exact ⟨⟨f, new _ h1⟩, new _ h2⟩
    · cases hm; exact ⟨⟨f, new _ hc⟩, by simp⟩
    · have := about_next j i L ok
      cases ok with
      | false => cases hm
      | true => simp only [onNext] at hm; split at hm <;> cases hm

/-- Where the run of a client is that came after `p`. -/
inductive At (p q : List Ev) : Prop where
  | fresh (h : (run (p ++ .begin :: q)).runs[clientsIn p]? = some none)
      (no : ∀ x ∈ (run (p ++ .begin :: q)).log, about x ≠ clientsIn p)
  | going (q₁ q₂ : List Ev) (hq : q = q₁ ++ q₂) (h : (run (p ++ .begin :: q)).runs[clientsIn p]? = some (some (usedIn (p ++ q₁))))
      (book : Book (clientsIn p) (usedIn (p ++ q₁)) (run (p ++ .begin :: q)).log)

theorem log_lt (h : List Ev) : ∀ x ∈ (run h).log, about x < clientsIn h := by
  rw [← length_run]
  induction h using snocRec with
  | nil => intro x hx; cases hx
  | append_singleton h e ih =>
    rw [run_snoc]
    have hl := length_step (run h) e
    have up : ∀ x ∈ (run h).log, about x < (step (run h) e).runs.length := fun x hx => by have := ih x hx; omega
    cases e with
    | use f => exact up
    | begin => exact up
    | adv j =>
      simp only [step] at up ⊢
      split
      · next hj =>
        simp only [hj] at up
        intro x hx
        rcases List.mem_append.1 hx with hx | hx
        · exact up x hx
        · simp only [List.mem_singleton] at hx
          rw [hx, about_first]
          simpa using (List.getElem?_eq_some_iff.1 hj).1
      · exact ih
    | next j i ok =>
      simp only [step]
      split
      · next fns hj =>
        split
        · intro x hx
          have hlt := (List.getElem?_eq_some_iff.1 hj).1
          simp only [List.mem_append, List.mem_cons, List.not_mem_nil, or_false] at hx
          rcases hx with hx | hx | hx
          · exact ih x hx
          · rw [hx]; exact hlt
          · rw [hx, about_next]; exact hlt
        · exact ih
      · exact ih

theorem used_begin (p q : List Ev) : usedIn (p ++ .begin :: q) = usedIn (p ++ q) := by simp [usedIn]

theorem at_run (p q : List Ev) : At p q := by
  induction q using snocRec with
  | nil =>
    refine .fresh ?_ fun x hx => ?_
    · rw [run_snoc, ← length_run]; simp [step]
    · rw [run_snoc] at hx
      have := log_lt p x hx
      omega
  | append_singleton q e ih =>
    have hs : run (p ++ .begin :: (q ++ [e])) = step (run (p ++ .begin :: q)) e := by
      rw [show p ++ .begin :: (q ++ [e]) = (p ++ .begin :: q) ++ [e] by simp, run_snoc]
    have hf := fns_run (p ++ .begin :: q)
    rw [used_begin] at hf
    generalize hS : run (p ++ .begin :: q) = s at hs hf ih
    cases ih with
    | fresh h no =>
      rw [hS] at h no
      cases e with
      | use f => exact .fresh (by rw [hs]; exact h) (by rw [hs]; exact no)
      | begin =>
        refine .fresh ?_ (by rw [hs]; exact no)
        rw [hs]; simp only [step]
        rw [List.getElem?_append_left (List.getElem?_eq_some_iff.1 h).1]; exact h
      | adv k =>
        by_cases hk : k = clientsIn p
        · subst hk
          have e1 : step s (.adv (clientsIn p)) =
              { s with runs := s.runs.set (clientsIn p) (some s.fns), log := s.log ++ [first (clientsIn p) s.fns] } := by
            simp only [step, h]
          refine .going q [.adv (clientsIn p)] rfl ?_ ?_
          · rw [hs, e1, ← hf]; simp [(List.getElem?_eq_some_iff.1 h).1]
          · rw [hs, e1, ← hf]; exact book_first _ no
        · refine .fresh ?_ ?_
          · rw [hs]; simp only [step]; split
            · simp only; rw [List.getElem?_set_ne hk]; exact h
            · exact h
          · rw [hs]; simp only [step]; split
            · intro x hx
              rcases List.mem_append.1 hx with hx | hx
              · exact no x hx
              · simp only [List.mem_singleton] at hx; rw [hx, about_first]; exact hk
            · exact no
      | next k i ok =>
        have hk : step s (.next k i ok) = s ∨ k ≠ clientsIn p := by
          by_cases hk : k = clientsIn p
          · subst hk; exact .inl (by simp only [step, h])
          · exact .inr hk
        rcases hk with hk | hk
        · exact .fresh (by rw [hs, hk]; exact h) (by rw [hs, hk]; exact no)
        · refine .fresh ?_ ?_
          · rw [hs]; simp only [step]; split <;> (try split) <;> exact h
          · rw [hs]; simp only [step]; split
            · split
              · intro x hx
                simp only [List.mem_append, List.mem_cons, List.not_mem_nil, or_false] at hx
                rcases hx with hx | hx | hx
                · exact no x hx
                · rw [hx]; exact hk
                · rw [hx, about_next]; exact hk
              · exact no
            · exact no
    | going q₁ q₂ hq h book =>
      rw [hS] at h book
      have hq' : q ++ [e] = q₁ ++ (q₂ ++ [e]) := by rw [hq, List.append_assoc]
      cases e with
      | use f => exact .going q₁ _ hq' (by rw [hs]; exact h) (by rw [hs]; exact book)
      | begin =>
        refine .going q₁ _ hq' ?_ (by rw [hs]; exact book)
        rw [hs]; simp only [step]
        rw [List.getElem?_append_left (List.getElem?_eq_some_iff.1 h).1]; exact h
      | adv k =>
        by_cases hk : k = clientsIn p
        · subst hk
          have e1 : step s (.adv (clientsIn p)) = s := by simp only [step, h]
          exact .going q₁ _ hq' (by rw [hs, e1]; exact h) (by rw [hs, e1]; exact book)
        · refine .going q₁ _ hq' ?_ ?_
          · rw [hs]; simp only [step]; split
            · simp only; rw [List.getElem?_set_ne hk]; exact h
            · exact h
          · rw [hs]; simp only [step]; split
            · exact book_more book fun x hx => by
                simp only [List.mem_singleton] at hx; rw [hx, about_first]; exact hk
            · exact book
      | next k i ok =>
        by_cases hk : k = clientsIn p
        · subst hk
          by_cases hw : wasCalled s (clientsIn p) i (usedIn (p ++ q₁)) = true
          · have e1 : step s (.next (clientsIn p) i ok) =
                { s with log := s.log ++ [.answered (clientsIn p) i ok, onNext (clientsIn p) i (usedIn (p ++ q₁)) ok] } := by
              simp only [step, h, hw, if_true]
            refine .going q₁ _ hq' (by rw [hs, e1]; exact h) ?_
            rw [hs, e1]
            simp only [wasCalled] at hw
            split at hw
            · next f _ => exact book_next book i ok f (of_decide_eq_true hw)
            · cases hw
          · have e1 : step s (.next (clientsIn p) i ok) = s := by simp only [step, h]; rw [if_neg hw]
            exact .going q₁ _ hq' (by rw [hs, e1]; exact h) (by rw [hs, e1]; exact book)
        · refine .going q₁ _ hq' ?_ ?_
          · rw [hs]; simp only [step]; split <;> (try split) <;> exact h
          · rw [hs]; simp only [step]; split
            · split
              · exact book_more book fun x hx => by
                  simp only [List.mem_cons, List.not_mem_nil, or_false] at hx
                  rcases hx with hx | hx
                  · rw [hx]; exact hk
                  · rw [hx, about_next]; exact hk
              · exact book
            · exact book

theorem log_step (s : St) (e : Ev) : s.log <+: (step s e).log := by
  cases e with
  | use f => exact List.prefix_rfl
  | begin => exact List.prefix_rfl
  | adv j => simp only [step]; split
             · exact List.prefix_append _ _
             · exact List.prefix_rfl
  | next j i ok =>
    simp only [step]; split
    · split
      · exact List.prefix_append _ _
      · exact List.prefix_rfl
    · exact List.prefix_rfl

theorem log_fold (q : List Ev) (s : St) : s.log <+: (q.foldl step s).log := by
  induction q generalizing s with
  | nil => exact List.prefix_rfl
  | cons e q ih => exact (log_step s e).trans (ih _)

theorem log_later (h t : List Ev) : (run h).log <+: (run (h ++ t)).log := by
  have := log_fold t (run h)
  rwa [show t.foldl step (run h) = run (h ++ t) by simp [run]] at this

end Verif.MidRace
