import Verif.Proof.MidRace

/-! # C126: helper lemmas for the course of a run -/

namespace Verif.MidRace
open Verif Verif.Spec

theorem first_then (j : Nat) (L : List Nat) : first j L = thenComes j L 0 := by cases L <;> rfl

theorem next_then (j i : Nat) (L : List Nat) : onNext j i L true = thenComes j L (i + 1) := by
  simp only [onNext, thenComes]
  cases L[i + 1]? <;> rfl

theorem answered_passed (j : Nat) (L : List Nat) (n i : Nat) (ok : Bool) : .answered j i ok ∈ passedBy j L n → ok = true ∧ i < n := by
  have no : ∀ m, Obs.answered j i ok ≠ thenComes j L m := fun m h => by
    simp only [thenComes] at h; split at h <;> cases h
  induction n with
  | zero => intro h; simp only [passedBy, List.mem_singleton] at h; exact absurd h (no 0)
  | succ n ih =>
    intro h
    simp only [passedBy, List.mem_append, List.mem_cons, List.not_mem_nil, or_false] at h
    rcases h with h | h | h
    · obtain ⟨h1, h2⟩ := ih h; exact ⟨h1, by omega⟩
    · cases h; exact ⟨rfl, by omega⟩
    · exact absurd h (no _)

theorem ofClient_about (j : Nat) (log : List Obs) : ofClient j log = log.filter fun x => about x == j := by
  unfold ofClient; congr 1; funext x; cases x <;> rfl

theorem ofClient_append (j : Nat) (a b : List Obs) : ofClient j (a ++ b) = ofClient j a ++ ofClient j b := by simp [ofClient]

theorem ofClient_other (j : Nat) (l : List Obs) (h : ∀ x ∈ l, about x ≠ j) : ofClient j l = [] := by
  rw [ofClient_about, List.filter_eq_nil_iff]; intro x hx; simpa using h x hx

theorem ofClient_own (j : Nat) (l : List Obs) (h : ∀ x ∈ l, about x = j) : ofClient j l = l := by
  rw [ofClient_about, List.filter_eq_self]; intro x hx; simpa using h x hx

theorem once_sub {j : Nat} {a b : List Obs} (h : a <+: b) (hn : EachNextsOnce j b) : EachNextsOnce j a := fun i =>
  Nat.le_trans (List.Sublist.countP_le h.sublist) (hn i)

theorem not_again {j : Nat} {log rest : List Obs} {i : Nat} {ok ok' : Bool} (hn : EachNextsOnce j (log ++ .answered j i ok :: rest)) :
    .answered j i ok' ∉ log := by
  intro hm
  have h := hn i
  rw [List.countP_append, List.countP_cons] at h
  have : 0 < log.countP (isNextOf j i) := List.countP_pos_iff.2 ⟨_, hm, by simp [isNextOf]⟩
  rw [if_pos (by simp [isNextOf])] at h
  omega

/-- Where the run of client `j` is. -/
def Course (j : Nat) (L : List Nat) (log : List Obs) : Prop :=
  ∃ i, i ≤ L.length ∧ (ofClient j log = passedBy j L i ∨
    (i < L.length ∧ ofClient j log = passedBy j L i ++ [.answered j i false, .over j false]))

theorem course_next {j : Nat} {L : List Nat} {log : List Obs} (b : Book j L log) (c : Course j L log) (i : Nat) (ok : Bool) (f : Nat)
    (hc : .called j i f ∈ log) (hn : EachNextsOnce j (log ++ [.answered j i ok, onNext j i L ok])) :
    Course j L (log ++ [.answered j i ok, onNext j i L ok]) := by
  obtain ⟨hf, ha⟩ := b.called i f hc
  have hi := (List.getElem?_eq_some_iff.1 hf).1
  have fresh : ∀ ok', Obs.answered j i ok' ∉ log := fun ok' => not_again hn
  have mine : ∀ x, about x = j → (x ∈ log ↔ x ∈ ofClient j log) := fun x hx => by
    rw [ofClient_about, List.mem_filter]; simp [hx]
  have passed : ∀ n k, k < n → Obs.answered j k true ∈ passedBy j L n := by
    intro n k hk
    induction n with
    | zero => omega
    | succ n ih =>
      simp only [passedBy, List.mem_append]
      by_cases he : k = n
      · subst he; right; simp
      · left; exact ih (by omega)
  have own : ofClient j [.answered j i ok, onNext j i L ok] = [.answered j i ok, onNext j i L ok] :=
    ofClient_own _ _ fun x hx => by
      simp only [List.mem_cons, List.not_mem_nil, or_false] at hx
      rcases hx with hx | hx
      · rw [hx]; rfl
      · rw [hx, about_next]
  obtain ⟨n, hn', h | ⟨hlt, h⟩⟩ := c
  · have e : i = n := by
      refine Nat.le_antisymm (Nat.le_of_not_lt fun hlt => ?_) (Nat.le_of_not_lt fun hlt => ?_)
      · have := (mine _ rfl).1 (ha n hlt)
        rw [h] at this
        have := (answered_passed j L n n true this).2
        omega
      · exact fresh true ((mine _ rfl).2 (by rw [h]; exact passed n i hlt))
    subst e
    cases ok with
    | true => exact ⟨i + 1, by omega, .inl (by rw [ofClient_append, own, h, next_then]; rfl)⟩
    | false => exact ⟨i, by omega, .inr ⟨hi, by rw [ofClient_append, own, h]; rfl⟩⟩
  · exfalso
    rcases Nat.lt_trichotomy i n with hlt' | rfl | hlt'
    · exact fresh true ((mine _ rfl).2 (by rw [h]; exact List.mem_append_left _ (passed n i hlt')))
    · exact fresh false ((mine _ rfl).2 (by rw [h]; simp))
    · have := (mine _ rfl).1 (ha n hlt')
      rw [h] at this
      simp only [List.mem_append, List.mem_cons, List.not_mem_nil, or_false] at this
      rcases this with this | this | this
      · have := (answered_passed j L n n true this).2; omega
      · cases this
      · cases this

theorem course_step (j : Nat) (L : List Nat) (s : St) (e : Ev) (hr : s.runs[j]? = some (some L)) (b : Book j L s.log) (c : Course j L s.log)
    (hn : EachNextsOnce j (step s e).log) : Course j L (step s e).log := by
  have other : ∀ l : List Obs, (∀ x ∈ l, about x ≠ j) → Course j L (s.log ++ l) := fun l hl => by
    obtain ⟨n, h1, h2⟩ := c
    exact ⟨n, h1, by rw [ofClient_append, ofClient_other j l hl, List.append_nil]; exact h2⟩
  cases e with
  | use f => exact c
  | begin => exact c
  | adv k =>
    simp only [step]; split
    · next hk =>
      refine other _ fun x hx => ?_
      simp only [List.mem_singleton] at hx
      rw [hx, about_first]; intro e; rw [e, hr] at hk; cases hk
    · exact c
  | next k i ok =>
    simp only [step] at hn ⊢
    by_cases hk : k = j
    · subst hk
      simp only [hr] at hn ⊢
      by_cases hw : wasCalled s k i L = true
      · rw [if_pos hw] at hn ⊢
        have hw' := hw
        simp only [wasCalled] at hw'
        split at hw'
        · next f _ => exact course_next b c i ok f (of_decide_eq_true hw') hn
        · cases hw'
      · rw [if_neg hw]; exact c
    · split
      · split
        · refine other _ fun x hx => ?_
          simp only [List.mem_cons, List.not_mem_nil, or_false] at hx
          rcases hx with hx | hx
          · rw [hx]; exact hk
          · rw [hx, about_next]; exact hk
        · exact c
      · exact c

/-- The course of the run of a client that came after `p`. -/
theorem course_run (p q : List Ev) (hn : EachNextsOnce (clientsIn p) (run (p ++ .begin :: q)).log) :
    ofClient (clientsIn p) (run (p ++ .begin :: q)).log = [] ∨
    ∃ q₁ q₂, q = q₁ ++ q₂ ∧ (run (p ++ .begin :: q)).runs[clientsIn p]? = some (some (usedIn (p ++ q₁))) ∧
      Course (clientsIn p) (usedIn (p ++ q₁)) (run (p ++ .begin :: q)).log := by
  induction q using snocRec with
  | nil =>
    left
    refine ofClient_other _ _ fun x hx => ?_
    rw [run_snoc] at hx
    have := log_lt p x hx
    omega
  | append_singleton q e ih =>
    have hs : run (p ++ .begin :: (q ++ [e])) = step (run (p ++ .begin :: q)) e := by
      rw [show p ++ .begin :: (q ++ [e]) = (p ++ .begin :: q) ++ [e] by simp, run_snoc]
    have hb := at_run p (q ++ [e])
    cases at_run p q with
    | fresh h no =>
      cases hb with
      | fresh h' no' => exact .inl (ofClient_other _ _ no')
      | going q₁ q₂ hq h' book =>
        right
        refine ⟨q₁, q₂, hq, h', 0, Nat.zero_le _, .inl ?_⟩
        rw [hs] at h' ⊢
        cases e with
        | use f => simp only [step] at h'; rw [h] at h'; cases h'
        | begin =>
          simp only [step] at h'
          rw [List.getElem?_append_left (List.getElem?_eq_some_iff.1 h).1, h] at h'; cases h'
        | adv k =>
          by_cases hk : k = clientsIn p
          · subst hk
            simp only [step, h] at h' ⊢
            simp only [List.getElem?_set_self (List.getElem?_eq_some_iff.1 h).1, Option.some.injEq] at h'
            rw [ofClient_append, ofClient_other _ _ no, h', first_then, ← first_then]
            simp only [List.nil_append]
            rw [ofClient_own _ _ (fun x hx => by simp only [List.mem_singleton] at hx; rw [hx, about_first]), first_then]; rfl
          · simp only [step] at h'; split at h'
            · simp only [List.getElem?_set_ne hk] at h'; rw [h] at h'; cases h'
            · rw [h] at h'; cases h'
        | next k i ok => simp only [step] at h'; split at h' <;> (try split at h') <;> (rw [h] at h'; cases h')
    | going q₁ q₂ hq h book =>
      have hn' : EachNextsOnce (clientsIn p) (run (p ++ .begin :: q)).log := once_sub (by rw [hs]; exact log_step _ _) hn
      rcases ih hn' with h0 | ⟨r₁, r₂, hr, h1, c⟩
      · have := book.began
        have hm : first (clientsIn p) (usedIn (p ++ q₁)) ∈ ofClient (clientsIn p) (run (p ++ .begin :: q)).log := by
          rw [ofClient_about, List.mem_filter]; exact ⟨this, by simp [about_first]⟩
        rw [h0] at hm; cases hm
      · right
        rw [h1] at h
        simp only [Option.some.injEq] at h
        rw [← h] at book
        refine ⟨r₁, r₂ ++ [e], by rw [hr, List.append_assoc], ?_, ?_⟩
        · cases hb with
          | fresh h' no' =>
            have hm := (book.began)
            exact absurd (about_first _ _) (no' _ (by rw [hs]; exact (log_step _ e).subset hm))
          | going s₁ s₂ hs' h' book' =>
            rw [hs] at h' ⊢
            cases e with
            | use f => exact h1
            | begin => simp only [step]; rw [List.getElem?_append_left (List.getElem?_eq_some_iff.1 h1).1]; exact h1
            | adv k =>
              simp only [step]; split
              · next hk =>
                have hne : k ≠ clientsIn p := fun e => by rw [e, h1] at hk; cases hk
                simp only; rw [List.getElem?_set_ne hne]; exact h1
              · exact h1
            | next k i ok => simp only [step]; split <;> (try split) <;> exact h1
        · rw [hs] at hn ⊢
          exact course_step _ _ _ e h1 book c hn

theorem countP_ofClient (j : Nat) (P : Obs → Bool) (hP : ∀ x, P x = true → about x = j) (log : List Obs) :
    log.countP P = (ofClient j log).countP P := by
  rw [ofClient_about, List.countP_filter]
  refine List.countP_congr fun x _ => ?_
  constructor
  · intro h; simp [h, hP x h]
  · intro h; simp only [Bool.and_eq_true] at h; exact h.1

theorem then_over (j : Nat) (L : List Nat) (i : Nat) : isOverFor j (thenComes j L i) = decide (L.length ≤ i) := by
  simp only [thenComes]
  split
  · next f h => have := (List.getElem?_eq_some_iff.1 h).1; simp [isOverFor]; omega
  · next h => have := List.getElem?_eq_none_iff.1 h; simp [isOverFor]; omega

theorem over_passed (j : Nat) (L : List Nat) (n : Nat) (hn : n ≤ L.length) :
    (passedBy j L n).countP (isOverFor j) = if n = L.length then 1 else 0 := by
  induction n with
  | zero =>
    simp only [passedBy, List.countP_singleton, then_over, decide_eq_true_eq]
    by_cases h : L.length ≤ 0
    · rw [if_pos h, if_pos (by omega)]
    · rw [if_neg h, if_neg (by omega)]
  | succ n ih =>
    rw [passedBy, List.countP_append, ih (by omega), if_neg (by omega), List.countP_cons, List.countP_singleton, then_over]
    by_cases h : L.length ≤ n + 1
    · simp [isOverFor, h]; omega
    · simp [isOverFor, h]; omega

theorem call_passed (j : Nat) (L : List Nat) (n i : Nat) :
    (passedBy j L n).countP (isCallFor j i) ≤ if i ≤ n then 1 else 0 := by
  have t : ∀ m, isCallFor j i (thenComes j L m) = true → i = m := fun m h => by
    simp only [thenComes] at h
    split at h <;> simp [isCallFor] at h
    omega
  induction n with
  | zero =>
    simp only [passedBy, List.countP_singleton]
    split
    · next h => rw [if_pos (by have := t 0 h; omega)]; exact Nat.le_refl 1
    · exact Nat.zero_le _
  | succ n ih =>
    have no : isCallFor j i (.answered j n true) = false := rfl
    rw [passedBy, List.countP_append, List.countP_cons, List.countP_singleton, no]
    by_cases h : isCallFor j i (thenComes j L (n + 1)) = true
    · have := t _ h
      rw [if_neg (by omega)] at ih
      rw [if_pos h, if_neg (show ¬ (false = true) by simp), if_pos (show i ≤ n + 1 by omega)]
      omega
    · rw [if_neg h, if_neg (show ¬ (false = true) by simp)]
      split at ih
      · rw [if_pos (by omega)]; omega
      · omega

/-- Two states that are the same for client `j`. -/
structure SameFor (j : Nat) (s t : St) : Prop where
  fns : s.fns = t.fns
  len : s.runs.length = t.runs.length
  run : s.runs[j]? = t.runs[j]?
  log : ofClient j s.log = ofClient j t.log

theorem sameFor_wasCalled {j : Nat} {s t : St} (h : SameFor j s t) (i : Nat) (L : List Nat) : wasCalled s j i L = wasCalled t j i L := by
  have mine : ∀ (l : List Obs) x, about x = j → (x ∈ l ↔ x ∈ ofClient j l) := fun l x hx => by
    rw [ofClient_about, List.mem_filter]; simp [hx]
  simp only [wasCalled]
  split
  · next f _ => rw [decide_eq_decide, mine s.log _ rfl, mine t.log _ rfl, h.log]
  · rfl

theorem sameFor_both {j : Nat} {s t : St} (h : SameFor j s t) (e : Ev) (he : concerns j e = true) : SameFor j (step s e) (step t e) := by
  cases e with
  | use f => exact ⟨by simp [step, h.fns], h.len, h.run, h.log⟩
  | begin =>
    refine ⟨h.fns, by simp [step, h.len], ?_, h.log⟩
    simp only [step]
    by_cases hj : j < s.runs.length
    · rw [List.getElem?_append_left hj, List.getElem?_append_left (by rw [← h.len]; exact hj)]; exact h.run
    · rw [List.getElem?_append_right (by omega), List.getElem?_append_right (by rw [← h.len]; omega), h.len]
  | adv k =>
    simp only [concerns, beq_iff_eq] at he
    subst he
    have hr := h.run
    cases hs : s.runs[k]? with
    | none => rw [hs] at hr; simp only [step, hs, ← hr]; exact h
    | some o =>
      rw [hs] at hr
      cases o with
      | some L => simp only [step, hs, ← hr]; exact h
      | none =>
        simp only [step, hs, ← hr]
        refine ⟨h.fns, by simp [h.len], ?_, ?_⟩
        · simp only [h.fns, List.getElem?_set_self (List.getElem?_eq_some_iff.1 hs).1,
            List.getElem?_set_self (List.getElem?_eq_some_iff.1 hr.symm).1]
        · simp only [ofClient_append, h.log, h.fns]
  | next k i ok =>
    simp only [concerns, beq_iff_eq] at he
    subst he
    have hr := h.run
    cases hs : s.runs[k]? with
    | none => rw [hs] at hr; simp only [step, hs, ← hr]; exact h
    | some o =>
      rw [hs] at hr
      cases o with
      | none => simp only [step, hs, ← hr]; exact h
      | some L =>
        simp only [step, hs, ← hr, sameFor_wasCalled h i L]
        by_cases hw : wasCalled t k i L = true
        · rw [if_pos hw, if_pos hw]
          exact ⟨h.fns, h.len, by rw [hs]; exact hr, by simp only [ofClient_append, h.log]⟩
        · rw [if_neg hw, if_neg hw]; exact h

theorem sameFor_other {j : Nat} (s : St) (e : Ev) (he : concerns j e = false) : SameFor j (step s e) s := by
  cases e with
  | use f => cases he
  | begin => cases he
  | adv k =>
    have hk : k ≠ j := by simpa [concerns] using he
    simp only [step]; split
    · refine ⟨rfl, by simp, List.getElem?_set_ne hk, ?_⟩
      rw [ofClient_append, ofClient_other j [_] (fun x hx => by
        simp only [List.mem_singleton] at hx; rw [hx, about_first]; exact hk), List.append_nil]
    · exact ⟨rfl, rfl, rfl, rfl⟩
  | next k i ok =>
    have hk : k ≠ j := by simpa [concerns] using he
    simp only [step]; split
    · split
      · refine ⟨rfl, rfl, rfl, ?_⟩
        rw [ofClient_append, ofClient_other j [_, _] (fun x hx => by
          simp only [List.mem_cons, List.not_mem_nil, or_false] at hx
          rcases hx with hx | hx
          · rw [hx]; exact hk
          · rw [hx, about_next]; exact hk), List.append_nil]
      · exact ⟨rfl, rfl, rfl, rfl⟩
    · exact ⟨rfl, rfl, rfl, rfl⟩

theorem sameFor_run (j : Nat) (h : List Ev) : SameFor j (run h) (run (h.filter (concerns j))) := by
  induction h using snocRec with
  | nil => exact ⟨rfl, rfl, rfl, rfl⟩
  | append_singleton h e ih =>
    rw [run_snoc, List.filter_append]
    cases he : concerns j e with
    | true =>
      rw [List.filter_cons_of_pos he, List.filter_nil, run_snoc]
      exact sameFor_both ih e he
    | false =>
      rw [List.filter_cons_of_neg (by simp [he]), List.filter_nil, List.append_nil]
      have o := sameFor_other (run h) e he
      exact ⟨o.fns.trans ih.fns, o.len.trans ih.len, o.run.trans ih.run, o.log.trans ih.log⟩

end Verif.MidRace
