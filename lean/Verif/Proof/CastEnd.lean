import Verif.Proof.TableEnd
import Verif.Spec.BulkRace

/-! # A broadcast or bulk call that has returned stays so -/

namespace Verif.Returns
open Verif Verif.Spec

theorem cast_stays (q : List CastRace.Ev) (s : CastRace.St) (one : ∀ a b c, .cast a b c ∉ q) (h : s.pc = .idle) :
    (q.foldl CastRace.step s).pc = .idle := by
  induction q generalizing s with
  | nil => exact h
  | cons e q ih =>
    refine ih _ (fun a b c hm => one a b c (List.mem_cons_of_mem _ hm)) ?_
    cases e with
    | cast a b c => exact absurd (List.mem_cons_self ..) (one a b c)
    | adv => simp only [CastRace.step, h, CastRace.act]
    | _ => exact h

theorem bulk_stays (q : List BulkRace.Ev) (s : BulkRace.St) (one : ∀ a b c d, .bulk a b c d ∉ q) (h : s.idle = true) :
    (q.foldl BulkRace.step s).idle = true := by
  induction q generalizing s with
  | nil => exact h
  | cons e q ih =>
    refine ih _ (fun a b c d hm => one a b c d (List.mem_cons_of_mem _ hm)) ?_
    obtain ⟨h1, h2, h3⟩ := (idle_iff s).1 h
    refine (idle_iff _).2 ?_
    cases e with
    | bulk a b c d => exact absurd (List.mem_cons_self ..) (one a b c d)
    | adv =>
      simp [BulkRace.step, BulkRace.does, h1, h2, h3, CastRace.step, CastRace.act, BulkRace.reached]
    | room e =>
      simp only [BulkRace.step, BulkRace.does]
      by_cases hw : BulkRace.who e = 0
      · simp [hw, h1, h2, h3]
      · simp only [hw, if_false, List.foldl, CastRace.step]
        rw [th_other _ e 0 hw]
        exact ⟨h1, h2, h3⟩
    | _ => exact ⟨h1, h2, h3⟩

theorem mem_firstOf {E : Type} {σ : Nat → E} {n : Nat} {e : E} (h : e ∈ firstOf σ n) : ∃ i, σ i = e := by
  obtain ⟨i, _, hi⟩ := List.mem_map.1 h
  exact ⟨i, hi⟩

theorem prefix_firstOf {E : Type} {σ : Nat → E} {n : Nat} {a b : List E} (h : firstOf σ n = a ++ b) : a = firstOf σ a.length := by
  have hl : a.length ≤ n := by
    have := congrArg List.length h
    simp [firstOf] at this
    omega
  obtain ⟨d, rfl⟩ := Nat.exists_eq_add_of_le hl
  rw [Acks.firstOf_add] at h
  exact (List.append_inj h (by simp [firstOf])).1.symm

/-- A finite schedule, and then the call goes on for ever. -/
def thenOn {E : Type} (q : List E) (e : E) (i : Nat) : E := (q[i]?).getD e

theorem thenOn_fair {E : Type} (q : List E) (e : E) : AgainAndAgain e (thenOn q e) := fun n =>
  ⟨n + q.length, Nat.le_add_right _ _, by simp [thenOn]⟩

theorem thenOn_mem {E : Type} {q : List E} {e x : E} {i : Nat} (h : thenOn q e i = x) : x = e ∨ x ∈ q := by
  unfold thenOn at h
  cases hi : q[i]? with
  | none => rw [hi] at h; exact .inl h.symm
  | some y => rw [hi] at h; exact .inr (by rw [← h]; exact List.mem_of_getElem? hi)

/-- What holds all the time during the schedule holds for ever, if nothing more happens afterwards. -/
theorem thenOn_always {S E : Type} (step : S → E → S) (s : S) (q : List E) (e : E) (rest : step (q.foldl step s) e = q.foldl step s)
    (P : S → Prop) (h : ∀ a b, q = a ++ b → P (a.foldl step s)) (n : Nat) : P ((firstOf (thenOn q e) n).foldl step s) := by
  have key : ∀ n, ∃ a b, q = a ++ b ∧ (firstOf (thenOn q e) n).foldl step s = a.foldl step s ∧ (n < q.length → a.length = n) ∧
      (q.length ≤ n → b = []) := by
    intro n
    induction n with
    | zero => exact ⟨[], q, rfl, rfl, fun _ => rfl, fun h => List.eq_nil_of_length_eq_zero (by omega)⟩
    | succ n ih =>
      obtain ⟨a, b, h1, h2, h3, h4⟩ := ih
      rw [firstOf_succ, List.foldl_append, h2]
      by_cases hn : n < q.length
      · have hl := h3 hn
        cases b with
        | nil => rw [h1] at hn; simp at hn; omega
        | cons x b =>
          have hx : thenOn q e n = x := by
            simp only [thenOn, h1]
            rw [← hl]; simp
          refine ⟨a ++ [x], b, by rw [h1]; simp, by rw [hx, List.foldl_append], fun _ => by simp [hl], fun h => ?_⟩
          have : q.length = a.length + (b.length + 1) := by rw [h1]; simp
          exact List.eq_nil_of_length_eq_zero (by omega)
      · have hb := h4 (by omega)
        subst hb
        rw [List.append_nil] at h1
        subst h1
        refine ⟨q, [], by simp, ?_, fun h => by omega, fun _ => rfl⟩
        have : thenOn q e n = e := by simp [thenOn, List.getElem?_eq_none (Nat.le_of_not_lt hn)]
        rw [this]; exact rest
  obtain ⟨a, b, h1, h2, _⟩ := key n
  rw [h2]; exact h a b h1

theorem cast_rest (s : CastRace.St) (h : s.pc = .idle) : CastRace.step s .adv = s := by
  cases s; simp only at h; subst h; rfl

theorem bulk_rest (s : BulkRace.St) (h : s.idle = true) : BulkRace.step s .adv = s := by
  obtain ⟨h1, h2, h3⟩ := (idle_iff s).1 h
  simp [BulkRace.step, BulkRace.does, h2, h3, cast_rest _ h1, BulkRace.reached]
  rw [← h2]

end Verif.Returns
