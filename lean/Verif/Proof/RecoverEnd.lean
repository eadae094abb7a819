import Verif.Spec.RecoverEnd
import Verif.Lib.ListExtra
import Verif.Proof.Returns

/-! # The recovery comes to its end -/

namespace Verif.RecoverRace
open Verif Verif.Spec

theorem steps_append (a b : List Ev) : recoverySteps (a ++ b) = recoverySteps a + recoverySteps b := by
  induction a with
  | nil => simp [recoverySteps]
  | cons e a ih => cases e <;> simp only [List.cons_append, recoverySteps, ih] <;> omega

theorem begun_append (a b : List Ev) : (castsOf (a ++ b)).length = (castsOf a).length + (castsOf b).length := by
  induction a with
  | nil => simp [castsOf]
  | cons e a ih => cases e <;> simp only [List.cons_append, castsOf, List.length_cons, ih] <;> omega

/-- Where the recovery can be after `n` steps, if there were at most `b` packets. -/
def At (n b : Nat) : RPC → Prop
  | .find => n = 0
  | .alloc _ => n ≤ 1
  | .get i => n ≤ 2 + i ∧ i ≤ b
  | .join => n ≤ 3 + b
  | .send => n ≤ 4 + b
  | .middlewares => n ≤ 5 + b
  | .store => n ≤ 6 + b
  | _ => True

def unpushed : Nat × CPC → Nat
  | (_, .push) => 1
  | _ => 0

structure Bounded (n b : Nat) (s : St) : Prop where
  at_ : At n b s.rpc
  room : s.packets.length + (s.casts.map unpushed).sum ≤ b

theorem At.mono {n b c : Nat} {pc : RPC} (h : At n b pc) (hc : b ≤ c) : At n c pc := by
  cases pc <;> simp only [At] at h ⊢ <;> omega

theorem bounded_step {mine : Nat → Bool} {o : Nat} {n b : Nat} {s : St} (h : Bounded n b s) (e : Ev) :
    Bounded (n + recoverySteps [e]) (b + (castsOf [e]).length) (step mine o s e) := by
  cases e with
  | cast p =>
    refine ⟨h.at_.mono (by simp), ?_⟩
    have := h.room
    simp only [step, castsOf, List.map_append, List.sum_append, List.length_cons, List.length_nil, List.map_cons, List.map_nil, List.sum_cons, List.sum_nil, unpushed]
    omega
  | clean k =>
    refine ⟨h.at_, ?_⟩
    have := h.room
    simp only [step, castsOf, List.length_drop, List.length_nil]
    omega
  | adv k =>
    have hr := h.room
    simp only [step, advance]
    cases hk : s.casts[k]? with
    | none => exact h
    | some c =>
      obtain ⟨p, pc⟩ := c
      have hs := sum_set unpushed s.casts k (p, pc) (p, (castStep mine s p pc).2) hk
      cases pc with
      | push =>
        refine ⟨h.at_, ?_⟩
        simp only [castStep, unpushed] at hs
        simp only [castStep, List.length_append, List.length_cons, List.length_nil, castsOf]
        omega
      | room =>
        refine ⟨h.at_, ?_⟩
        have hz : unpushed (p, (castStep mine s p .room).2) = 0 := by
          simp only [castStep]
          split <;> rfl
        rw [hz] at hs
        simp only [unpushed] at hs
        show s.packets.length + ((s.casts.set k (p, (castStep mine s p .room).2)).map unpushed).sum ≤ _
        simp only [castsOf, List.length_nil]
        omega
      | socket =>
        simp only [castStep, unpushed] at hs
        cases hst : s.stored with
        | true =>
          refine ⟨by simpa [castStep, hst, recoverySteps, castsOf] using h.at_, ?_⟩
          simp only [castStep, hst, if_true, castsOf, List.length_nil]
          omega
        | false =>
          refine ⟨by simpa [castStep, hst, recoverySteps, castsOf] using h.at_, ?_⟩
          simp only [castStep, hst, Bool.false_eq_true, if_false, castsOf, List.length_nil]
          omega
      | done =>
        refine ⟨h.at_, ?_⟩
        simp only [castStep, unpushed] at hs
        simp only [castStep, castsOf, List.length_nil]
        omega
  | recover =>
    have hr := h.room
    have ha := h.at_
    simp only [step, recoverySteps, castsOf, List.length_nil]
    cases hp : s.rpc <;> rw [hp] at ha <;> simp only [At] at ha <;> simp only [recStep]
    case find =>
      cases findIndex o s.packets with
      | none => exact ⟨trivial, hr⟩
      | some i => exact ⟨by simp only [At]; omega, hr⟩
    case alloc i =>
      split
      · exact ⟨trivial, hr⟩
      · exact ⟨by simp only [At]; omega, hr⟩
    case get i =>
      cases hg : s.packets[i]? with
      | none => exact ⟨by simp only [At]; omega, hr⟩
      | some p =>
        have := (List.getElem?_eq_some_iff.1 hg).1
        exact ⟨by simp only [At]; omega, hr⟩
    case join => exact ⟨by simp only [At]; omega, hr⟩
    case send => exact ⟨by simp only [At]; omega, hr⟩
    case middlewares => exact ⟨by simp only [At]; omega, hr⟩
    case store => exact ⟨trivial, hr⟩
    all_goals exact ⟨by rw [hp]; trivial, hr⟩

theorem run_snoc_end (mine : Nat → Bool) (o : Nat) (old : List Nat) (h : List Ev) (e : Ev) :
    run mine o old (h ++ [e]) = step mine o (run mine o old h) e := by simp [run]

theorem bounded_run (mine : Nat → Bool) (o : Nat) (old : List Nat) (h : List Ev) :
    Bounded (recoverySteps h) (old.length + (castsOf h).length) (run mine o old h) := by
  induction h using snocRec with
  | nil => exact ⟨rfl, by simp [run, castsOf]⟩
  | append_singleton h e ih =>
    rw [run_snoc_end, steps_append, begun_append, ← Nat.add_assoc]
    exact bounded_step ih e

/-- Once over, it is over. -/
theorem ended_step {mine : Nat → Bool} {o : Nat} {s : St} (h : RecoveryOver s) (e : Ev) : RecoveryOver (step mine o s e) := by
  cases e with
  | cast p => exact h
  | clean k => exact h
  | adv k =>
    simp only [step, advance]
    cases hk : s.casts[k]? with
    | none => exact h
    | some c =>
      obtain ⟨p, pc⟩ := c
      cases pc with
      | socket => simp only [castStep]; split <;> exact h
      | _ => exact h
  | recover =>
    simp only [step]
    rcases h with h | h | h <;> rw [h] <;> simp [recStep, RecoveryOver, h]

theorem ended_run {mine : Nat → Bool} {o : Nat} (l : List Ev) {s : St} (h : RecoveryOver s) : RecoveryOver (l.foldl (step mine o) s) := by
  induction l generalizing s with
  | nil => exact h
  | cons e l ih => exact ih (ended_step h e)

/-- What occurs again and again occurs as often as one likes. -/
theorem many_steps (σ : Nat → Ev) (fair : AgainAndAgain .recover σ) (c : Nat) : ∃ n, c ≤ recoverySteps (firstOf σ n) := by
  induction c with
  | zero => exact ⟨0, Nat.zero_le _⟩
  | succ c ih =>
    obtain ⟨n, hn⟩ := ih
    obtain ⟨m, hm, he⟩ := fair n
    refine ⟨m + 1, ?_⟩
    have mono : ∀ d, recoverySteps (firstOf σ n) ≤ recoverySteps (firstOf σ (n + d)) := by
      intro d
      induction d with
      | zero => exact Nat.le_refl _
      | succ d ih =>
        rw [← Nat.add_assoc, Returns.firstOf_succ, steps_append]
        omega
    obtain ⟨d, rfl⟩ := Nat.exists_eq_add_of_le hm
    have := mono d
    rw [Returns.firstOf_succ, steps_append, he]
    simp only [recoverySteps]
    omega

theorem none_begun (σ : Nat → Ev) (noMore : ∀ n p, σ n ≠ .cast p) (n : Nat) : (castsOf (firstOf σ n)).length = 0 := by
  induction n with
  | zero => rfl
  | succ n ih =>
    rw [Returns.firstOf_succ, begun_append, ih]
    cases he : σ n with
    | cast p => exact absurd he (noMore n p)
    | _ => rfl

end Verif.RecoverRace
