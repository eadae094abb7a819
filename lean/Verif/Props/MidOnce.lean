import Verif.Proof.MidOnce
import Verif.Props.MidRace

/-! # C126: the whole course of a run, if no middleware calls `next` twice -/

namespace Verif.Props
open Verif Verif.Spec Verif.MidRace

/-- **C126**, under every interleaving, if no middleware calls `next` twice for the client: what happens to it is nothing so far, or just this:
the middlewares that there were at one moment since it came are called one after the other, each once and when the one before has let the
client pass; after the last it is let in, once; or one refuses it, and then it is refused, once, and no other is called. -/
theorem C126_course (p q : List MidRace.Ev) (once : EachNextsOnce (clientsIn p) (comes p q)) :
    ofClient (clientsIn p) (comes p q) = [] ∨
    ∃ q₁ q₂ i, q = q₁ ++ q₂ ∧ i ≤ (usedIn (p ++ q₁)).length ∧
      (ofClient (clientsIn p) (comes p q) = passedBy (clientsIn p) (usedIn (p ++ q₁)) i ∨
       i < (usedIn (p ++ q₁)).length ∧ ofClient (clientsIn p) (comes p q) =
        passedBy (clientsIn p) (usedIn (p ++ q₁)) i ++ [.answered (clientsIn p) i false, .over (clientsIn p) false]) := by
  rcases MidRace.course_run p q once with h | ⟨q₁, q₂, hq, _, i, hi, h⟩
  · exact .inl h
  · exact .inr ⟨q₁, q₂, i, hq, hi, h⟩

/-- The hypothesis holds here, and this is what happens: three middlewares let the client pass, who is let in. -/
example : EachNextsOnce (clientsIn Demo.midP) (comes Demo.midP Demo.midQ) ∧
    ofClient 0 (comes Demo.midP Demo.midQ) =
      [.called 0 0 1, .answered 0 0 true, .called 0 1 2, .answered 0 1 true, .called 0 2 3, .answered 0 2 true, .over 0 true] ∧
    passedBy 0 [1, 2, 3] 3 = ofClient 0 (comes Demo.midP Demo.midQ) := by
  refine ⟨fun i => ?_, by decide⟩
  match i with
  | 0 => decide
  | 1 => decide
  | 2 => decide
  | i + 3 =>
    refine Nat.le_trans (Nat.le_of_eq (List.countP_eq_zero.2 fun x hx => ?_)) (Nat.zero_le 1)
    have : ∀ x ∈ comes Demo.midP Demo.midQ, ∀ k i' ok, x = .answered k i' ok → i' < 3 := by
      intro x hx k i' ok e
      subst e
      have h : ∀ y ∈ comes Demo.midP Demo.midQ, (match y with | .answered _ i' _ => decide (i' < 3) | _ => true) = true := by decide
      simpa using h _ hx
    cases x with
    | answered k i' ok => have := this _ hx k i' ok rfl; simp [isNextOf]; omega
    | called k i' f => simp [isNextOf]
    | over k ok => simp [isNextOf]

/-- **C126**, under every interleaving, if no middleware calls `next` twice for the client: the client is let in or refused at most once, and
each middleware is called for it at most once. -/
theorem C126_once (p q : List MidRace.Ev) (once : EachNextsOnce (clientsIn p) (comes p q)) :
    (comes p q).countP (isOverFor (clientsIn p)) ≤ 1 ∧ ∀ i, (comes p q).countP (isCallFor (clientsIn p) i) ≤ 1 := by
  have h1 := MidRace.countP_ofClient (clientsIn p) (isOverFor (clientsIn p)) (by intro x; cases x <;> simp [isOverFor, about]) (comes p q)
  have h2 := fun i => MidRace.countP_ofClient (clientsIn p) (isCallFor (clientsIn p) i)
    (by intro x; cases x <;> simp [isCallFor, about]; intro h _; exact h) (comes p q)
  have le : ∀ (c : Prop) [Decidable c], (if c then 1 else 0) ≤ 1 := fun c _ => by split <;> omega
  rcases C126_course p q once with h | ⟨q₁, q₂, i, hq, hi, h | ⟨hlt, h⟩⟩
  · rw [h] at h1; simp only [h] at h2
    exact ⟨by rw [h1]; exact Nat.zero_le _, fun i => by rw [h2]; exact Nat.zero_le _⟩
  · rw [h] at h1; simp only [h] at h2
    refine ⟨by rw [h1, MidRace.over_passed _ _ _ hi]; exact le _, fun k => ?_⟩
    rw [h2]; exact Nat.le_trans (MidRace.call_passed _ _ _ k) (le _)
  · rw [h] at h1; simp only [h] at h2
    refine ⟨?_, fun k => ?_⟩
    · rw [h1, List.countP_append, MidRace.over_passed _ _ _ hi, if_neg (by omega)]; simp [isOverFor]
    · rw [h2, List.countP_append]
      have := Nat.le_trans (MidRace.call_passed (clientsIn p) (usedIn (p ++ q₁)) i k) (le _)
      simpa [isCallFor] using this

/-- Without the hypothesis it may be let in twice: the only middleware calls `next` twice. -/
example : (comes [.use 1] [.adv 0, .next 0 0 true, .next 0 0 true]).countP (isOverFor 0) = 2 ∧
    ¬ EachNextsOnce 0 (comes [.use 1] [.adv 0, .next 0 0 true, .next 0 0 true]) :=
  ⟨by decide, fun h => absurd (h 0) (by decide)⟩

/-- **C126**, under every interleaving: what middlewares answer for other clients, and when, makes no difference to a client; the same is
observed of it if they never answer. -/
theorem C126_others (p q : List MidRace.Ev) :
    ofClient (clientsIn p) (comes p q) =
    ofClient (clientsIn p) (comes (p.filter (concerns (clientsIn p))) (q.filter (concerns (clientsIn p)))) := by
  have := (MidRace.sameFor_run (clientsIn p) (p ++ .begin :: q)).log
  rw [List.filter_append, List.filter_cons_of_pos (by rfl)] at this
  exact this

/-- In the demonstration another client is refused meanwhile; leaving that out changes the history, but not what is observed of the client. -/
example : Demo.midQ.filter (concerns 0) ≠ Demo.midQ ∧
    ofClient 0 (comes Demo.midP (Demo.midQ.filter (concerns 0))) = ofClient 0 (comes Demo.midP Demo.midQ) ∧
    comes Demo.midP (Demo.midQ.filter (concerns 0)) ≠ comes Demo.midP Demo.midQ := by decide

end Verif.Props
