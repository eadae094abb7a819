import Verif.Model.Encoding
import Verif.Spec.Encoding

/-! # The encoding of a client file: lemmas -/

namespace Verif.Encoding
open Verif Verif.Static Verif.Spec

theorem contains_nil_of {p : Text} (hp : p ≠ []) : contains [] p = false := by
  cases p <;> simp [contains] at *

/-- A needle does not reach over a character it does not have. -/
theorem prefix_sep {p : Text} {s : Char} (hs : s ∉ p) (a b : Text) : p.isPrefixOf (a ++ s :: b) = p.isPrefixOf a := by
  induction a generalizing p with
  | nil =>
    cases p with
    | nil => rfl
    | cons c p =>
      have : c ≠ s := fun e => hs (by simp [e])
      simp [List.isPrefixOf, this]
  | cons x a ih =>
    cases p with
    | nil => simp [List.isPrefixOf]
    | cons c p =>
      simp only [List.cons_append, List.isPrefixOf]
      rw [ih (fun h => hs (List.mem_cons_of_mem _ h))]

theorem contains_sep {p : Text} {s : Char} (hp : p ≠ []) (hs : s ∉ p) (a b : Text) :
    contains (a ++ s :: b) p = (contains a p || contains b p) := by
  induction a with
  | nil =>
    rw [contains_nil_of hp]
    have := prefix_sep hs [] b
    simp only [List.nil_append] at this ⊢
    simp only [contains]
    rw [this]
    cases p <;> simp [List.isPrefixOf] at *
  | cons x a ih =>
    simp only [List.cons_append, contains]
    rw [ih]
    have := prefix_sep hs (x :: a) b
    simp only [List.cons_append] at this
    rw [this, Bool.or_assoc]

theorem contains_none {p l : Text} (hp : p ≠ []) (h : ∀ c ∈ l, c ∉ p) : contains l p = false := by
  induction l with
  | nil => exact contains_nil_of hp
  | cons x l ih =>
    have := contains_sep hp (h x (by simp)) [] l
    simp only [List.nil_append] at this
    rw [this, contains_nil_of hp, ih fun c hc => h c (by simp [hc])]
    rfl

/-- In the text of a usual element only the coding counts. -/
theorem contains_text {p : Text} (hp : p ∈ codings) (i : Coding) (hi : i.usual) : contains i.text p = decide (i.name = p) := by
  have hn : contains i.name p = decide (i.name = p) := by
    have := hi.1
    generalize i.name = n at this
    simp only [List.mem_cons, List.not_mem_nil, or_false] at this
    simp only [codings, List.mem_cons, List.not_mem_nil, or_false] at hp
    rcases this with rfl | rfl | rfl | rfl | rfl | rfl | rfl <;> rcases hp with rfl | rfl | rfl | rfl <;> decide
  have hp0 : p ≠ [] := by
    simp only [codings, List.mem_cons, List.not_mem_nil, or_false] at hp
    rcases hp with rfl | rfl | rfl | rfl <;> decide
  have hsep : ∀ c ∈ ";q=0123456789.".toList, c ∉ p := by
    simp only [codings, List.mem_cons, List.not_mem_nil, or_false] at hp
    rcases hp with rfl | rfl | rfl | rfl <;> decide
  unfold Coding.text
  cases hw : i.weight with
  | none => exact hn
  | some w =>
    show contains (i.name ++ ";q=".toList ++ w) p = _
    have e : i.name ++ ";q=".toList ++ w = i.name ++ ';' :: ("q=".toList ++ w) := by simp
    rw [e, contains_sep hp0 (hsep ';' (by decide)), hn, contains_none (l := "q=".toList ++ w) hp0, Bool.or_false]
    intro c hc
    refine hsep c ?_
    have : c ∈ "q=".toList ∨ c ∈ "0123456789.".toList := by
      rcases List.mem_append.1 hc with h | h
      · exact .inl h
      · exact .inr (hi.2 w hw c h)
    have e2 : ";q=0123456789.".toList = ";".toList ++ "q=".toList ++ "0123456789.".toList := by decide
    rw [e2]
    simp only [List.mem_append]
    rcases this with h | h
    · exact .inl (.inr h)
    · exact .inr h

theorem contains_header {p : Text} (hp : p ∈ codings) (l : List Coding) (hl : ∀ i ∈ l, i.usual) :
    contains (headerOf l) p = true ↔ ∃ i ∈ l, i.name = p := by
  have hp0 : p ≠ [] := by
    simp only [codings, List.mem_cons, List.not_mem_nil, or_false] at hp
    rcases hp with rfl | rfl | rfl | rfl <;> decide
  have hsep : ',' ∉ p ∧ ' ' ∉ p := by
    simp only [codings, List.mem_cons, List.not_mem_nil, or_false] at hp
    rcases hp with rfl | rfl | rfl | rfl <;> decide
  match l with
  | [] => simp [headerOf, contains_nil_of hp0]
  | [i] => simp [headerOf, contains_text hp i (hl i (by simp))]
  | i :: j :: l =>
    have ih := contains_header hp (j :: l) fun x hx => hl x (List.mem_cons_of_mem _ hx)
    have e : headerOf (i :: j :: l) = i.text ++ ',' :: ([] ++ ' ' :: headerOf (j :: l)) := by simp [headerOf]
    rw [e, contains_sep hp0 hsep.1, contains_sep hp0 hsep.2, contains_nil_of hp0, contains_text hp i (hl i (by simp)), Bool.false_or,
      Bool.or_eq_true, ih, decide_eq_true_iff]
    constructor
    · rintro (h | ⟨x, hx, h⟩)
      · exact ⟨i, by simp, h⟩
      · exact ⟨x, List.mem_cons_of_mem _ hx, h⟩
    · rintro ⟨x, hx, h⟩
      rcases List.mem_cons.1 hx with rfl | hx
      · exact .inl h
      · exact .inr ⟨x, hx, h⟩

end Verif.Encoding
