/-! # Small additions to the list library -/

namespace Verif

/-- Induction from the right end of a list. -/
@[elab_as_elim]
theorem snocRec {α : Type} {motive : List α → Prop} (l : List α) (nil : motive [])
    (append_singleton : ∀ (l : List α) (a : α), motive l → motive (l ++ [a])) : motive l := by
  have : ∀ n (l : List α), l.length = n → motive l := by
    intro n
    induction n with
    | zero => intro l hl; rw [List.length_eq_zero_iff.1 hl]; exact nil
    | succ n ih =>
      intro l hl
      rcases List.eq_nil_or_concat l with rfl | ⟨l', a, rfl⟩
      · exact nil
      · rw [List.concat_eq_append]; refine append_singleton l' a (ih l' ?_)
        simpa using hl
  exact this _ l rfl

theorem sum_set {α} (w : α → Nat) (l : List α) (k : Nat) (x y : α) (h : l[k]? = some x) :
    ((l.set k y).map w).sum + w x = (l.map w).sum + w y := by
  induction l generalizing k with
  | nil => simp at h
  | cons a l ih =>
    cases k with
    | zero => simp at h; subst h; simp; omega
    | succ k =>
      simp at h
      have := ih k h
      simp only [List.set_cons_succ, List.map_cons, List.sum_cons]
      omega

theorem mem_of_set {α} {l : List α} {k : Nat} {x y : α} (h : x ∈ l.set k y) : x ∈ l ∨ x = y := by
  rcases List.mem_or_eq_of_mem_set h with h | h
  · exact .inl h
  · exact .inr h

theorem get_set_self {α} {l : List α} {k : Nat} {y x : α} (h : l[k]? = some y) : (l.set k x)[k]? = some x := by
  rw [List.getElem?_set]
  have := (List.getElem?_eq_some_iff.1 h).1
  simp [this]

/-- Taking the front part of one element's contribution out of a `flatMap`. -/
theorem flatMap_set_perm {α β} (g : α → List β) (l : List α) (k : Nat) (x y : α) (a : List β)
    (h : l[k]? = some x) (hg : g x = a ++ g y) : (a ++ (l.set k y).flatMap g).Perm (l.flatMap g) := by
  induction l generalizing k with
  | nil => simp at h
  | cons z l ih =>
    cases k with
    | zero => simp at h; subst h; simp [hg]
    | succ k =>
      simp at h
      have := ih k h
      simp only [List.set_cons_succ, List.flatMap_cons]
      refine List.Perm.trans ?_ (this.append_left (g z))
      rw [← List.append_assoc, ← List.append_assoc]
      exact List.perm_append_comm.append_right _

end Verif
