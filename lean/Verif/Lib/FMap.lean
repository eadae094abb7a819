/-!
# Finite maps and finite sets as lists

Go maps, `types.Map` and `types.Set` have no iteration order.  The model keeps
them as lists in *some* order; every theorem quantifies over all lists, hence
over all iteration orders.  (Library code: not part of /repo.)
-/

namespace Verif

/-- Finite map: association list.  Stands for `types.Map` / Go's `map`. -/
abbrev FMap (K V : Type) := List (K × V)

namespace FMap
variable {K V : Type} [DecidableEq K]

/-- `Load`: the value stored under `k`. -/
def get? : FMap K V → K → Option V
  | [], _ => none
  | (k', v) :: m, k => if k' = k then some v else get? m k

/-- `Delete`: drop the key. -/
def erase (m : FMap K V) (k : K) : FMap K V := m.filter (fun p => decide (p.1 ≠ k))

/-- `Store`: bind `k` to `v`. -/
def insert (m : FMap K V) (k : K) (v : V) : FMap K V := (k, v) :: erase m k

/-- The keys, in iteration order. -/
def keys (m : FMap K V) : List K := m.map (·.1)

/-- The values, in iteration order. -/
def vals (m : FMap K V) : List V := m.map (·.2)

/-- Well-formed: no key occurs twice. -/
def WF (m : FMap K V) : Prop := (keys m).Nodup

@[simp] theorem get?_nil (k : K) : get? ([] : FMap K V) k = none := rfl

theorem get?_cons (k' : K) (v : V) (m : FMap K V) (k : K) :
    get? ((k', v) :: m) k = if k' = k then some v else get? m k := rfl

theorem get?_erase (m : FMap K V) (a k : K) :
    get? (erase m a) k = if a = k then none else get? m k := by
  induction m with
  | nil => simp [erase]
  | cons p m ih =>
    obtain ⟨x, v⟩ := p
    unfold erase at ih ⊢
    by_cases hx : x = a
    · simp only [List.filter_cons, hx, ne_eq, not_true_eq_false, decide_false, Bool.false_eq_true,
        if_false, ih, get?_cons]
      by_cases ha : a = k <;> simp [ha]
    · simp only [List.filter_cons, ne_eq, hx, not_false_eq_true, decide_true, if_true, get?_cons, ih]
      by_cases ha : a = k
      · subst ha; simp [hx]
      · simp [ha]

@[simp] theorem get?_erase_self (m : FMap K V) (k : K) : get? (erase m k) k = none := by
  simp [get?_erase]

theorem get?_erase_ne {m : FMap K V} {a k : K} (h : a ≠ k) : get? (erase m a) k = get? m k := by
  simp [get?_erase, h]

theorem get?_insert (m : FMap K V) (a : K) (v : V) (k : K) :
    get? (insert m a v) k = if a = k then some v else get? m k := by
  unfold insert; rw [get?_cons, get?_erase]; by_cases h : a = k <;> simp [h]

@[simp] theorem get?_insert_self (m : FMap K V) (k : K) (v : V) : get? (insert m k v) k = some v := by
  simp [get?_insert]

theorem get?_insert_ne {m : FMap K V} {a k : K} {v : V} (h : a ≠ k) :
    get? (insert m a v) k = get? m k := by simp [get?_insert, h]

theorem mem_keys_iff (m : FMap K V) (k : K) : k ∈ keys m ↔ ∃ v, get? m k = some v := by
  induction m with
  | nil => simp [keys]
  | cons p m ih =>
    obtain ⟨x, v⟩ := p
    unfold keys at ih ⊢
    simp only [List.map_cons, List.mem_cons, get?_cons]
    by_cases h : x = k
    · simp [h]
    · simp [h, ih, Ne.symm h]

theorem mem_keys_isSome (m : FMap K V) (k : K) : k ∈ keys m ↔ (get? m k).isSome := by
  rw [mem_keys_iff, Option.isSome_iff_exists]

theorem mem_of_get? {m : FMap K V} {k : K} {v : V} (h : get? m k = some v) : (k, v) ∈ m := by
  induction m with
  | nil => simp at h
  | cons p m ih =>
    obtain ⟨x, w⟩ := p
    rw [get?_cons] at h
    by_cases hx : x = k
    · simp [hx] at h; simp [hx, h]
    · simp [hx] at h; exact List.mem_cons_of_mem _ (ih h)

theorem get?_of_mem {m : FMap K V} (wf : WF m) {k : K} {v : V} (h : (k, v) ∈ m) :
    get? m k = some v := by
  induction m with
  | nil => simp at h
  | cons p m ih =>
    obtain ⟨x, w⟩ := p
    unfold WF keys at wf ih
    simp only [List.map_cons, List.nodup_cons, List.mem_map, not_exists, not_and] at wf
    rw [get?_cons]
    rcases List.mem_cons.1 h with h | h
    · cases h; simp
    · have : x ≠ k := fun e => wf.1 (k, v) h e.symm
      simp [this, ih wf.2 h]

theorem mem_iff_get? {m : FMap K V} (wf : WF m) {k : K} {v : V} :
    (k, v) ∈ m ↔ get? m k = some v := ⟨get?_of_mem wf, mem_of_get?⟩

omit [DecidableEq K] in
theorem wf_nil : WF ([] : FMap K V) := by simp [WF, keys]

theorem keys_erase (m : FMap K V) (k : K) : keys (erase m k) = (keys m).filter (fun x => decide (x ≠ k)) := by
  unfold keys erase
  induction m with
  | nil => rfl
  | cons p m ih => by_cases h : p.1 = k <;> simp_all

theorem wf_erase {m : FMap K V} (h : WF m) (k : K) : WF (erase m k) := by
  unfold WF at *; rw [keys_erase]; exact h.filter _

theorem wf_insert {m : FMap K V} (h : WF m) (k : K) (v : V) : WF (insert m k v) := by
  have h' := wf_erase h k
  unfold WF at *
  have e : keys (insert m k v) = k :: keys (erase m k) := rfl
  rw [e, List.nodup_cons]
  refine ⟨?_, h'⟩
  rw [keys_erase]; simp

theorem mem_keys_insert (m : FMap K V) (a k : K) (v : V) :
    k ∈ keys (insert m a v) ↔ k = a ∨ k ∈ keys m := by
  rw [mem_keys_iff, mem_keys_iff]
  by_cases h : a = k
  · subst h; simp
  · simp [get?_insert_ne h, Ne.symm h]

theorem mem_keys_erase (m : FMap K V) (a k : K) :
    k ∈ keys (erase m a) ↔ k ≠ a ∧ k ∈ keys m := by
  rw [keys_erase]; simp [and_comm]

theorem get?_perm {m m' : FMap K V} (wf : WF m) (p : m.Perm m') (k : K) : get? m k = get? m' k := by
  have wf' : WF m' := by unfold WF keys at *; exact (p.map _).nodup_iff.1 wf
  cases h : get? m k with
  | some v =>
    exact (get?_of_mem wf' (p.mem_iff.1 (mem_of_get? h))).symm
  | none =>
    cases h' : get? m' k with
    | none => rfl
    | some v =>
      have := get?_of_mem wf (p.mem_iff.2 (mem_of_get? h'))
      rw [h] at this; exact absurd this (by simp)

theorem get?_eq_none_iff (m : FMap K V) (k : K) : get? m k = none ↔ k ∉ keys m := by
  rw [mem_keys_isSome]; cases get? m k <;> simp

theorem erase_of_get?_none {m : FMap K V} {k : K} (h : get? m k = none) : erase m k = m := by
  rw [get?_eq_none_iff] at h
  unfold erase keys at *
  rw [List.filter_eq_self]
  intro a ha
  simp only [List.mem_map, not_exists, not_and] at h
  simpa using h a ha

end FMap

/-! Finite sets as lists.  Stands for `types.Set`. -/
namespace LSet
variable {α : Type} [DecidableEq α]

/-- `Set.Add`. -/
def add (s : List α) (a : α) : List α := if a ∈ s then s else a :: s

/-- `Set.Delete`. -/
def del (s : List α) (a : α) : List α := s.filter (fun x => decide (x ≠ a))

/-- `Set.Add(keys...)`. -/
def addAll (s : List α) (l : List α) : List α := l.foldl add s

@[simp] theorem mem_add (s : List α) (a x : α) : x ∈ add s a ↔ x = a ∨ x ∈ s := by
  unfold add; split
  · rename_i h; constructor
    · exact Or.inr
    · rintro (rfl | h') <;> assumption
  · simp

@[simp] theorem mem_del (s : List α) (a x : α) : x ∈ del s a ↔ x ≠ a ∧ x ∈ s := by
  unfold del; simp [and_comm]

theorem nodup_add {s : List α} (h : s.Nodup) (a : α) : (add s a).Nodup := by
  unfold add; split
  · exact h
  · rename_i hn; exact List.nodup_cons.2 ⟨hn, h⟩

theorem nodup_del {s : List α} (h : s.Nodup) (a : α) : (del s a).Nodup := h.filter _

@[simp] theorem mem_addAll (s l : List α) (x : α) : x ∈ addAll s l ↔ x ∈ s ∨ x ∈ l := by
  unfold addAll
  induction l generalizing s with
  | nil => simp
  | cons a l ih =>
    rw [List.foldl_cons, ih, mem_add, List.mem_cons]
    constructor
    · rintro ((h | h) | h)
      · exact .inr (.inl h)
      · exact .inl h
      · exact .inr (.inr h)
    · rintro (h | h | h)
      · exact .inl (.inr h)
      · exact .inl (.inl h)
      · exact .inr h

theorem nodup_addAll {s : List α} (h : s.Nodup) (l : List α) : (addAll s l).Nodup := by
  unfold addAll
  induction l generalizing s with
  | nil => exact h
  | cons a l ih => exact ih (nodup_add h a)

theorem add_of_mem {s : List α} {a : α} (h : a ∈ s) : add s a = s := by simp [add, h]

end LSet

/-- Two lists denote the same set. -/
def SameSet {α : Type} (l m : List α) : Prop := ∀ x, x ∈ l ↔ x ∈ m

end Verif
