import Verif.Proof.Registry
import Verif.Lib.ListExtra

/-! # Middlewares and listeners of namespaces, over histories -/

namespace Verif.Registry
open Verif Verif.Spec

/-- Namespaces are added, each with what its parent has; what there was gets at most more listeners. -/
structure Grow (s s' : St) : Prop where
  par : ∀ k : Nat, (s'.parents[k]?).map (fun p : Parent => (p.fns, p.handlers)) = (s.parents[k]?).map (fun p : Parent => (p.fns, p.handlers))
  old : ∀ (n : Nat) (x : Nsp), s.spaces[n]? = some x → ∃ x' : Nsp, s'.spaces[n]? = some x' ∧ x'.fns = x.fns ∧ x'.parent = x.parent ∧ x.handlers <+: x'.handlers
  new : ∀ (n : Nat) (x' : Nsp), s.spaces[n]? = none → s'.spaces[n]? = some x' →
    (x'.parent = none ∧ x'.fns = []) ∨ ∃ (k : Nat) (p : Parent), x'.parent = some k ∧ s.parents[k]? = some p ∧ x'.fns = p.fns ∧ p.handlers <+: x'.handlers

theorem Grow.refl (s : St) : Grow s s :=
  ⟨fun _ => rfl, fun n x h => ⟨x, h, rfl, rfl, List.prefix_rfl⟩, fun n x' h h' => by rw [h] at h'; cases h'⟩

theorem Grow.trans {s t u : St} (a : Grow s t) (b : Grow t u) : Grow s u := by
  refine ⟨fun k => (b.par k).trans (a.par k), ?_, ?_⟩
  · intro n x h
    obtain ⟨y, h1, h2, h3, h4⟩ := a.old n x h
    obtain ⟨z, h5, h6, h7, h8⟩ := b.old n y h1
    exact ⟨z, h5, h6.trans h2, h7.trans h3, h4.trans h8⟩
  · intro n z h h'
    cases ht : t.spaces[n]? with
    | some y =>
      obtain ⟨z', h5, h6, h7, h8⟩ := b.old n y ht
      rw [h'] at h5; cases h5
      rw [h6, h7]
      rcases a.new n y h ht with ⟨h1, h2⟩ | ⟨k, p, h1, h2, h3, h4⟩
      · exact .inl ⟨h1, h2⟩
      · exact .inr ⟨k, p, h1, h2, h3, h4.trans h8⟩
    | none =>
      rcases b.new n z ht h' with h1 | ⟨k, p, h1, h2, h3, h4⟩
      · exact .inl h1
      · have := a.par k
        rw [h2] at this
        cases hs : s.parents[k]? with
        | none => rw [hs] at this; cases this
        | some q =>
          rw [hs] at this
          simp only [Option.map_some, Option.some.injEq, Prod.mk.injEq] at this
          exact .inr ⟨k, q, h1, hs, h3.trans this.1, this.2 ▸ h4⟩

/-- Nothing of what `Grow` is about changes. -/
theorem Grow.same {s s' : St} (h1 : s'.parents = s.parents) (h2 : s'.spaces = s.spaces) : Grow s s' := by
  refine ⟨fun k => by rw [h1], fun n x h => ⟨x, by rw [h2]; exact h, rfl, rfl, List.prefix_rfl⟩, fun n x' h h' => ?_⟩
  rw [h2, h] at h'; cases h'

theorem par_set (l : List Parent) (j : Nat) (q p : Parent) (hq : l[j]? = some q) (h1 : p.fns = q.fns) (h2 : p.handlers = q.handlers) (k : Nat) :
    ((l.set j p)[k]?).map (fun p : Parent => (p.fns, p.handlers)) = (l[k]?).map (fun p : Parent => (p.fns, p.handlers)) := by
  rw [List.getElem?_set]
  split
  · rename_i h
    subst h
    rw [if_pos (List.getElem?_eq_some_iff.1 hq).1, hq, Option.map_some, Option.map_some, h1, h2]
  · rfl

theorem grow_addHandler (s : St) (n : Nat) (h : Option Nat) : Grow s (addHandler s n h) := by
  unfold addHandler
  split
  · rename_i h x hx
    refine ⟨fun _ => rfl, ?_, ?_⟩
    · intro m y hy
      simp only [List.getElem?_set]
      by_cases hm : n = m
      · subst hm
        rw [hx] at hy; cases hy
        have := (List.getElem?_eq_some_iff.1 hx).1
        exact ⟨{ x with handlers := x.handlers ++ [h] }, by simp [this], rfl, rfl, List.prefix_append _ _⟩
      · exact ⟨y, by simp [hm, hy], rfl, rfl, List.prefix_rfl⟩
    · intro m y h1 h2
      have e1 := List.getElem?_eq_none_iff.1 h1
      have e2 := (List.getElem?_eq_some_iff.1 h2).1
      simp only [List.length_set] at e2
      omega
  · exact Grow.refl s

theorem grow_new (s : St) (y : Nsp) (ps : List Parent) (nsps : FMap String Nat) (ann : List Nat)
    (hp : ∀ k : Nat, (ps[k]?).map (fun p : Parent => (p.fns, p.handlers)) = (s.parents[k]?).map (fun p : Parent => (p.fns, p.handlers)))
    (hy : (y.parent = none ∧ y.fns = []) ∨ ∃ (k : Nat) (p : Parent), y.parent = some k ∧ s.parents[k]? = some p ∧ y.fns = p.fns ∧ p.handlers <+: y.handlers) :
    Grow s { s with spaces := s.spaces ++ [y], parents := ps, nsps := nsps, announced := ann } := by
  refine ⟨hp, ?_, ?_⟩
  · intro n x h
    have := (List.getElem?_eq_some_iff.1 h).1
    exact ⟨x, by simp [List.getElem?_append_left this, h], rfl, rfl, List.prefix_rfl⟩
  · intro n x' h h'
    have hn := List.getElem?_eq_none_iff.1 h
    rw [List.getElem?_append_right hn] at h'
    have : x' = y := by
      have := List.mem_of_getElem? h'
      simpa using this
    subst this
    exact hy

theorem grow_createChild (s : St) (k : Nat) (name : String) : Grow s (createChild s k name).1 := by
  unfold createChild
  split
  · exact Grow.refl s
  · rename_i p hp
    exact grow_new s _ _ _ _ (par_set _ _ _ _ hp rfl rfl) (.inr ⟨k, p, rfl, hp, rfl, List.prefix_rfl⟩)

theorem grow_ofName (regex : Nat → String → Bool) (s : St) (name : Option String) (h : Option Nat) (order : List Nat) :
    Grow s (ofName regex s name h order).1 := by
  simp only [ofName]
  split
  · exact grow_addHandler _ _ _
  · split
    · exact grow_createChild _ _ _
    · exact (grow_new s { name := normalize name } s.parents _ _ (fun _ => rfl) (.inl ⟨rfl, rfl⟩)).trans (grow_addHandler _ _ _)

theorem grow_doConnect (regex : Nat → String → Bool) (s : St) (c : Nat) (name : String) : Grow s (doConnect regex s c name) :=
  (grow_ofName regex s (some name) none s.again).trans (Grow.same rfl rfl)

theorem grow_nextCalled (regex : Nat → String → Bool) (s : St) (c : Nat) (name : String) (k : Nat) (b : Bool) :
    Grow s (nextCalled regex s c name k b) := by
  unfold nextCalled
  split
  · split
    · exact grow_doConnect _ _ _ _
    · exact (grow_createChild s k name).trans (grow_doConnect _ _ _ _)
  · exact Grow.refl s

theorem grow_nextCalls (regex : Nat → String → Bool) (c : Nat) (name : String) (k : Nat) (l : List Bool) : ∀ s : St,
    Grow s (l.foldl (fun s b => nextCalled regex s c name k b) s) := by
  induction l with
  | nil => exact fun s => Grow.refl s
  | cons b l ih => exact fun s => (grow_nextCalled regex s c name k b).trans (ih _)

theorem grow_traverse (regex : Nat → String → Bool) (calls : Nat → List Bool) (c : Nat) (name : String) (l : List Nat) : ∀ (s : St) (e : Bool),
    Grow s (traverse regex calls c name l (s, e)).1 := by
  induction l with
  | nil => exact fun s e => Grow.refl s
  | cons k l ih =>
    intro s e
    have h1 : Grow s ((calls k).foldl (fun s b => nextCalled regex s c name k b) { s with closures := s.closures ++ [(c, name, k)] }) :=
      Grow.trans (Grow.same (s := s) (s' := { s with closures := s.closures ++ [(c, name, k)] }) rfl rfl) (grow_nextCalls regex c name k _ _)
    simp only [traverse]
    split
    · exact h1.trans (ih _ _)
    · exact h1

theorem grow_connect (regex : Nat → String → Bool) (s : St) (c : Nat) (name : String) (order : List Nat) (calls : Nat → List Bool) :
    Grow s (connect regex s c name order calls) := by
  unfold connect
  split
  · exact grow_doConnect _ _ _ _
  · have h1 := grow_traverse regex (callsOf regex s name calls) c name (order.filter (· < s.parents.length)) s true
    simp only
    split
    · exact h1.trans (Grow.same rfl rfl)
    · exact h1

theorem grow_clean (s : St) (n : Nat) : Grow s (clean s n) := by
  unfold clean
  split
  · rename_i name k _ _ _
    simp only
    split
    · rename_i p hp
      refine ⟨par_set _ _ _ _ hp rfl rfl, fun n x h => ⟨x, h, rfl, rfl, List.prefix_rfl⟩, fun n x' h h' => ?_⟩
      rw [show s.spaces[n]? = some x' from h'] at h; cases h
    · exact Grow.same rfl rfl
  · exact Grow.refl s

/-- A call that registers no middleware or listener and makes no parent. -/
theorem grow_step (regex : Nat → String → Bool) (s : St) (op : Op) (h1 : ∀ r h, op ≠ .ofParent r h) (h2 : ∀ n m, op ≠ .use n m)
    (h3 : ∀ n m, op ≠ .useParent n m) (h4 : ∀ n m, op ≠ .onParent n m) : Grow s (step regex s op) := by
  cases op with
  | ofName name h order => exact grow_ofName _ _ _ _ _
  | ofParent r h => exact absurd rfl (h1 r h)
  | use n m => exact absurd rfl (h2 n m)
  | useParent k m => exact absurd rfl (h3 k m)
  | on n h => exact grow_addHandler _ _ _
  | onParent k h => exact absurd rfl (h4 k h)
  | connect c name order calls => exact grow_connect _ _ _ _ _ _
  | late i allow => simp only [step]; split
                    · exact grow_nextCalled _ _ _ _ _ _
                    · exact Grow.refl s
  | clean n => exact grow_clean _ _
  | reorder l => exact Grow.same rfl rfl

/-! ## Children -/

/-- `n` is among the children of parent `k`. -/
def Kid (s : St) (k n : Nat) : Prop := ∃ p, s.parents[k]? = some p ∧ n ∈ p.children

/-- `n` is new in `s'`, made by parent `k`. -/
def Born (s s' : St) (k n : Nat) : Prop := s.spaces[n]? = none ∧ ∃ x, s'.spaces[n]? = some x ∧ x.parent = some k

/-- Besides, the children are the former ones and those made since. -/
structure Kids (s s' : St) : Prop extends Grow s s' where
  kid : ∀ k n, Kid s' k n ↔ Kid s k n ∨ Born s s' k n

theorem Kids.refl (s : St) : Kids s s :=
  ⟨Grow.refl s, fun k n => ⟨.inl, fun h => h.elim id fun ⟨h1, x, h2, _⟩ => by rw [h1] at h2; cases h2⟩⟩

theorem Kids.same {s s' : St} (h1 : s'.parents = s.parents) (h2 : s'.spaces = s.spaces) : Kids s s' :=
  ⟨Grow.same h1 h2, fun k n => by
    simp only [Kid, Born, h1, h2]
    exact ⟨.inl, fun h => h.elim id fun ⟨h1, x, h2, _⟩ => by rw [h1] at h2; cases h2⟩⟩

theorem Kids.trans {s t u : St} (a : Kids s t) (b : Kids t u) : Kids s u := by
  refine ⟨a.toGrow.trans b.toGrow, fun k n => ?_⟩
  rw [b.kid, a.kid]
  constructor
  · rintro ((h | ⟨h1, x, h2, h3⟩) | ⟨h1, x, h2, h3⟩)
    · exact .inl h
    · obtain ⟨y, h4, _, h5, _⟩ := b.old n x h2
      exact .inr ⟨h1, y, h4, h5.trans h3⟩
    · refine .inr ⟨?_, x, h2, h3⟩
      cases hs : s.spaces[n]? with
      | none => rfl
      | some y =>
        obtain ⟨z, h4, _⟩ := a.old n y hs
        rw [h1] at h4; cases h4
  · rintro (h | ⟨h1, x, h2, h3⟩)
    · exact .inl (.inl h)
    · cases ht : t.spaces[n]? with
      | none => exact .inr ⟨ht, x, h2, h3⟩
      | some y =>
        obtain ⟨z, h4, _, h5, _⟩ := b.old n y ht
        rw [h2] at h4; cases h4
        exact .inl (.inr ⟨h1, y, ht, h5.symm.trans h3⟩)

theorem kids_addHandler (s : St) (n : Nat) (h : Option Nat) : Kids s (addHandler s n h) := by
  refine ⟨grow_addHandler s n h, fun k m => ?_⟩
  have hp : (addHandler s n h).parents = s.parents := by unfold addHandler; split <;> rfl
  have hl : (addHandler s n h).spaces.length = s.spaces.length := by unfold addHandler; split <;> simp
  simp only [Kid, hp]
  refine ⟨.inl, fun h => h.elim id fun ⟨h1, x, h2, _⟩ => ?_⟩
  have := List.getElem?_eq_none_iff.1 h1
  have := (List.getElem?_eq_some_iff.1 h2).1
  omega

theorem kids_createChild (s : St) (k : Nat) (name : String) : Kids s (createChild s k name).1 := by
  refine ⟨grow_createChild s k name, fun j n => ?_⟩
  unfold createChild
  split
  · exact (Kids.refl s).kid j n
  · rename_i p hp
    have hlt := (List.getElem?_eq_some_iff.1 hp).1
    have hb : Born s { s with
        spaces := s.spaces ++ [{ name := name, parent := some k, fns := p.fns, handlers := p.handlers }]
        parents := s.parents.set k { p with children := p.children ++ [s.spaces.length] }
        nsps := s.nsps.insert name s.spaces.length
        announced := s.announced ++ [s.spaces.length] } j n ↔ n = s.spaces.length ∧ j = k := by
      constructor
      · rintro ⟨h1, x, h2, h3⟩
        have e1 := List.getElem?_eq_none_iff.1 h1
        have e2 := (List.getElem?_eq_some_iff.1 h2).1
        simp only [List.length_append, List.length_singleton] at e2
        have e : n = s.spaces.length := by omega
        subst e
        simp only [List.getElem?_append_right (Nat.le_refl _), Nat.sub_self, List.getElem?_cons_zero, Option.some.injEq] at h2
        subst h2
        exact ⟨rfl, by simpa using h3.symm⟩
      · rintro ⟨rfl, rfl⟩
        exact ⟨by simp, _, by simp; rfl, rfl⟩
    rw [hb]
    simp only [Kid, List.getElem?_set]
    by_cases hj : k = j
    · subst hj
      simp only [if_true, if_pos hlt, hp, Option.some.injEq, exists_eq_left', List.mem_append, List.mem_singleton, and_true]
    · simp only [if_neg hj]
      exact ⟨.inl, fun h => h.elim id fun h => absurd h.2.symm hj⟩

theorem kids_static (s : St) (name : String) (nsps : FMap String Nat) (ann : List Nat) :
    Kids s { s with spaces := s.spaces ++ [{ name := name }], nsps := nsps, announced := ann } := by
  refine ⟨grow_new s { name := name } s.parents nsps ann (fun _ => rfl) (.inl ⟨rfl, rfl⟩), fun j n => ?_⟩
  refine ⟨.inl, fun h => h.elim id ?_⟩
  rintro ⟨h1, x, h2, h3⟩
  have e1 := List.getElem?_eq_none_iff.1 h1
  rw [List.getElem?_append_right e1] at h2
  have := List.mem_of_getElem? h2
  simp only [List.mem_singleton] at this
  subst this
  cases h3

theorem kids_ofName (regex : Nat → String → Bool) (s : St) (name : Option String) (h : Option Nat) (order : List Nat) :
    Kids s (ofName regex s name h order).1 := by
  simp only [ofName]
  split
  · exact kids_addHandler _ _ _
  · split
    · exact kids_createChild _ _ _
    · exact (kids_static s (normalize name) _ _).trans (kids_addHandler _ _ _)

theorem kids_doConnect (regex : Nat → String → Bool) (s : St) (c : Nat) (name : String) : Kids s (doConnect regex s c name) :=
  (kids_ofName regex s (some name) none s.again).trans (Kids.same rfl rfl)

theorem kids_nextCalled (regex : Nat → String → Bool) (s : St) (c : Nat) (name : String) (k : Nat) (b : Bool) :
    Kids s (nextCalled regex s c name k b) := by
  unfold nextCalled
  split
  · split
    · exact kids_doConnect _ _ _ _
    · exact (kids_createChild s k name).trans (kids_doConnect _ _ _ _)
  · exact Kids.refl s

theorem kids_nextCalls (regex : Nat → String → Bool) (c : Nat) (name : String) (k : Nat) (l : List Bool) : ∀ s : St,
    Kids s (l.foldl (fun s b => nextCalled regex s c name k b) s) := by
  induction l with
  | nil => exact fun s => Kids.refl s
  | cons b l ih => exact fun s => (kids_nextCalled regex s c name k b).trans (ih _)

theorem kids_traverse (regex : Nat → String → Bool) (calls : Nat → List Bool) (c : Nat) (name : String) (l : List Nat) : ∀ (s : St) (e : Bool),
    Kids s (traverse regex calls c name l (s, e)).1 := by
  induction l with
  | nil => exact fun s e => Kids.refl s
  | cons k l ih =>
    intro s e
    have h1 : Kids s ((calls k).foldl (fun s b => nextCalled regex s c name k b) { s with closures := s.closures ++ [(c, name, k)] }) :=
      Kids.trans (Kids.same (s := s) (s' := { s with closures := s.closures ++ [(c, name, k)] }) rfl rfl) (kids_nextCalls regex c name k _ _)
    simp only [traverse]
    split
    · exact h1.trans (ih _ _)
    · exact h1

theorem kids_connect (regex : Nat → String → Bool) (s : St) (c : Nat) (name : String) (order : List Nat) (calls : Nat → List Bool) :
    Kids s (connect regex s c name order calls) := by
  unfold connect
  split
  · exact kids_doConnect _ _ _ _
  · have h1 := kids_traverse regex (callsOf regex s name calls) c name (order.filter (· < s.parents.length)) s true
    simp only
    split
    · exact h1.trans (Kids.same rfl rfl)
    · exact h1

/-- The children, after a call that is not the clean-up of a namespace. -/
theorem kid_step (regex : Nat → String → Bool) (s : St) (op : Op) (hop : ∀ n, op ≠ .clean n) (k n : Nat) :
    Kid (step regex s op) k n ↔ Kid s k n ∨ Born s (step regex s op) k n := by
  have same : (step regex s op).spaces.length = s.spaces.length → (Kid (step regex s op) k n ↔ Kid s k n) →
      (Kid (step regex s op) k n ↔ Kid s k n ∨ Born s (step regex s op) k n) := by
    intro hl hk
    rw [hk]
    refine ⟨.inl, fun h => h.elim id fun ⟨h1, x, h2, _⟩ => ?_⟩
    have := List.getElem?_eq_none_iff.1 h1
    have := (List.getElem?_eq_some_iff.1 h2).1
    omega
  have keep : ∀ (j : Nat) (q p : Parent), s.parents[j]? = some q → p.children = q.children → (step regex s op).parents = s.parents.set j p →
      (Kid (step regex s op) k n ↔ Kid s k n) := by
    intro j q p hq hc he
    have hlt := (List.getElem?_eq_some_iff.1 hq).1
    simp only [Kid, he, List.getElem?_set]
    by_cases hj : j = k
    · subst hj
      simp only [if_true, if_pos hlt, hq, Option.some.injEq, exists_eq_left', hc]
    · simp only [if_neg hj]
  cases op with
  | clean n => exact absurd rfl (hop n)
  | ofName name h order => exact (kids_ofName _ _ _ _ _).kid k n
  | connect c name order calls => exact (kids_connect _ _ _ _ _ _).kid k n
  | on j h => exact (kids_addHandler _ _ _).kid k n
  | reorder l => exact (Kids.same (s := s) (s' := { s with again := l }) rfl rfl).kid k n
  | late i allow =>
    simp only [step]; split
    · exact (kids_nextCalled _ _ _ _ _ _).kid k n
    · exact (Kids.refl s).kid k n
  | use j m =>
    refine same (by simp only [step]; split <;> simp) ?_
    have : (step regex s (.use j m)).parents = s.parents := by simp only [step]; split <;> rfl
    simp only [Kid, this]
  | useParent j m =>
    refine same (by simp only [step]; split <;> simp) ?_
    cases hp : s.parents[j]? with
    | none => simp only [step, hp]
    | some p => exact keep j p { p with fns := p.fns ++ [m] } hp rfl (by simp only [step, hp])
  | onParent j m =>
    refine same (by simp only [step]; split <;> simp) ?_
    cases hp : s.parents[j]? with
    | none => simp only [step, hp]
    | some p => exact keep j p { p with handlers := p.handlers ++ [m] } hp rfl (by simp only [step, hp])
  | ofParent r f =>
    refine same rfl ?_
    simp only [step, ofParent, Kid]
    constructor
    · rintro ⟨p, hp, hn⟩
      by_cases hk : k < s.parents.length
      · exact ⟨p, by rwa [List.getElem?_append_left hk] at hp, hn⟩
      · rw [List.getElem?_append_right (by omega)] at hp
        have := List.mem_of_getElem? hp
        simp only [List.mem_singleton] at this
        subst this
        cases hn
    · rintro ⟨p, hp, hn⟩
      exact ⟨p, by rw [List.getElem?_append_left (List.getElem?_eq_some_iff.1 hp).1]; exact hp, hn⟩

theorem kid_clean (s : St) (m k n : Nat) (hi : Kid s k n → ∃ x, s.spaces[n]? = some x ∧ x.parent = some k) :
    Kid (clean s m) k n ↔ Kid s k n ∧ m ≠ n := by
  unfold clean
  split
  · rename_i name j fns hs hx
    simp only
    split
    · rename_i p hp
      have hlt := (List.getElem?_eq_some_iff.1 hp).1
      simp only [Kid, List.getElem?_set] at hi ⊢
      by_cases hj : j = k
      · subst hj
        simp only [if_true, if_pos hlt, hp, Option.some.injEq, exists_eq_left', List.mem_filter, decide_eq_true_eq, ne_eq, eq_comm (a := m)]
      · simp only [if_neg hj]
        refine ⟨fun h => ⟨h, ?_⟩, fun h => h.1⟩
        rintro rfl
        obtain ⟨y, hy, e⟩ := hi h
        rw [hx] at hy; cases hy
        exact hj (by simpa using e)
    · rename_i hp
      refine ⟨fun h => ⟨h, ?_⟩, fun h => h.1⟩
      rintro rfl
      obtain ⟨y, hy, e⟩ := hi h
      rw [hx] at hy; cases hy
      obtain ⟨p, h1, _⟩ := h
      rw [← Option.some.inj e] at h1
      exact absurd h1 (by simp_all)
  · rename_i hx
    refine ⟨fun h => ⟨h, ?_⟩, fun h => h.1⟩
    rintro rfl
    obtain ⟨⟨nm, pa, fns, hs⟩, hy, e⟩ := hi h
    subst e
    exact hx _ _ _ _ hy

theorem run_snoc (regex : Nat → String → Bool) (h : List Op) (e : Op) : run regex (h ++ [e]) = step regex (run regex h) e := by
  simp [run, List.foldl_append]

theorem usedOn_append (n : Nat) (a b : List Op) : usedOn n (a ++ b) = usedOn n a ++ usedOn n b := by simp [usedOn]
theorem usedOnParent_append (n : Nat) (a b : List Op) : usedOnParent n (a ++ b) = usedOnParent n a ++ usedOnParent n b := by simp [usedOnParent]
theorem listenersOn_append (n : Nat) (a b : List Op) : listenersOn n (a ++ b) = listenersOn n a ++ listenersOn n b := by simp [listenersOn]
theorem listenersOnParent_append (n : Nat) (a b : List Op) : listenersOnParent n (a ++ b) = listenersOnParent n a ++ listenersOnParent n b := by simp [listenersOnParent]

theorem parents_step (regex : Nat → String → Bool) (s : St) (op : Op) (hop : ∀ r h, op ≠ .ofParent r h) (k : Nat) :
    ((step regex s op).parents[k]?).map (fun p : Parent => (p.fns, p.handlers)) =
    (s.parents[k]?).map (fun p : Parent => (p.fns ++ usedOnParent k [op], p.handlers ++ listenersOnParent k [op])) := by
  have grow : Grow s (step regex s op) → usedOnParent k [op] = [] → listenersOnParent k [op] = [] →
      ((step regex s op).parents[k]?).map (fun p : Parent => (p.fns, p.handlers)) =
      (s.parents[k]?).map (fun p : Parent => (p.fns ++ usedOnParent k [op], p.handlers ++ listenersOnParent k [op])) := by
    intro g h1 h2
    rw [g.par k, h1, h2]; simp
  cases op with
  | ofParent r h => exact absurd rfl (hop r h)
  | use n m =>
    have e : (step regex s (.use n m)).parents = s.parents := by simp only [step]; split <;> rfl
    rw [e]; simp [usedOnParent, listenersOnParent]
  | useParent j m =>
    by_cases hj : j = k
    · subst hj
      cases hp : s.parents[j]? with
      | none => simp [step, hp]
      | some p =>
        have := (List.getElem?_eq_some_iff.1 hp).1
        simp only [step, hp, List.getElem?_set, if_pos this, ite_true]
        simp [usedOnParent, listenersOnParent]
    · have e : (step regex s (.useParent j m)).parents[k]? = s.parents[k]? := by
        simp only [step]
        split
        · simp [List.getElem?_set, hj]
        · rfl
      rw [e]; simp [usedOnParent, listenersOnParent, hj]
  | onParent j m =>
    by_cases hj : j = k
    · subst hj
      cases hp : s.parents[j]? with
      | none => simp [step, hp]
      | some p =>
        have := (List.getElem?_eq_some_iff.1 hp).1
        simp only [step, hp, List.getElem?_set, if_pos this, ite_true]
        simp [usedOnParent, listenersOnParent]
    · have e : (step regex s (.onParent j m)).parents[k]? = s.parents[k]? := by
        simp only [step]
        split
        · simp [List.getElem?_set, hj]
        · rfl
      rw [e]; simp [usedOnParent, listenersOnParent, hj]
  | _ => exact grow (grow_step regex s _ (by simp) (by simp) (by simp) (by simp)) (by simp [usedOnParent]) (by simp [listenersOnParent])

theorem parents_run (regex : Nat → String → Bool) (h : List Op) : ∀ (k : Nat) (p : Parent), (run regex h).parents[k]? = some p →
    ∃ h0 r f t, h = h0 ++ .ofParent r f :: t ∧ (run regex h0).parents.length = k ∧
      p.fns = usedOnParent k t ∧ p.handlers = f.toList ++ listenersOnParent k t := by
  induction h using snocRec with
  | nil => intro k p hp; simp [run] at hp
  | append_singleton h e ih =>
    intro k p hp
    rw [run_snoc] at hp
    have keep : ∀ q : Parent, (run regex h).parents[k]? = some q → p.fns = q.fns ++ usedOnParent k [e] →
        p.handlers = q.handlers ++ listenersOnParent k [e] →
        ∃ h0 r f t, h ++ [e] = h0 ++ .ofParent r f :: t ∧ (run regex h0).parents.length = k ∧
          p.fns = usedOnParent k t ∧ p.handlers = f.toList ++ listenersOnParent k t := by
      intro q hq h1 h2
      obtain ⟨h0, r, f, t, e0, e1, e2, e3⟩ := ih k q hq
      refine ⟨h0, r, f, t ++ [e], by simp [e0], e1, ?_, ?_⟩
      · rw [h1, e2, usedOnParent_append]
      · rw [h2, e3, listenersOnParent_append, List.append_assoc]
    by_cases hop : ∃ r f, e = .ofParent r f
    · obtain ⟨r, f, rfl⟩ := hop
      simp only [step, ofParent] at hp
      by_cases hk : k < (run regex h).parents.length
      · rw [List.getElem?_append_left hk] at hp
        exact keep p hp (by simp [usedOnParent]) (by simp [listenersOnParent])
      · rw [List.getElem?_append_right (by omega)] at hp
        have hlt := (List.getElem?_eq_some_iff.1 hp).1
        simp only [List.length_singleton] at hlt
        have hk0 : k - (run regex h).parents.length = 0 := by omega
        rw [hk0] at hp
        simp only [List.getElem?_cons_zero, Option.some.injEq] at hp
        subst hp
        exact ⟨h, r, f, [], rfl, by omega, rfl, by simp [listenersOnParent]⟩
    · have := parents_step regex (run regex h) e (fun r f he => hop ⟨r, f, he⟩) k
      rw [hp] at this
      cases hq : (run regex h).parents[k]? with
      | none => rw [hq] at this; cases this
      | some q =>
        rw [hq] at this
        simp only [Option.map_some, Option.some.injEq, Prod.mk.injEq] at this
        exact keep q hq this.1 this.2

/-- What one call does to a namespace that exists. -/
theorem spaces_step_old (regex : Nat → String → Bool) (s : St) (op : Op) (n : Nat) (x : Nsp) (hx : s.spaces[n]? = some x) :
    ∃ x', (step regex s op).spaces[n]? = some x' ∧ x'.fns = x.fns ++ usedOn n [op] ∧ x'.parent = x.parent ∧
      ∃ l, x'.handlers = x.handlers ++ l ∧ (listenersOn n [op]).Sublist l := by
  have grow : Grow s (step regex s op) → usedOn n [op] = [] → listenersOn n [op] = [] →
      ∃ x', (step regex s op).spaces[n]? = some x' ∧ x'.fns = x.fns ++ usedOn n [op] ∧ x'.parent = x.parent ∧
        ∃ l, x'.handlers = x.handlers ++ l ∧ (listenersOn n [op]).Sublist l := by
    intro g h1 h2
    obtain ⟨x', a, b, c, l, hl⟩ := g.old n x hx
    exact ⟨x', a, by rw [b, h1, List.append_nil], c, l, hl.symm, by rw [h2]; exact List.nil_sublist _⟩
  have hlt := (List.getElem?_eq_some_iff.1 hx).1
  cases op with
  | ofParent r h => exact ⟨x, hx, by simp [usedOn], rfl, [], by simp, by simp [listenersOn]⟩
  | use j m =>
    by_cases hj : j = n
    · subst hj
      exact ⟨{ x with fns := x.fns ++ [m] }, by simp only [step, hx]; rw [List.getElem?_set, if_pos rfl, if_pos hlt], by simp [usedOn], rfl, [], by simp, by simp [listenersOn]⟩
    · refine ⟨x, ?_, by simp [usedOn, hj], rfl, [], by simp, by simp [listenersOn]⟩
      simp only [step]
      split
      · simp [List.getElem?_set, hj, hx]
      · exact hx
  | useParent j m =>
    refine ⟨x, ?_, by simp [usedOn], rfl, [], by simp, by simp [listenersOn]⟩
    simp only [step]; split <;> exact hx
  | onParent j m =>
    refine ⟨x, ?_, by simp [usedOn], rfl, [], by simp, by simp [listenersOn]⟩
    simp only [step]; split <;> exact hx
  | on j m =>
    by_cases hj : j = n
    · subst hj
      exact ⟨{ x with handlers := x.handlers ++ [m] }, by simp only [step, addHandler, hx]; rw [List.getElem?_set, if_pos rfl, if_pos hlt], by simp [usedOn], rfl, [m], rfl, by simp [listenersOn]⟩
    · exact grow (grow_addHandler _ _ _) (by simp [usedOn]) (by simp [listenersOn, hj])
  | _ => exact grow (grow_step regex s _ (by simp) (by simp) (by simp) (by simp)) (by simp [usedOn]) (by simp [listenersOn])

/-- What a namespace made by one call has. -/
theorem spaces_step_new (regex : Nat → String → Bool) (s : St) (op : Op) (n : Nat) (x : Nsp) (h0 : s.spaces[n]? = none)
    (hx : (step regex s op).spaces[n]? = some x) :
    (x.parent = none ∧ x.fns = []) ∨ ∃ (k : Nat) (p : Parent), x.parent = some k ∧ s.parents[k]? = some p ∧ x.fns = p.fns ∧ p.handlers <+: x.handlers := by
  have same : (step regex s op).spaces.length = s.spaces.length → False := by
    intro hl
    have := (List.getElem?_eq_some_iff.1 hx).1
    have := List.getElem?_eq_none_iff.1 h0
    omega
  cases op with
  | ofParent r h => exact (same rfl).elim
  | use j m => exact (same (by simp only [step]; split <;> simp)).elim
  | useParent j m => exact (same (by simp only [step]; split <;> simp)).elim
  | onParent j m => exact (same (by simp only [step]; split <;> simp)).elim
  | _ => exact (grow_step regex s _ (by simp) (by simp) (by simp) (by simp)).new n x h0 hx

theorem spaces_run (regex : Nat → String → Bool) (h : List Op) : ∀ (n : Nat) (x : Nsp), (run regex h).spaces[n]? = some x →
    (n = 0 ∧ x.parent = none ∧ x.fns = usedOn 0 h ∧ (listenersOn 0 h).Sublist x.handlers) ∨
    ∃ h0 e t, h = h0 ++ e :: t ∧ (run regex h0).spaces[n]? = none ∧ (run regex (h0 ++ [e])).spaces[n]? ≠ none ∧
      ((x.parent = none ∧ x.fns = usedOn n t ∧ (listenersOn n t).Sublist x.handlers) ∨
       ∃ (k : Nat) (p : Parent), x.parent = some k ∧ (run regex h0).parents[k]? = some p ∧ x.fns = p.fns ++ usedOn n t ∧
         ∃ l, x.handlers = p.handlers ++ l ∧ (listenersOn n t).Sublist l) := by
  induction h using snocRec with
  | nil =>
    intro n x hx
    cases n with
    | zero => simp [run] at hx; subst hx; exact .inl ⟨rfl, rfl, rfl, by simp [listenersOn]⟩
    | succ n => simp [run] at hx
  | append_singleton h e ih =>
    intro n x hx
    rw [run_snoc] at hx
    cases hy : (run regex h).spaces[n]? with
    | none =>
      refine .inr ⟨h, e, [], rfl, hy, by rw [run_snoc, hx]; simp, ?_⟩
      rcases spaces_step_new regex _ e n x hy hx with ⟨h1, h2⟩ | ⟨k, p, h1, h2, h3, l, h4⟩
      · exact .inl ⟨h1, h2, by simp [listenersOn]⟩
      · exact .inr ⟨k, p, h1, h2, by rw [h3]; simp [usedOn], l, h4.symm, by simp [listenersOn]⟩
    | some y =>
      obtain ⟨x', a, b, c, l, d, d'⟩ := spaces_step_old regex _ e n y hy
      rw [hx] at a; cases a
      rcases ih n y hy with ⟨h0, h1, h2, h3⟩ | ⟨h0, e0, t, h1, h2, h3, h4⟩
      · subst h0
        refine .inl ⟨rfl, c.trans h1, by rw [b, h2, usedOn_append], ?_⟩
        rw [d, listenersOn_append]; exact h3.append d'
      · refine .inr ⟨h0, e0, t ++ [e], by simp [h1], h2, h3, ?_⟩
        rw [c, b, d, usedOn_append, listenersOn_append]
        rcases h4 with ⟨h5, h6, h7⟩ | ⟨k, p, h5, h6, h7, l', h8, h9⟩
        · exact .inl ⟨h5, by rw [h6], h7.append d'⟩
        · exact .inr ⟨k, p, h5, h6, by rw [h7, List.append_assoc], l' ++ l, by rw [h8, List.append_assoc], h9.append d'⟩

theorem cleaned_append (a b : List Op) : cleaned (a ++ b) = cleaned a ++ cleaned b := by
  induction a with
  | nil => rfl
  | cons e a ih => cases e <;> simp [cleaned, ih]

theorem children_run (regex : Nat → String → Bool) (h : List Op) : ∀ k n, Kid (run regex h) k n ↔
    ∃ h0 e t x, h = h0 ++ e :: t ∧ (run regex h0).spaces[n]? = none ∧ (run regex (h0 ++ [e])).spaces[n]? ≠ none ∧
      (run regex h).spaces[n]? = some x ∧ x.parent = some k ∧ n ∉ cleaned t := by
  induction h using snocRec with
  | nil =>
    intro k n
    constructor
    · rintro ⟨p, hp, _⟩; simp [run] at hp
    · rintro ⟨h0, e, t, x, h, _⟩; simp at h
  | append_singleton h e ih =>
    intro k n
    have hi : Kid (run regex h) k n → ∃ x, (run regex h).spaces[n]? = some x ∧ x.parent = some k := fun hk =>
      let ⟨_, _, _, x, _, _, _, h1, h2, _⟩ := (ih k n).1 hk
      ⟨x, h1, h2⟩
    have old : Kid (run regex h) k n → n ∉ cleaned [e] → ∃ h0 e' t x, h ++ [e] = h0 ++ e' :: t ∧ (run regex h0).spaces[n]? = none ∧
        (run regex (h0 ++ [e'])).spaces[n]? ≠ none ∧ (run regex (h ++ [e])).spaces[n]? = some x ∧ x.parent = some k ∧ n ∉ cleaned t := by
      intro hk hn
      obtain ⟨h0, e', t, x, h1, h2, h3, h4, h5, h6⟩ := (ih k n).1 hk
      obtain ⟨y, h7, _, h8, _⟩ := spaces_step_old regex _ e n x h4
      exact ⟨h0, e', t ++ [e], y, by simp [h1], h2, h3, by rw [run_snoc, h7], h8.trans h5, by
        rw [cleaned_append, List.mem_append]; exact fun h => h.elim h6 hn⟩
    have back : ∀ y : Nsp, (run regex h).spaces[n]? = some y → (∃ h0 e' t x, h ++ [e] = h0 ++ e' :: t ∧ (run regex h0).spaces[n]? = none ∧
        (run regex (h0 ++ [e'])).spaces[n]? ≠ none ∧ (run regex (h ++ [e])).spaces[n]? = some x ∧ x.parent = some k ∧ n ∉ cleaned t) →
        Kid (run regex h) k n ∧ n ∉ cleaned [e] := by
      intro y hy ⟨h0, e', t, x, h1, h2, h3, h4, h5, h6⟩
      obtain ⟨z, h7, _, h8, _⟩ := spaces_step_old regex _ e n y hy
      rw [run_snoc, h7] at h4; cases h4
      rcases List.eq_nil_or_concat t with rfl | ⟨t, e2, rfl⟩
      · rw [show h0 ++ [e'] = h0.concat e' by simp, show h ++ [e] = h.concat e by simp] at h1
        have := List.concat_inj.1 h1
        rw [this.1, h2] at hy; cases hy
      · have h1' : h.concat e = (h0 ++ e' :: t).concat e2 := by simpa using h1
        obtain ⟨a, b⟩ := List.concat_inj.1 h1'
        subst b
        rw [List.concat_eq_append, cleaned_append, List.mem_append] at h6
        exact ⟨(ih k n).2 ⟨h0, e', t, y, a, h2, h3, hy, h8.symm.trans h5, fun h => h6 (.inl h)⟩, fun h => h6 (.inr h)⟩
    by_cases hc : ∃ m, e = .clean m
    · obtain ⟨m, rfl⟩ := hc
      have hstep : run regex (h ++ [.clean m]) = clean (run regex h) m := run_snoc regex h _
      rw [hstep, kid_clean _ _ _ _ hi, ← hstep]
      constructor
      · rintro ⟨h1, h2⟩
        exact old h1 (by simp [cleaned]; exact fun h => h2 h.symm)
      · intro hx
        obtain ⟨h0, e', t, x, h1, h2, h3, h4, h5, h6⟩ := id hx
        have : ∃ y, (run regex h).spaces[n]? = some y := by
          have hlen : (clean (run regex h) m).spaces = (run regex h).spaces := by
            unfold clean; split
            · simp only; split <;> rfl
            · rfl
          rw [hstep, hlen] at h4
          exact ⟨x, h4⟩
        obtain ⟨y, hy⟩ := this
        obtain ⟨a, b⟩ := back y hy hx
        exact ⟨a, by simp [cleaned] at b; exact fun h => b h.symm⟩
    · have hcl : cleaned [e] = [] := by cases e <;> first | rfl | exact absurd ⟨_, rfl⟩ hc
      have hs := kid_step regex (run regex h) e (fun m he => hc ⟨m, he⟩) k n
      rw [run_snoc, hs, ← run_snoc]
      constructor
      · rintro (h1 | ⟨h1, x, h2, h3⟩)
        · exact old h1 (by simp [hcl])
        · exact ⟨h, e, [], x, rfl, h1, by rw [h2]; simp, h2, h3, by simp [cleaned]⟩
      · intro hx
        cases hy : (run regex h).spaces[n]? with
        | some y => exact .inl (back y hy hx).1
        | none =>
          obtain ⟨_, _, _, x, _, _, _, h4, h5, _⟩ := hx
          exact .inr ⟨hy, x, h4, h5⟩

end Verif.Registry
