import Verif.Spec.Registry

/-! # Lemmas about the registry of namespaces -/

namespace Verif.Registry
open Verif Verif.Spec

/-- names and parents -/
def sig (s : St) : List (String × Option Nat) := s.spaces.map fun x => (x.name, x.parent)

inductive Prim : Bool → St → St → Prop
  | same {b : Bool} {s s' : St} (h1 : s'.nsps = s.nsps) (h2 : sig s' = sig s) (h3 : s'.announced = s.announced) : Prim b s s'
  | create {b : Bool} {s s' : St} (name : String) (par : Option Nat) (h0 : s.nsps.get? name = none)
      (h1 : s'.nsps = s.nsps.insert name s.spaces.length) (h2 : sig s' = sig s ++ [(name, par)])
      (h3 : s'.announced = s.announced ++ [s.spaces.length]) : Prim b s s'
  | erase {s s' : St} (n : Nat) (name : String) (k : Nat) (h0 : (sig s)[n]? = some (name, some k))
      (h1 : s'.nsps = s.nsps.erase name) (h2 : sig s' = sig s) (h3 : s'.announced = s.announced) : Prim true s s'

inductive Path (b : Bool) : St → St → Prop
  | refl (s : St) : Path b s s
  | cons {s t u : St} : Prim b s t → Path b t u → Path b s u

theorem Path.one {b : Bool} {s t : St} (h : Prim b s t) : Path b s t := .cons h (.refl _)
theorem Path.trans {b : Bool} {s t u : St} (h : Path b s t) (h' : Path b t u) : Path b s u := by
  induction h with
  | refl => exact h'
  | cons p _ ih => exact .cons p (ih h')

structure Inv (s : St) : Prop where
  wf : s.nsps.WF
  reg : ∀ name n, s.nsps.get? name = some n → ∃ par, (sig s)[n]? = some (name, par)
  root : s.nsps.get? "/" = some 0
  child : ∀ (n : Nat) (name : String) (k : Nat), (sig s)[n]? = some (name, some k) → name ≠ "/"
  ann : s.announced = List.range' 1 (s.spaces.length - 1)
  pos : 0 < s.spaces.length

theorem sig_length (s : St) : (sig s).length = s.spaces.length := by simp [sig]

theorem Prim.inv {b : Bool} {s t : St} (p : Prim b s t) (i : Inv s) : Inv t := by
  cases p with
  | same h1 h2 h3 =>
    have hl : t.spaces.length = s.spaces.length := by rw [← sig_length, h2, sig_length]
    exact ⟨by rw [h1]; exact i.wf, by rw [h1, h2]; exact i.reg, by rw [h1]; exact i.root, by rw [h2]; exact i.child,
      by rw [h3, hl]; exact i.ann, by rw [hl]; exact i.pos⟩
  | create name par h0 h1 h2 h3 =>
    have hl : t.spaces.length = s.spaces.length + 1 := by rw [← sig_length, h2]; simp [sig_length]
    have hne : name ≠ "/" := by rintro rfl; rw [i.root] at h0; cases h0
    refine ⟨by rw [h1]; exact FMap.wf_insert i.wf _ _, ?_, ?_, ?_, ?_, by omega⟩
    · intro m n hm
      rw [h1, FMap.get?_insert] at hm
      split at hm
      · rename_i e; cases hm; subst e; exact ⟨par, by rw [h2, ← sig_length]; simp⟩
      · obtain ⟨q, hq⟩ := i.reg _ _ hm
        exact ⟨q, by rw [h2, List.getElem?_append_left (List.getElem?_eq_some_iff.mp hq).1]; exact hq⟩
    · rw [h1, FMap.get?_insert_ne hne]; exact i.root
    · intro n m k hm
      rw [h2, List.getElem?_append] at hm
      split at hm
      · exact i.child n m k hm
      · have : n - (sig s).length = 0 := by
          rcases Nat.eq_zero_or_pos (n - (sig s).length) with h | h
          · exact h
          · rw [List.getElem?_eq_none (by simp only [List.length_singleton]; omega)] at hm; cases hm
        rw [this] at hm; simp at hm; rw [← hm.1]; exact hne
    · rw [h3, hl, i.ann]
      have := i.pos
      rw [show s.spaces.length + 1 - 1 = (s.spaces.length - 1) + 1 by omega, List.range'_concat]
      simp; omega
  | erase n name k h0 h1 h2 h3 =>
    have hl : t.spaces.length = s.spaces.length := by rw [← sig_length, h2, sig_length]
    refine ⟨by rw [h1]; exact FMap.wf_erase i.wf _, ?_, ?_, by rw [h2]; exact i.child, by rw [h3, hl]; exact i.ann, by rw [hl]; exact i.pos⟩
    · intro m j hm
      rw [h1] at hm
      rw [FMap.get?_erase] at hm
      split at hm
      · cases hm
      · rw [h2]; exact i.reg _ _ hm
    · have := i.child _ _ _ h0
      rw [h1, FMap.get?_erase_ne this]; exact i.root

theorem Path.inv {b : Bool} {s t : St} (p : Path b s t) (i : Inv s) : Inv t := by
  induction p with
  | refl => exact i
  | cons q _ ih => exact ih (q.inv i)


/-! ### Steps as paths -/

/-- every `next` function belongs to a parent -/
def Valid (s : St) : Prop := ∀ x ∈ s.closures, x.2.2 < s.parents.length

theorem createChild_prim {s : St} {k : Nat} {name : String} (hk : k < s.parents.length) (h0 : s.nsps.get? name = none) :
    Prim false s (createChild s k name).1 := by
  have : s.parents[k]? = some s.parents[k] := List.getElem?_eq_getElem hk
  refine .create name (some k) h0 ?_ ?_ ?_ <;> simp [createChild, this, sig]

theorem createChild_parents (s : St) (k : Nat) (name : String) :
    (createChild s k name).1.parents.length = s.parents.length ∧ (createChild s k name).1.closures = s.closures := by
  simp only [createChild]; split <;> simp

theorem sig_set (s : St) (n : Nat) (x y : Nsp) (h : s.spaces[n]? = some x) (hn : y.name = x.name) (hp : y.parent = x.parent) :
    (s.spaces.set n y).map (fun x => (x.name, x.parent)) = sig s := by
  obtain ⟨hlt, he⟩ := List.getElem?_eq_some_iff.mp h
  unfold sig
  apply List.ext_getElem?
  intro i
  simp only [List.getElem?_map, List.getElem?_set]
  split
  · rename_i e; subst e
    simp [h, hn, hp]
  · rfl

theorem addHandler_fields (s : St) (n : Nat) (h : Option Nat) :
    (addHandler s n h).nsps = s.nsps ∧ sig (addHandler s n h) = sig s ∧ (addHandler s n h).announced = s.announced ∧
    (addHandler s n h).parents = s.parents ∧ (addHandler s n h).closures = s.closures := by
  simp only [addHandler]
  split
  · rename_i h x e
    refine ⟨rfl, ?_, rfl, rfl, rfl⟩
    exact sig_set s n x _ e rfl rfl
  · simp

theorem addHandler_prim (s : St) (n : Nat) (h : Option Nat) : Prim false s (addHandler s n h) :=
  .same (addHandler_fields s n h).1 (addHandler_fields s n h).2.1 (addHandler_fields s n h).2.2.1

theorem firstMatch_lt {s : St} {regex : Nat → String → Bool} {n : String} {order : List Nat} {k : Nat}
    (h : firstMatch s regex n order = some k) : k < s.parents.length := by
  have := List.find?_some h
  split at this
  · rename_i e; exact (List.getElem?_eq_some_iff.mp e).1
  · cases this

theorem ofName_path (regex : Nat → String → Bool) {s : St} (i : Inv s) (name : Option String) (h : Option Nat) (order : List Nat) :
    Path false s (ofName regex s name h order).1 ∧ (ofName regex s name h order).1.parents.length = s.parents.length ∧
    (ofName regex s name h order).1.closures = s.closures := by
  simp only [ofName]
  split
  · rename_i n e
    have := addHandler_fields s n h
    exact ⟨.one (addHandler_prim ..), by rw [this.2.2.2.1], this.2.2.2.2⟩
  · rename_i e0
    split
    · rename_i k e1
      exact ⟨.one (createChild_prim (firstMatch_lt e1) e0), (createChild_parents ..).1, (createChild_parents ..).2⟩
    · have hne : normalize name ≠ "/" := by intro e; rw [e, i.root] at e0; cases e0
      have := fun t => addHandler_fields t s.spaces.length h
      refine ⟨.cons (.create (normalize name) none e0 ?_ ?_ ?_) (.one (addHandler_prim ..)), ?_, ?_⟩
      · rfl
      · simp [sig]
      · simp [hne]
      · rw [(this _).2.2.2.1]
      · rw [(this _).2.2.2.2]

theorem doConnect_path (regex : Nat → String → Bool) {s : St} (i : Inv s) (c : Nat) (name : String) :
    Path false s (doConnect regex s c name) ∧ (doConnect regex s c name).parents.length = s.parents.length ∧
    (doConnect regex s c name).closures = s.closures := by
  obtain ⟨h1, h2, h3⟩ := ofName_path regex i (some name) none s.again
  exact ⟨h1.trans (.one (.same rfl rfl rfl)), h2, h3⟩

theorem nextCalled_path (regex : Nat → String → Bool) {s : St} (i : Inv s) {k : Nat} (c : Nat) (name : String) (b : Bool) (hk : k < s.parents.length) :
    Path false s (nextCalled regex s c name k b) ∧ (nextCalled regex s c name k b).parents.length = s.parents.length ∧
    (nextCalled regex s c name k b).closures = s.closures := by
  simp only [nextCalled]
  split
  · split
    · exact doConnect_path regex i c name
    · rename_i h0
      have p := createChild_prim hk h0
      obtain ⟨h1, h2, h3⟩ := doConnect_path regex (p.inv i) c name
      exact ⟨.cons p h1, h2.trans (createChild_parents s k name).1, h3.trans (createChild_parents s k name).2⟩
  · exact ⟨.refl _, rfl, rfl⟩

theorem nextCalls_path (regex : Nat → String → Bool) {k : Nat} (c : Nat) (name : String) (l : List Bool) : ∀ {s : St}, Inv s → k < s.parents.length →
    Path false s (l.foldl (fun s b => nextCalled regex s c name k b) s) ∧
    (l.foldl (fun s b => nextCalled regex s c name k b) s).parents.length = s.parents.length ∧
    (l.foldl (fun s b => nextCalled regex s c name k b) s).closures = s.closures := by
  induction l with
  | nil => intro s _ _; exact ⟨.refl _, rfl, rfl⟩
  | cons b l ih =>
    intro s i hk
    obtain ⟨h1, h2, h3⟩ := nextCalled_path regex i c name b hk
    obtain ⟨g1, g2, g3⟩ := ih (s := nextCalled regex s c name k b) (h1.inv i) (by rw [h2]; exact hk)
    exact ⟨h1.trans g1, g2.trans h2, g3.trans h3⟩

theorem traverse_path (regex : Nat → String → Bool) (calls : Nat → List Bool) (c : Nat) (name : String) (l : List Nat) : ∀ {s : St} {e : Bool},
    Inv s → (∀ k ∈ l, k < s.parents.length) → Valid s →
    Path false s (traverse regex calls c name l (s, e)).1 ∧ (traverse regex calls c name l (s, e)).1.parents.length = s.parents.length ∧
    Valid (traverse regex calls c name l (s, e)).1 := by
  induction l with
  | nil => intro s e _ _ v; exact ⟨.refl _, rfl, v⟩
  | cons k l ih =>
    intro s e i hl v
    have hk := hl k (by simp)
    simp only [traverse]
    generalize hs1 : ({ s with closures := s.closures ++ [(c, name, k)] } : St) = s1
    have hp1 : s1.parents = s.parents := by rw [← hs1]
    have hc1 : s1.closures = s.closures ++ [(c, name, k)] := by rw [← hs1]
    have p1 : Path false s s1 := by rw [← hs1]; exact .one (.same rfl rfl rfl)
    have i1 := p1.inv i
    obtain ⟨h1, h2, h3⟩ := nextCalls_path regex c name (calls k) (s := s1) (k := k) i1 (by rw [hp1]; exact hk)
    generalize (calls k).foldl (fun s b => nextCalled regex s c name k b) s1 = s2 at h1 h2 h3
    have v2 : Valid s2 := by
      intro x hx
      rw [h3, hc1] at hx
      rw [h2, hp1]
      rcases List.mem_append.mp hx with hx | hx
      · exact v x hx
      · simp at hx; subst hx; exact hk
    split
    · obtain ⟨g1, g2, g3⟩ := ih (s := s2) (e := e && !(calls k).any id) (h1.inv i1)
        (by intro j hj; rw [h2, hp1]; exact hl j (by simp [hj])) v2
      exact ⟨p1.trans (h1.trans g1), by rw [g2, h2, hp1], g3⟩
    · exact ⟨p1.trans h1, by rw [h2, hp1], v2⟩

theorem clean_path (s : St) (n : Nat) : Path true s (clean s n) ∧ (clean s n).parents.length = s.parents.length ∧
    (clean s n).closures = s.closures := by
  simp only [clean]
  split
  · rename_i name k _ _ e
    have e' : (sig s)[n]? = some (name, some k) := by simp [sig, e]
    split
    · exact ⟨.one (.erase n name k e' rfl rfl rfl), by simp, rfl⟩
    · exact ⟨.one (.erase n name k e' rfl rfl rfl), rfl, rfl⟩
  · exact ⟨.refl _, rfl, rfl⟩

/-- a removal -/
def isClean : Op → Bool
  | .clean _ => true
  | _ => false

theorem step_path (regex : Nat → String → Bool) {s : St} (i : Inv s) (v : Valid s) (op : Op) :
    Path (isClean op) s (step regex s op) ∧ Valid (step regex s op) := by
  have hv {t : St} (h1 : s.parents.length ≤ t.parents.length) (h2 : t.closures = s.closures) : Valid t := by
    intro x hx; rw [h2] at hx; exact Nat.lt_of_lt_of_le (v x hx) h1
  cases op with
  | ofName name h order =>
    obtain ⟨h1, h2, h3⟩ := ofName_path regex i name h order
    exact ⟨h1, hv (by simp only [step]; omega) h3⟩
  | ofParent r h => exact ⟨.one (.same rfl rfl rfl), hv (by simp [step, ofParent]) rfl⟩
  | use n m =>
    simp only [step]
    split
    · rename_i x e
      exact ⟨.one (.same rfl (sig_set s n x _ e rfl rfl) rfl), hv (Nat.le_refl _) rfl⟩
    · exact ⟨.refl _, v⟩
  | useParent k m =>
    simp only [step]
    split
    · exact ⟨.one (.same rfl rfl rfl), hv (by simp) rfl⟩
    · exact ⟨.refl _, v⟩
  | on n h =>
    have := addHandler_fields s n (some h)
    exact ⟨.one (addHandler_prim ..), hv (by simp only [step]; rw [this.2.2.2.1]; omega) this.2.2.2.2⟩
  | onParent k h =>
    simp only [step]
    split
    · exact ⟨.one (.same rfl rfl rfl), hv (by simp) rfl⟩
    · exact ⟨.refl _, v⟩
  | connect c name order calls =>
    simp only [step, connect]
    split
    · obtain ⟨h1, h2, h3⟩ := doConnect_path regex i c name
      exact ⟨h1, hv (by omega) h3⟩
    · obtain ⟨h1, _, h3⟩ := traverse_path regex (callsOf regex s name calls) c name (order.filter (· < s.parents.length))
        (s := s) (e := true) i (by intro k hk; simpa using (List.mem_filter.mp hk).2) v
      split
      · exact ⟨h1.trans (.one (.same rfl rfl rfl)), h3⟩
      · exact ⟨h1, h3⟩
  | late j b =>
    simp only [step]
    split
    · rename_i c name k e
      obtain ⟨h1, h2, h3⟩ := nextCalled_path regex i (k := k) c name b (v _ (List.mem_of_getElem? e))
      exact ⟨h1, hv (by rw [h2]; omega) h3⟩
    · exact ⟨.refl _, v⟩
  | clean n =>
    obtain ⟨h1, h2, h3⟩ := clean_path s n
    exact ⟨h1, hv (by simp only [step]; rw [h2]; omega) h3⟩
  | reorder l => exact ⟨.one (.same rfl rfl rfl), hv (Nat.le_refl _) rfl⟩

theorem inv_init : Inv {} where
  wf := by simp [FMap.WF, FMap.keys]
  reg := by
    intro name n h
    have : name = "/" ∧ n = 0 := by
      rw [FMap.get?_cons] at h
      split at h
      · rename_i e; exact ⟨e.symm, by simpa using h.symm⟩
      · cases h
    rw [this.1, this.2]; exact ⟨none, rfl⟩
  root := rfl
  child := by
    intro n name k h
    match n with
    | 0 => simp [sig] at h
    | n + 1 => simp [sig] at h
  ann := rfl
  pos := by decide

theorem Path.weaken {b : Bool} {s t : St} (p : Path b s t) : Path true s t := by
  induction p with
  | refl => exact .refl _
  | cons q _ ih =>
    refine .cons ?_ ih
    cases q with
    | same h1 h2 h3 => exact .same h1 h2 h3
    | create a b h0 h1 h2 h3 => exact .create a b h0 h1 h2 h3
    | erase a b c h0 h1 h2 h3 => exact .erase a b c h0 h1 h2 h3

theorem Path.keeps {s t : St} (p : Path false s t) : ∀ {name n}, s.nsps.get? name = some n → t.nsps.get? name = some n := by
  induction p with
  | refl => intro _ _ h; exact h
  | cons q _ ih =>
    intro name n h
    apply ih
    cases q with
    | same h1 h2 h3 => rw [h1]; exact h
    | create a b h0 h1 h2 h3 =>
      have : a ≠ name := by rintro rfl; rw [h0] at h; cases h
      rw [h1, FMap.get?_insert_ne this]; exact h

theorem foldl_path (regex : Nat → String → Bool) (t : List Op) : ∀ {s : St}, Inv s → Valid s →
    Path true s (t.foldl (step regex) s) ∧ Valid (t.foldl (step regex) s) := by
  induction t with
  | nil => intro s _ v; exact ⟨.refl _, v⟩
  | cons op t ih =>
    intro s i v
    obtain ⟨p, v'⟩ := step_path regex i v op
    obtain ⟨q, v''⟩ := ih (p.inv i) v'
    exact ⟨p.weaken.trans q, v''⟩

theorem inv_run (regex : Nat → String → Bool) (h : List Op) : Inv (run regex h) ∧ Valid (run regex h) := by
  obtain ⟨p, v⟩ := foldl_path regex h inv_init (s := {}) (by intro x hx; cases hx)
  exact ⟨p.inv inv_init, v⟩

theorem Prim.sig_prefix {b : Bool} {s t : St} (p : Prim b s t) : ∃ l, sig t = sig s ++ l := by
  cases p with
  | same _ h2 _ => exact ⟨[], by simp [h2]⟩
  | create _ _ _ _ h2 _ => exact ⟨_, h2⟩
  | erase _ _ _ _ _ h2 _ => exact ⟨[], by simp [h2]⟩

theorem Path.sig_prefix {b : Bool} {s t : St} (p : Path b s t) : ∃ l, sig t = sig s ++ l := by
  induction p with
  | refl => exact ⟨[], by simp⟩
  | cons q _ ih =>
    obtain ⟨l, hl⟩ := q.sig_prefix
    obtain ⟨l', hl'⟩ := ih
    exact ⟨l ++ l', by rw [hl', hl, List.append_assoc]⟩

theorem clean_keeps {s : St} {name : String} {n m : Nat} (h : s.nsps.get? name = some n)
    (hm : ∀ par, (sig s)[m]? ≠ some (name, par)) : (clean s m).nsps.get? name = some n := by
  simp only [clean]
  split
  · rename_i a k _ _ e
    have e' : (sig s)[m]? = some (a, some k) := by simp [sig, e]
    have hne : a ≠ name := by rintro rfl; exact hm _ e'
    split <;> (simp only; rw [FMap.get?_erase_ne hne]; exact h)
  · exact h

/-- A name stays registered as long as no namespace of that name is removed. -/
theorem foldl_keeps (regex : Nat → String → Bool) (t : List Op) : ∀ {s : St} {name : String} {n : Nat}, Inv s → Valid s →
    s.nsps.get? name = some n →
    (∀ m ∈ cleaned t, ∀ par, (sig (t.foldl (step regex) s))[m]? ≠ some (name, par)) →
    (t.foldl (step regex) s).nsps.get? name = some n := by
  induction t with
  | nil => intro s name n _ _ h _; exact h
  | cons op t ih =>
    intro s name n i v h hc
    obtain ⟨p, v'⟩ := step_path regex i v op
    have i' := p.inv i
    refine ih i' v' ?_ ?_
    · cases hop : isClean op with
      | false => rw [hop] at p; exact p.keeps h
      | true =>
        cases op <;> simp only [isClean, Bool.false_eq_true] at hop
        rename_i m
        refine clean_keeps h fun par hp => hc m (by simp [cleaned]) par ?_
        obtain ⟨l, hl⟩ := (p.weaken.trans (foldl_path regex t i' v').1).sig_prefix
        rw [List.foldl_cons, hl, List.getElem?_append_left (List.getElem?_eq_some_iff.mp hp).1]; exact hp
    · intro m hm
      refine hc m ?_
      cases op <;> simp [cleaned, hm]

/-! ### Admission -/

theorem normalize_slashed {name : String} (h : Slashed name) : normalize (some name) = name := by
  unfold Slashed at h
  simp only [normalize]
  split
  · rename_i e; rw [e] at h; cases h
  · rename_i c l e; rw [e] at h; simp only [List.head?_cons, Option.some.injEq] at h; simp [h]

theorem normalize_idem (a : Option String) : normalize (some (normalize a)) = normalize a := by
  apply normalize_slashed
  unfold Slashed
  simp only [normalize]
  split
  · split
    · decide
    · rename_i c l e
      split
      · rename_i hc; rw [e, hc]; rfl
      · simp
  · decide

/-- A name that begins with a slash is found again. -/
theorem doConnect_found {regex : Nat → String → Bool} {s : St} (c : Nat) {name : String} {n : Nat} (hs : Slashed name)
    (h0 : s.nsps.get? name = some n) : doConnect regex s c name = { s with answers := s.answers ++ [(c, some n)] } := by
  simp [doConnect, ofName, normalize_slashed hs, h0, addHandler]

theorem nextCalled_create {regex : Nat → String → Bool} {s : St} {k : Nat} {p : Parent} (c : Nat) {name : String} (hs : Slashed name)
    (hp : s.parents[k]? = some p) (h0 : s.nsps.get? name = none) :
    nextCalled regex s c name k true =
      { s with
        spaces := s.spaces ++ [⟨name, some k, p.fns, p.handlers⟩]
        parents := s.parents.set k { p with children := p.children ++ [s.spaces.length] }
        nsps := s.nsps.insert name s.spaces.length
        announced := s.announced ++ [s.spaces.length]
        answers := s.answers ++ [(c, some s.spaces.length)] } := by
  simp only [nextCalled, if_true, h0, createChild, hp]
  rw [doConnect_found (n := s.spaces.length) c hs (by simp)]

theorem traverse_deny (regex : Nat → String → Bool) (calls : Nat → List Bool) (c : Nat) (name : String) (r : List Nat) (l : List Nat) : ∀ {s : St} {e : Bool},
    (∀ j ∈ l, calls j = [false]) →
    traverse regex calls c name (l ++ r) (s, e) =
      traverse regex calls c name r ({ s with closures := s.closures ++ l.map fun k => (c, name, k) }, e) := by
  induction l with
  | nil => intro s e _; simp
  | cons k l ih =>
    intro s e hl
    have hk := hl k (by simp)
    simp only [List.cons_append, traverse, hk, List.foldl_cons, List.foldl_nil, nextCalled, Bool.false_eq_true, if_false,
      List.any_cons, List.any_nil, Bool.or_false, id, Bool.not_false, Bool.and_true, if_true]
    rw [ih (by intro j hj; exact hl j (by simp [hj]))]
    simp [List.append_assoc]

end Verif.Registry
