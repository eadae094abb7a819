import Verif.Spec.Operator
import Verif.Lib.ListExtra

/-! # Invariant of the operator heap -/

namespace Verif.Operator
open Verif Verif.Spec

/-- What operator `o` means in state `st`. -/
def St.val (st : St) (o : OpPtr) : OpVal := ⟨st.set o.rooms, st.set o.except, st.flag o.flags⟩

/-- Pointers are allocated; no flags cell is shared between sockets or between a socket and an
operator. -/
structure Sep (st : St) : Prop where
  opR : ∀ o ∈ st.ops, o.rooms < st.sets.length
  opE : ∀ o ∈ st.ops, o.except < st.sets.length
  opF : ∀ o ∈ st.ops, o.flags < st.flags.length
  sockF : ∀ s ∈ st.socks, s.flags < st.flags.length
  sepOp : ∀ o ∈ st.ops, ∀ s ∈ st.socks, o.flags ≠ s.flags
  sepSock : ∀ (i j : Nat) s t, st.socks[i]? = some s → st.socks[j]? = some t → s.flags = t.flags → i = j

/-- What happens to the old state in one step. -/
structure Frame (st st' : St) : Prop where
  sets : ∀ p < st.sets.length, st'.set p = st.set p
  setsLen : st.sets.length ≤ st'.sets.length
  flagsLen : st.flags.length ≤ st'.flags.length
  ops : ∃ l, st'.ops = st.ops ++ l

theorem getD_append {α : Type} (l : List α) (x d : α) (p : Nat) :
    (l ++ [x]).getD p d = if p = l.length then x else l.getD p d := by
  rcases Nat.lt_trichotomy p l.length with h | h | h
  · simp [List.getD, List.getElem?_append_left h, Nat.ne_of_lt h]
  · subst h; simp [List.getD]
  · have h1 : l.length ≤ p := by omega
    have h2 : (l ++ [x]).length ≤ p := by simp; omega
    have h3 : p ≠ l.length := by omega
    simp only [List.getD, List.getElem?_eq_none h2, List.getElem?_eq_none h1, if_neg h3]

theorem set_getD {α : Type} (l : List α) (x d : α) (p q : Nat) (hp : p < l.length) :
    (l.set p x).getD q d = if q = p then x else l.getD q d := by
  by_cases h : q = p
  · subst h; simp [List.getD, hp]
  · have : p ≠ q := fun e => h e.symm
    simp [List.getD, h, this]

section
variable (st : St)

@[simp] theorem newSet_1_flags (l) : (st.newSet l).1.flags = st.flags := rfl
@[simp] theorem newSet_1_ops (l) : (st.newSet l).1.ops = st.ops := rfl
@[simp] theorem newSet_1_socks (l) : (st.newSet l).1.socks = st.socks := rfl
@[simp] theorem newSet_1_out (l) : (st.newSet l).1.out = st.out := rfl
@[simp] theorem newSet_1_ids (l) : (st.newSet l).1.ids = st.ids := rfl
@[simp] theorem newSet_1_recovery (l) : (st.newSet l).1.recovery = st.recovery := rfl
@[simp] theorem newSet_1_len (l) : (st.newSet l).1.sets.length = st.sets.length + 1 := by simp [St.newSet]
@[simp] theorem newSet_2 (l) : (st.newSet l).2 = st.sets.length := rfl
theorem newSet_set (l) (q) : (st.newSet l).1.set q = if q = st.sets.length then LSet.addAll [] l else st.set q :=
  getD_append _ _ _ _
@[simp] theorem newSet_flag (l) (q) : (st.newSet l).1.flag q = st.flag q := rfl
@[simp] theorem newFlags_1_sets (f) : (st.newFlags f).1.sets = st.sets := rfl
@[simp] theorem newFlags_1_ops (f) : (st.newFlags f).1.ops = st.ops := rfl
@[simp] theorem newFlags_1_socks (f) : (st.newFlags f).1.socks = st.socks := rfl
@[simp] theorem newFlags_1_out (f) : (st.newFlags f).1.out = st.out := rfl
@[simp] theorem newFlags_1_ids (f) : (st.newFlags f).1.ids = st.ids := rfl
@[simp] theorem newFlags_1_recovery (f) : (st.newFlags f).1.recovery = st.recovery := rfl
@[simp] theorem newFlags_1_len (f) : (st.newFlags f).1.flags.length = st.flags.length + 1 := by simp [St.newFlags]
@[simp] theorem newFlags_2 (f) : (st.newFlags f).2 = st.flags.length := rfl
@[simp] theorem newFlags_set (f) (q) : (st.newFlags f).1.set q = st.set q := rfl
theorem newFlags_flag (f) (q) : (st.newFlags f).1.flag q = if q = st.flags.length then f else st.flag q :=
  getD_append _ _ _ _
@[simp] theorem newOp_sets (o) : (st.newOp o).sets = st.sets := rfl
@[simp] theorem newOp_flags (o) : (st.newOp o).flags = st.flags := rfl
@[simp] theorem newOp_socks (o) : (st.newOp o).socks = st.socks := rfl
@[simp] theorem newOp_out (o) : (st.newOp o).out = st.out := rfl
@[simp] theorem newOp_ops (o) : (st.newOp o).ops = st.ops ++ [o] := rfl
@[simp] theorem newOp_set (o) (q) : (st.newOp o).set q = st.set q := rfl
@[simp] theorem newOp_flag (o) (q) : (st.newOp o).flag q = st.flag q := rfl
@[simp] theorem addTo_flags (p l) : (st.addTo p l).flags = st.flags := rfl
@[simp] theorem addTo_socks (p l) : (st.addTo p l).socks = st.socks := rfl
@[simp] theorem addTo_out (p l) : (st.addTo p l).out = st.out := rfl
@[simp] theorem addTo_ops (p l) : (st.addTo p l).ops = st.ops := rfl
@[simp] theorem addTo_flag (p l) (q) : (st.addTo p l).flag q = st.flag q := rfl
@[simp] theorem addTo_len (p l) : (st.addTo p l).sets.length = st.sets.length := by simp [St.addTo]
theorem addTo_set (p l q) (hp : p < st.sets.length) :
    (st.addTo p l).set q = if q = p then LSet.addAll (st.set p) l else st.set q := set_getD _ _ _ _ _ hp
@[simp] theorem writeFlags_sets (p f) : (st.writeFlags p f).sets = st.sets := rfl
@[simp] theorem writeFlags_ops (p f) : (st.writeFlags p f).ops = st.ops := rfl
@[simp] theorem writeFlags_socks (p f) : (st.writeFlags p f).socks = st.socks := rfl
@[simp] theorem writeFlags_out (p f) : (st.writeFlags p f).out = st.out := rfl
@[simp] theorem writeFlags_set (p f) (q) : (st.writeFlags p f).set q = st.set q := rfl
@[simp] theorem writeFlags_len (p f) : (st.writeFlags p f).flags.length = st.flags.length := by simp [St.writeFlags]
theorem writeFlags_flag (p f q) (hp : p < st.flags.length) :
    (st.writeFlags p f).flag q = if q = p then f else st.flag q := set_getD _ _ _ _ _ hp
end

/-- Description of a new state in which one operator was appended. -/
theorem chain_spec {st : St} (h : Sep st) {o : OpPtr} (ho : o ∈ st.ops) (m : Mod) :
    ∃ o', (chain st o m).ops = st.ops ++ [o'] ∧ (chain st o m).socks = st.socks ∧
      (chain st o m).out = st.out ∧
      ModRel (st.val o) m ((chain st o m).val o') ∧
      (∀ p < st.sets.length, (chain st o m).set p = st.set p) ∧
      (∀ p < st.flags.length, (chain st o m).flag p = st.flag p) ∧
      st.sets.length ≤ (chain st o m).sets.length ∧ st.flags.length ≤ (chain st o m).flags.length ∧
      o'.rooms < (chain st o m).sets.length ∧ o'.except < (chain st o m).sets.length ∧
      o'.flags < (chain st o m).flags.length ∧ (o'.flags = o.flags ∨ o'.flags = st.flags.length) := by
  have a := h.opR o ho
  have b := h.opE o ho
  have c := h.opF o ho
  have nb : o.except ≠ st.sets.length := by omega
  have na : o.rooms ≠ st.sets.length := by omega
  have nc : o.flags ≠ st.flags.length := by omega
  cases m with
  | to l =>
    refine ⟨{ o with rooms := st.sets.length }, rfl, rfl, rfl, ⟨?_, ?_, ?_⟩, ?_, ?_, ?_, ?_, ?_, ?_, ?_, .inl rfl⟩
    · intro r
      simp only [chain, St.val, newOp_set]
      rw [addTo_set _ _ _ _ (by simp), if_pos (by simp)]
      simp [newSet_set]
    · simp only [chain, St.val, newOp_set]
      rw [addTo_set _ _ _ _ (by simp), if_neg (by simpa using nb), newSet_set, if_neg nb]
    · simp [chain, St.val]
    · intro p hp
      simp only [chain, newOp_set]
      rw [addTo_set _ _ _ _ (by simp), if_neg (by simp; omega), newSet_set, if_neg (by omega)]
    · intro p hp; simp [chain]
    all_goals simp [chain] <;> omega
  | except l =>
    refine ⟨{ o with except := st.sets.length }, rfl, rfl, rfl, ⟨?_, ?_, ?_⟩, ?_, ?_, ?_, ?_, ?_, ?_, ?_, .inl rfl⟩
    · simp only [chain, St.val, newOp_set]
      rw [addTo_set _ _ _ _ (by simp), if_neg (by simpa using na), newSet_set, if_neg na]
    · intro r
      simp only [chain, St.val, newOp_set]
      rw [addTo_set _ _ _ _ (by simp), if_pos (by simp)]
      simp [newSet_set]
    · simp [chain, St.val]
    · intro p hp
      simp only [chain, newOp_set]
      rw [addTo_set _ _ _ _ (by simp), if_neg (by simp; omega), newSet_set, if_neg (by omega)]
    · intro p hp; simp [chain]
    all_goals simp [chain] <;> omega
  | compress x =>
    refine ⟨{ o with flags := st.flags.length }, rfl, rfl, rfl, ⟨rfl, rfl, ?_⟩, fun _ _ => rfl, ?_, ?_, ?_, ?_, ?_, ?_, .inr rfl⟩
    · simp [chain, St.val, newFlags_flag]
    · intro p hp; simp only [chain, newOp_flag, newFlags_flag]; rw [if_neg (by omega)]
    all_goals simp [chain] <;> omega
  | volatile =>
    refine ⟨{ o with flags := st.flags.length }, rfl, rfl, rfl, ⟨rfl, rfl, ?_⟩, fun _ _ => rfl, ?_, ?_, ?_, ?_, ?_, ?_, .inr rfl⟩
    · simp [chain, St.val, newFlags_flag]
    · intro p hp; simp only [chain, newOp_flag, newFlags_flag]; rw [if_neg (by omega)]
    all_goals simp [chain] <;> omega
  | isLocal =>
    refine ⟨{ o with flags := st.flags.length }, rfl, rfl, rfl, ⟨rfl, rfl, ?_⟩, fun _ _ => rfl, ?_, ?_, ?_, ?_, ?_, ?_, .inr rfl⟩
    · simp [chain, St.val, newFlags_flag]
    · intro p hp; simp only [chain, newOp_flag, newFlags_flag]; rw [if_neg (by omega)]
    all_goals simp [chain] <;> omega
  | timeout x =>
    refine ⟨{ o with flags := st.flags.length }, rfl, rfl, rfl, ⟨rfl, rfl, ?_⟩, fun _ _ => rfl, ?_, ?_, ?_, ?_, ?_, ?_, .inr rfl⟩
    · simp [chain, St.val, newFlags_flag]
    · intro p hp; simp only [chain, newOp_flag, newFlags_flag]; rw [if_neg (by omega)]
    all_goals simp [chain] <;> omega

/-- Extension of a state by cells, operators and sockets; nothing old changes. -/
structure Ext (st st' : St) : Prop where
  set : ∀ p < st.sets.length, st'.set p = st.set p
  flag : ∀ p < st.flags.length, st'.flag p = st.flag p
  setsLen : st.sets.length ≤ st'.sets.length
  flagsLen : st.flags.length ≤ st'.flags.length

theorem Ext.refl (st : St) : Ext st st := ⟨fun _ _ => rfl, fun _ _ => rfl, Nat.le_refl _, Nat.le_refl _⟩
theorem Ext.trans {a b c : St} (h : Ext a b) (k : Ext b c) : Ext a c where
  set := fun p hp => by rw [k.set p (by have := h.setsLen; omega), h.set p hp]
  flag := fun p hp => by rw [k.flag p (by have := h.flagsLen; omega), h.flag p hp]
  setsLen := Nat.le_trans h.setsLen k.setsLen
  flagsLen := Nat.le_trans h.flagsLen k.flagsLen

theorem ext_newSet (st : St) (l) : Ext st (st.newSet l).1 where
  set := fun p hp => by rw [newSet_set, if_neg (by omega)]
  flag := fun _ _ => rfl
  setsLen := by simp
  flagsLen := Nat.le_refl _
theorem ext_newFlags (st : St) (f) : Ext st (st.newFlags f).1 where
  set := fun _ _ => rfl
  flag := fun p hp => by rw [newFlags_flag, if_neg (by omega)]
  setsLen := Nat.le_refl _
  flagsLen := by simp
theorem ext_newOp (st : St) (o) : Ext st (st.newOp o) := ⟨fun _ _ => rfl, fun _ _ => rfl, Nat.le_refl _, Nat.le_refl _⟩
theorem ext_socks (st : St) (l) : Ext st { st with socks := l } :=
  ⟨fun _ _ => rfl, fun _ _ => rfl, Nat.le_refl _, Nat.le_refl _⟩
theorem ext_out (st : St) (l) : Ext st { st with out := l } :=
  ⟨fun _ _ => rfl, fun _ _ => rfl, Nat.le_refl _, Nat.le_refl _⟩

theorem Ext.val {st st' : St} (e : Ext st st') (h : Sep st) {o : OpPtr} (ho : o ∈ st.ops) : st'.val o = st.val o := by
  unfold St.val; rw [e.set _ (h.opR o ho), e.set _ (h.opE o ho), e.flag _ (h.opF o ho)]

/-- Adding one operator whose cells are allocated and whose flags cell is not a socket's. -/
theorem Sep.addOp {st st' : St} (h : Sep st) (e : Ext st st') (o : OpPtr) (ho : st'.ops = st.ops ++ [o])
    (hs : st'.socks = st.socks)
    (h1 : o.rooms < st'.sets.length) (h2 : o.except < st'.sets.length) (h3 : o.flags < st'.flags.length)
    (h4 : ∀ s ∈ st.socks, o.flags ≠ s.flags) : Sep st' := by
  have l1 := e.setsLen
  have l2 := e.flagsLen
  refine ⟨?_, ?_, ?_, ?_, ?_, ?_⟩
  · intro x hx; rw [ho] at hx; rcases List.mem_append.1 hx with hx | hx
    · have := h.opR x hx; omega
    · rw [List.mem_singleton.1 hx]; exact h1
  · intro x hx; rw [ho] at hx; rcases List.mem_append.1 hx with hx | hx
    · have := h.opE x hx; omega
    · rw [List.mem_singleton.1 hx]; exact h2
  · intro x hx; rw [ho] at hx; rcases List.mem_append.1 hx with hx | hx
    · have := h.opF x hx; omega
    · rw [List.mem_singleton.1 hx]; exact h3
  · intro s hs'; rw [hs] at hs'; have := h.sockF s hs'; omega
  · intro x hx s hs'; rw [ho] at hx; rw [hs] at hs'
    rcases List.mem_append.1 hx with hx | hx
    · exact h.sepOp x hx s hs'
    · rw [List.mem_singleton.1 hx]; exact h4 s hs'
  · rw [hs]; exact h.sepSock

/-- Giving socket `i` a fresh flags cell (and possibly other acks). -/
theorem Sep.swap {st st' : St} (h : Sep st) (i : Nat) (s s' : Sock) (hi : st.socks[i]? = some s)
    (e : Ext st st') (ho : st'.ops = st.ops) (hs : st'.socks = st.socks.set i s')
    (hf : s'.flags = st.flags.length) (hl : st.flags.length < st'.flags.length) : Sep st' := by
  have l1 := e.setsLen
  have hlen : i < st.socks.length := (List.getElem?_eq_some_iff.1 hi).1
  refine ⟨?_, ?_, ?_, ?_, ?_, ?_⟩
  · intro x hx; rw [ho] at hx; have := h.opR x hx; omega
  · intro x hx; rw [ho] at hx; have := h.opE x hx; omega
  · intro x hx; rw [ho] at hx; have := h.opF x hx; omega
  · intro t ht; rw [hs] at ht
    rcases List.mem_or_eq_of_mem_set ht with ht | ht
    · have := h.sockF t ht; omega
    · rw [ht, hf]; exact hl
  · intro x hx t ht; rw [ho] at hx; rw [hs] at ht
    rcases List.mem_or_eq_of_mem_set ht with ht | ht
    · exact h.sepOp x hx t ht
    · rw [ht, hf]; have := h.opF x hx; omega
  · intro j k t u hj hk
    rw [hs] at hj hk
    by_cases ej : i = j
    · by_cases ek : i = k
      · intros; omega
      · rw [List.getElem?_set_ne ek] at hk
        subst ej
        rw [List.getElem?_set_self hlen] at hj
        cases hj
        have := h.sockF u (List.mem_of_getElem? hk)
        intro he; omega
    · rw [List.getElem?_set_ne ej] at hj
      by_cases ek : i = k
      · subst ek
        rw [List.getElem?_set_self hlen] at hk
        cases hk
        have := h.sockF t (List.mem_of_getElem? hj)
        intro he; omega
      · rw [List.getElem?_set_ne ek] at hk
        exact h.sepSock j k t u hj hk

/-- The states in the middle of `sockOp` and `sockSend`. -/
def St.renew (st : St) (i : Nat) (s : Sock) : St :=
  { (st.newFlags {}).1 with socks := st.socks.set i { s with flags := st.flags.length } }

theorem ext_renew (st : St) (i s) : Ext st (st.renew i s) := (ext_newFlags st {}).trans (ext_socks _ _)

theorem sep_renew {st : St} (h : Sep st) {i s} (s0) (hi : st.socks[i]? = some s0) : Sep (st.renew i s) :=
  h.swap i s0 _ hi (ext_renew st i s) rfl rfl rfl (by simp [St.renew])

theorem renew_flag_self (st : St) (i s) : (st.renew i s).flag st.flags.length = {} := by
  show (st.newFlags {}).1.flag _ = _
  simp [newFlags_flag]

/-- Summary of `sockOp`. -/
theorem sockOp_spec {st : St} (h : Sep st) {i s} (hi : st.socks[i]? = some s) :
    Sep (sockOp st i s) ∧ Ext st (sockOp st i s) ∧ (sockOp st i s).out = st.out ∧
    (sockOp st i s).socks = st.socks.set i { s with flags := st.flags.length } ∧
    (sockOp st i s).flag st.flags.length = {} ∧
    ∃ o, (sockOp st i s).ops = st.ops ++ [o] ∧ (sockOp st i s).val o = ⟨[], [s.id], st.flag s.flags⟩ := by
  have e1 := ext_renew st i s
  have s1 := sep_renew h (s := s) s hi
  let a := st.renew i s
  let b := (a.newSet []).1
  let c := (b.newSet [s.id]).1
  let d := (c.newFlags (st.flag s.flags)).1
  have eb : Ext a b := ext_newSet _ _
  have ec : Ext b c := ext_newSet _ _
  have ed : Ext c d := ext_newFlags _ _
  let o : OpPtr := ⟨a.sets.length, b.sets.length, c.flags.length⟩
  have ef : Ext a (d.newOp o) := ((eb.trans ec).trans ed).trans (ext_newOp _ _)
  have heq : sockOp st i s = d.newOp o := rfl
  have hal : a.flags.length = st.flags.length + 1 := by simp [a, St.renew]
  rw [heq]
  refine ⟨?_, e1.trans ef, rfl, rfl, ?_, o, rfl, ?_⟩
  · refine s1.addOp ef o rfl rfl ?_ ?_ ?_ ?_
    · simp [o, d, c, b]; omega
    · simp [o, d, c, b]
    · simp [o, d, c, b]
    · intro t ht
      have := s1.sockF t ht
      show a.flags.length ≠ t.flags
      change t.flags < a.flags.length at this
      omega
  · rw [ef.flag _ (by omega)]; exact renew_flag_self st i s
  · show OpVal.mk (c.set a.sets.length) (c.set b.sets.length) (d.flag c.flags.length) = _
    rw [ec.set _ (by simp [b])]
    congr 1
    · simp [b, newSet_set, LSet.addAll]
    · simp [c, newSet_set, LSet.addAll, LSet.add]
    · simp [d, newFlags_flag]

/-- Summary of `sockSend`. -/
theorem sockSend_spec {st : St} (h : Sep st) {i s} (s0) (hi : st.socks[i]? = some s0) (p : Pkt) :
    Sep (sockSend st i s p) ∧ Ext st (sockSend st i s p) ∧
    (sockSend st i s p).ops = st.ops ∧ (sockSend st i s p).ids = st.ids ∧
    (sockSend st i s p).socks = st.socks.set i { s with flags := st.flags.length } ∧
    (sockSend st i s p).flag st.flags.length = {} ∧
    (sockSend st i s p).out = st.out ++ [if st.recovery then .broadcast p [s.id] [] (st.flag s.flags)
      else .packet i p (st.flag s.flags)] := by
  have e1 := ext_renew st i s
  have s1 := sep_renew h (s := s) s0 hi
  have heq : ∃ l, sockSend st i s p = { st.renew i s with out := l } ∧
      l = st.out ++ [if st.recovery then .broadcast p [s.id] [] (st.flag s.flags)
      else .packet i p (st.flag s.flags)] := by
    unfold sockSend
    simp only []
    split
    · rename_i hr
      have hr' : st.recovery = true := hr
      exact ⟨_, rfl, by simp [hr']⟩
    · rename_i hr
      have hr' : ¬ st.recovery = true := hr
      exact ⟨_, rfl, by simp [hr']⟩
  obtain ⟨l, heq, hl⟩ := heq
  rw [heq, ← hl]
  refine ⟨?_, e1.trans (ext_out _ _), rfl, rfl, rfl, renew_flag_self st i s, rfl⟩
  exact ⟨s1.opR, s1.opE, s1.opF, s1.sockF, s1.sepOp, s1.sepSock⟩

theorem sep_ids {st : St} (h : Sep st) (n : Nat) (l : List Out) : Sep { st with ids := n, out := l } :=
  ⟨h.opR, h.opE, h.opF, h.sockF, h.sepOp, h.sepSock⟩

theorem sep_step {st : St} (h : Sep st) (c : Cmd) : Sep (step st c) := by
  cases c with
  | newSock id =>
    refine ⟨h.opR, h.opE, ?_, ?_, ?_, ?_⟩
    · intro o ho; have := h.opF o ho; simp [step]; omega
    · intro s hs
      rcases List.mem_append.1 hs with hs | hs
      · have := h.sockF s hs; simp [step]; omega
      · rw [List.mem_singleton.1 hs]; simp [step]
    · intro o ho s hs
      rcases List.mem_append.1 hs with hs | hs
      · exact h.sepOp o ho s hs
      · rw [List.mem_singleton.1 hs]; have := h.opF o ho; simp; omega
    · intro i j s t hi hj
      change (st.socks ++ [_])[i]? = _ at hi
      change (st.socks ++ [_])[j]? = _ at hj
      rw [List.getElem?_append] at hi hj
      split at hi <;> split at hj
      · exact h.sepSock i j s t hi hj
      · have := h.sockF s (List.mem_of_getElem? hi)
        have hj' := List.mem_singleton.1 (List.mem_of_getElem? hj)
        subst hj'; simp; omega
      · have := h.sockF t (List.mem_of_getElem? hj)
        have hi' := List.mem_singleton.1 (List.mem_of_getElem? hi)
        subst hi'; simp; omega
      · have := (List.getElem?_eq_some_iff.1 hi).1
        have := (List.getElem?_eq_some_iff.1 hj).1
        simp at *; omega
  | nspOp =>
    refine h.addOp (((ext_newSet _ _).trans (ext_newSet _ _)).trans ((ext_newFlags _ _).trans (ext_newOp _ _)))
      _ rfl rfl ?_ ?_ ?_ ?_
    · simp [step, nspOp]; omega
    · simp [step, nspOp]
    · simp [step, nspOp]
    · intro s hs; have := h.sockF s hs; simp; omega
  | remoteOp id =>
    refine h.addOp (((ext_newSet _ _).trans (ext_newSet _ _)).trans ((ext_newFlags _ _).trans (ext_newOp _ _)))
      _ rfl rfl ?_ ?_ ?_ ?_
    · simp [step, remoteOp]; omega
    · simp [step, remoteOp]
    · simp [step, remoteOp]
    · intro s hs; have := h.sockF s hs; simp; omega
  | sockOp i =>
    simp only [step]; split
    · rename_i s hi; exact (sockOp_spec h hi).1
    · exact h
  | chain k m =>
    simp only [step]; split
    · rename_i o ho
      have hm := List.mem_of_getElem? ho
      obtain ⟨o', a1, a2, _, _, a5, a6, a7, a8, a9, a10, a11, a12⟩ := chain_spec h hm m
      refine h.addOp ⟨a5, a6, a7, a8⟩ o' a1 a2 a9 a10 a11 ?_
      intro s hs
      rcases a12 with e | e
      · rw [e]; exact h.sepOp o hm s hs
      · rw [e]; have := h.sockF s hs; omega
    · exact h
  | sockMod i m =>
    simp only [step]; split
    · rename_i s hi
      have : ∃ f, sockMod st s m = st.writeFlags s.flags f := by cases m <;> exact ⟨_, rfl⟩
      obtain ⟨f, e⟩ := this
      rw [e]
      exact ⟨h.opR, h.opE, by simpa using h.opF, by simpa using h.sockF, h.sepOp, h.sepSock⟩
    · exact h
  | emit k ev args =>
    simp only [step]; split
    · rename_i o ho
      unfold emit; split
      · exact sep_ids h st.ids _
      · dsimp only
        split
        · exact sep_ids h st.ids _
        · exact sep_ids h st.ids _
    · exact h
  | sockEmit i ev args =>
    simp only [step]; split
    · rename_i s hi
      unfold sockEmit; split
      · exact sep_ids h st.ids _
      · dsimp only
        split
        · exact (sockSend_spec h s hi _).1
        · exact (sockSend_spec (sep_ids h (st.ids + 1) st.out) s hi _).1
    · exact h

/-- Old operators keep their identity and meaning. -/
theorem old_op {st : St} (h : Sep st) (c : Cmd) (k : Nat) (o : OpPtr) (ho : st.ops[k]? = some o) :
    (step st c).ops[k]? = some o ∧ (step st c).val o = st.val o := by
  have hm := List.mem_of_getElem? ho
  have key : ∀ st', Ext st st' → (∃ l, st'.ops = st.ops ++ l) → st'.ops[k]? = some o ∧ st'.val o = st.val o := by
    intro st' e ⟨l, hl⟩
    refine ⟨?_, e.val h hm⟩
    rw [hl, List.getElem?_append_left (List.getElem?_eq_some_iff.1 ho).1]; exact ho
  cases c with
  | newSock id => exact key _ ((ext_newFlags _ _).trans (ext_socks _ _)) ⟨[], by simp [step]⟩
  | nspOp =>
    exact key _ (((ext_newSet _ _).trans (ext_newSet _ _)).trans ((ext_newFlags _ _).trans (ext_newOp _ _))) ⟨_, rfl⟩
  | remoteOp id =>
    exact key _ (((ext_newSet _ _).trans (ext_newSet _ _)).trans ((ext_newFlags _ _).trans (ext_newOp _ _))) ⟨_, rfl⟩
  | sockOp i =>
    simp only [step]; split
    · rename_i s hi
      obtain ⟨_, e, _, _, _, o', ho', _⟩ := sockOp_spec h hi
      exact key _ e ⟨_, ho'⟩
    · exact ⟨ho, rfl⟩
  | chain k' m =>
    simp only [step]; split
    · rename_i o1 ho1
      obtain ⟨o', a1, a2, _, _, a5, a6, a7, a8, _⟩ := chain_spec h (List.mem_of_getElem? ho1) m
      exact key _ ⟨a5, a6, a7, a8⟩ ⟨_, a1⟩
    · exact ⟨ho, rfl⟩
  | sockMod i m =>
    simp only [step]; split
    · rename_i s hi
      have : ∃ f, sockMod st s m = st.writeFlags s.flags f := by cases m <;> exact ⟨_, rfl⟩
      obtain ⟨f, e⟩ := this
      rw [e]
      refine ⟨ho, ?_⟩
      have hs := List.mem_of_getElem? hi
      unfold St.val
      rw [writeFlags_flag _ _ _ _ (h.sockF s hs), if_neg (h.sepOp o hm s hs)]; rfl
    · exact ⟨ho, rfl⟩
  | emit k' ev args =>
    simp only [step]; split
    · unfold emit; split
      · exact ⟨ho, rfl⟩
      · dsimp only
        split
        · exact ⟨ho, rfl⟩
        · exact ⟨ho, rfl⟩
    · exact ⟨ho, rfl⟩
  | sockEmit i ev args =>
    simp only [step]; split
    · rename_i s hi
      unfold sockEmit; split
      · exact ⟨ho, rfl⟩
      · dsimp only
        split
        · obtain ⟨_, e, h2, _⟩ := sockSend_spec (s := s) h s hi { type := .event, data := .args (.str ev :: args) }
          exact key _ e ⟨[], by simp [h2]⟩
        · rename_i kk data' _
          obtain ⟨_, e, h2, _⟩ := sockSend_spec (sep_ids h (st.ids + 1) st.out)
            (s := { s with acks := s.acks ++ [(st.ids + 1, kk, (st.flag s.flags).timeout)] }) s hi
            { type := .event, data := .args data', id := some (st.ids + 1) }
          refine key _ ?_ ⟨[], by rw [List.append_nil]; exact h2⟩
          exact ⟨e.set, e.flag, e.setsLen, e.flagsLen⟩
    · exact ⟨ho, rfl⟩

theorem mem_reserved (ev : String) : ev ∈ reserved ↔ IsReserved ev := by simp [reserved, IsReserved]

/-- The pending flags of a socket after a step, given those before. -/
def pendStep (i : Nat) (f : Flags) : Cmd → Flags
  | .sockMod j m => if j = i then setPending f m else f
  | .sockOp j => if j = i then {} else f
  | .sockEmit j ev _ => if j = i ∧ ¬ IsReserved ev then {} else f
  | _ => f

theorem set_self_or {α : Type} (l : List α) (j i : Nat) (x y : α) (h : l[i]? = some y) :
    (l.set j x)[i]? = some (if j = i then x else y) := by
  have hl := (List.getElem?_eq_some_iff.1 h).1
  split
  · rename_i e; subst e; rw [List.getElem?_set_self hl]
  · rename_i e; rw [List.getElem?_set_ne e]; exact h

theorem old_sock {st : St} (h : Sep st) (c : Cmd) (i : Nat) (s : Sock) (hs : st.socks[i]? = some s) :
    ∃ s', (step st c).socks[i]? = some s' ∧ s'.id = s.id ∧
      (step st c).flag s'.flags = pendStep i (st.flag s.flags) c := by
  have hm := List.mem_of_getElem? hs
  have hb := h.sockF s hm
  -- socket `j` gets a fresh cell
  have swap : ∀ (st' : St) (j : Nat) (sj s'' : Sock), st.socks[j]? = some sj → st'.socks = st.socks.set j s'' →
      s''.id = sj.id → s''.flags = st.flags.length → Ext st st' →
      st'.flag st.flags.length = {} →
      ∃ s', st'.socks[i]? = some s' ∧ s'.id = s.id ∧ st'.flag s'.flags = if j = i then {} else st.flag s.flags := by
    intro st' j sj s'' hj hs' hid hf e hz
    rw [hs']
    refine ⟨_, set_self_or _ j i _ _ hs, ?_, ?_⟩
    · split
      · rename_i e; subst e; rw [hs] at hj; cases hj; exact hid
      · rfl
    · split
      · rw [hf]; exact hz
      · exact e.flag _ hb
  cases c with
  | newSock id =>
    refine ⟨s, ?_, rfl, ((ext_newFlags _ _).trans (ext_socks _ _)).flag _ hb⟩
    exact (List.getElem?_append_left (List.getElem?_eq_some_iff.1 hs).1).trans hs
  | nspOp =>
    exact ⟨s, hs, rfl, (((ext_newSet _ _).trans (ext_newSet _ _)).trans ((ext_newFlags _ _).trans (ext_newOp _ _))).flag _ hb⟩
  | remoteOp id =>
    exact ⟨s, hs, rfl, (((ext_newSet _ _).trans (ext_newSet _ _)).trans ((ext_newFlags _ _).trans (ext_newOp _ _))).flag _ hb⟩
  | sockOp j =>
    simp only [step]; split
    · rename_i sj hj
      obtain ⟨_, e, _, h1, h2, _⟩ := sockOp_spec h hj
      exact swap _ j sj _ hj h1 rfl rfl e h2
    · rename_i hj
      refine ⟨s, hs, rfl, ?_⟩
      have : j ≠ i := by rintro rfl; rw [hs] at hj; exact absurd hj (by simp)
      simp [pendStep, this]
  | chain k' m =>
    simp only [step]; split
    · rename_i o1 ho1
      obtain ⟨o', a1, a2, _, _, a5, a6, a7, a8, _⟩ := chain_spec h (List.mem_of_getElem? ho1) m
      exact ⟨s, by rw [a2]; exact hs, rfl, a6 _ hb⟩
    · exact ⟨s, hs, rfl, rfl⟩
  | sockMod j m =>
    simp only [step]; split
    · rename_i sj hj
      have : sockMod st sj m = st.writeFlags sj.flags (setPending (st.flag sj.flags) m) := by cases m <;> rfl
      rw [this]
      refine ⟨s, hs, rfl, ?_⟩
      rw [writeFlags_flag _ _ _ _ (h.sockF sj (List.mem_of_getElem? hj))]
      simp only [pendStep]
      by_cases e : j = i
      · subst e; rw [hs] at hj; cases hj; simp
      · rw [if_neg e, if_neg]
        intro e'; exact e (h.sepSock j i sj s hj hs e'.symm)
    · rename_i hj
      refine ⟨s, hs, rfl, ?_⟩
      have : j ≠ i := by rintro rfl; rw [hs] at hj; exact absurd hj (by simp)
      simp [pendStep, this]
  | emit k' ev args =>
    simp only [step]; split
    · unfold emit; split
      · exact ⟨s, hs, rfl, rfl⟩
      · dsimp only
        split
        · exact ⟨s, hs, rfl, rfl⟩
        · exact ⟨s, hs, rfl, rfl⟩
    · exact ⟨s, hs, rfl, rfl⟩
  | sockEmit j ev args =>
    simp only [step]; split
    · rename_i sj hj
      unfold sockEmit; split
      · rename_i hr
        refine ⟨s, hs, rfl, ?_⟩
        simp [pendStep, (mem_reserved ev).1 hr]; rfl
      · rename_i hr
        have hr' : ¬ IsReserved ev := fun x => hr ((mem_reserved ev).2 x)
        simp only [pendStep, hr', not_false_eq_true, and_true]
        split
        · obtain ⟨_, e, _, _, h1, h2, _⟩ := sockSend_spec (s := sj) h sj hj { type := .event, data := .args (.str ev :: args) }
          exact swap _ j sj _ hj h1 rfl rfl e h2
        · rename_i kk data' _
          obtain ⟨_, e, _, _, h1, h2, _⟩ := sockSend_spec (sep_ids h (st.ids + 1) st.out)
            (s := { sj with acks := sj.acks ++ [(st.ids + 1, kk, (st.flag sj.flags).timeout)] }) sj hj
            { type := .event, data := .args data', id := some (st.ids + 1) }
          exact swap _ j sj _ hj h1 rfl rfl ⟨e.set, e.flag, e.setsLen, e.flagsLen⟩ h2
    · rename_i hj
      refine ⟨s, hs, rfl, ?_⟩
      have : j ≠ i := by rintro rfl; rw [hs] at hj; exact absurd hj (by simp)
      simp [pendStep, this]

theorem run_snoc (rec : Bool) (h : List Cmd) (c : Cmd) : run rec (h ++ [c]) = step (run rec h) c := by
  simp [run, List.foldl_append]

theorem run_append (rec : Bool) (h h' : List Cmd) : run rec (h ++ h') = h'.foldl step (run rec h) := by
  simp [run, List.foldl_append]

theorem sep_run (rec : Bool) (prog : List Cmd) : Sep (run rec prog) := by
  induction prog using snocRec with
  | nil => exact ⟨by simp [run], by simp [run], by simp [run], by simp [run], by simp [run], by simp [run]⟩
  | append_singleton h c ih => rw [run_snoc]; exact sep_step ih c

theorem foldl_old_op {st : St} (h : Sep st) (cs : List Cmd) (k : Nat) (o : OpPtr) (ho : st.ops[k]? = some o) :
    (cs.foldl step st).ops[k]? = some o ∧ (cs.foldl step st).val o = st.val o := by
  induction cs generalizing st with
  | nil => exact ⟨ho, rfl⟩
  | cons c cs ih =>
    obtain ⟨h1, h2⟩ := old_op h c k o ho
    obtain ⟨h3, h4⟩ := ih (sep_step h c) h1
    exact ⟨h3, h4.trans h2⟩

theorem recovery_run (rec : Bool) (prog : List Cmd) : (run rec prog).recovery = rec := by
  induction prog using snocRec with
  | nil => rfl
  | append_singleton h c ih =>
    rw [run_snoc]
    refine Eq.trans ?_ ih
    generalize run rec h = st
    cases c with
    | newSock id => rfl
    | nspOp => rfl
    | remoteOp id => rfl
    | sockOp i => simp only [step]; split <;> rfl
    | chain k m => simp only [step]; split <;> (try cases m) <;> rfl
    | sockMod i m => simp only [step]; split <;> (try cases m) <;> rfl
    | emit k ev args =>
      simp only [step]; split
      · unfold emit; split
        · rfl
        · dsimp only; split <;> rfl
      · rfl
    | sockEmit i ev args =>
      simp only [step]; split
      · unfold sockEmit sockSend; split
        · rfl
        · dsimp only; split <;> (split <;> rfl)
      · rfl

theorem splitAck_fn (ev : String) (args : List Val) (k : Nat) :
    splitAck (.str ev :: (args ++ [.fn k])) = some (k, .str ev :: args) := by
  have e : Val.str ev :: (args ++ [Val.fn k]) = (Val.str ev :: args) ++ [Val.fn k] := rfl
  unfold splitAck
  rw [e, List.getLast?_append, List.dropLast_concat]
  rfl

theorem splitAck_none (ev : String) (args : List Val) (h : ∀ k, args.getLast? ≠ some (.fn k)) :
    splitAck (.str ev :: args) = none := by
  unfold splitAck
  split
  · rename_i k hk
    cases args with
    | nil => simp at hk
    | cons a l => rw [List.getLast?_cons_cons] at hk; exact absurd hk (h k)
  · rfl

theorem socks_step {st : St} (h : Sep st) (c : Cmd) :
    (step st c).socks.map (·.id) = st.socks.map (·.id) ++ (match c with | .newSock id => [id] | _ => []) := by
  have set_id : ∀ (j : Nat) (sj s'' : Sock), st.socks[j]? = some sj → s''.id = sj.id →
      (st.socks.set j s'').map (·.id) = st.socks.map (·.id) := by
    intro j sj s'' hj hid
    rw [List.map_set, hid]
    apply List.ext_getElem?
    intro q
    by_cases e : j = q
    · subst e
      rw [List.getElem?_set_self (by simpa using (List.getElem?_eq_some_iff.1 hj).1)]
      simp [hj]
    · rw [List.getElem?_set_ne e]
  cases c with
  | newSock id => simp [step]
  | nspOp => simp [step, nspOp]
  | remoteOp id => simp [step, remoteOp]
  | sockOp i =>
    simp only [step]; split
    · rename_i s hi
      rw [(sockOp_spec h hi).2.2.2.1, List.append_nil]; exact set_id i s _ hi (by rfl)
    · simp
  | chain k m =>
    simp only [step]; split
    · rename_i o ho
      obtain ⟨_, _, a2, _⟩ := chain_spec h (List.mem_of_getElem? ho) m
      rw [a2]; simp
    · simp
  | sockMod i m => simp only [step]; split <;> (try cases m) <;> simp [sockMod]
  | emit k ev args =>
    simp only [step]; split
    · unfold emit; split
      · simp
      · dsimp only; split <;> simp
    · simp
  | sockEmit i ev args =>
    simp only [step]; split
    · rename_i s hi
      unfold sockEmit; split
      · simp
      · dsimp only
        split
        · rw [(sockSend_spec h s hi _).2.2.2.2.1, List.append_nil]; exact set_id i s _ hi (by rfl)
        · rw [(sockSend_spec (sep_ids h (st.ids + 1) st.out) s hi _).2.2.2.2.1]
          rw [List.append_nil]; exact set_id i s _ hi (by rfl)
    · simp

theorem socks_run (rec : Bool) (prog : List Cmd) : (run rec prog).socks.map (·.id) = socksOf prog := by
  induction prog using snocRec with
  | nil => rfl
  | append_singleton h c ih =>
    rw [run_snoc, socks_step (sep_run rec h), ih]
    unfold socksOf
    rw [List.reverse_append]
    cases c <;> simp [socksRev]

/-- The pending modifiers in the specification are the contents of the socket's flags cell. -/
theorem pending_run (rec : Bool) (prog : List Cmd) (i : Nat) (s : Sock)
    (hs : (run rec prog).socks[i]? = some s) : (run rec prog).flag s.flags = pending i prog := by
  induction prog using snocRec generalizing s with
  | nil => simp [run] at hs
  | append_singleton h c ih =>
    have hsep := sep_run rec h
    rw [run_snoc] at hs ⊢
    have hlen : (run rec h).socks.length = (socksRev h.reverse).length := by
      have := congrArg List.length (socks_run rec h); simpa [socksOf] using this
    have hp : pending i (h ++ [c]) = pendingRev i (c :: h.reverse) := by simp [pending]
    rw [hp]
    cases hold : (run rec h).socks[i]? with
    | some s0 =>
      obtain ⟨s', h1, _, h3⟩ := old_sock hsep c i s0 hold
      rw [hs] at h1; cases h1
      rw [h3, ih s0 hold]
      have hi : i < (socksRev h.reverse).length := hlen ▸ (List.getElem?_eq_some_iff.1 hold).1
      unfold pending
      cases c <;> simp only [pendStep, pendingRev]
      rw [if_neg (by omega)]
    | none =>
      -- the socket is the one created by this call
      have hge : (run rec h).socks.length ≤ i := List.getElem?_eq_none_iff.1 hold
      have hlt := (List.getElem?_eq_some_iff.1 hs).1
      have hl2 : (step (run rec h) c).socks.length =
          (run rec h).socks.length + (match c with | .newSock _ => 1 | _ => 0) := by
        have := congrArg List.length (socks_step hsep c)
        cases c <;> simpa using this
      cases c with
      | newSock id =>
        have hi : i = (run rec h).socks.length := by simp only at hl2; omega
        subst hi
        simp only [pendingRev, hlen, if_true]
        have hs2 : s.flags = (run rec h).flags.length := by
          have : (step (run rec h) (.newSock id)).socks =
            (run rec h).socks ++ [{ id := id, flags := (run rec h).flags.length }] := rfl
          rw [this] at hs; simp at hs; rw [← hs]
        rw [hs2]
        show ((run rec h).newFlags {}).1.flag _ = _
        simp [newFlags_flag]
      | _ => simp only at hl2; omega

theorem ops_step {st : St} (h : Sep st) (c : Cmd) :
    (∃ o, (step st c).ops = st.ops ++ [o] ∧
      match c with
      | .nspOp => (step st c).val o = ⟨[], [], {}⟩
      | .remoteOp id => (step st c).val o = ⟨[id], [], { expectSingle := true }⟩
      | .sockOp i => ∃ s, st.socks[i]? = some s ∧ (step st c).val o = ⟨[], [s.id], st.flag s.flags⟩
      | .chain k m => ∃ o0, st.ops[k]? = some o0 ∧ ModRel (st.val o0) m ((step st c).val o)
      | _ => False) ∨
    ((step st c).ops = st.ops ∧
      match c with
      | .nspOp => False
      | .remoteOp _ => False
      | .sockOp i => st.socks[i]? = none
      | .chain k _ => st.ops[k]? = none
      | _ => True) := by
  cases c with
  | newSock id => exact .inr ⟨rfl, trivial⟩
  | nspOp =>
    refine .inl ⟨_, rfl, ?_⟩
    simp only [step, nspOp, St.val, newOp_set, newOp_flag, newFlags_set, newSet_set, newFlags_flag,
      newSet_1_len, newSet_2, newFlags_2, newSet_1_flags, newSet_flag]
    simp [LSet.addAll]
  | remoteOp id =>
    refine .inl ⟨_, rfl, ?_⟩
    simp only [step, remoteOp, St.val, newOp_set, newOp_flag, newFlags_set, newSet_set, newFlags_flag,
      newSet_1_len, newSet_2, newFlags_2, newSet_1_flags, newSet_flag]
    simp [LSet.addAll, LSet.add]
  | sockOp i =>
    simp only [step]; split
    · rename_i s hi
      obtain ⟨_, _, _, _, _, o, h1, h2⟩ := sockOp_spec h hi
      exact .inl ⟨o, h1, s, hi, h2⟩
    · rename_i hi; exact .inr ⟨rfl, hi⟩
  | chain k m =>
    simp only [step]; split
    · rename_i o ho
      obtain ⟨o', a1, _, _, a4, _⟩ := chain_spec h (List.mem_of_getElem? ho) m
      exact .inl ⟨o', a1, o, ho, a4⟩
    · rename_i hi; exact .inr ⟨rfl, hi⟩
  | sockMod i m => simp only [step]; split <;> (try cases m) <;> exact .inr ⟨rfl, trivial⟩
  | emit k ev args =>
    refine .inr ⟨?_, trivial⟩
    simp only [step]; split
    · unfold emit; split
      · rfl
      · dsimp only; split <;> rfl
    · rfl
  | sockEmit i ev args =>
    refine .inr ⟨?_, trivial⟩
    simp only [step]; split
    · rename_i s hi
      unfold sockEmit; split
      · rfl
      · dsimp only
        split
        · exact (sockSend_spec h s hi _).2.2.1
        · exact (sockSend_spec (sep_ids h (st.ids + 1) st.out) s hi _).2.2.1
    · rfl

theorem origins_run (rec : Bool) (prog : List Cmd) :
    (run rec prog).ops.length = (originsOf prog).length ∧
    ∀ (k : Nat) o sid, (run rec prog).ops[k]? = some o → (originsOf prog)[k]? = some (some sid) →
      sid ∈ ((run rec prog).val o).except := by
  induction prog using snocRec with
  | nil => exact ⟨rfl, by simp [run]⟩
  | append_singleton h c ih =>
    obtain ⟨il, ih⟩ := ih
    have hsep := sep_run rec h
    have hsocks := socks_run rec h
    rw [run_snoc]
    have horig : originsOf (h ++ [c]) = originsRev (c :: h.reverse) := by simp [originsOf]
    rw [horig]
    -- operators that existed before
    have old : ∀ (k : Nat) o sid, k < (run rec h).ops.length → (step (run rec h) c).ops[k]? = some o →
        (originsOf h)[k]? = some (some sid) → sid ∈ ((step (run rec h) c).val o).except := by
      intro k o sid hk ho hor
      have hex : ∃ o0, (run rec h).ops[k]? = some o0 := ⟨_, List.getElem?_eq_getElem hk⟩
      obtain ⟨o0, ho0⟩ := hex
      obtain ⟨h1, h2⟩ := old_op hsep c k o0 ho0
      have e : o0 = o := Option.some.inj (h1.symm.trans ho)
      rw [← e, h2]; exact ih k o0 sid ho0 hor
    -- append one operator
    have app : ∀ o' x, (step (run rec h) c).ops = (run rec h).ops ++ [o'] →
        originsRev (c :: h.reverse) = originsOf h ++ [x] →
        (∀ sid, x = some sid → sid ∈ ((step (run rec h) c).val o').except) →
        (step (run rec h) c).ops.length = (originsRev (c :: h.reverse)).length ∧
        ∀ (k : Nat) o sid, (step (run rec h) c).ops[k]? = some o → (originsRev (c :: h.reverse))[k]? = some (some sid) →
          sid ∈ ((step (run rec h) c).val o).except := by
      intro o' x h1 h2 h3
      refine ⟨by rw [h1, h2]; simp [il], ?_⟩
      intro k o sid ho hor
      rw [h2] at hor
      by_cases hk : k < (run rec h).ops.length
      · rw [List.getElem?_append_left (by omega)] at hor
        exact old k o sid hk ho hor
      · have hk2 := (List.getElem?_eq_some_iff.1 ho).1
        rw [h1] at hk2 ho
        have : k = (run rec h).ops.length := by simp at hk2; omega
        subst this
        simp at ho
        rw [il] at hor
        simp at hor
        rw [← ho]; exact h3 sid hor
    have same : (step (run rec h) c).ops = (run rec h).ops →
        originsRev (c :: h.reverse) = originsOf h →
        (step (run rec h) c).ops.length = (originsRev (c :: h.reverse)).length ∧
        ∀ (k : Nat) o sid, (step (run rec h) c).ops[k]? = some o → (originsRev (c :: h.reverse))[k]? = some (some sid) →
          sid ∈ ((step (run rec h) c).val o).except := by
      intro h1 h2
      refine ⟨by rw [h1, h2]; exact il, ?_⟩
      intro k o sid ho hor
      rw [h2] at hor
      have hk := (List.getElem?_eq_some_iff.1 ho).1
      rw [h1] at hk
      exact old k o sid hk ho hor
    rcases ops_step hsep c with ⟨o', h1, h2⟩ | ⟨h1, h2⟩
    · cases c with
      | nspOp => exact app o' none h1 rfl (by simp)
      | remoteOp id => exact app o' none h1 rfl (by simp)
      | sockOp i =>
        obtain ⟨s, hs, hv⟩ := h2
        have : (socksRev h.reverse)[i]? = some s.id := by
          show (socksOf h)[i]? = _
          rw [← hsocks]; simp [hs]
        refine app o' (some s.id) h1 ?_ ?_
        · simp only [originsRev, this]; rfl
        · intro sid e; cases e; rw [hv]; simp
      | chain k m =>
        obtain ⟨o0, ho0, hrel⟩ := h2
        have hk := (List.getElem?_eq_some_iff.1 ho0).1
        rw [il] at hk
        have hx : (originsRev h.reverse)[k]? = some (originsOf h)[k] := List.getElem?_eq_getElem hk
        refine app o' (originsOf h)[k] h1 ?_ ?_
        · simp only [originsRev, hx]; rfl
        · intro sid e
          have := ih k o0 sid ho0 (by rw [← e]; exact List.getElem?_eq_getElem hk)
          cases m with
          | to l => rw [hrel.2.1]; exact this
          | except l => exact (hrel.2.1 sid).2 (.inl this)
          | compress => rw [hrel.2.1]; exact this
          | volatile => rw [hrel.2.1]; exact this
          | isLocal => rw [hrel.2.1]; exact this
          | timeout => rw [hrel.2.1]; exact this
      | newSock => exact h2.elim
      | sockMod => exact h2.elim
      | emit => exact h2.elim
      | sockEmit => exact h2.elim
    · cases c with
      | nspOp => exact h2.elim
      | remoteOp => exact h2.elim
      | sockOp i =>
        have : (socksRev h.reverse)[i]? = none := by
          show (socksOf h)[i]? = _
          rw [← hsocks]; simpa using h2
        exact same h1 (by simp only [originsRev, this]; rfl)
      | chain k m =>
        have : (originsRev h.reverse)[k]? = none := by
          simp only at h2
          rw [List.getElem?_eq_none_iff] at h2 ⊢
          show (originsOf h).length ≤ k
          omega
        exact same h1 (by simp only [originsRev, this]; rfl)
      | newSock => exact same h1 rfl
      | sockMod => exact same h1 rfl
      | emit => exact same h1 rfl
      | sockEmit => exact same h1 rfl

end Verif.Operator
