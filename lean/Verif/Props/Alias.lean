import Verif.Spec.Alias

/-! # C59: EmitWithAck and the caller's slice -/

namespace Verif.Props
open Verif Verif.Spec Verif.Alias

theorem cells_of_untouched {h h' : Heap} {s : Slice} (u : Untouched h h') (v : Valid h s) : cells h' s = cells h s := by
  obtain ⟨a, ha, _, _⟩ := v
  unfold cells
  rw [u s.arr (by have := List.getElem?_eq_some_iff.mp ha; exact this.1)]

theorem cells_length {h : Heap} {s : Slice} (v : Valid h s) : (cells h s).length = s.len := by
  obtain ⟨a, ha, h1, h2⟩ := v
  simp [cells, ha]; omega

/-- With no spare capacity: what holds at any moment. -/
structure Private (args : Nat → Slice) (h0 : Heap) (s : Alias.St) : Prop where
  kept : Untouched h0 s.heap
  longer : h0.length ≤ s.heap.length
  grown : ∀ k sl, s.pc k = .grown sl → s.heap[sl.arr]? = some (cells h0 (args k) ++ [.ack k]) ∧ sl.off = 0 ∧
    sl.len = (cells h0 (args k)).length + 1
  out : ∀ k l, (k, l) ∈ s.out → l = cells h0 (args k) ++ [.ack k]

/-- **C59, partial**: if the slices have no spare capacity (as when the arguments are written out in the call), then under every
interleaving no array of the callers is written to and every emission carries its own arguments and its own acknowledgement. -/
theorem C59_exact_partial (args : Nat → Slice) (h0 : Heap) (hv : ∀ k, Valid h0 (args k)) (hc : ∀ k, (args k).len = (args k).cap)
    (sched : List Nat) :
    Untouched h0 (Alias.run args h0 sched).heap ∧
    ∀ k l, (k, l) ∈ (Alias.run args h0 sched).out → l = cells h0 (args k) ++ [.ack k] := by
  suffices P : Private args h0 (Alias.run args h0 sched) from ⟨P.kept, P.out⟩
  induction sched using snocRec with
  | nil =>
    exact ⟨fun _ _ => rfl, Nat.le_refl _, fun k sl h => by simp [Alias.run] at h, fun k l h => by simp [Alias.run] at h⟩
  | append_singleton sched k ih =>
    have hrun : Alias.run args h0 (sched ++ [k]) = Alias.step args (Alias.run args h0 sched) k := by simp [Alias.run]
    rw [hrun]
    generalize Alias.run args h0 sched = s at ih
    unfold Alias.step
    split
    · -- append
      rename_i hpc
      have happ : Alias.append s.heap (args k) (.ack k) =
          (s.heap ++ [cells h0 (args k) ++ [.ack k]], ⟨s.heap.length, 0, (args k).len + 1, (args k).len + 1⟩) := by
        unfold Alias.append
        rw [if_neg (by rw [hc k]; omega), cells_of_untouched ih.kept (hv k)]
      rw [happ]
      refine ⟨?_, ?_, ?_, ?_⟩
      · intro i hi
        have := ih.longer
        rw [← ih.kept i hi]
        exact List.getElem?_append_left (by omega)
      · have := ih.longer; simp; omega
      · intro j sl hj
        simp only [St.at] at hj
        by_cases e : j = k
        · subst e
          rw [if_pos rfl] at hj
          cases hj
          exact ⟨by simp, rfl, by rw [cells_length (hv j)]⟩
        · rw [if_neg e] at hj
          obtain ⟨h1, h2, h3⟩ := ih.grown j sl hj
          refine ⟨?_, h2, h3⟩
          rw [List.getElem?_append_left (List.getElem?_eq_some_iff.mp h1).1]
          exact h1
      · exact ih.out
    · -- emit
      rename_i sl hpc
      obtain ⟨h1, h2, h3⟩ := ih.grown k sl hpc
      refine ⟨ih.kept, ih.longer, ?_, ?_⟩
      · intro j sl' hj
        simp only [St.at] at hj
        by_cases e : j = k
        · rw [if_pos e] at hj; cases hj
        · rw [if_neg e] at hj; exact ih.grown j sl' hj
      · intro j l hj
        rcases List.mem_append.mp hj with hj | hj
        · exact ih.out j l hj
        · simp only [List.mem_singleton, Prod.mk.injEq] at hj
          obtain ⟨rfl, rfl⟩ := hj
          simp only [cells, h1, h2, h3, Option.getD_some, List.drop_zero]
          exact List.take_of_length_le (by simp [cells])
    · exact ih

/-- The arrays of the heap keep their lengths, and those that exist keep their cells except where an acknowledgement was put right
behind one of the slices. -/
def OnlyBehind (args : Nat → Slice) (h0 h : Heap) : Prop :=
  h0.length ≤ h.length ∧ ∀ i a, h0[i]? = some a → ∃ b, h[i]? = some b ∧ b.length = a.length ∧
    ∀ p, (∀ k, ¬ ((args k).arr = i ∧ p = (args k).off + (args k).len ∧ (args k).len < (args k).cap)) → b[p]? = a[p]?

/-- The cells of a slice, when the cells of its array that belong to it are as before. -/
theorem cells_congr {h h' : Heap} {s : Slice} {a b : List Cell} (ha : h[s.arr]? = some a) (hb : h'[s.arr]? = some b)
    (hp : ∀ p, s.off ≤ p → p < s.off + s.len → b[p]? = a[p]?) : cells h' s = cells h s := by
  unfold cells
  rw [ha, hb]
  apply List.ext_getElem?
  intro i
  simp only [Option.getD_some, List.getElem?_take, List.getElem?_drop]
  split
  · exact hp _ (by omega) (by omega)
  · rfl

/-- No slice begins before the end of another one and reaches over it: true when all calls use one slice, or separate arrays. -/
def NoneAcross (args : Nat → Slice) : Prop :=
  ∀ j k, (args j).arr = (args k).arr → (args k).len < (args k).cap →
    ¬ ((args j).off ≤ (args k).off + (args k).len ∧ (args k).off + (args k).len < (args j).off + (args j).len)

/-- **C59, partial**: whatever the capacities, calls made one after the other do not disturb each other: every emission carries its
own arguments and its own acknowledgement, and no cell of any slice that was passed changes; the only cells written to are those
right behind a slice with spare capacity.  (Provided no slice passed reaches over the end of another.) -/
theorem C59_sequential_partial (args : Nat → Slice) (h0 : Heap) (hv : ∀ k, Valid h0 (args k)) (ha : NoneAcross args)
    (calls : List Nat) (hnd : calls.Nodup) :
    (Alias.run args h0 (sequential calls)).out = calls.map (fun k => (k, cells h0 (args k) ++ [.ack k])) ∧
    (∀ k, cells (Alias.run args h0 (sequential calls)).heap (args k) = cells h0 (args k)) ∧
    OnlyBehind args h0 (Alias.run args h0 (sequential calls)).heap := by
  have readSame (h : Heap) (o : OnlyBehind args h0 h) (k : Nat) : cells h (args k) = cells h0 (args k) := by
    obtain ⟨a, e, _, _⟩ := hv k
    obtain ⟨b, hb, _, hp⟩ := o.2 _ a e
    refine cells_congr e hb fun p h1 h2 => hp p ?_
    rintro j ⟨e1, rfl, e3⟩
    exact ha k j e1.symm e3 ⟨h1, h2⟩
  suffices S : (Alias.run args h0 (sequential calls)).out = calls.map (fun k => (k, cells h0 (args k) ++ [.ack k])) ∧
      (∀ k, k ∉ calls → (Alias.run args h0 (sequential calls)).pc k = .start) ∧
      OnlyBehind args h0 (Alias.run args h0 (sequential calls)).heap from
    ⟨S.1, fun k => readSame _ S.2.2 k, S.2.2⟩
  induction calls using snocRec with
  | nil => exact ⟨rfl, fun _ _ => rfl, Nat.le_refl _, fun i a e => ⟨a, e, rfl, fun _ _ => rfl⟩⟩
  | append_singleton calls k ih =>
    have hk : k ∉ calls := by
      have := List.nodup_append.mp hnd
      intro hc; exact this.2.2 k hc k (by simp) rfl
    obtain ⟨iout, ipc, io⟩ := ih (List.nodup_append.mp hnd).1
    have hrun : Alias.run args h0 (sequential (calls ++ [k])) =
        Alias.step args (Alias.step args (Alias.run args h0 (sequential calls)) k) k := by
      simp [Alias.run, sequential]
    rw [hrun]
    generalize Alias.run args h0 (sequential calls) = s at iout ipc io
    have hs := ipc k hk
    have step1 : Alias.step args s k = { heap := (append s.heap (args k) (.ack k)).1, pc := s.at k (.grown (append s.heap (args k) (.ack k)).2), out := s.out } := by
      unfold Alias.step; rw [hs]
    have step2 : Alias.step args (Alias.step args s k) k = { heap := (append s.heap (args k) (.ack k)).1, pc := (Alias.step args s k).at k .done, out := s.out ++ [(k, cells (append s.heap (args k) (.ack k)).1 (append s.heap (args k) (.ack k)).2)] } := by
      rw [step1]
      simp [Alias.step, St.at]
    have hread := readSame _ io k
    obtain ⟨a, e, hcap, hlen⟩ := hv k
    obtain ⟨b, hb, hbl, hbp⟩ := io.2 _ a e
    have key : cells (append s.heap (args k) (.ack k)).1 (append s.heap (args k) (.ack k)).2 = cells h0 (args k) ++ [.ack k] ∧
        OnlyBehind args h0 (append s.heap (args k) (.ack k)).1 := by
      unfold Alias.append
      split
      · rename_i hlt
        have hlt' : (args k).arr < s.heap.length := (List.getElem?_eq_some_iff.mp hb).1
        refine ⟨?_, by simpa using io.1, ?_⟩
        · rw [← hread]
          simp only [cells, hb, Option.getD_some, List.getElem?_set_self hlt']
          apply List.ext_getElem?
          intro i
          simp only [List.getElem?_take, List.getElem?_drop, List.getElem?_append, List.length_take, List.length_drop]
          have hb2 : (args k).off + (args k).len < b.length := by omega
          have hmin : min (args k).len (b.length - (args k).off) = (args k).len := by omega
          rw [hmin]
          by_cases h1 : i < (args k).len
          · rw [if_pos (by omega), if_pos h1, if_pos h1, List.getElem?_set_ne (by omega)]
          · by_cases h2 : i = (args k).len
            · subst h2
              rw [if_pos (by omega), if_neg h1, List.getElem?_set_self hb2]; simp
            · rw [if_neg (by omega), if_neg h1]
              have : i - (args k).len ≠ 0 := by omega
              simp; omega
        · intro i a' hi
          obtain ⟨b', hb', hbl', hbp'⟩ := io.2 i a' hi
          by_cases hik : i = (args k).arr
          · subst hik
            rw [hb] at hb'; cases hb'
            rw [e] at hi; cases hi
            refine ⟨b.set ((args k).off + (args k).len) (.ack k), ?_, by simpa using hbl, ?_⟩
            · simp only [hb, Option.getD_some]; exact List.getElem?_set_self hlt'
            · intro p hp
              rw [List.getElem?_set_ne, hbp p hp]
              intro hpe
              exact hp k ⟨rfl, hpe.symm, hlt⟩
          · exact ⟨b', by rw [List.getElem?_set_ne (fun x => hik x.symm)]; exact hb', hbl', hbp'⟩
      · refine ⟨?_, by have := io.1; simp; omega, ?_⟩
        · rw [hread]
          have hl : (cells h0 (args k)).length = (args k).len := cells_length (hv k)
          have : ∀ (l : List Cell), l.length = (args k).len + 1 → cells (s.heap ++ [l]) ⟨s.heap.length, 0, (args k).len + 1, (args k).len + 1⟩ = l := by
            intro l hl
            simp only [cells, List.drop_zero]
            simp only [List.getElem?_append_right (Nat.le_refl _), Nat.sub_self]
            simp only [List.getElem?_cons_zero, Option.getD_some]
            exact List.take_of_length_le (by omega)
          exact this _ (by simp [hl])
        · intro i a' hi
          obtain ⟨b', hb', r⟩ := io.2 i a' hi
          exact ⟨b', by rw [List.getElem?_append_left (List.getElem?_eq_some_iff.mp hb').1]; exact hb', r⟩
    rw [step2]
    refine ⟨?_, ?_, key.2⟩
    · simp only [iout, key.1, List.map_append, List.map_cons, List.map_nil]
    · intro j hj
      simp only [List.mem_append, List.mem_singleton, not_or] at hj
      simp only [St.at, if_neg hj.2]
      rw [step1]
      simp only [St.at, if_neg hj.2]
      exact ipc j hj.1

namespace Demo
/-- `buf := make([]any, 1, 2)`, `args := buf[:1]`, passed to every call. -/
def spare : Nat → Slice := fun _ => ⟨0, 0, 1, 2⟩
def buf : Heap := [[.arg 7, .arg 0]]
/-- `[]any{7, 8}`: no spare capacity. -/
def full : Nat → Slice := fun _ => ⟨0, 0, 2, 2⟩
end Demo

/-- **C59 fails**: with spare capacity the caller's array is written to, and of two calls at the same time one may emit with the
other's acknowledgement, so that its own is never called and the other's belongs to two emissions. -/
theorem C59_fail :
    (¬ ∀ (args : Nat → Slice) (h0 : Heap) (sched : List Nat), (∀ k, Valid h0 (args k)) →
      Untouched h0 (Alias.run args h0 sched).heap) ∧
    (¬ ∀ (args : Nat → Slice) (h0 : Heap) (sched : List Nat), (∀ k, Valid h0 (args k)) →
      ∀ e ∈ (Alias.run args h0 sched).out, e.2 = cells h0 (args e.1) ++ [.ack e.1]) := by
  have hv : ∀ k, Valid Demo.buf (Demo.spare k) := fun _ => ⟨_, rfl, by simp [Demo.spare, Demo.full], by simp [Demo.spare, Demo.full]⟩
  refine ⟨fun h => ?_, fun h => ?_⟩
  · exact absurd (h Demo.spare Demo.buf [0, 0] hv 0 (by decide)) (by decide)
  · exact absurd (h Demo.spare Demo.buf [0, 1, 0, 1] hv) (by decide)

example : (∀ k, Valid Demo.buf (Demo.full k)) ∧ (∀ k, (Demo.full k).len = (Demo.full k).cap) ∧
    (Alias.run Demo.full Demo.buf [0, 1, 1, 0]).out = [(1, [.arg 7, .arg 0, .ack 1]), (0, [.arg 7, .arg 0, .ack 0])] :=
  ⟨fun _ => ⟨_, rfl, by simp [Demo.spare, Demo.full], by simp [Demo.spare, Demo.full]⟩, fun _ => rfl, by decide⟩

example : (∀ k, Valid Demo.buf (Demo.spare k)) ∧ NoneAcross Demo.spare ∧ [4, 5].Nodup ∧
    (Alias.run Demo.spare Demo.buf (sequential [4, 5])).out = [(4, [.arg 7, .ack 4]), (5, [.arg 7, .ack 5])] :=
  ⟨fun _ => ⟨_, rfl, by simp [Demo.spare, Demo.full], by simp [Demo.spare, Demo.full]⟩, fun j k _ _ => by simp [Demo.spare], by decide, by decide⟩

end Verif.Props
