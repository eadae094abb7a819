import Verif.Spec.Early
import Verif.Proof.RoomCalls

namespace Verif.Early
open Verif Verif.Spec

theorem run_snoc (i : Bool) (h : List Ev) (e : Ev) : run i (h ++ [e]) = step i (run i h) e := by
  simp [run, List.foldl_append]

/-- Where the connecting goroutine is. -/
structure Inv (s : St) : Prop where
  told : s.told = true ↔ Obs.told ∈ s.log
  told' : s.told = true ↔ s.pc ≠ .write
  named : s.named = true ↔ s.pc ≠ .write ∧ s.pc ≠ .name
  guarded : s.guarded = true ↔ s.pc = .listen ∨ s.pc = .done
  listening : s.listening = true ↔ s.pc = .done
  isOpen : s.isOpen = true ↔ ∀ e, Obs.cut e ∉ s.log
  perm : (earlyArrived s.log).Perm (earlyHandled s.log ++ earlyLost s.log ++ earlyCut s.log ++ earlyWaiting s.tasks)
  one : (earlyCut s.log).length ≤ 1

theorem set_waiting (l : List Task) (k : Nat) (a b : Task) (h : l[k]? = some a) :
    (earlyWaiting [a] ++ earlyWaiting (l.set k b)).Perm (earlyWaiting [b] ++ earlyWaiting l) := by
  induction l generalizing k with
  | nil => simp at h
  | cons x l ih =>
    cases k with
    | zero =>
      simp only [List.getElem?_cons_zero, Option.some.injEq] at h
      subst h
      simp only [List.set_cons_zero]
      show (earlyWaiting [x] ++ earlyWaiting (b :: l)).Perm (earlyWaiting [b] ++ earlyWaiting (x :: l))
      have hb : earlyWaiting (b :: l) = earlyWaiting [b] ++ earlyWaiting l := by simp only [earlyWaiting, ← List.filterMap_append]; rfl
      have hx : earlyWaiting (x :: l) = earlyWaiting [x] ++ earlyWaiting l := by simp only [earlyWaiting, ← List.filterMap_append]; rfl
      rw [hb, hx, ← List.append_assoc, ← List.append_assoc]
      exact List.Perm.append_right _ List.perm_append_comm
    | succ k =>
      simp only [List.getElem?_cons_succ] at h
      have := ih k h
      simp only [List.set_cons_succ]
      have hb : earlyWaiting (x :: l.set k b) = earlyWaiting [x] ++ earlyWaiting (l.set k b) := by simp only [earlyWaiting, ← List.filterMap_append]; rfl
      have hx : earlyWaiting (x :: l) = earlyWaiting [x] ++ earlyWaiting l := by simp only [earlyWaiting, ← List.filterMap_append]; rfl
      rw [hb, hx]
      have e1 : (earlyWaiting [a] ++ (earlyWaiting [x] ++ earlyWaiting (l.set k b))).Perm (earlyWaiting [x] ++ (earlyWaiting [a] ++ earlyWaiting (l.set k b))) := by
        rw [← List.append_assoc, ← List.append_assoc]; exact List.Perm.append_right _ List.perm_append_comm
      have e2 : (earlyWaiting [x] ++ (earlyWaiting [b] ++ earlyWaiting l)).Perm (earlyWaiting [b] ++ (earlyWaiting [x] ++ earlyWaiting l)) := by
        rw [← List.append_assoc, ← List.append_assoc]; exact List.Perm.append_right _ List.perm_append_comm
      exact e1.trans ((List.Perm.append_left _ this).trans e2)

theorem inv (i : Bool) (h : List Ev) : Inv (run i h) := by
  induction h using snocRec with
  | nil => constructor <;> simp [run, earlyArrived, earlyHandled, earlyLost, earlyCut, earlyWaiting]
  | append_singleton h e ih =>
    rw [run_snoc]
    generalize run i h = s at ih ⊢
    obtain ⟨i1, i2, i3, i4, i5, i6, i7, i8⟩ := ih
    cases e with
    | conn =>
      simp only [step, connect]
      split
      · rename_i hp
        constructor <;> simp_all [earlyArrived, earlyHandled, earlyLost, earlyCut]
      all_goals
        rename_i hp
        constructor <;> simp_all
    | recv e =>
      simp only [step]
      split
      · rename_i hc
        split
        · rename_i hn
          refine ⟨by simp_all, by simp_all, by simp_all, by simp_all, by simp_all, by simp_all, ?_, ?_⟩
          · simp only [earlyArrived, earlyHandled, earlyLost, earlyCut, earlyWaiting, List.filterMap_append, List.filterMap_cons, List.filterMap_nil, List.append_nil] at i7 ⊢
            rw [← List.append_assoc]
            exact List.Perm.append_right _ i7
          · simpa [earlyCut] using i8
        · rename_i hn
          have hcut : ∀ e, Obs.cut e ∉ s.log := i6.1 hc.2.1
          have hnone : earlyCut s.log = [] := by
            simp only [earlyCut, List.filterMap_eq_nil_iff]
            intro x hx
            cases x <;> simp
            exact hcut _ hx
          refine ⟨by simp_all, by simp_all, by simp_all, by simp_all, by simp_all, ?_, ?_, ?_⟩
          · simp only [Bool.false_eq_true, false_iff]
            exact fun h => h e (by simp)
          · simp only [earlyArrived, earlyHandled, earlyLost, earlyCut, List.filterMap_append, List.filterMap_cons, List.filterMap_nil, List.append_nil] at i7 hnone ⊢
            rw [hnone] at i7 ⊢
            simp only [List.append_nil, List.nil_append] at i7 ⊢
            refine (List.Perm.append_right _ i7).trans ?_
            simp only [List.append_assoc]
            exact List.Perm.append_left _ (List.Perm.append_left _ List.perm_append_comm)
          · simp only [earlyCut, List.filterMap_append] at hnone ⊢
            simp [hnone]
      · exact ⟨i1, i2, i3, i4, i5, i6, i7, i8⟩
    | adv k =>
      simp only [step]
      cases hk : s.tasks[k]? with
      | none => exact ⟨i1, i2, i3, i4, i5, i6, i7, i8⟩
      | some a =>
        have hw := set_waiting s.tasks k a (act s a).2 hk
        cases a with
        | gate e =>
          simp only [act] at hw ⊢
          refine ⟨i1, i2, i3, i4, i5, i6, i7.trans (List.Perm.append_left _ ?_), i8⟩
          have h1 : earlyWaiting [Task.gate e] = [e] := rfl
          have h2 : earlyWaiting [Task.deliver e s.guarded] = [e] := rfl
          rw [h1, h2] at hw
          exact ((List.perm_append_left_iff _).1 hw).symm
        | deliver e asked =>
          simp only [act] at hw ⊢
          have h1 : earlyWaiting [Task.deliver e asked] = [e] := rfl
          have h2 : earlyWaiting [Task.done] = [] := rfl
          rw [h1, h2, List.nil_append] at hw
          by_cases hl : s.listening = true
          · simp only [hl, if_true]
            refine ⟨by simpa using i1, i2, i3, i4, by simpa [hl] using i5, by simpa using i6, ?_, by simpa [earlyCut] using i8⟩
            simp only [earlyArrived, earlyHandled, earlyLost, earlyCut, List.filterMap_append, List.filterMap_cons, List.filterMap_nil, List.append_nil] at i7 ⊢
            refine i7.trans ?_
            refine (List.Perm.append_left _ hw.symm).trans ?_
            simp only [List.append_assoc]
            refine List.Perm.append_left _ ?_
            rw [← List.append_assoc, ← List.append_assoc, ← List.append_assoc, ← List.append_assoc, List.append_assoc [e]]
            exact List.Perm.append_right _ List.perm_append_comm
          · simp only [hl, if_false, Bool.false_eq_true]
            refine ⟨by simpa using i1, i2, i3, i4, by simpa [hl] using i5, by simpa using i6, ?_, by simpa [earlyCut] using i8⟩
            simp only [earlyArrived, earlyHandled, earlyLost, earlyCut, List.filterMap_append, List.filterMap_cons, List.filterMap_nil, List.append_nil] at i7 ⊢
            refine i7.trans ?_
            refine (List.Perm.append_left _ hw.symm).trans ?_
            simp only [List.append_assoc]
            refine List.Perm.append_left _ (List.Perm.append_left _ ?_)
            rw [← List.append_assoc, ← List.append_assoc]
            exact List.Perm.append_right _ List.perm_append_comm
        | done =>
          simp only [act] at hw ⊢
          have h2 : earlyWaiting [Task.done] = [] := rfl
          rw [h2, List.nil_append, List.nil_append] at hw
          exact ⟨i1, i2, i3, i4, i5, i6, i7.trans (List.Perm.append_left _ hw.symm), i8⟩

/-- Nothing was read before the handler had returned. -/
structure Calm (s : St) : Prop where
  cut : ∀ e, Obs.cut e ∉ s.log
  lost : ∀ e, Obs.lost e ∉ s.log
  asked : ∀ e, Obs.handled e false ∉ s.log
  tasks : s.tasks ≠ [] → s.pc = .done
  deliver : ∀ e, Task.deliver e false ∉ s.tasks

theorem calm (i : Bool) (h : List Ev) (hq : ∀ p e, p ++ [.recv e] <+: h → (run i p).told = true → (i = true → (run i p).pc = .done) → (run i p).pc = .done) :
    Calm (run i h) := by
  induction h using snocRec with
  | nil => constructor <;> simp [run]
  | append_singleton h e ih =>
    have hlast := hq h
    obtain ⟨c1, c2, c3, c4, c5⟩ := ih (fun p e' hp => hq p e' (hp.trans (List.prefix_append _ _)))
    have I := inv i h
    rw [run_snoc]
    generalize run i h = s at *
    cases e with
    | conn =>
      simp only [step, connect]
      split
      all_goals
        rename_i hp
        constructor <;> simp_all
    | recv e =>
      simp only [step]
      split
      · rename_i hc
        have hd : s.pc = .done := hlast e (List.prefix_refl _) hc.1 hc.2.2
        have hn : s.named = true := by rw [I.named]; simp [hd]
        rw [if_pos hn]
        constructor <;> simp_all
      · exact ⟨c1, c2, c3, c4, c5⟩
    | adv k =>
      simp only [step]
      cases hk : s.tasks[k]? with
      | none => exact ⟨c1, c2, c3, c4, c5⟩
      | some a =>
        have hmem : a ∈ s.tasks := List.mem_of_getElem? hk
        have hd : s.pc = .done := c4 (List.ne_nil_of_mem hmem)
        have hl : s.listening = true := I.listening.2 hd
        have hg : s.guarded = true := I.guarded.2 (Or.inr hd)
        cases a with
        | gate e =>
          simp only [act]
          refine ⟨c1, c2, c3, fun _ => hd, fun e' hm => ?_⟩
          rcases List.mem_or_eq_of_mem_set hm with h | h
          · exact c5 e' h
          · simp [hg] at h
        | deliver e asked =>
          have ha : asked = true := by cases asked with | true => rfl | false => exact absurd hmem (c5 e)
          simp only [act, hl, if_true, ha]
          refine ⟨by simpa using c1, by simpa using c2, by simpa using c3, fun _ => hd, fun e' hm => ?_⟩
          rcases List.mem_or_eq_of_mem_set hm with h | h
          · exact c5 e' h
          · cases h
        | done =>
          simp only [act]
          refine ⟨c1, c2, c3, fun _ => hd, fun e' hm => ?_⟩
          rcases List.mem_or_eq_of_mem_set hm with h | h
          · exact c5 e' h
          · cases h

/-- Then every packet that was read is given to the listener. -/
theorem calm_perm (i : Bool) (h : List Ev) (c : Calm (run i h)) :
    (earlyArrived (run i h).log).Perm (earlyHandled (run i h).log ++ earlyWaiting (run i h).tasks) := by
  have h1 : earlyLost (run i h).log = [] := by
    simp only [earlyLost, List.filterMap_eq_nil_iff]
    intro x hx; cases x <;> simp
    exact c.lost _ hx
  have h2 : earlyCut (run i h).log = [] := by
    simp only [earlyCut, List.filterMap_eq_nil_iff]
    intro x hx; cases x <;> simp
    exact c.cut _ hx
  have := (inv i h).perm
  rw [h1, h2, List.append_nil, List.append_nil] at this
  exact this

end Verif.Early
