import Verif.Spec.EventGate
import Verif.Lib.ListExtra

/-! # Lemmas about the middlewares of events -/

namespace Verif.EventGate
open Verif Verif.Spec

theorem passing_append (e : Nat) (a b : List Nat) : ∀ i, passing e i (a ++ b) = passing e i a ++ passing e (i + a.length) b := by
  induction a with
  | nil => intro i; simp [passing]
  | cons m a ih =>
    intro i
    simp only [List.cons_append, passing, ih, List.length_cons]
    rw [show i + 1 + a.length = i + (a.length + 1) by omega]

theorem passing_take_succ {e : Nat} {fns : List Nat} {i m : Nat} (h : fns[i]? = some m) :
    passing e 0 (fns.take (i + 1)) = passing e 0 (fns.take i) ++ [.enter e i m, .next e i true] := by
  have hl := (List.getElem?_eq_some_iff.mp h).1
  have : fns.take (i + 1) = fns.take i ++ [m] := by
    rw [List.take_add_one, h]; rfl
  rw [this, passing_append]
  simp [passing, List.length_take, Nat.min_eq_left (Nat.le_of_lt hl)]

theorem passing_take_sub {e : Nat} (fns : List Nat) : ∀ {i j : Nat}, i ≤ j →
    (passing e 0 (fns.take i)).Sublist (passing e 0 (fns.take j)) := by
  intro i j h
  have : fns.take j = fns.take i ++ (fns.take j).drop i := by
    have := List.take_append_drop i (fns.take j)
    rw [List.take_take, Nat.min_eq_left h] at this
    exact this.symm
  rw [this, passing_append]
  exact List.sublist_append_left _ _

/-- the goroutine for event `e` has been started -/
def terminal (e n : Nat) : Obs → Bool
  | .next e' i ok => e' == e && (!ok || i + 1 == n)
  | _ => false

structure Inv (s : St) : Prop where
  ent : ∀ e i m, Obs.enter e i m ∈ s.log → ∃ fns, s.evs[e]? = some fns ∧ fns[i]? = some m ∧
    (passing e 0 (fns.take i) ++ [Obs.enter e i m]).Sublist s.log
  nxt : ∀ e i ok, Obs.next e i ok ∈ s.log → ∃ fns m, s.evs[e]? = some fns ∧ fns[i]? = some m ∧ Obs.enter e i m ∈ s.log
  gos : ∀ g ∈ s.gos, ∃ fns, s.evs[g.e]? = some fns ∧ (g.ok = true → (passing g.e 0 fns).Sublist s.log) ∧
    (g.phase = .passed → g.ok = true)
  outs : ∀ e, s.log.countP (isOutcome e) = s.gos.countP (fun g => g.e == e && g.phase == .finished)
  term : ∀ e fns, s.evs[e]? = some fns →
    s.gos.countP (fun g => g.e == e) = s.log.countP (terminal e fns.length) + (if fns = [] then 1 else 0)

theorem inv_init : Inv {} :=
  ⟨by simp, by simp, by simp, by simp, by simp⟩

theorem getElem?_snoc_of {α : Type} {l : List α} {x y : α} {i : Nat} (h : l[i]? = some y) : (l ++ [x])[i]? = some y := by
  rw [List.getElem?_append_left (List.getElem?_eq_some_iff.mp h).1]; exact h

theorem inv_recv {s : St} (hi : Inv s) : Inv (recv s) := by
  have hnew (e i : Nat) (ok : Bool) (h : Obs.next e i ok ∈ s.log) : e < s.evs.length := by
    obtain ⟨fns, m, h1, _⟩ := hi.nxt e i ok h
    exact (List.getElem?_eq_some_iff.mp h1).1
  have hterm0 (n : Nat) : s.log.countP (terminal s.evs.length n) = 0 := by
    rw [List.countP_eq_zero]
    intro o ho
    cases o with
    | next e i ok => have := hnew e i ok ho; simp [terminal]; omega
    | _ => simp [terminal]
  have hgo0 : s.gos.countP (fun g => g.e == s.evs.length) = 0 := by
    rw [List.countP_eq_zero]
    intro g hg
    obtain ⟨fns, h1, _⟩ := hi.gos g hg
    have := (List.getElem?_eq_some_iff.mp h1).1
    simp; omega
  have hev {e : Nat} {fns x : List Nat} (h : (s.evs ++ [x])[e]? = some fns) :
      s.evs[e]? = some fns ∨ (e = s.evs.length ∧ fns = x) := by
    rw [List.getElem?_append] at h
    split at h
    · exact Or.inl h
    · rename_i hl
      rw [List.getElem?_singleton] at h
      split at h
      · rename_i h0; exact Or.inr ⟨by omega, by simpa using h.symm⟩
      · cases h
  unfold recv
  split
  · rename_i hf
    refine ⟨?_, ?_, ?_, ?_, ?_⟩
    · intro e i m h
      obtain ⟨fns, h1, h2, h3⟩ := hi.ent e i m h
      exact ⟨fns, getElem?_snoc_of h1, h2, h3⟩
    · intro e i ok h
      obtain ⟨fns, m, h1, h2, h3⟩ := hi.nxt e i ok h
      exact ⟨fns, m, getElem?_snoc_of h1, h2, h3⟩
    · intro g hg
      rcases List.mem_append.mp hg with hg | hg
      · obtain ⟨fns, h1, h2, h3⟩ := hi.gos g hg
        exact ⟨fns, getElem?_snoc_of h1, h2, h3⟩
      · rw [List.mem_singleton] at hg; subst hg
        exact ⟨[], by simp [hf], by simp [passing], by simp⟩
    · intro e
      simp only [List.countP_append, List.countP_singleton]
      rw [hi.outs e]; simp
    · intro e fns h
      rcases hev h with h | ⟨rfl, rfl⟩
      · have := (List.getElem?_eq_some_iff.mp h).1
        simp only [List.countP_append, List.countP_singleton]
        rw [hi.term e fns h]
        have hne : (s.evs.length == e) = false := by simp; omega
        simp [hne]
      · simp only [List.countP_append, List.countP_singleton, hgo0, hterm0, hf]; simp
  · rename_i m ms hf
    refine ⟨?_, ?_, ?_, ?_, ?_⟩
    · intro e i m' h
      rcases List.mem_append.mp h with h | h
      · obtain ⟨fns, h1, h2, h3⟩ := hi.ent e i m' h
        exact ⟨fns, getElem?_snoc_of h1, h2, h3.trans (List.sublist_append_left _ _)⟩
      · simp at h; obtain ⟨rfl, rfl, rfl⟩ := h
        exact ⟨s.fns, by simp, by simp [hf], by simp [passing]⟩
    · intro e i ok h
      simp at h
      obtain ⟨fns, m, h1, h2, h3⟩ := hi.nxt e i ok h
      exact ⟨fns, m, getElem?_snoc_of h1, h2, by simp [h3]⟩
    · intro g hg
      obtain ⟨fns, h1, h2, h3⟩ := hi.gos g hg
      exact ⟨fns, getElem?_snoc_of h1, fun h => (h2 h).trans (List.sublist_append_left _ _), h3⟩
    · intro e
      simp only [List.countP_append, List.countP_singleton, isOutcome]
      rw [hi.outs e]; simp
    · intro e fns h
      simp only [List.countP_append, List.countP_singleton, terminal]
      rcases hev h with h | ⟨rfl, rfl⟩
      · rw [hi.term e fns h]; simp
      · rw [hgo0, hterm0, hf]; simp

theorem inv_next {s : St} (hi : Inv s) (e i : Nat) (ok : Bool) : Inv (next s e i ok) := by
  unfold next
  split
  · exact hi
  rename_i fns hfns
  split
  · exact hi
  rename_i m hm
  split
  case isFalse => exact hi
  rename_i hent
  obtain ⟨fns', h1, _, hsub⟩ := hi.ent e i m hent
  rw [hfns] at h1; cases h1
  have hl := (List.getElem?_eq_some_iff.mp hm).1
  have hchain : (passing e 0 (fns.take (i + 1))).Sublist (s.log ++ [.next e i true]) := by
    rw [passing_take_succ hm]
    have := hsub.append (List.Sublist.refl [Obs.next e i true])
    simpa using this
  unfold goOn
  split
  · split
    · rename_i hn
      have hlast : i + 1 = fns.length := by
        rw [List.getElem?_eq_none_iff] at hn; omega
      refine ⟨?_, ?_, ?_, ?_, ?_⟩
      · intro e' i' m' h
        simp at h
        obtain ⟨f, a1, a2, a3⟩ := hi.ent e' i' m' h
        exact ⟨f, a1, a2, a3.trans (List.sublist_append_left _ _)⟩
      · intro e' i' ok' h
        simp at h
        rcases h with h | ⟨rfl, rfl, rfl⟩
        · obtain ⟨f, m', a1, a2, a3⟩ := hi.nxt e' i' ok' h
          exact ⟨f, m', a1, a2, by simp [a3]⟩
        · exact ⟨fns, m, hfns, hm, by simp [hent]⟩
      · intro g hg
        rcases List.mem_append.mp hg with hg | hg
        · obtain ⟨f, a1, a2, a3⟩ := hi.gos g hg
          exact ⟨f, a1, fun h => (a2 h).trans (List.sublist_append_left _ _), a3⟩
        · rw [List.mem_singleton] at hg; subst hg
          refine ⟨fns, hfns, fun _ => ?_, by simp⟩
          rw [hlast, List.take_length] at hchain; exact hchain
      · intro e'
        simp only [List.countP_append, List.countP_singleton, isOutcome]
        rw [hi.outs e']; simp
      · intro e' f hf
        simp only [List.countP_append, List.countP_singleton, terminal]
        rw [hi.term e' f hf]
        by_cases he : e = e'
        · subst he; rw [hfns] at hf; cases hf; simp [hlast]; omega
        · simp [he]
    · rename_i m2 hm2
      have hl2 := (List.getElem?_eq_some_iff.mp hm2).1
      refine ⟨?_, ?_, ?_, ?_, ?_⟩
      · intro e' i' m' h
        simp at h
        rcases h with h | ⟨rfl, rfl, rfl⟩
        · obtain ⟨f, a1, a2, a3⟩ := hi.ent e' i' m' h
          exact ⟨f, a1, a2, a3.trans (List.sublist_append_left _ _)⟩
        · refine ⟨fns, hfns, hm2, ?_⟩
          have := hchain.append (List.Sublist.refl [Obs.enter e' (i + 1) m'])
          simpa using this
      · intro e' i' ok' h
        simp at h
        rcases h with h | ⟨rfl, rfl, rfl⟩
        · obtain ⟨f, m', a1, a2, a3⟩ := hi.nxt e' i' ok' h
          exact ⟨f, m', a1, a2, by simp [a3]⟩
        · exact ⟨fns, m, hfns, hm, by simp [hent]⟩
      · intro g hg
        obtain ⟨f, a1, a2, a3⟩ := hi.gos g hg
        exact ⟨f, a1, fun h => (a2 h).trans (List.sublist_append_left _ _), a3⟩
      · intro e'
        simp only [List.countP_append, List.countP_cons, List.countP_nil, isOutcome]
        rw [hi.outs e']; simp
      · intro e' f hf
        simp only [List.countP_append, List.countP_cons, List.countP_nil, terminal]
        rw [hi.term e' f hf]
        by_cases he : e = e'
        · subst he; rw [hfns] at hf; cases hf
          have : ¬ i + 1 = fns.length := by omega
          simp [this]
        · simp [he]
  · refine ⟨?_, ?_, ?_, ?_, ?_⟩
    · intro e' i' m' h
      simp at h
      obtain ⟨f, a1, a2, a3⟩ := hi.ent e' i' m' h
      exact ⟨f, a1, a2, a3.trans (List.sublist_append_left _ _)⟩
    · intro e' i' ok' h
      simp at h
      rcases h with h | ⟨rfl, rfl, rfl⟩
      · obtain ⟨f, m', a1, a2, a3⟩ := hi.nxt e' i' ok' h
        exact ⟨f, m', a1, a2, by simp [a3]⟩
      · exact ⟨fns, m, hfns, hm, by simp [hent]⟩
    · intro g hg
      rcases List.mem_append.mp hg with hg | hg
      · obtain ⟨f, a1, a2, a3⟩ := hi.gos g hg
        exact ⟨f, a1, fun h => (a2 h).trans (List.sublist_append_left _ _), a3⟩
      · rw [List.mem_singleton] at hg; subst hg
        exact ⟨fns, hfns, by simp, by simp⟩
    · intro e'
      simp only [List.countP_append, List.countP_singleton, isOutcome]
      rw [hi.outs e']; simp
    · intro e' f hf
      simp only [List.countP_append, List.countP_singleton, terminal]
      rw [hi.term e' f hf]
      by_cases he : e = e'
      · subst he; rw [hfns] at hf; cases hf; simp; omega
      · simp [he]

theorem countP_set_phase {gos : List Go} {k : Nat} {g : Go} (h : gos[k]? = some g) (ph : Phase) (hs : g.phase ≠ .finished) (e : Nat) :
    (gos.set k { g with phase := ph }).countP (fun g => g.e == e && g.phase == .finished) =
      gos.countP (fun g => g.e == e && g.phase == .finished) + (if g.e = e ∧ ph = .finished then 1 else 0) ∧
    (gos.set k { g with phase := ph }).countP (fun g => g.e == e) = gos.countP (fun g => g.e == e) := by
  induction gos generalizing k with
  | nil => simp at h
  | cons a gos ih =>
    cases k with
    | zero =>
      simp at h; subst h
      simp only [List.set_cons_zero, List.countP_cons]
      have : (a.phase == Phase.finished) = false := by simpa using hs
      simp only [this, Bool.and_false, Bool.false_eq_true, if_false, Nat.add_zero]
      refine ⟨?_, trivial⟩
      by_cases h1 : a.e = e <;> cases ph <;> simp [h1]
    | succ k =>
      simp at h
      obtain ⟨i1, i2⟩ := ih h
      simp only [List.set_cons_succ, List.countP_cons, i1, i2]
      exact ⟨by omega, trivial⟩

theorem inv_set {s : St} (hi : Inv s) {k : Nat} {g : Go} (h : s.gos[k]? = some g) (hs : g.phase ≠ .finished) (ph : Phase)
    (d : List Obs) (hd : ∀ o ∈ d, ∀ e, isOutcome e o = true ↔ e = g.e) (hlen : d.length = if ph = .finished then 1 else 0)
    (hp : ph = .passed → g.ok = true) :
    Inv { s with gos := s.gos.set k { g with phase := ph }, log := s.log ++ d } := by
  have hsub : s.log.Sublist (s.log ++ d) := List.sublist_append_left _ _
  have hno : ∀ o ∈ d, (∀ e i m, o ≠ .enter e i m) ∧ (∀ e i ok, o ≠ .next e i ok) := by
    intro o ho
    have := (hd o ho g.e).mpr rfl
    cases o <;> simp_all [isOutcome]
  refine ⟨?_, ?_, ?_, ?_, ?_⟩
  · intro e i m hm
    rcases List.mem_append.mp hm with hm | hm
    · obtain ⟨f, a1, a2, a3⟩ := hi.ent e i m hm
      exact ⟨f, a1, a2, a3.trans hsub⟩
    · exact absurd rfl ((hno _ hm).1 e i m)
  · intro e i ok hm
    rcases List.mem_append.mp hm with hm | hm
    · obtain ⟨f, m, a1, a2, a3⟩ := hi.nxt e i ok hm
      exact ⟨f, m, a1, a2, hsub.subset a3⟩
    · exact absurd rfl ((hno _ hm).2 e i ok)
  · intro g' hg'
    rcases List.mem_or_eq_of_mem_set hg' with hg' | rfl
    · obtain ⟨f, a1, a2, a3⟩ := hi.gos g' hg'
      exact ⟨f, a1, fun h => (a2 h).trans hsub, a3⟩
    · obtain ⟨f, a1, a2, _⟩ := hi.gos g (List.mem_of_getElem? h)
      exact ⟨f, a1, fun h => (a2 h).trans hsub, hp⟩
  · intro e
    simp only [List.countP_append]
    rw [(countP_set_phase h ph hs e).1, hi.outs e]
    congr 1
    by_cases hf : ph = .finished
    · rw [if_pos hf] at hlen
      obtain ⟨o, rfl⟩ := List.length_eq_one_iff.mp hlen
      have := hd o (by simp) e
      rw [List.countP_singleton]
      by_cases he : e = g.e
      · rw [if_pos (this.mpr he), if_pos ⟨he.symm, hf⟩]
      · rw [if_neg (fun x => he (this.mp x)), if_neg (fun x => he x.1.symm)]
    · rw [if_neg hf] at hlen
      rw [List.length_eq_zero_iff.mp hlen]; simp [hf]
  · intro e f hf
    simp only [List.countP_append]
    rw [(countP_set_phase h ph hs e).2, hi.term e f hf]
    have : d.countP (terminal e f.length) = 0 := by
      rw [List.countP_eq_zero]
      intro o ho
      have := (hno o ho).2
      cases o <;> simp_all [terminal]
    omega

theorem inv_adv {s : St} (hi : Inv s) (k : Nat) : Inv (adv s k) := by
  unfold adv
  split
  · exact hi
  rename_i g hg
  split
  · exact hi
  · rename_i hp
    exact inv_set hi hg (by simp [hp]) .finished [.handler g.e] (by intro o ho e; rw [List.mem_singleton] at ho; subst ho; simp only [isOutcome, beq_iff_eq]; exact eq_comm) rfl (by simp)
  · rename_i hp
    split
    · rename_i hok
      split
      · have := inv_set hi hg (by simp [hp]) .passed [] (by simp) rfl (fun _ => hok)
        simpa using this
      · exact inv_set hi hg (by simp [hp]) .finished [.dropped g.e] (by intro o ho e; rw [List.mem_singleton] at ho; subst ho; simp only [isOutcome, beq_iff_eq]; exact eq_comm) rfl (by simp)
    · exact inv_set hi hg (by simp [hp]) .finished [.error g.e] (by intro o ho e; rw [List.mem_singleton] at ho; subst ho; simp only [isOutcome, beq_iff_eq]; exact eq_comm) rfl (by simp)

theorem inv_close {s : St} (hi : Inv s) : Inv (close s) := by
  unfold close
  split
  · have hsub : s.log.Sublist (s.log ++ [Obs.disconnect]) := List.sublist_append_left _ _
    refine ⟨?_, ?_, ?_, ?_, ?_⟩
    · intro e i m h; simp at h
      obtain ⟨f, a1, a2, a3⟩ := hi.ent e i m h
      exact ⟨f, a1, a2, a3.trans hsub⟩
    · intro e i ok h; simp at h
      obtain ⟨f, m, a1, a2, a3⟩ := hi.nxt e i ok h
      exact ⟨f, m, a1, a2, hsub.subset a3⟩
    · intro g hg
      obtain ⟨f, a1, a2, a3⟩ := hi.gos g hg
      exact ⟨f, a1, fun h => (a2 h).trans hsub, a3⟩
    · intro e; simp only [List.countP_append, List.countP_singleton, isOutcome]; rw [hi.outs e]; simp
    · intro e f hf; simp only [List.countP_append, List.countP_singleton, terminal]; rw [hi.term e f hf]; simp
  · exact hi

theorem inv_step {s : St} (hi : Inv s) (ev : Ev) : Inv (step s ev) := by
  cases ev with
  | use m => exact ⟨hi.ent, hi.nxt, hi.gos, hi.outs, hi.term⟩
  | recv => exact inv_recv hi
  | next e i ok => exact inv_next hi e i ok
  | adv k => exact inv_adv hi k
  | close => exact inv_close hi

theorem inv_run (h : List Ev) : Inv (run h) := by
  induction h using snocRec with
  | nil => exact inv_init
  | append_singleton h e ih =>
    have : run (h ++ [e]) = step (run h) e := by simp [run]
    rw [this]; exact inv_step ih e

/-- What one step adds to the log. -/
theorem step_log (s : St) (ev : Ev) : ∃ d, (step s ev).log = s.log ++ d ∧
    ∀ e, Obs.handler e ∈ d → d = [.handler e] ∧ ∃ g ∈ s.gos, g.e = e ∧ g.phase = .passed := by
  cases ev with
  | use m => exact ⟨[], by simp [step], by simp⟩
  | recv =>
    simp only [step, recv]
    split
    · exact ⟨[], by simp, by simp⟩
    · exact ⟨_, rfl, by simp⟩
  | next e i ok =>
    simp only [step, next]
    split
    · exact ⟨[], by simp, by simp⟩
    split
    · exact ⟨[], by simp, by simp⟩
    split
    · unfold goOn
      split
      · split
        · exact ⟨_, rfl, by simp⟩
        · exact ⟨_, rfl, by simp⟩
      · exact ⟨_, rfl, by simp⟩
    · exact ⟨[], by simp, by simp⟩
  | adv k =>
    simp only [step, adv]
    split
    · exact ⟨[], by simp, by simp⟩
    rename_i g hg
    split
    · exact ⟨[], by simp, by simp⟩
    · rename_i hp
      refine ⟨_, rfl, ?_⟩
      intro e he; simp at he; subst he
      exact ⟨rfl, g, List.mem_of_getElem? hg, rfl, hp⟩
    · split
      · split
        · exact ⟨[], by simp, by simp⟩
        · exact ⟨_, rfl, by simp⟩
      · exact ⟨_, rfl, by simp⟩
  | close =>
    simp only [step, close]
    split
    · exact ⟨_, rfl, by simp⟩
    · exact ⟨[], by simp, by simp⟩

theorem run_snoc (h : List Ev) (e : Ev) : run (h ++ [e]) = step (run h) e := by simp [run]

theorem split_append {α : Type} {pre post l d : List α} {x : α} (h : pre ++ x :: post = l ++ d) :
    (∃ post', l = pre ++ x :: post') ∨ (∃ d1, pre = l ++ d1 ∧ d = d1 ++ x :: post) := by
  rw [List.append_eq_append_iff] at h
  rcases h with ⟨a, h1, h2⟩ | ⟨a, h1, h2⟩
  · cases a with
    | nil => right; exact ⟨[], by simpa using h1.symm, by simpa using h2.symm⟩
    | cons y a => simp at h2; left; exact ⟨a, by rw [h1, h2.1]⟩
  · right; exact ⟨a, h1, h2⟩

theorem step_evs (s : St) (ev : Ev) : ∃ d, (step s ev).evs = s.evs ++ d := by
  cases ev with
  | use m => exact ⟨[], by simp [step]⟩
  | recv => simp only [step, recv]; split <;> exact ⟨_, rfl⟩
  | next e i ok =>
    refine ⟨[], ?_⟩
    simp only [step, next, goOn]
    (repeat' split) <;> simp
  | adv k =>
    refine ⟨[], ?_⟩
    simp only [step, adv]
    (repeat' split) <;> simp
  | close => refine ⟨[], ?_⟩; simp only [step, close]; split <;> simp

theorem foldl_evs (t : List Ev) : ∀ s : St, ∃ d, (t.foldl step s).evs = s.evs ++ d := by
  induction t with
  | nil => intro s; exact ⟨[], by simp⟩
  | cons e t ih =>
    intro s
    obtain ⟨d, hd⟩ := step_evs s e
    obtain ⟨d', hd'⟩ := ih (step s e)
    exact ⟨d ++ d', by rw [List.foldl_cons, hd', hd, List.append_assoc]⟩

theorem foldl_log (t : List Ev) : ∀ s : St, ∃ d, (t.foldl step s).log = s.log ++ d := by
  induction t with
  | nil => intro s; exact ⟨[], by simp⟩
  | cons e t ih =>
    intro s
    obtain ⟨d, hd, _⟩ := step_log s e
    obtain ⟨d', hd'⟩ := ih (step s e)
    exact ⟨d ++ d', by rw [List.foldl_cons, hd', hd, List.append_assoc]⟩

end Verif.EventGate
