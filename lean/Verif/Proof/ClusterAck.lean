import Verif.Spec.ClusterAck
import Verif.Proof.Collector

namespace Verif.ClusterAck
open Verif Verif.Spec

/-- What server `j` contributes. -/
def part (c : Cfg) (j : Nat) : List Collector.Ev :=
  .count (c.clients j).length :: (c.clients j).map Collector.Ev.answer

def waitEv (x : Nat × List Val) : Collector.Ev := .answer x.2

def readPart (c : Cfg) (read : Bool) : List Collector.Ev := if read then [] else [.servers c.serverCount]

/-- What has still to reach the collector. -/
def rest (c : Cfg) (s : St) : List Collector.Ev :=
  readPart c s.read ++ s.requests.flatMap (part c) ++
    s.reporting.map (fun j => .count (c.clients j).length) ++ s.waiting.map waitEv ++ s.responses

/-- All that has to reach it. -/
def total (c : Cfg) : List Collector.Ev :=
  .servers c.serverCount :: (if c.isLocal then [0] else List.range' 0 c.n).flatMap (part c)

theorem eraseIdx_perm {α : Type} {l : List α} {k : Nat} {x : α} (h : l[k]? = some x) :
    (x :: l.eraseIdx k).Perm l := by
  induction l generalizing k with
  | nil => simp at h
  | cons a l ih =>
    cases k with
    | zero => simp at h; subst h; simp
    | succ k =>
      have := ih (k := k) (by simpa using h)
      exact (List.Perm.swap a x _).trans (this.cons a)

theorem count_eraseIdx {α : Type} [BEq α] [LawfulBEq α] {l : List α} {k : Nat} {x : α} (h : l[k]? = some x) (y : α) :
    l.count y = (l.eraseIdx k).count y + (if x == y then 1 else 0) := by
  rw [← (eraseIdx_perm h).count_eq y, List.count_cons]

instance : BEq Collector.Ev := ⟨fun a b => decide (a = b)⟩
instance : LawfulBEq Collector.Ev where
  eq_of_beq := by intro a b h; exact of_decide_eq_true h
  rfl := by intro a; exact decide_eq_true rfl

/-- `(evs without the timer) ++ rest` is constant as long as no response is dropped. -/
def arr (l : List Collector.Ev) : List Collector.Ev := l.filter isArrival

theorem arr_append (a b : List Collector.Ev) : arr (a ++ b) = arr a ++ arr b := by simp [arr]

theorem step_conserves (c : Cfg) (s : St) (e : Ev) (ho : s.open_ = true) (hw : ∀ x ∈ s.responses, isArrival x = true) :
    (arr (step c s e).evs ++ rest c (step c s e)).Perm (arr s.evs ++ rest c s) ∧
    (∀ x ∈ (step c s e).responses, isArrival x = true) := by
  cases e with
  | arrive k =>
    simp only [step]; split
    · rename_i j hj
      refine ⟨?_, hw⟩
      have hp := (eraseIdx_perm hj).flatMap_right (part c)
      simp only [List.flatMap_cons] at hp
      apply List.perm_iff_count.2; intro x
      have := hp.count_eq x
      simp only [rest, List.count_append, List.map_append, List.map_map, List.map_cons, List.map_nil] at this ⊢
      have e1 : (part c j).count x = ([Collector.Ev.count (c.clients j).length].count x) +
          ((c.clients j).map (waitEv ∘ fun a => (j, a))).count x := by
        have : (c.clients j).map (waitEv ∘ fun a => (j, a)) = (c.clients j).map Collector.Ev.answer := rfl
        rw [this, part, ← List.singleton_append, List.count_append]
      omega
    · exact ⟨List.Perm.refl _, hw⟩
  | report k =>
    simp only [step]; split
    · rename_i j hj
      have hp := (eraseIdx_perm hj).map (fun j => Collector.Ev.count (c.clients j).length)
      split
      · refine ⟨?_, hw⟩
        apply List.perm_iff_count.2; intro x
        have := hp.count_eq x
        simp only [St.collect, rest, arr_append, List.count_append, List.map_cons] at this ⊢
        rw [← List.singleton_append, List.count_append] at this
        have : arr [Collector.Ev.count (c.clients j).length] = [Collector.Ev.count (c.clients j).length] := rfl
        rw [this]; omega
      · refine ⟨?_, ?_⟩
        · apply List.perm_iff_count.2; intro x
          have := hp.count_eq x
          simp only [rest, List.count_append, List.map_cons] at this ⊢
          rw [← List.singleton_append, List.count_append] at this
          omega
        · intro x hx
          rcases List.mem_append.1 hx with h | h
          · exact hw x h
          · rw [List.mem_singleton.1 h]; rfl
    · exact ⟨List.Perm.refl _, hw⟩
  | answer k =>
    simp only [step]; split
    · rename_i j a hj
      have hp := (eraseIdx_perm hj).map waitEv
      split
      · refine ⟨?_, hw⟩
        apply List.perm_iff_count.2; intro x
        have := hp.count_eq x
        simp only [St.collect, rest, arr_append, List.count_append, List.map_cons] at this ⊢
        rw [← List.singleton_append, List.count_append] at this
        have : arr [Collector.Ev.answer a] = [waitEv (j, a)] := rfl
        rw [this]; omega
      · refine ⟨?_, ?_⟩
        · apply List.perm_iff_count.2; intro x
          have := hp.count_eq x
          simp only [rest, List.count_append, List.map_cons] at this ⊢
          rw [← List.singleton_append, List.count_append] at this
          have : [Collector.Ev.answer a] = [waitEv (j, a)] := rfl
          rw [this]
          omega
        · intro x hx
          rcases List.mem_append.1 hx with h | h
          · exact hw x h
          · rw [List.mem_singleton.1 h]; rfl
    · exact ⟨List.Perm.refl _, hw⟩
  | deliver k =>
    simp only [step]; split
    · rename_i e he
      have hp := eraseIdx_perm he
      simp only [ho, if_true]
      refine ⟨?_, fun x hx => hw x (List.mem_of_mem_eraseIdx hx)⟩
      have hm : isArrival e = true := hw e (List.mem_of_getElem? he)
      apply List.perm_iff_count.2; intro x
      have := hp.count_eq x
      simp only [St.collect, rest, arr_append, List.count_append] at this ⊢
      rw [← List.singleton_append, List.count_append] at this
      have : arr [e] = [e] := by simp [arr, hm]
      rw [this]; omega
    · exact ⟨List.Perm.refl _, hw⟩
  | servers =>
    simp only [step]; split
    · exact ⟨List.Perm.refl _, hw⟩
    · rename_i hr
      refine ⟨?_, hw⟩
      have hr' : s.read = false := by simpa using hr
      apply List.perm_iff_count.2; intro x
      simp only [St.collect, rest, readPart, arr_append, List.count_append, hr', if_true, Bool.false_eq_true, if_false]
      have : arr [Collector.Ev.servers c.serverCount] = [Collector.Ev.servers c.serverCount] := rfl
      rw [this]; simp; omega
  | expire => exact ⟨List.Perm.refl _, hw⟩
  | fire =>
    refine ⟨?_, hw⟩
    simp only [step, St.collect, arr_append]
    have : arr [Collector.Ev.fire] = [] := rfl
    rw [this]; simp [rest]

theorem evs_run (c : Cfg) (h : List Ev) : (run c h).col = Collector.run false (run c h).evs := by
  have col : ∀ (s : St) (e : Collector.Ev), s.col = Collector.run false s.evs → (s.collect e).col = Collector.run false (s.collect e).evs := by
    intro s e hs; simp [St.collect, hs, Collector.run, List.foldl_append]
  induction h using snocRec with
  | nil => rfl
  | append_singleton h e ih =>
    have e1 : run c (h ++ [e]) = step c (run c h) e := by simp [run]
    rw [e1]
    generalize run c h = s at ih
    cases e <;> simp only [step]
    · split <;> exact ih
    · split
      · split
        · exact col _ _ ih
        · exact ih
      · exact ih
    · split
      · split
        · exact col _ _ ih
        · exact ih
      · exact ih
    · split
      · split
        · exact col _ _ ih
        · exact ih
      · exact ih
    · split
      · exact ih
      · exact col _ _ ih
    · exact ih
    · exact col _ _ ih

theorem open_run (c : Cfg) (h : List Ev) (hn : Ev.expire ∉ h) : (run c h).open_ = true := by
  induction h using snocRec with
  | nil => rfl
  | append_singleton h e ih =>
    have e1 : run c (h ++ [e]) = step c (run c h) e := by simp [run]
    rw [e1]
    have ih := ih (fun hm => hn (by simp [hm]))
    have he : e ≠ .expire := fun hm => hn (by simp [hm])
    generalize run c h = s at ih
    cases e <;> simp only [step]
    · split <;> exact ih
    · split
      · split <;> exact ih
      · exact ih
    · split
      · split <;> exact ih
      · exact ih
    · split
      · split <;> exact ih
      · exact ih
    · split <;> exact ih
    · exact absurd rfl he
    · exact ih

theorem init_rest (c : Cfg) (hn : 1 ≤ c.n) : (rest c (init c)).Perm (total c) := by
  have h0 : (init c).read = false := rfl
  apply List.perm_iff_count.2; intro x
  simp only [rest, readPart, h0, total, Bool.false_eq_true, if_false, List.count_append]
  rw [← List.singleton_append (l := List.flatMap _ _), List.count_append]
  have hp0 : (part c 0).count x = ((init c).reporting.map (fun j => Collector.Ev.count (c.clients j).length)).count x +
      ((init c).waiting.map waitEv).count x := by
    have e2 : (init c).waiting.map waitEv = (c.clients 0).map Collector.Ev.answer := by
      simp [init, waitEv]
    rw [e2]
    simp only [init, part, List.map_cons, List.map_nil]
    rw [← List.singleton_append, List.count_append]
  cases hl : c.isLocal with
  | true => simp only [if_true, List.flatMap_cons, List.flatMap_nil, List.append_nil, hp0]; simp [init, hl]; omega
  | false =>
    have : List.range' 0 c.n = 0 :: (List.range (c.n - 1)).map (· + 1) := by
      rw [← List.range_eq_range']
      obtain ⟨m, hm⟩ : ∃ m, c.n = m + 1 := ⟨c.n - 1, by omega⟩
      rw [hm, List.range_succ_eq_map]; simp
    simp only [this, List.flatMap_cons, List.count_append, hp0, Bool.false_eq_true, if_false]
    have e3 : (init c).requests = (List.range (c.n - 1)).map (· + 1) := by simp [init, hl]
    rw [e3]
    simp [init]; omega

theorem conserved (c : Cfg) (hn : 1 ≤ c.n) (h : List Ev) (ne : Ev.expire ∉ h) :
    (arr (run c h).evs ++ rest c (run c h)).Perm (total c) ∧ (∀ x ∈ (run c h).responses, isArrival x = true) := by
  induction h using snocRec with
  | nil => exact ⟨by simpa [run, init, arr] using init_rest c hn, by simp [run, init]⟩
  | append_singleton h e ih =>
    have e1 : run c (h ++ [e]) = step c (run c h) e := by simp [run]
    have ne' : Ev.expire ∉ h := fun hm => ne (by simp [hm])
    obtain ⟨i1, i2⟩ := ih ne'
    obtain ⟨s1, s2⟩ := step_conserves c (run c h) e (open_run c h ne') i2
    rw [e1]
    exact ⟨s1.trans i1, s2⟩

theorem notified_perm {a b : List Collector.Ev} (h : a.Perm b) : notified a = notified b := by
  induction h with
  | nil => rfl
  | cons x _ ih => cases x <;> simp [notified, ih]
  | swap x y l => cases x <;> cases y <;> simp [notified]; omega
  | trans _ _ i j => exact i.trans j

theorem answersOf_perm {a b : List Collector.Ev} (h : a.Perm b) : (answersOf a).Perm (answersOf b) := by
  induction h with
  | nil => rfl
  | cons x _ ih =>
    cases x <;> simp only [answersOf] <;> first | exact ih | exact ih.append_left _
  | swap x y l =>
    cases x <;> cases y <;> simp only [answersOf] <;> try exact List.Perm.refl _
    rw [← List.append_assoc, ← List.append_assoc]
    exact List.perm_append_comm.append_right _
  | trans _ _ i j => exact i.trans j

theorem full_perm {k : Nat} {a b : List Collector.Ev} (h : a.Perm b) (hf : Full k b) : Full k a where
  servers := by rw [← hf.servers]; exact h.countP_eq _
  read := by rw [← hf.read]; exact h.countP_eq _
  readVal := fun k' hk => hf.readVal k' (h.mem_iff.1 hk)
  clients := by
    rw [notified_perm h, ← hf.clients]; exact h.countP_eq _
  one := fun a ha => hf.one a (h.mem_iff.1 ha)

theorem parts_counts (c : Cfg) (l : List Nat) :
    reports (l.flatMap (part c)) = l.length ∧ serverReads (l.flatMap (part c)) = 0 ∧
    answered (l.flatMap (part c)) = notified (l.flatMap (part c)) := by
  induction l with
  | nil => simp [reports, serverReads, answered, notified]
  | cons j l ih =>
    obtain ⟨a, b, d⟩ := ih
    have e : ∀ m : List (List Val), reports (m.map Collector.Ev.answer) = 0 ∧
        serverReads (m.map Collector.Ev.answer) = 0 ∧ answered (m.map Collector.Ev.answer) = m.length ∧
        notified (m.map Collector.Ev.answer) = 0 := by
      intro m
      induction m with
      | nil => simp [reports, serverReads, answered, notified]
      | cons x m ih =>
        obtain ⟨e1, e2, e3, e4⟩ := ih
        simp only [reports, serverReads, answered] at e1 e2 e3
        simp [reports, serverReads, answered, notified, e1, e2, e3, e4]
    obtain ⟨e1, e2, e3, e4⟩ := e (c.clients j)
    simp only [List.flatMap_cons, Collector.reports_append, Collector.serverReads_append,
      Collector.answered_append, Collector.notified_append, a, b, d]
    have p1 : reports (part c j) = 1 := by
      simp only [part, reports, List.countP_cons] at e1 ⊢; simp [e1]
    have p2 : serverReads (part c j) = 0 := by
      simp only [part, serverReads, List.countP_cons] at e2 ⊢; simp [e2]
    have p3 : answered (part c j) = (c.clients j).length := by
      simp only [part, answered, List.countP_cons] at e3 ⊢; simp [e3]
    have p4 : notified (part c j) = (c.clients j).length := by simp [part, notified, e4]
    rw [p1, p2, p3, p4]
    simp; omega

/-- With the right number of servers and one value per answer, what has to arrive is complete. -/
theorem full_total (c : Cfg) (hl : c.isLocal = false) (hsc : c.serverCount = c.n)
    (one : ∀ j a, a ∈ c.clients j → a.length = 1) : Full c.n (total c) := by
  have ht : total c = .servers c.n :: (List.range' 0 c.n).flatMap (part c) := by simp [total, hl, hsc]
  obtain ⟨a, b, d⟩ := parts_counts c (List.range' 0 c.n)
  refine ⟨?_, ?_, ?_, ?_, ?_⟩
  · rw [ht]; simp only [reports, List.countP_cons] at a ⊢; simp [a]
  · rw [ht]; simp only [serverReads, List.countP_cons] at b ⊢; simp [b]
  · intro k' hk
    rw [ht] at hk
    rcases List.mem_cons.1 hk with h | h
    · cases h; rfl
    · obtain ⟨j, _, hj⟩ := List.mem_flatMap.1 h
      simp [part] at hj
  · rw [ht]
    have : answered (Collector.Ev.servers c.n :: (List.range' 0 c.n).flatMap (part c)) =
        answered ((List.range' 0 c.n).flatMap (part c)) := by
      simp only [answered, List.countP_cons]; simp
    rw [this, d]; rfl
  · intro x hx
    rw [ht] at hx
    rcases List.mem_cons.1 hx with h | h
    · cases h
    · obtain ⟨j, _, hj⟩ := List.mem_flatMap.1 h
      simp [part] at hj
      exact one j x hj

theorem answers_total (c : Cfg) (hl : c.isLocal = false) : answersOf (total c) = allAnswers c := by
  have e : ∀ m : List (List Val), answersOf (m.map Collector.Ev.answer) = m.flatten := by
    intro m; induction m with
    | nil => rfl
    | cons x m ih => simp [answersOf, ih]
  have e2 : ∀ l : List Nat, answersOf (l.flatMap (part c)) = l.flatMap (fun j => (c.clients j).flatten) := by
    intro l; induction l with
    | nil => rfl
    | cons j l ih =>
      simp only [List.flatMap_cons, Collector.answersOf_append, ih]
      simp [part, answersOf, e]
  simp [total, hl, answersOf, allAnswers, e2, List.range_eq_range']

theorem rest_nil (c : Cfg) (s : St) : rest c s = [] ↔ AllArrived s := by
  unfold rest readPart AllArrived
  constructor
  · intro h
    simp only [List.append_eq_nil_iff, List.map_eq_nil_iff, List.flatMap_eq_nil_iff] at h
    obtain ⟨⟨⟨⟨h1, h2⟩, h3⟩, h4⟩, h5⟩ := h
    refine ⟨?_, h3, h4, h5, ?_⟩
    · apply List.eq_nil_iff_forall_not_mem.2
      intro j hj; have := h2 j hj; simp [part] at this
    · by_cases hr : s.read = true
      · exact hr
      · simp [hr] at h1
  · rintro ⟨a, b, c, d, e⟩; simp [a, b, c, d, e]

theorem rest_arrival (c : Cfg) (s : St) (hw : ∀ x ∈ s.responses, isArrival x = true) :
    ∀ x ∈ rest c s, isArrival x = true := by
  intro x hx
  simp only [rest, readPart, List.mem_append] at hx
  rcases hx with (((h | h) | h) | h) | h
  · split at h
    · simp at h
    · rw [List.mem_singleton.1 h]; rfl
  · obtain ⟨j, _, hj⟩ := List.mem_flatMap.1 h
    simp only [part, List.mem_cons, List.mem_map] at hj
    rcases hj with rfl | ⟨a, _, rfl⟩ <;> rfl
  · obtain ⟨j, _, rfl⟩ := List.mem_map.1 h; rfl
  · obtain ⟨j, _, rfl⟩ := List.mem_map.1 h; rfl
  · exact hw x h

theorem evs_noFire (c : Cfg) (h : List Ev) (hn : Ev.fire ∉ h) (hr : ∀ h', h' <+: h → ∀ x ∈ (run c h').responses, isArrival x = true) :
    ∀ x ∈ (run c h).evs, isArrival x = true := by
  induction h using snocRec with
  | nil => simp [run, init]
  | append_singleton h e ih =>
    have e1 : run c (h ++ [e]) = step c (run c h) e := by simp [run]
    have ih := ih (fun hm => hn (by simp [hm])) (fun h' hp => hr h' (hp.trans (List.prefix_append _ _)))
    have hw := hr h (List.prefix_append _ _)
    have he : e ≠ .fire := fun hm => hn (by simp [hm])
    rw [e1]
    generalize run c h = s at ih hw
    have col : ∀ (s : St) (x : Collector.Ev), (∀ y ∈ s.evs, isArrival y = true) → isArrival x = true →
        ∀ y ∈ (s.collect x).evs, isArrival y = true := by
      intro s x hs hx y hy
      rcases List.mem_append.1 hy with h | h
      · exact hs y h
      · rw [List.mem_singleton.1 h]; exact hx
    cases e <;> simp only [step]
    · split <;> exact ih
    · split
      · split
        · exact col _ _ ih rfl
        · exact ih
      · exact ih
    · split
      · split
        · exact col _ _ ih rfl
        · exact ih
      · exact ih
    · split
      · rename_i x hx
        split
        · exact col _ _ ih (hw x (List.mem_of_getElem? hx))
        · exact ih
      · exact ih
    · split
      · exact ih
      · exact col _ _ ih rfl
    · exact ih
    · exact absurd rfl he

theorem evs_grow (c : Cfg) (h h' : List Ev) : ∃ l, (run c (h ++ h')).evs = (run c h).evs ++ l := by
  induction h' using snocRec with
  | nil => exact ⟨[], by simp⟩
  | append_singleton h' e ih =>
    obtain ⟨l, hl⟩ := ih
    have e1 : run c (h ++ (h' ++ [e])) = step c (run c (h ++ h')) e := by simp [run]
    rw [e1]
    generalize run c (h ++ h') = s at hl
    have col : ∀ (s' : St) (x : Collector.Ev), s'.evs = s.evs → ∃ l, (s'.collect x).evs = (run c h).evs ++ l := by
      intro s' x e; exact ⟨l ++ [x], by simp [St.collect, e, hl]⟩
    cases e <;> simp only [step]
    · split <;> exact ⟨l, hl⟩
    · split
      · split
        · exact col _ _ rfl
        · exact ⟨l, hl⟩
      · exact ⟨l, hl⟩
    · split
      · split
        · exact col _ _ rfl
        · exact ⟨l, hl⟩
      · exact ⟨l, hl⟩
    · split
      · split
        · exact col _ _ rfl
        · exact ⟨l, hl⟩
      · exact ⟨l, hl⟩
    · split
      · exact ⟨l, hl⟩
      · exact col _ _ rfl
    · exact ⟨l, hl⟩
    · exact col _ _ rfl

/-- With or without dropped responses. -/
theorem conserved_lost (c : Cfg) (hn : 1 ≤ c.n) (h : List Ev) :
    ∃ lost, (arr (run c h).evs ++ rest c (run c h) ++ lost).Perm (total c) ∧
      (∀ x ∈ (run c h).responses, isArrival x = true) := by
  induction h using snocRec with
  | nil => exact ⟨[], by simpa [run, init, arr] using init_rest c hn, by simp [run, init]⟩
  | append_singleton h e ih =>
    have e1 : run c (h ++ [e]) = step c (run c h) e := by simp [run]
    obtain ⟨lost, i1, i2⟩ := ih
    rw [e1]
    generalize run c h = s at i1 i2
    cases ho : s.open_ with
    | true =>
      obtain ⟨s1, s2⟩ := step_conserves c s e ho i2
      exact ⟨lost, (s1.append_right lost).trans i1, s2⟩
    | false =>
      have aux : ∀ e, (∀ k, e ≠ .deliver k) → step c s e = { step c { s with open_ := true } e with open_ := false } := by
        intro e he
        rcases s with ⟨q, r, w, rs, o, rd, co, ev⟩
        cases ho
        cases e with
        | arrive k => simp only [step]; split <;> rfl
        | report k =>
          simp only [step]; split
          · split <;> rfl
          · rfl
        | answer k =>
          simp only [step]; split
          · split <;> rfl
          · rfl
        | deliver k => exact absurd rfl (he k)
        | servers => simp only [step]; split <;> rfl
        | expire => rfl
        | fire => rfl
      by_cases hd : ∃ k, e = .deliver k
      · obtain ⟨k, rfl⟩ := hd
        simp only [step]
        split
        · rename_i x hx
          simp only [ho, Bool.false_eq_true, if_false]
          refine ⟨x :: lost, ?_, fun y hy => i2 y (List.mem_of_mem_eraseIdx hy)⟩
          refine List.Perm.trans ?_ i1
          have hp := eraseIdx_perm hx
          apply List.perm_iff_count.2; intro y
          have := hp.count_eq y
          rw [← List.singleton_append, List.count_append] at this
          rw [← List.singleton_append (l := lost)]
          simp only [rest, List.count_append]
          omega
        · exact ⟨lost, i1, i2⟩
      · rw [aux e (fun k hk => hd ⟨k, hk⟩)]
        obtain ⟨s1, s2⟩ := step_conserves c { s with open_ := true } e rfl i2
        exact ⟨lost, (s1.append_right lost).trans i1, s2⟩

theorem fire_mem (c : Cfg) (h : List Ev) (hf : Ev.fire ∈ h) : Collector.Ev.fire ∈ (run c h).evs := by
  obtain ⟨a, b, rfl⟩ := List.append_of_mem hf
  obtain ⟨l, hl⟩ := evs_grow c (a ++ [.fire]) b
  have e : a ++ Ev.fire :: b = (a ++ [.fire]) ++ b := by simp
  rw [e, hl]
  have : run c (a ++ [.fire]) = step c (run c a) .fire := by simp [run]
  rw [this]; simp [step, St.collect]

/-- The first expiry of the timer in a list of arrivals. -/
theorem split_fire (l : List Collector.Ev) :
    (∀ x ∈ l, isArrival x = true) ∨ ∃ pre post, l = pre ++ .fire :: post ∧ ∀ x ∈ pre, isArrival x = true := by
  induction l with
  | nil => left; simp
  | cons x l ih =>
    by_cases hx : x = .fire
    · subst hx; exact .inr ⟨[], l, rfl, by simp⟩
    · have hx' : isArrival x = true := by cases x <;> first | rfl | exact absurd rfl hx
      rcases ih with h | ⟨pre, post, rfl, h⟩
      · left; intro y hy
        rcases List.mem_cons.1 hy with rfl | hy
        · exact hx'
        · exact h y hy
      · refine .inr ⟨x :: pre, post, rfl, ?_⟩
        intro y hy
        rcases List.mem_cons.1 hy with rfl | hy
        · exact hx'
        · exact h y hy

theorem arr_self {l : List Collector.Ev} (h : ∀ x ∈ l, isArrival x = true) : arr l = l :=
  List.filter_eq_self.2 h

theorem any_arr (l : List Collector.Ev) : (arr l).any isArrival = l.any isArrival := by
  simp [arr, List.any_filter]

/-- What the calls look like after any events, if what arrives completes to a full set. -/
theorem calls_of {k : Nat} {evs more tot : List Collector.Ev} (hf : Full k tot)
    (hp : (arr evs ++ more).Perm tot) :
    let calls := (Collector.run false evs).calls
    (calls = [] ∧ .fire ∉ evs) ∨ (∃ l, calls = [.ok l] ∧ l.Perm (answersOf tot)) ∨ (∃ l, calls = [.err l]) := by
  intro calls
  have hf' : Full k (arr evs ++ more) := full_perm hp hf
  rcases split_fire evs with h | ⟨pre, post, rfl, h⟩
  · rw [arr_self h] at hf' hp
    have hat := Collector.at_run evs more hf' h
    cases hm : more.any isArrival with
    | true =>
      rw [hm] at hat
      exact .inl ⟨by simpa using hat.calls, fun hx => by have := h _ hx; simp [isArrival] at this⟩
    | false =>
      rw [hm] at hat
      refine .inr (.inl ⟨answersOf evs, by simpa using hat.calls, ?_⟩)
      have := answersOf_perm hp
      rw [Collector.answersOf_append, (Collector.no_arrival_counts more hm).2.2.2, List.append_nil] at this
      exact this
  · have e1 : arr (pre ++ .fire :: post) = pre ++ arr post := by
      rw [arr_append, arr_self h]; simp [arr, isArrival]
    rw [e1, List.append_assoc] at hf' hp
    have hat := Collector.at_run pre (arr post ++ more) hf' h
    have hrun : Collector.run false (pre ++ .fire :: post) =
        post.foldl (Collector.step false) (Collector.step false (Collector.run false pre) .fire) := by
      simp [Collector.run, List.foldl_append]
    cases hm : (arr post ++ more).any isArrival with
    | true =>
      rw [hm] at hat
      refine .inr (.inr ⟨answersOf pre, ?_⟩)
      show (Collector.run false _).calls = _
      rw [hrun]
      generalize Collector.run false pre = r at hat
      have hs : Collector.step false r .fire =
          { r with timer := false, timedOut := true, calls := r.calls ++ [Collector.Call.err r.responses] } := by
        simp only [Collector.step, hat.panicked, Collector.fire, hat.timer, Bool.false_eq_true, if_false, if_true]
      rw [hs, Collector.timedOut_fold post _ rfl rfl]
      simp [hat.calls, hat.responses]
    | false =>
      rw [hm] at hat
      refine .inr (.inl ⟨answersOf pre, ?_, ?_⟩)
      · show (Collector.run false _).calls = _
        rw [hrun]
        have hpost : (Collector.Ev.fire :: post).any isArrival = false := by
          simp only [List.any_append, Bool.or_eq_false_iff, any_arr] at hm
          simpa [isArrival] using hm.1
        have := Collector.timers_fold (.fire :: post) _ hpost hat.timer
        rw [List.foldl_cons] at this
        rw [this]; simpa using hat.calls
      · have := answersOf_perm hp
        rw [Collector.answersOf_append, (Collector.no_arrival_counts _ hm).2.2.2, List.append_nil] at this
        exact this

/-- With the Local flag only server 0 reports, so a larger expected number is never reached. -/
theorem local_reports (c : Cfg) (hl : c.isLocal = true) (hn : 1 ≤ c.n) (h : List Ev) :
    reports (arr (run c h).evs) ≤ 1 := by
  obtain ⟨lost, hp, _⟩ := conserved_lost c hn h
  have hc : reports (arr (run c h).evs ++ rest c (run c h) ++ lost) = reports (total c) := hp.countP_eq _
  simp only [Collector.reports_append] at hc
  have ht : reports (total c) = 1 := by
    have := (parts_counts c [0]).1
    have e : total c = [.servers c.serverCount] ++ [0].flatMap (part c) := by simp [total, hl]
    rw [e, Collector.reports_append, this]; rfl
  omega

end Verif.ClusterAck
