import Verif.Spec.Heartbeat
import Verif.Lib.ListExtra
import Verif.Proof.Once

namespace Verif.RequestsConc
open Verif Verif.Heartbeat

/-- `deleted u`: some thread of `u` is past `MissingUids.Delete`, or has found the request gone. -/
structure Inv (missing0 : List Uid) (s : St) : Prop where
  /-- once nobody is missing, somebody is about to notice, or the callback has been called -/
  notice : s.missing = [] → missing0 ≠ [] →
    (∃ (k : Nat) (u : Uid) (l : List Val) (pc : Pc), s.threads[k]? = some (u, l, pc) ∧ (pc = .check ∨ pc = .resolve)) ∨ 1 ≤ s.calls.length
  /-- the request is only removed after a call -/
  gone : s.stored = false → 1 ≤ s.calls.length
  erasing : ∀ (k : Nat) u l, s.threads[k]? = some (u, l, .erase) → 1 ≤ s.calls.length
  /-- a thread that returned has removed its server or found the request gone -/
  left : ∀ (k : Nat) (u : Uid) (l : List Val) (pc : Pc), s.threads[k]? = some (u, l, pc) → (pc = .check ∨ pc = .resolve ∨ pc = .erase ∨ pc = .done) →
    u ∉ s.missing ∨ 1 ≤ s.calls.length

theorem inv_init (missing : List Uid) (here : List Val) :
    Inv missing { missing := missing, responses := here } where
  notice h hne := absurd h hne
  gone h := by simp at h
  erasing := by simp
  left := by simp

theorem inv_step (m0 : List Uid) (s : St) (e : Ev) (h : Inv m0 s) : Inv m0 (step s e) := by
  cases e with
  | respond u l =>
    simp only [step]
    constructor
    · intro h1 h2
      rcases h.notice h1 h2 with ⟨k, u', l', pc, hk, hp⟩ | hc
      · exact .inl ⟨k, u', l', pc, Once.app_left hk, hp⟩
      · exact .inr hc
    · exact h.gone
    · intro k u' l' hk
      rcases Once.get_snoc hk with hk | ⟨_, hk⟩
      · exact h.erasing k u' l' hk
      · cases hk
    · intro k u' l' pc hk hp
      rcases Once.get_snoc hk with hk | ⟨_, hk⟩
      · exact h.left k u' l' pc hk hp
      · cases hk; simp at hp
  | adv k =>
    simp only [step]
    split
    · exact h
    · rename_i u l pc hk
      -- the general shape: a step that changes only the position
      cases pc with
      | load =>
        simp only [advance]
        constructor
        · intro h1 h2
          rcases h.notice h1 h2 with ⟨j, u', l', pc, hj, hp⟩ | hc
          · have : j ≠ k := by rintro rfl; rw [hk] at hj; cases hj; simp at hp
            exact .inl ⟨j, u', l', pc, Once.set_other hj this, hp⟩
          · exact .inr hc
        · exact h.gone
        · intro j u' l' hj
          rcases Once.get_set' hj with ⟨_, hj⟩ | ⟨_, hj⟩
          · split at hj <;> cases hj
          · exact h.erasing j u' l' hj
        · intro j u' l' pc hj hp
          rcases Once.get_set' hj with ⟨_, hj⟩ | ⟨_, hj⟩
          · by_cases hs : s.stored = true
            · rw [if_pos hs] at hj; cases hj; simp at hp
            · exact .inr (h.gone (by simpa using hs))
          · exact h.left j u' l' pc hj hp
      | push =>
        simp only [advance]
        constructor
        · intro h1 h2
          rcases h.notice h1 h2 with ⟨j, u', l', pc, hj, hp⟩ | hc
          · have : j ≠ k := by rintro rfl; rw [hk] at hj; cases hj; simp at hp
            exact .inl ⟨j, u', l', pc, Once.set_other hj this, hp⟩
          · exact .inr hc
        · exact h.gone
        · intro j u' l' hj
          rcases Once.get_set' hj with ⟨_, hj⟩ | ⟨_, hj⟩
          · cases hj
          · exact h.erasing j u' l' hj
        · intro j u' l' pc hj hp
          rcases Once.get_set' hj with ⟨_, hj⟩ | ⟨_, hj⟩
          · cases hj; simp at hp
          · exact h.left j u' l' pc hj hp
      | delete =>
        simp only [advance]
        constructor
        · intro _ _
          exact .inl ⟨k, u, l, .check, Once.set_self hk, .inl rfl⟩
        · exact h.gone
        · intro j u' l' hj
          rcases Once.get_set' hj with ⟨_, hj⟩ | ⟨_, hj⟩
          · cases hj
          · exact h.erasing j u' l' hj
        · intro j u' l' pc hj hp
          rcases Once.get_set' hj with ⟨_, hj⟩ | ⟨_, hj⟩
          · cases hj; left; simp [LSet.mem_del]
          · rcases h.left j u' l' pc hj hp with hl | hc
            · left; simp only [LSet.mem_del]; exact fun h => hl h.2
            · exact .inr hc
      | check =>
        simp only [advance]
        by_cases hm : s.missing.length = 0
        · simp only [hm, if_true]
          constructor
          · intro _ _
            exact .inl ⟨k, u, l, .resolve, Once.set_self hk, .inr rfl⟩
          · exact h.gone
          · intro j u' l' hj
            rcases Once.get_set' hj with ⟨_, hj⟩ | ⟨_, hj⟩
            · cases hj
            · exact h.erasing j u' l' hj
          · intro j u' l' pc hj hp
            rcases Once.get_set' hj with ⟨_, hj⟩ | ⟨_, hj⟩
            · cases hj; exact h.left k u l .check hk (.inl rfl)
            · exact h.left j u' l' pc hj hp
        · simp only [hm, if_false]
          constructor
          · intro h1 _
            exact absurd (by simpa using h1 : s.missing = []) (by intro h; simp [h] at hm)
          · exact h.gone
          · intro j u' l' hj
            rcases Once.get_set' hj with ⟨_, hj⟩ | ⟨_, hj⟩
            · cases hj
            · exact h.erasing j u' l' hj
          · intro j u' l' pc hj hp
            rcases Once.get_set' hj with ⟨_, hj⟩ | ⟨_, hj⟩
            · cases hj; exact h.left k u l .check hk (.inl rfl)
            · exact h.left j u' l' pc hj hp
      | resolve =>
        simp only [advance]
        have hc : 1 ≤ (s.calls ++ [s.responses]).length := by simp
        exact ⟨fun _ _ => .inr hc, fun _ => hc, fun _ _ _ _ => hc, fun _ _ _ _ _ _ => .inr hc⟩
      | erase =>
        simp only [advance]
        have hc := h.erasing k u l hk
        exact ⟨fun _ _ => .inr hc, fun _ => hc, fun _ _ _ _ => hc, fun _ _ _ _ _ _ => .inr hc⟩
      | done =>
        simp only [advance]
        have : s.threads.set k (u, l, .done) = s.threads := by
          apply List.ext_getElem?
          intro i
          rw [List.getElem?_set]
          split
          · rename_i hi; subst hi; rw [hk, if_pos (List.getElem?_eq_some_iff.1 hk).1]
          · rfl
        rw [this]; exact h

theorem inv_run (missing : List Uid) (here : List Val) (h : List Ev) : Inv missing (run missing here h) := by
  induction h using snocRec with
  | nil => exact inv_init missing here
  | append_singleton h e ih =>
    rw [show run missing here (h ++ [e]) = step (run missing here h) e by simp [run]]
    exact inv_step _ _ _ ih

/-- Every response has its thread. -/
theorem thread_of (missing : List Uid) (here : List Val) (h : List Ev) (u : Uid) (l : List Val)
    (hm : .respond u l ∈ h) : ∃ (k : Nat) (pc : Pc), (run missing here h).threads[k]? = some (u, l, pc) := by
  induction h using snocRec with
  | nil => cases hm
  | append_singleton h e ih =>
    rw [show run missing here (h ++ [e]) = step (run missing here h) e by simp [run]]
    by_cases hh : .respond u l ∈ h
    · obtain ⟨k, pc, hk⟩ := ih hh
      cases e with
      | respond u' l' => exact ⟨k, pc, by simp only [step]; exact Once.app_left hk⟩
      | adv j =>
        simp only [step]
        split
        · exact ⟨k, pc, hk⟩
        · rename_i u' l' pc' hj
          by_cases hjk : k = j
          · subst hjk
            rw [hk] at hj; cases hj
            exact ⟨k, _, Once.set_self hk⟩
          · exact ⟨k, pc, Once.set_other hk hjk⟩
    · have : e = .respond u l := by
        rcases List.mem_append.1 hm with hm | hm
        · exact absurd hm hh
        · exact (List.mem_singleton.1 hm).symm
      subst this
      exact ⟨(run missing here h).threads.length, .load, by simp [step]⟩

/-- Servers only ever disappear from `missing`. -/
theorem missing_sub (missing : List Uid) (here : List Val) (h : List Ev) (u : Uid)
    (hm : u ∈ (run missing here h).missing) : u ∈ missing := by
  induction h using snocRec with
  | nil => exact hm
  | append_singleton h e ih =>
    rw [show run missing here (h ++ [e]) = step (run missing here h) e by simp [run]] at hm
    cases e with
    | respond u' l' => exact ih hm
    | adv j =>
      simp only [step] at hm
      split at hm
      · exact ih hm
      · rename_i u' l' pc' hj
        cases pc' <;> simp only [advance] at hm
        case delete => rw [LSet.mem_del] at hm; exact ih hm.2
        all_goals exact ih hm

theorem called (missing : List Uid) (here : List Val) (h : List Ev)
    (ne : missing ≠ []) (answered : ∀ u ∈ missing, ∃ l, .respond u l ∈ h)
    (returned : ∀ t ∈ (run missing here h).threads, t.2.2 = .done) :
    1 ≤ (run missing here h).calls.length := by
  have hi := inv_run missing here h
  apply Classical.byContradiction
  intro hc
  have hnil : (run missing here h).missing = [] := by
    apply List.eq_nil_iff_forall_not_mem.2
    intro u hu
    obtain ⟨l, hl⟩ := answered u (missing_sub missing here h u hu)
    obtain ⟨k, pc, hk⟩ := thread_of missing here h u l hl
    have hd : pc = .done := returned _ (List.mem_of_getElem? hk)
    rcases hi.left k u l pc hk (by simp [hd]) with h1 | h1
    · exact h1 hu
    · exact hc h1
  rcases hi.notice hnil ne with ⟨k, u, l, pc, hk, hp⟩ | h1
  · have hd : pc = .done := returned _ (List.mem_of_getElem? hk)
    subst hd; simp at hp
  · exact hc h1

/-! ### What the callback is given -/

/-- The thread has added its answer. -/
def pushed : Pc → Bool
  | .delete | .check | .resolve | .erase => true
  | _ => false

/-- The answer of a thread that may still add it. -/
def due (t : Uid × List Val × Pc) : List Val := if t.2.2 = .load ∨ t.2.2 = .push then t.2.1 else []

/-- The values of all answers. -/
def answers : List Ev → List Val
  | [] => []
  | .respond _ l :: h => l ++ answers h
  | .adv _ :: h => answers h

structure Vals (m0 : List Uid) (here : List Val) (h : List Ev) (s : St) : Prop where
  came : ∀ (k : Nat) u l pc, s.threads[k]? = some (u, l, pc) → .respond u l ∈ h
  inside : ∀ (k : Nat) u l pc, s.threads[k]? = some (u, l, pc) → pushed pc = true → l <:+: s.responses
  heard : ∀ u ∈ m0, u ∉ s.missing → ∃ l, .respond u l ∈ h ∧ l <:+: s.responses
  nobody : ∀ (k : Nat) u l, s.threads[k]? = some (u, l, .resolve) → s.missing = []
  books : ∀ x, s.responses.count x + (s.threads.flatMap due).count x ≤ here.count x + (answers h).count x
  calls : ∀ c ∈ s.calls, (∀ u ∈ m0, ∃ l, .respond u l ∈ h ∧ l <:+: c) ∧ ∀ x, c.count x ≤ s.responses.count x

theorem answers_eq (h : List Ev) : answers h = Spec.valuesAnswered h := by
  induction h with
  | nil => rfl
  | cons a h ih => cases a <;> simp [answers, Spec.valuesAnswered] at ih ⊢ <;> exact ih

theorem answers_snoc (h : List Ev) (e : Ev) : answers (h ++ [e]) = answers h ++ answers [e] := by
  induction h with
  | nil => simp [answers]
  | cons a h ih => cases a <;> simp [answers, ih]

theorem count_set_due (l : List (Uid × List Val × Pc)) (k : Nat) (t t' : Uid × List Val × Pc) (h : l[k]? = some t) (x : Val) :
    ((l.set k t').flatMap due).count x + (due t).count x = (l.flatMap due).count x + (due t').count x := by
  induction l generalizing k with
  | nil => simp at h
  | cons a l ih =>
    cases k with
    | zero =>
      simp only [List.getElem?_cons_zero, Option.some.injEq] at h; subst h
      simp only [List.set_cons_zero, List.flatMap_cons, List.count_append]; omega
    | succ k =>
      simp only [List.getElem?_cons_succ] at h
      have := ih k h
      simp only [List.set_cons_succ, List.flatMap_cons, List.count_append]; omega

theorem infix_snoc {α} {l r a : List α} (h : l <:+: r) : l <:+: r ++ a := h.trans (List.prefix_append r a).isInfix

theorem vals_step (m0 : List Uid) (here : List Val) (h : List Ev) (s : St) (e : Ev) (hi : Vals m0 here h s) :
    Vals m0 here (h ++ [e]) (step s e) := by
  have more : ∀ {u l}, Ev.respond u l ∈ h → Ev.respond u l ∈ h ++ [e] := fun hm => List.mem_append_left _ hm
  cases e with
  | respond u l =>
    simp only [step]
    refine ⟨?_, ?_, ?_, ?_, ?_, ?_⟩
    · intro k u' l' pc hk
      rcases Once.get_snoc hk with hk | ⟨_, hk⟩
      · exact more (hi.came k u' l' pc hk)
      · cases hk; simp
    · intro k u' l' pc hk hp
      rcases Once.get_snoc hk with hk | ⟨_, hk⟩
      · exact hi.inside k u' l' pc hk hp
      · cases hk; cases hp
    · intro u' h1 h2
      obtain ⟨l', h3, h4⟩ := hi.heard u' h1 h2
      exact ⟨l', more h3, h4⟩
    · intro k u' l' hk
      rcases Once.get_snoc hk with hk | ⟨_, hk⟩
      · exact hi.nobody k u' l' hk
      · cases hk
    · intro x
      have := hi.books x
      simp only [answers_snoc, answers, List.append_nil, List.flatMap_append, List.flatMap_cons, List.flatMap_nil, List.count_append, due, true_or, if_true]
      omega
    · intro c hc
      obtain ⟨h1, h2⟩ := hi.calls c hc
      exact ⟨fun u' hu => (h1 u' hu).imp fun l' ⟨h3, h4⟩ => ⟨more h3, h4⟩, h2⟩
  | adv k =>
    have ha : answers (h ++ [.adv k]) = answers h := by rw [answers_snoc]; simp [answers]
    simp only [step]
    split
    · refine ⟨?_, hi.inside, ?_, hi.nobody, ?_, ?_⟩
      · exact fun k u' l' pc hk => more (hi.came k u' l' pc hk)
      · exact fun u' h1 h2 => (hi.heard u' h1 h2).imp fun l' ⟨h3, h4⟩ => ⟨more h3, h4⟩
      · rw [ha]; exact hi.books
      · intro c hc
        obtain ⟨h1, h2⟩ := hi.calls c hc
        exact ⟨fun u' hu => (h1 u' hu).imp fun l' ⟨h3, h4⟩ => ⟨more h3, h4⟩, h2⟩
    · rename_i u l pc hk
      have hr : ∃ a, (advance s u l pc).1.responses = s.responses ++ a := by
        cases pc <;> simp only [advance] <;> first | exact ⟨l, rfl⟩ | exact ⟨[], by simp⟩
      obtain ⟨a, hr⟩ := hr
      have hgrow : ∀ {l'}, l' <:+: s.responses → l' <:+: (advance s u l pc).1.responses := fun h => by rw [hr]; exact infix_snoc h
      have hmine : pushed (advance s u l pc).2 = true → l <:+: (advance s u l pc).1.responses := by
        intro hp
        by_cases hpp : pushed pc = true
        · exact hgrow (hi.inside k u l pc hk hpp)
        · cases pc with
          | load =>
            by_cases hs : s.stored = true
            · simp [advance, hs, pushed] at hp
            · simp [advance, hs, pushed] at hp
          | push => simp only [advance]; exact (List.suffix_append _ _).isInfix
          | done => simp [advance, pushed] at hp
          | _ => exact absurd rfl hpp
      refine ⟨?_, ?_, ?_, ?_, ?_, ?_⟩
      · intro j u' l' pc' hj
        rcases Once.get_set' hj with ⟨_, hj⟩ | ⟨_, hj⟩
        · cases hj; exact more (hi.came k u l pc hk)
        · exact more (hi.came j u' l' pc' hj)
      · intro j u' l' pc' hj hp
        rcases Once.get_set' hj with ⟨_, hj⟩ | ⟨_, hj⟩
        · cases hj; exact hmine hp
        · exact hgrow (hi.inside j u' l' pc' hj hp)
      · intro u' h1 h2
        by_cases hm : u' ∉ s.missing
        · obtain ⟨l', h3, h4⟩ := hi.heard u' h1 hm
          exact ⟨l', more h3, hgrow h4⟩
        · have hm : u' ∈ s.missing := by simpa using hm
          cases pc <;> simp only [advance] at h2 <;> try exact absurd hm h2
          rw [LSet.mem_del] at h2
          have : u' = u := Classical.byContradiction fun hne => h2 ⟨hne, hm⟩
          subst this
          exact ⟨l, more (hi.came k u' l _ hk), hgrow (hi.inside k u' l _ hk rfl)⟩
      · intro j u' l' hj
        have keep : s.missing = [] → (advance s u l pc).1.missing = [] := by
          intro h0
          cases pc <;> simp only [advance] <;> first | exact h0 | (rw [h0]; rfl)
        rcases Once.get_set' hj with ⟨_, hj⟩ | ⟨_, hj⟩
        · cases pc <;> simp only [advance] at hj ⊢ <;> try (cases hj; done)
          · split at hj <;> cases hj
          · rename_i hk'
            by_cases hz : s.missing.length = 0
            · exact List.length_eq_zero_iff.1 hz
            · rw [if_neg hz] at hj; cases hj
        · exact keep (hi.nobody j u' l' hj)
      · intro x
        have h1 := hi.books x
        have h2 := count_set_due s.threads k _ (u, l, (advance s u l pc).2) hk x
        rw [ha]
        cases pc with
        | load =>
          by_cases hs : s.stored = true
          · simp [advance, hs, due] at h2 ⊢; omega
          · simp [advance, hs, due] at h2 ⊢; omega
        | check =>
          by_cases hs : s.missing.length = 0
          · simp [advance, hs, due] at h2 ⊢; omega
          · simp [advance, hs, due] at h2 ⊢; omega
        | _ => simp [advance, due] at h2 ⊢; omega
      · intro c hc
        have old : c ∈ s.calls → (∀ u ∈ m0, ∃ l, .respond u l ∈ h ++ [.adv k] ∧ l <:+: c) ∧ ∀ x, c.count x ≤ (advance s u l pc).1.responses.count x := by
          intro hc
          obtain ⟨h1, h2⟩ := hi.calls c hc
          refine ⟨fun u' hu => (h1 u' hu).imp fun l' ⟨h3, h4⟩ => ⟨more h3, h4⟩, fun x => ?_⟩
          rw [hr, List.count_append]
          have := h2 x; omega
        by_cases hpc : pc = .resolve
        · subst hpc
          simp only [advance] at hc
          rcases List.mem_append.1 hc with hc | hc
          · exact old hc
          · simp only [List.mem_singleton] at hc
            subst hc
            refine ⟨fun u' hu => ?_, fun x => by simp [advance]⟩
            obtain ⟨l', h3, h4⟩ := hi.heard u' hu (by rw [hi.nobody k u l hk]; simp)
            exact ⟨l', more h3, h4⟩
        · refine old ?_
          cases pc <;> simp only [advance] at hc <;> first | exact hc | exact absurd rfl hpc

theorem vals_run (missing : List Uid) (here : List Val) (h : List Ev) : Vals missing here h (run missing here h) := by
  induction h using snocRec with
  | nil =>
    refine ⟨by simp [run], by simp [run], ?_, by simp [run], by simp [run, answers], by simp [run]⟩
    intro u hu hn; exact absurd hu hn
  | append_singleton h e ih =>
    rw [show run missing here (h ++ [e]) = step (run missing here h) e by simp [run]]
    exact vals_step _ _ _ _ _ ih

end Verif.RequestsConc
