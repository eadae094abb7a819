import Verif.Spec.Order

namespace Verif.Order
open Verif Verif.Spec

theorem upd_same {α} (f : Nat → α) (k v) : upd f k v k = v := by simp [upd]
theorem upd_ne {α} (f : Nat → α) {k x : Nat} (v) (h : x ≠ k) : upd f k v x = f x := by simp [upd, h]

/-- In every interleaving. -/
structure Inv (members : List Nat) (s : St) : Prop where
  cur : ∀ (g p : Nat) (pc : PC), s.casts g = some (p, pc) → s.emitters[p]? = some g ∧ ∀ q : Nat, s.emitters[q]? = some g → q ≤ p
  never : ∀ g, s.casts g = none → ∀ q : Nat, s.emitters[q]? ≠ some g
  left : ∀ g p l, s.casts g = some (p, .write l) → ∀ k ∈ l, k ∈ members
  stored : ∀ p : Nat, p ∈ s.stored ↔ ∃ g, s.emitters[p]? = some g ∧ s.casts g ≠ some (p, .push)
  written : ∀ k p, p ∈ s.written k → k ∈ members ∧ p ∈ s.stored ∧ ∀ g l, s.casts g = some (p, .write l) → k ∉ l
  reached : ∀ k ∈ members, s.lost k = false → ∀ p ∈ s.stored, (∀ g l, s.casts g = some (p, .write l) → k ∉ l) → p ∈ s.written k
  ordW : ∀ g k, InOrderOfCalls (ofEmitter s g (s.written k))
  ordS : ∀ g, InOrderOfCalls (ofEmitter s g s.stored)
  pre : ∀ k p q g : Nat, p ∈ s.written k → s.emitters[p]? = some g → s.emitters[q]? = some g → q < p → q ∈ s.written k

theorem Inv.init (members) : Inv members {} := by
  constructor <;> simp [InOrderOfCalls, ofEmitter]

theorem Inv.bound {members s} (i : Inv members s) {p} (h : p ∈ s.stored) : p < s.emitters.length := by
  obtain ⟨g, hg, -⟩ := (i.stored p).1 h
  exact (List.getElem?_eq_some_iff.1 hg).1

theorem old {l : List Nat} {g p : Nat} (h : p < l.length) : (l ++ [g])[p]? = l[p]? := List.getElem?_append_left h

theorem new {l : List Nat} {g p a : Nat} : (l ++ [g])[p]? = some a ↔ l[p]? = some a ∨ (p = l.length ∧ a = g) := by
  rw [List.getElem?_append]
  split
  · next h => exact ⟨Or.inl, fun h' => h'.elim id (fun h' => by omega)⟩
  · next h =>
    have : l[p]? = none := List.getElem?_eq_none (by omega)
    rw [this]
    constructor
    · intro h'
      have := (List.getElem?_eq_some_iff.1 h').1
      simp at this
      refine Or.inr ⟨by omega, ?_⟩
      rw [show p - l.length = 0 by omega] at h'
      simpa using h'.symm
    · rintro (h' | ⟨rfl, rfl⟩)
      · cases h'
      · simp

theorem of_grow {s : St} {l} {g e : Nat} {s' : St} (hs : s'.emitters = s.emitters ++ [e]) (h : ∀ p ∈ l, p < s.emitters.length) :
    ofEmitter s' g l = ofEmitter s g l := by
  unfold ofEmitter
  exact List.filter_congr (fun p hp => by rw [hs, old (h p hp)])

theorem of_snoc {s : St} {g l p} (i : InOrderOfCalls (ofEmitter s g l)) (h : s.emitters[p]? = some g → ∀ q ∈ l, s.emitters[q]? = some g → q < p) :
    InOrderOfCalls (ofEmitter s g (l ++ [p])) := by
  unfold InOrderOfCalls ofEmitter at *
  rw [List.filter_append]
  by_cases hp : s.emitters[p]? = some g
  · have e : List.filter (fun p => s.emitters[p]? == some g) [p] = [p] := by simp [hp]
    rw [e, List.pairwise_append]
    refine ⟨i, by simp, fun q hq r hr => ?_⟩
    rw [List.mem_singleton] at hr
    subst hr
    obtain ⟨h1, h2⟩ := List.mem_filter.1 hq
    exact h hp q h1 (by simpa using h2)
  · have e : List.filter (fun p => s.emitters[p]? == some g) [p] = [] := by simp [hp]
    rw [e, List.append_nil]
    exact i

theorem Inv.step {members s} (i : Inv members s) (e : Ev) : Inv members (step members s e) := by
  cases e with
  | start g =>
    simp only [Order.step]
    split
    · next hi =>
      have hb : ∀ p ∈ s.stored, p < s.emitters.length := fun p h => i.bound h
      have hne : ∀ g' p, s.emitters[p]? = some g' → p ≠ s.emitters.length := fun g' p h e => by
        have := (List.getElem?_eq_some_iff.1 h).1; omega
      have hpc : ∀ p l, s.casts g = some (p, PC.write l) → l = [] := fun p l h => by
        simp only [idle, h] at hi
        cases l with
        | nil => rfl
        | cons a l => simp at hi
      have hnp : ∀ p, s.casts g ≠ some (p, PC.push) := fun p h => by simp [idle, h] at hi
      refine ⟨?_, ?_, ?_, ?_, ?_, ?_, ?_, ?_, ?_⟩
      · intro g' p pc h
        dsimp only at h ⊢
        by_cases hg : g' = g
        · subst hg
          rw [upd_same] at h; cases h
          refine ⟨by simp, fun q hq => ?_⟩
          have := (List.getElem?_eq_some_iff.1 hq).1
          simp at this; omega
        · rw [upd_ne _ _ hg] at h
          obtain ⟨h1, h2⟩ := i.cur g' p pc h
          refine ⟨new.2 (Or.inl h1), fun q hq => ?_⟩
          rcases new.1 hq with hq | ⟨-, hq⟩
          · exact h2 q hq
          · exact absurd hq hg
      · intro g' h q hq
        dsimp only at h hq
        by_cases hg : g' = g
        · subst hg; rw [upd_same] at h; cases h
        · rw [upd_ne _ _ hg] at h
          rcases new.1 hq with hq | ⟨-, hq⟩
          · exact i.never g' h q hq
          · exact hg hq
      · intro g' p l h
        dsimp only at h
        by_cases hg : g' = g
        · subst hg; rw [upd_same] at h; cases h
        · rw [upd_ne _ _ hg] at h; exact i.left g' p l h
      · intro p
        dsimp only
        rw [i.stored p]
        constructor
        · rintro ⟨g', h1, h2⟩
          refine ⟨g', new.2 (Or.inl h1), ?_⟩
          by_cases hg : g' = g
          · subst hg; rw [upd_same]
            intro h; cases h
            exact hne _ _ h1 rfl
          · rw [upd_ne _ _ hg]; exact h2
        · rintro ⟨g', h1, h2⟩
          by_cases hg : g' = g
          · subst hg
            rw [upd_same] at h2
            rcases new.1 h1 with h1 | ⟨h1, -⟩
            · exact ⟨g', h1, hnp p⟩
            · exact absurd (by rw [h1]) h2
          · rw [upd_ne _ _ hg] at h2
            rcases new.1 h1 with h1 | ⟨-, h1⟩
            · exact ⟨g', h1, h2⟩
            · exact absurd h1 hg
      · intro k p h
        obtain ⟨h1, h2, h3⟩ := i.written k p h
        refine ⟨h1, h2, fun g' l h' => ?_⟩
        dsimp only at h'
        by_cases hg : g' = g
        · subst hg; rw [upd_same] at h'; cases h'
        · rw [upd_ne _ _ hg] at h'; exact h3 g' l h'
      · intro k hk hl p hp h
        refine i.reached k hk hl p hp (fun g' l h' => ?_)
        by_cases hg : g' = g
        · subst hg; rw [hpc p l h']; simp
        · exact h g' l (by dsimp only; rw [upd_ne _ _ hg]; exact h')
      · intro g' k
        rw [of_grow (s := s) rfl (fun p hp => hb p (i.written k p hp).2.1)]
        exact i.ordW g' k
      · intro g'
        rw [of_grow (s := s) rfl hb]
        exact i.ordS g'
      · intro k p q g' hp h1 h2 hlt
        have hp' := hb p (i.written k p hp).2.1
        dsimp only at h1 h2
        rw [old hp'] at h1
        rw [old (by omega)] at h2
        exact i.pre k p q g' hp h1 h2 hlt
    · exact i
  | push g =>
    simp only [Order.step]
    split
    · next p hc =>
      obtain ⟨hpg, hmax⟩ := i.cur g p _ hc
      have hns : p ∉ s.stored := fun h => by
        obtain ⟨g', h1, h2⟩ := (i.stored p).1 h
        rw [hpg] at h1; cases h1; exact h2 hc
      refine ⟨?_, ?_, ?_, ?_, ?_, ?_, ?_, ?_, ?_⟩
      · intro g' q pc h
        dsimp only at h ⊢
        by_cases hg : g' = g
        · subst hg; rw [upd_same] at h; cases h; exact ⟨hpg, hmax⟩
        · rw [upd_ne _ _ hg] at h; exact i.cur g' q pc h
      · intro g' h
        dsimp only at h
        by_cases hg : g' = g
        · subst hg; rw [upd_same] at h; cases h
        · rw [upd_ne _ _ hg] at h; exact i.never g' h
      · intro g' q l h
        dsimp only at h
        by_cases hg : g' = g
        · subst hg; rw [upd_same] at h; cases h; exact fun k hk => hk
        · rw [upd_ne _ _ hg] at h; exact i.left g' q l h
      · intro q
        dsimp only
        rw [List.mem_append, List.mem_singleton, i.stored q]
        constructor
        · rintro (⟨g', h1, h2⟩ | rfl)
          · refine ⟨g', h1, ?_⟩
            by_cases hg : g' = g
            · subst hg; rw [upd_same]; simp
            · rw [upd_ne _ _ hg]; exact h2
          · exact ⟨g, hpg, by rw [upd_same]; simp⟩
        · rintro ⟨g', h1, h2⟩
          by_cases hg : g' = g
          · subst hg
            by_cases hq : q = p
            · exact Or.inr hq
            · exact Or.inl ⟨g', h1, by rw [hc]; simpa using fun e => hq e.symm⟩
          · rw [upd_ne _ _ hg] at h2; exact Or.inl ⟨g', h1, h2⟩
      · intro k q h
        obtain ⟨h1, h2, h3⟩ := i.written k q h
        refine ⟨h1, List.mem_append_left _ h2, fun g' l h' => ?_⟩
        dsimp only at h'
        by_cases hg : g' = g
        · subst hg; rw [upd_same] at h'; cases h'; exact absurd h2 hns
        · rw [upd_ne _ _ hg] at h'; exact h3 g' l h'
      · intro k hk hl q hq h
        dsimp only at h hq
        have hqp : q ≠ p := fun e => h g members (by rw [upd_same, e]) hk
        refine i.reached k hk hl q ?_ (fun g' l h' => ?_)
        · rcases List.mem_append.1 hq with hq | hq
          · exact hq
          · exact absurd (List.mem_singleton.1 hq) hqp
        · by_cases hg : g' = g
          · subst hg; rw [hc] at h'; cases h'
          · exact h g' l (by rw [upd_ne _ _ hg]; exact h')
      · exact fun g' k => i.ordW g' k
      · intro g'
        show InOrderOfCalls (ofEmitter s g' (s.stored ++ [p]))
        refine of_snoc (i.ordS g') (fun h q hq hq' => ?_)
        rw [hpg] at h; cases h
        have := hmax q hq'
        have : q ≠ p := fun e => hns (e ▸ hq)
        omega
      · exact i.pre
    · exact i
  | write g k =>
    simp only [Order.step]
    split
    · next p left hc =>
      split
      · next hk =>
        obtain ⟨hpg, hmax⟩ := i.cur g p _ hc
        have hps : p ∈ s.stored := (i.stored p).2 ⟨g, hpg, by rw [hc]; simp⟩
        have hkm := i.left g p left hc k hk
        have hnw : p ∉ s.written k := fun h => (i.written k p h).2.2 g left hc hk
        have huniq : ∀ g' q pc, s.casts g' = some (q, pc) → q = p → g' = g := fun g' q pc h e => by
          have := (i.cur g' q pc h).1
          rw [e, hpg] at this; cases this; rfl
        -- what was written to each socket
        generalize hw : (if s.lost k = true then s.written else upd s.written k (s.written k ++ [p])) = w
        have hwk : ∀ k', w k' = s.written k' ∨ (k' = k ∧ s.lost k = false ∧ w k' = s.written k' ++ [p]) := fun k' => by
          subst hw
          cases hl : s.lost k with
          | true => exact Or.inl rfl
          | false =>
            simp only [Bool.false_eq_true, if_false]
            by_cases he : k' = k
            · subst he; exact Or.inr ⟨rfl, trivial, upd_same _ _ _⟩
            · exact Or.inl (upd_ne _ _ he)
        have hmem : ∀ k' q, q ∈ w k' → q ∈ s.written k' ∨ (k' = k ∧ q = p ∧ s.lost k = false) := fun k' q h => by
          rcases hwk k' with e | ⟨e, hl, e'⟩
          · rw [e] at h; exact Or.inl h
          · rw [e', List.mem_append, List.mem_singleton] at h
            exact h.imp id (fun h => ⟨e, h, hl⟩)
        have hsub : ∀ k' q, q ∈ s.written k' → q ∈ w k' := fun k' q h => by
          rcases hwk k' with e | ⟨e, hl, e'⟩
          · rw [e]; exact h
          · rw [e']; exact List.mem_append_left _ h
        refine ⟨?_, ?_, ?_, ?_, ?_, ?_, ?_, ?_, ?_⟩
        · intro g' q pc h
          dsimp only at h ⊢
          by_cases hg : g' = g
          · subst hg; rw [upd_same] at h; cases h; exact ⟨hpg, hmax⟩
          · rw [upd_ne _ _ hg] at h; exact i.cur g' q pc h
        · intro g' h
          dsimp only at h
          by_cases hg : g' = g
          · subst hg; rw [upd_same] at h; cases h
          · rw [upd_ne _ _ hg] at h; exact i.never g' h
        · intro g' q l h
          dsimp only at h
          by_cases hg : g' = g
          · subst hg; rw [upd_same] at h; cases h
            exact fun k' hk' => i.left g' p left hc k' (List.mem_filter.1 hk').1
          · rw [upd_ne _ _ hg] at h; exact i.left g' q l h
        · intro q
          dsimp only
          rw [i.stored q]
          constructor
          · rintro ⟨g', h1, h2⟩
            refine ⟨g', h1, ?_⟩
            by_cases hg : g' = g
            · subst hg; rw [upd_same]; simp
            · rw [upd_ne _ _ hg]; exact h2
          · rintro ⟨g', h1, h2⟩
            refine ⟨g', h1, ?_⟩
            by_cases hg : g' = g
            · subst hg; rw [hc]; simp
            · rw [upd_ne _ _ hg] at h2; exact h2
        · intro k' q h
          rcases hmem k' q h with h | ⟨rfl, rfl, -⟩
          · obtain ⟨h1, h2, h3⟩ := i.written k' q h
            refine ⟨h1, h2, fun g' l h' => ?_⟩
            dsimp only at h'
            by_cases hg : g' = g
            · subst hg; rw [upd_same] at h'; cases h'
              exact fun hf => h3 g' left hc (List.mem_filter.1 hf).1
            · rw [upd_ne _ _ hg] at h'; exact h3 g' l h'
          · refine ⟨hkm, hps, fun g' l h' => ?_⟩
            dsimp only at h'
            by_cases hg : g' = g
            · subst hg; rw [upd_same] at h'; cases h'; simp
            · rw [upd_ne _ _ hg] at h'; exact absurd (huniq g' q _ h' rfl) hg
        · intro k' hk' hl q hq h
          dsimp only at h hl hq
          by_cases hqp : q = p ∧ k' = k
          · obtain ⟨rfl, rfl⟩ := hqp
            have hl : s.lost k' = false := hl
            show q ∈ w k'
            subst hw
            rw [hl]; simp [upd_same]
          · refine hsub k' q (i.reached k' hk' hl q hq (fun g' l h' => ?_))
            by_cases hg : g' = g
            · subst hg; rw [hc] at h'; cases h'
              have := h g' _ (upd_same _ _ _)
              intro hin
              refine this (List.mem_filter.2 ⟨hin, ?_⟩)
              simpa using fun e => hqp ⟨rfl, e⟩
            · exact h g' l (by rw [upd_ne _ _ hg]; exact h')
        · intro g' k'
          rcases hwk k' with e | ⟨e, hl, e'⟩
          · show InOrderOfCalls (ofEmitter s g' (w k'))
            rw [e]; exact i.ordW g' k'
          · show InOrderOfCalls (ofEmitter s g' (w k'))
            rw [e']
            refine of_snoc (i.ordW g' k') (fun h q hq hq' => ?_)
            rw [hpg] at h; cases h
            have := hmax q hq'
            subst e
            have : q ≠ p := fun e => hnw (e ▸ hq)
            omega
        · exact fun g' => i.ordS g'
        · intro k' q r g' hq h1 h2 hlt
          rcases hmem k' q hq with hq | ⟨rfl, rfl, hl⟩
          · exact hsub k' r (i.pre k' q r g' hq h1 h2 hlt)
          · rw [hpg] at h1; cases h1
            refine hsub _ r (i.reached _ hkm hl r ((i.stored r).2 ⟨g, h2, ?_⟩) (fun g' l h' => ?_))
            · rw [hc]; simp
            · have h3 := (i.cur g' r _ h').1
              rw [h2] at h3; cases h3
              rw [hc] at h'; cases h'; omega
      · exact i
    · exact i
  | lose k =>
    refine ⟨i.cur, i.never, i.left, i.stored, i.written, fun k' hk' hl => ?_, i.ordW, i.ordS, i.pre⟩
    refine i.reached k' hk' ?_
    simp only [Order.step, upd] at hl
    split at hl
    · cases hl
    · exact hl

theorem inv_run (members h) : Inv members (run members h) := by
  induction h using snocRec with
  | nil => exact Inv.init members
  | append_singleton h e ih =>
    unfold run at *
    rw [List.foldl_append]
    exact ih.step e

/-! ## One at a time -/

/-- While broadcasts come one after the other. -/
structure Seq (s : St) : Prop where
  one : ∀ g g', idle s g = false → idle s g' = false → g = g'
  last : ∀ (g p : Nat) (pc : PC), idle s g = false → s.casts g = some (p, pc) → p + 1 = s.emitters.length
  stored : ∃ m, s.stored = List.range m
  written : ∀ k, ∃ j, s.written k = List.range j

theorem range_next {l : List Nat} {j p : Nat} (h : l = List.range j) (hp : p ∉ l) (hq : ∀ q, q < p → q ∈ l) : l ++ [p] = List.range (p + 1) := by
  have h1 : ¬ p < j := fun h' => hp (by rw [h]; simpa using h')
  have h2 : j = p := by
    apply Classical.byContradiction
    intro hne
    have := hq j (by omega)
    rw [h] at this
    simp at this
  rw [h, h2, List.range_succ]

theorem idle_upd {s s' : St} {g : Nat} {v} (h : s'.casts = upd s.casts g v) {g' : Nat} (hg : g' ≠ g) : idle s' g' = idle s g' := by
  unfold idle; rw [h, upd_ne _ _ hg]

theorem busy_push {s : St} {g p} (h : s.casts g = some (p, .push)) : idle s g = false := by simp [idle, h]

theorem busy_write {s : St} {g p k l} (h : s.casts g = some (p, .write l)) (hk : k ∈ l) : idle s g = false := by
  cases l with
  | nil => cases hk
  | cons a l => simp [idle, h]

/-- All packets before the one under way are stored and have reached everybody. -/
theorem before {members s} (i : Inv members s) (q : Seq s) {g p : Nat} {pc} (hb : idle s g = false) (hc : s.casts g = some (p, pc)) :
    ∀ r, r < p → r ∈ s.stored ∧ ∀ k ∈ members, s.lost k = false → r ∈ s.written k := by
  intro r hr
  have hn := q.last g p pc hb hc
  have he : ∃ g', s.emitters[r]? = some g' := ⟨_, List.getElem?_eq_getElem (by omega)⟩
  obtain ⟨g', hg'⟩ := he
  have hst : r ∈ s.stored := by
    refine (i.stored r).2 ⟨g', hg', fun h => ?_⟩
    have := q.one g' g (busy_push h) hb
    subst this; rw [hc] at h; cases h; omega
  refine ⟨hst, fun k hk hl => i.reached k hk hl r hst (fun g' l h hin => ?_)⟩
  have := q.one g' g (busy_write h hin) hb
  subst this; rw [hc] at h; cases h; omega

theorem Seq.step {members s} (i : Inv members s) (q : Seq s) (e : Ev) (hone : ∀ g, e = .start g → NobodyCasts s) :
    Seq (step members s e) := by
  cases e with
  | start g =>
    have hi := hone g rfl
    simp only [Order.step]
    rw [if_pos (hi g)]
    refine ⟨?_, ?_, q.stored, q.written⟩
    · have key : ∀ g', idle { s with casts := upd s.casts g (some (s.emitters.length, .push)), emitters := s.emitters ++ [g] } g' = false → g' = g := fun g' h => by
        apply Classical.byContradiction
        intro hne
        rw [idle_upd (s := s) rfl hne, hi g'] at h
        cases h
      exact fun g1 g2 h1 h2 => (key g1 h1).trans (key g2 h2).symm
    · intro g' p pc h hc
      by_cases hne : g' = g
      · subst hne
        dsimp only at hc
        rw [upd_same] at hc; cases hc; simp
      · rw [idle_upd (s := s) rfl hne, hi g'] at h
        cases h
  | push g =>
    simp only [Order.step]
    split
    · next p hc =>
      have hb := busy_push hc
      have key : ∀ g', idle { s with casts := upd s.casts g (some (p, .write members)), stored := s.stored ++ [p] } g' = false → g' = g := fun g' h => by
        apply Classical.byContradiction
        intro hne
        rw [idle_upd (s := s) rfl hne] at h
        exact hne (q.one g' g h hb)
      refine ⟨fun g1 g2 h1 h2 => (key g1 h1).trans (key g2 h2).symm, ?_, ?_, q.written⟩
      · intro g' p' pc h hc'
        have := key g' h
        subst this
        dsimp only at hc'
        rw [upd_same] at hc'; cases hc'
        exact q.last g' p _ hb hc
      · obtain ⟨m, hm⟩ := q.stored
        refine ⟨p + 1, range_next hm (fun h => ?_) (fun r hr => (before i q hb hc r hr).1)⟩
        obtain ⟨g', h1, h2⟩ := (i.stored p).1 h
        have := (i.cur g p _ hc).1
        rw [h1] at this; cases this; exact h2 hc
    · exact q
  | write g k =>
    simp only [Order.step]
    split
    · next p left hc =>
      split
      · next hk =>
        have hb := busy_write hc hk
        generalize hw : (if s.lost k = true then s.written else upd s.written k (s.written k ++ [p])) = w
        have key : ∀ g', idle { s with casts := upd s.casts g (some (p, .write (left.filter (· ≠ k)))), written := w } g' = false → g' = g := fun g' h => by
          apply Classical.byContradiction
          intro hne
          rw [idle_upd (s := s) rfl hne] at h
          exact hne (q.one g' g h hb)
        refine ⟨fun g1 g2 h1 h2 => (key g1 h1).trans (key g2 h2).symm, ?_, q.stored, ?_⟩
        · intro g' p' pc h hc'
          have := key g' h
          subst this
          dsimp only at hc'
          rw [upd_same] at hc'; cases hc'
          exact q.last g' p _ hb hc
        · intro k'
          dsimp only
          subst hw
          cases hl : s.lost k with
          | true => exact q.written k'
          | false =>
            simp only [Bool.false_eq_true, if_false]
            by_cases he : k' = k
            · subst he
              rw [upd_same]
              obtain ⟨j, hj⟩ := q.written k'
              refine ⟨p + 1, range_next hj (fun h => (i.written k' p h).2.2 g left hc hk) (fun r hr => ?_)⟩
              exact (before i q hb hc r hr).2 k' (i.left g p left hc k' hk) hl
            · rw [upd_ne _ _ he]; exact q.written k'
      · exact q
    · exact q
  | lose k => exact ⟨q.one, q.last, q.stored, q.written⟩

theorem seq_run {members h} (hone : CastsOneByOne members h) : Seq (run members h) := by
  induction h using snocRec with
  | nil => exact ⟨fun g g' h => by simp [run, idle] at h, fun g p pc h => by simp [run, idle] at h, ⟨0, rfl⟩, fun _ => ⟨0, rfl⟩⟩
  | append_singleton h e ih =>
    have h1 : CastsOneByOne members h := fun a g b hb => hone a g (b ++ [e]) (by rw [hb]; simp)
    have e1 : run members (h ++ [e]) = step members (run members h) e := by unfold run; rw [List.foldl_append]; rfl
    rw [e1]
    exact (ih h1).step (inv_run members h) e (fun g hg => hone h g [] (by rw [hg]))

/-! ## The packets of one emitter -/

theorem sorted_ext : ∀ {l l' : List Nat}, l.Pairwise (· < ·) → l'.Pairwise (· < ·) → (∀ x, x ∈ l ↔ x ∈ l') → l = l'
  | [], [], _, _, _ => rfl
  | [], b :: l', _, _, h => absurd ((h b).2 (List.mem_cons_self ..)) (by simp)
  | a :: l, [], _, _, h => absurd ((h a).1 (List.mem_cons_self ..)) (by simp)
  | a :: l, b :: l', h1, h2, h => by
    have ⟨ha, h1'⟩ := List.pairwise_cons.1 h1
    have ⟨hb, h2'⟩ := List.pairwise_cons.1 h2
    have hab : a = b := by
      rcases List.mem_cons.1 ((h a).1 (List.mem_cons_self ..)) with e | e
      · exact e
      · rcases List.mem_cons.1 ((h b).2 (List.mem_cons_self ..)) with e' | e'
        · exact e'.symm
        · have := ha b e'; have := hb a e; omega
    subst hab
    congr 1
    refine sorted_ext h1' h2' (fun x => ⟨fun hx => ?_, fun hx => ?_⟩)
    · rcases List.mem_cons.1 ((h x).1 (List.mem_cons_of_mem _ hx)) with e | e
      · have := ha x hx; omega
      · exact e
    · rcases List.mem_cons.1 ((h x).2 (List.mem_cons_of_mem _ hx)) with e | e
      · have := hb x hx; omega
      · exact e

theorem mem_of {s : St} {g l x} : x ∈ ofEmitter s g l ↔ x ∈ l ∧ s.emitters[x]? = some g := by
  unfold ofEmitter; simp [List.mem_filter]

theorem of_append {s : St} {g l l'} : ofEmitter s g (l ++ l') = ofEmitter s g l ++ ofEmitter s g l' := List.filter_append ..

theorem of_cons {s : St} {g p l} (h : s.emitters[p]? = some g) : ofEmitter s g (p :: l) = p :: ofEmitter s g l :=
  List.filter_cons_of_pos (by simp [h])

theorem replay_split {l : List Nat} {o : Nat} (h : o ∈ l) : ∃ a b, l = a ++ o :: b ∧ replay l o = some b := by
  induction l with
  | nil => cases h
  | cons x l ih =>
    by_cases hx : x = o
    · subst hx
      exact ⟨[], l, rfl, by simp [replay]⟩
    · obtain ⟨a, b, e, hr⟩ := ih ((List.mem_cons.1 h).resolve_left (fun e => hx e.symm))
      refine ⟨x :: a, b, by rw [e]; rfl, ?_⟩
      unfold replay at hr ⊢
      rw [List.dropWhile_cons_of_pos (by simpa using hx)]
      exact hr

theorem Inv.emitter {members s} (i : Inv members s) {k g o : Nat} {got rest} (hw : s.written k = got ++ o :: rest) (hg : s.emitters[o]? = some g) :
    ∃ l, replay s.stored o = some l ∧ ofEmitter s g (got ++ o :: l) = ofEmitter s g s.stored := by
  have ho : o ∈ s.written k := by rw [hw]; simp
  obtain ⟨a, b, e, hr⟩ := replay_split (i.written k o ho).2.1
  refine ⟨b, hr, ?_⟩
  have hS := i.ordS g
  have hW := i.ordW g k
  rw [e, of_append, of_cons hg] at hS ⊢
  rw [hw, of_append, of_cons hg] at hW
  rw [of_append, of_cons hg]
  unfold InOrderOfCalls at hS hW
  rw [List.pairwise_append] at hS hW
  obtain ⟨s1, s2, s3⟩ := hS
  obtain ⟨w1, w2, w3⟩ := hW
  congr 1
  refine sorted_ext w1 s1 (fun x => ⟨fun hx => ?_, fun hx => ?_⟩)
  · have hlt := w3 x hx o (List.mem_cons_self ..)
    have hxe := (mem_of.1 hx).2
    have hxs : x ∈ s.stored := (i.written k x (by rw [hw]; exact List.mem_append_left _ (mem_of.1 hx).1)).2.1
    rw [e] at hxs
    rcases List.mem_append.1 hxs with h | h
    · exact mem_of.2 ⟨h, hxe⟩
    · rcases List.mem_cons.1 h with h | h
      · omega
      · have := (List.pairwise_cons.1 s2).1 x (mem_of.2 ⟨h, hxe⟩); omega
  · have hlt := s3 x hx o (List.mem_cons_self ..)
    have hxe := (mem_of.1 hx).2
    have hxw := i.pre k o x g ho hg hxe hlt
    rw [hw] at hxw
    rcases List.mem_append.1 hxw with h | h
    · exact mem_of.2 ⟨h, hxe⟩
    · rcases List.mem_cons.1 h with h | h
      · omega
      · have := (List.pairwise_cons.1 w2).1 x (mem_of.2 ⟨h, hxe⟩); omega

end Verif.Order
