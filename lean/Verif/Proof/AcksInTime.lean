import Verif.Proof.Acks
import Verif.Lib.ListExtra

/-! An answer that arrives before the timer of its emission fires. -/

namespace Verif.Acks
open Verif Verif.Spec

/-- Nobody holds the callback. -/
structure Fresh (cb : Nat) (s : CSt) : Prop where
  acks : ∀ i e, s.acks.get? i = some e → e.cb ≠ cb
  hands : ∀ (k : Nat) i a pc (e : Entry), s.threads[k]? = some (Thread.handler i a pc (some e)) → e.cb ≠ cb
  ems : ∀ (k : Nat) i c timed pc, s.threads[k]? = some (Thread.emitter i c timed pc) → c ≠ cb ∧ i ≤ s.ids
  tims : ∀ i, s.timers.get? i ≠ some cb
  runs : ∀ (k : Nat) i c pc, s.threads[k]? = some (Thread.timer i c pc) → c ≠ cb
  log : ∀ x ∈ s.log, x.1 ≠ cb

/-- The emission of the callback has stored it. -/
def Done (cb id k0 : Nat) (s : CSt) : Prop := ∃ pc, 2 ≤ pc ∧ s.threads[k0]? = some (Thread.emitter id cb true pc)

/-- The timer of the callback has not fired. -/
structure InTime (cb id k0 : Nat) (s : CSt) : Prop where
  here : ∃ pc, s.threads[k0]? = some (Thread.emitter id cb true pc)
  ems : ∀ (k : Nat) i c timed pc, s.threads[k]? = some (Thread.emitter i c timed pc) → (i = id ∨ c = cb) → k = k0
  le : id ≤ s.ids
  acks : ∀ i e, s.acks.get? i = some e → e.cb = cb → e.timer = some id ∧ Done cb id k0 s
  hands : ∀ (k : Nat) i a pc (e : Entry), s.threads[k]? = some (Thread.handler i a pc (some e)) → e.cb = cb →
    e.timer = some id ∧ Done cb id k0 s ∧ (2 ≤ pc → s.timers.get? id ≠ some cb)
  tims : ∀ i, s.timers.get? i = some cb → i = id
  runs : ∀ (k : Nat) i c pc, s.threads[k]? = some (Thread.timer i c pc) → c ≠ cb
  late : ∀ x ∈ s.log, x.1 = cb → x.2 ≠ .timeout ∧ Done cb id k0 s ∧ s.timers.get? id ≠ some cb

theorem get_snoc {α} (l : List α) (x : α) (k : Nat) (t : α) (h : (l ++ [x])[k]? = some t) : l[k]? = some t ∨ (k = l.length ∧ t = x) := by
  by_cases hk : k < l.length
  · exact .inl (by rwa [List.getElem?_append_left hk] at h)
  · rw [List.getElem?_append_right (by omega)] at h
    have := (List.getElem?_eq_some_iff.1 h).1
    simp only [List.length_singleton] at this
    have e : k - l.length = 0 := by omega
    rw [e] at h
    simp at h
    exact .inr ⟨by omega, h.symm⟩

theorem get_set {α} (l : List α) (x : α) (j k : Nat) (t : α) (h : (l.set j x)[k]? = some t) : (k ≠ j ∧ l[k]? = some t) ∨ (k = j ∧ t = x) := by
  rw [List.getElem?_set] at h
  split at h
  · rename_i hj
    split at h
    · cases h; exact .inr ⟨hj.symm, rfl⟩
    · cases h
  · rename_i hj
    exact .inl ⟨fun e => hj e.symm, h⟩

theorem fresh_step {cb : Nat} {s : CSt} (f : Fresh cb s) (e : Ev) (he : passes cb e = false) : Fresh cb (cstep s e) := by
  cases e with
  | emit c timed =>
    have hc : c ≠ cb := by simpa [passes] using he
    refine ⟨f.acks, ?_, ?_, f.tims, ?_, f.log⟩
    · intro k i a pc e h
      rcases get_snoc _ _ _ _ h with h | ⟨_, h⟩
      · exact f.hands _ _ _ _ _ h
      · cases h
    · intro k i c' timed' pc h
      rcases get_snoc _ _ _ _ h with h | ⟨_, h⟩
      · exact ⟨(f.ems _ _ _ _ _ h).1, Nat.le_succ_of_le (f.ems _ _ _ _ _ h).2⟩
      · cases h; exact ⟨hc, Nat.le_refl _⟩
    · intro k i c' pc h
      rcases get_snoc _ _ _ _ h with h | ⟨_, h⟩
      · exact f.runs _ _ _ _ h
      · cases h
  | recv i args =>
    refine ⟨f.acks, ?_, ?_, f.tims, ?_, f.log⟩
    · intro k i a pc e h
      rcases get_snoc _ _ _ _ h with h | ⟨_, h⟩
      · exact f.hands _ _ _ _ _ h
      · cases h
    · intro k i c' timed' pc h
      rcases get_snoc _ _ _ _ h with h | ⟨_, h⟩
      · exact f.ems _ _ _ _ _ h
      · cases h
    · intro k i c' pc h
      rcases get_snoc _ _ _ _ h with h | ⟨_, h⟩
      · exact f.runs _ _ _ _ h
      · cases h
  | fire id =>
    simp only [cstep]
    cases hg : s.timers.get? id with
    | none => exact f
    | some c =>
      have hc : c ≠ cb := fun h => f.tims id (h ▸ hg)
      refine ⟨f.acks, ?_, ?_, ?_, ?_, f.log⟩
      · intro k i a pc e h
        rcases get_snoc _ _ _ _ h with h | ⟨_, h⟩
        · exact f.hands _ _ _ _ _ h
        · cases h
      · intro k i c' timed' pc h
        rcases get_snoc _ _ _ _ h with h | ⟨_, h⟩
        · exact f.ems _ _ _ _ _ h
        · cases h
      · intro i; simp only [FMap.get?_erase]; split
        · simp
        · exact f.tims i
      · intro k i c' pc h
        rcases get_snoc _ _ _ _ h with h | ⟨_, h⟩
        · exact f.runs _ _ _ _ h
        · cases h; exact hc
  | adv j =>
    simp only [cstep]
    cases hk : s.threads[j]? with
    | none => exact f
    | some t =>
      have mk : ∀ (s' : CSt) (t' : Thread), s'.ids = s.ids → (∀ i e, s'.acks.get? i = some e → e.cb ≠ cb) → (∀ i, s'.timers.get? i ≠ some cb) →
          (∀ x ∈ s'.log, x.1 ≠ cb) → (∀ i a pc e, t' = .handler i a pc (some e) → e.cb ≠ cb) →
          (∀ i c timed pc, t' = .emitter i c timed pc → c ≠ cb ∧ i ≤ s.ids) → (∀ i c pc, t' = .timer i c pc → c ≠ cb) →
          Fresh cb { s' with threads := s.threads.set j t' } := by
        intro s' t' h0 h1 h2 h3 h4 h5 h6
        refine ⟨h1, ?_, ?_, h2, ?_, h3⟩
        · intro k i a pc e h
          rcases get_set _ _ _ _ _ h with ⟨_, h⟩ | ⟨_, h⟩
          · exact f.hands _ _ _ _ _ h
          · exact h4 _ _ _ _ h.symm
        · intro k i c' timed' pc h
          show _ ∧ _ ≤ s'.ids
          rw [h0]
          rcases get_set _ _ _ _ _ h with ⟨_, h⟩ | ⟨_, h⟩
          · exact f.ems _ _ _ _ _ h
          · exact h5 _ _ _ _ h.symm
        · intro k i c' pc h
          rcases get_set _ _ _ _ _ h with ⟨_, h⟩ | ⟨_, h⟩
          · exact f.runs _ _ _ _ h
          · exact h6 _ _ _ h.symm
      cases t with
      | emitter i c timed pc =>
        have hc := f.ems _ _ _ _ _ hk
        have h4 : ∀ pc', (∀ i' a pc e, Thread.emitter i c timed pc' = .handler i' a pc (some e) → e.cb ≠ cb) ∧
            (∀ i' c' timed' pc, Thread.emitter i c timed pc' = .emitter i' c' timed' pc → c' ≠ cb ∧ i' ≤ s.ids) ∧
            (∀ i' c' pc, Thread.emitter i c timed pc' = .timer i' c' pc → c' ≠ cb) := by
          intro pc'
          refine ⟨fun _ _ _ _ h => (by cases h), fun _ _ _ _ h => (by cases h; exact hc), fun _ _ _ h => (by cases h)⟩
        rcases pc with _ | _ | pc
        · refine mk (if timed then { s with timers := s.timers.insert i c } else s) _ (by split <;> rfl) (by split <;> exact f.acks) ?_
            (by split <;> exact f.log) (h4 _).1 (h4 _).2.1 (h4 _).2.2
          split
          · intro i'; simp only [FMap.get?_insert]; split
            · simp [hc.1]
            · exact f.tims i'
          · exact f.tims
        · refine mk { s with acks := s.acks.insert i ⟨c, if timed then some i else none⟩ } _ rfl ?_ f.tims f.log (h4 _).1 (h4 _).2.1 (h4 _).2.2
          intro i' e; simp only [FMap.get?_insert]; split
          · intro h; cases h; exact hc.1
          · exact f.acks i' e
        · exact mk s _ rfl f.acks f.tims f.log (h4 _).1 (h4 _).2.1 (h4 _).2.2
      | timer i c pc =>
        have hc := f.runs _ _ _ _ hk
        have h4 : ∀ pc', (∀ i' a pc e, Thread.timer i c pc' = .handler i' a pc (some e) → e.cb ≠ cb) ∧
            (∀ i' c' timed' pc, Thread.timer i c pc' = .emitter i' c' timed' pc → c' ≠ cb ∧ i' ≤ s.ids) ∧
            (∀ i' c' pc, Thread.timer i c pc' = .timer i' c' pc → c' ≠ cb) := by
          intro pc'
          refine ⟨fun _ _ _ _ h => (by cases h), fun _ _ _ _ h => (by cases h), fun _ _ _ h => (by cases h; exact hc)⟩
        rcases pc with _ | _ | pc
        · refine mk { s with acks := s.acks.erase i } _ rfl ?_ f.tims f.log (h4 _).1 (h4 _).2.1 (h4 _).2.2
          intro i' e; simp only [FMap.get?_erase]; split
          · simp
          · exact f.acks i' e
        · refine mk { s with log := s.log ++ [(c, .timeout)] } _ rfl f.acks f.tims ?_ (h4 _).1 (h4 _).2.1 (h4 _).2.2
          intro x hx
          rcases List.mem_append.1 hx with h | h
          · exact f.log x h
          · cases List.mem_singleton.1 h; exact hc
        · exact mk s _ rfl f.acks f.tims f.log (h4 _).1 (h4 _).2.1 (h4 _).2.2
      | handler i a pc e =>
        have h4 : ∀ pc' (e' : Option Entry), (∀ e, e' = some e → e.cb ≠ cb) →
            (∀ i' a' pc e, Thread.handler i a pc' e' = .handler i' a' pc (some e) → e.cb ≠ cb) ∧
            (∀ i' c' timed' pc, Thread.handler i a pc' e' = .emitter i' c' timed' pc → c' ≠ cb ∧ i' ≤ s.ids) ∧
            (∀ i' c' pc, Thread.handler i a pc' e' = .timer i' c' pc → c' ≠ cb) := by
          intro pc' e' he'
          refine ⟨fun _ _ _ _ h => (by cases h; exact he' _ rfl), fun _ _ _ _ h => (by cases h), fun _ _ _ h => (by cases h)⟩
        have he' : ∀ e', e = some e' → e'.cb ≠ cb := by rintro e' rfl; exact f.hands _ _ _ _ _ hk
        have er : ∀ i' e, (s.acks.erase i).get? i' = some e → e.cb ≠ cb := by
          intro i' e; simp only [FMap.get?_erase]; split
          · simp
          · exact f.acks i' e
        have keep : ∀ pc, Fresh cb { s with threads := s.threads.set j (.handler i a pc e) } := fun pc =>
          mk s _ rfl f.acks f.tims f.log (h4 _ _ he').1 (h4 _ _ he').2.1 (h4 _ _ he').2.2
        rcases pc with _ | _ | _ | _ | pc
        · simp only [advThread]
          cases hg : s.acks.get? i with
          | none => exact mk s _ rfl f.acks f.tims f.log (h4 _ none (by simp)).1 (h4 _ _ (by simp)).2.1 (h4 _ _ (by simp)).2.2
          | some e0 =>
            have h0 : ∀ e', some e0 = some e' → e'.cb ≠ cb := by rintro e' h; cases h; exact f.acks _ _ hg
            exact mk s _ rfl f.acks f.tims f.log (h4 _ _ h0).1 (h4 _ _ h0).2.1 (h4 _ _ h0).2.2
        · cases e with
          | none => exact keep _
          | some e =>
            simp only [advThread]
            refine mk _ _ (by split <;> rfl) (by split <;> exact f.acks) ?_ (by split <;> exact f.log) (h4 _ _ he').1 (h4 _ _ he').2.1 (h4 _ _ he').2.2
            split
            · intro i'; simp only [FMap.get?_erase]; split
              · simp
              · exact f.tims i'
            · exact f.tims
        · cases e with
          | none => exact keep _
          | some e =>
            refine mk { s with log := s.log ++ [(e.cb, .ok a)] } _ rfl f.acks f.tims ?_ (h4 _ _ he').1 (h4 _ _ he').2.1 (h4 _ _ he').2.2
            intro x hx
            rcases List.mem_append.1 hx with h | h
            · exact f.log x h
            · cases List.mem_singleton.1 h; exact he' e rfl
        · have : advThread s (.handler i a (0 + 1 + 1 + 1) e) = ({ s with acks := s.acks.erase i }, .handler i a 4 e) := by
            cases e <;> rfl
          dsimp only
          rw [this]
          exact mk { s with acks := s.acks.erase i } _ rfl er f.tims f.log (h4 _ _ he').1 (h4 _ _ he').2.1 (h4 _ _ he').2.2
        · have : advThread s (.handler i a (pc + 1 + 1 + 1 + 1) e) = (s, .handler i a (pc + 1 + 1 + 1 + 1) e) := by
            cases e <;> rfl
          dsimp only
          rw [this]
          exact keep _

theorem fresh_run {cb : Nat} (h : List Ev) (hp : ∀ e ∈ h, passes cb e = false) : Fresh cb (crun h) := by
  induction h using snocRec with
  | nil => constructor <;> simp [crun]
  | append_singleton h e ih =>
    have : crun (h ++ [e]) = cstep (crun h) e := by simp [crun]
    rw [this]
    exact fresh_step (ih fun e' he' => hp e' (by simp [he'])) e (hp e (by simp))

/-- The callback is passed to an emission with a timeout. -/
theorem inTime_emit {cb : Nat} {s : CSt} (f : Fresh cb s) : InTime cb (s.ids + 1) s.threads.length (cstep s (.emit cb true)) := by
  constructor
  · exact ⟨0, by simp [cstep]⟩
  · intro k i c timed pc h hor
    rcases get_snoc _ _ _ _ h with h | ⟨h, _⟩
    · have := f.ems _ _ _ _ _ h
      rcases hor with hor | hor
      · omega
      · exact absurd hor this.1
    · exact h
  · exact Nat.le_refl _
  · intro i e h hc; exact absurd hc (f.acks i e h)
  · intro k i a pc e h hc
    rcases get_snoc _ _ _ _ h with h | ⟨_, h⟩
    · exact absurd hc (f.hands _ _ _ _ _ h)
    · cases h
  · intro i h; exact absurd h (f.tims i)
  · intro k i c pc h
    rcases get_snoc _ _ _ _ h with h | ⟨_, h⟩
    · exact f.runs _ _ _ _ h
    · cases h
  · intro x hx hc; exact absurd hc (f.log x hx)

theorem done_snoc {cb id k0 : Nat} {s : CSt} (h : Done cb id k0 s) (s' : CSt) (t : Thread) (e : s'.threads = s.threads ++ [t]) :
    Done cb id k0 s' := by
  obtain ⟨pc, h1, h2⟩ := h
  refine ⟨pc, h1, ?_⟩
  rw [e, List.getElem?_append_left (List.getElem?_eq_some_iff.1 h2).1]
  exact h2

/-- A goroutine is added that has nothing to do with the callback. -/
theorem inTime_snoc {cb id k0 : Nat} {s s' : CSt} (f : InTime cb id k0 s) (t : Thread) (ht : s'.threads = s.threads ++ [t])
    (hi : s.ids ≤ s'.ids) (h1 : s'.acks = s.acks) (h2 : s'.log = s.log) (h3 : ∀ i, s'.timers.get? i = some cb → s.timers.get? i = some cb)
    (h4 : ∀ i a pc e, t = .handler i a pc (some e) → e.cb ≠ cb) (h5 : ∀ i c timed pc, t = .emitter i c timed pc → c ≠ cb ∧ i ≠ id)
    (h6 : ∀ i c pc, t = .timer i c pc → c ≠ cb) : InTime cb id k0 s' := by
  have hd : Done cb id k0 s → Done cb id k0 s' := fun h => done_snoc h s' t ht
  constructor
  · obtain ⟨pc, h⟩ := f.here
    exact ⟨pc, by rw [ht, List.getElem?_append_left (List.getElem?_eq_some_iff.1 h).1]; exact h⟩
  · intro k i c timed pc h hor
    rw [ht] at h
    rcases get_snoc _ _ _ _ h with h | ⟨_, h⟩
    · exact f.ems _ _ _ _ _ h hor
    · have := h5 _ _ _ _ h.symm
      rcases hor with hor | hor
      · exact absurd hor this.2
      · exact absurd hor this.1
  · exact Nat.le_trans f.le hi
  · intro i e h hc
    rw [h1] at h
    exact ⟨(f.acks i e h hc).1, hd (f.acks i e h hc).2⟩
  · intro k i a pc e h hc
    rw [ht] at h
    rcases get_snoc _ _ _ _ h with h | ⟨_, h⟩
    · obtain ⟨a1, a2, a3⟩ := f.hands _ _ _ _ _ h hc
      exact ⟨a1, hd a2, fun hpc ht => a3 hpc (h3 _ ht)⟩
    · exact absurd hc (h4 _ _ _ _ h.symm)
  · intro i h; exact f.tims i (h3 i h)
  · intro k i c pc h
    rw [ht] at h
    rcases get_snoc _ _ _ _ h with h | ⟨_, h⟩
    · exact f.runs _ _ _ _ h
    · exact h6 _ _ _ h.symm
  · intro x hx hc
    rw [h2] at hx
    obtain ⟨a1, a2, a3⟩ := f.late x hx hc
    exact ⟨a1, hd a2, fun ht => a3 (h3 _ ht)⟩

/-- Goroutine `j`, not the one of the emission, makes a step. -/
theorem inTime_set {cb id k0 : Nat} {s s' : CSt} (f : InTime cb id k0 s) (j : Nat) (hj : j ≠ k0) (t' : Thread)
    (ht : s'.threads = s.threads.set j t') (hi : s'.ids = s.ids) (h1 : ∀ i e, s'.acks.get? i = some e → e.cb = cb → s.acks.get? i = some e)
    (h3 : ∀ i, s'.timers.get? i = some cb → s.timers.get? i = some cb)
    (h4 : ∀ i a pc e, t' = .handler i a pc (some e) → e.cb = cb →
      e.timer = some id ∧ Done cb id k0 s ∧ (2 ≤ pc → s'.timers.get? id ≠ some cb))
    (h5 : ∀ i c timed pc, t' = .emitter i c timed pc → c ≠ cb ∧ i ≠ id) (h6 : ∀ i c pc, t' = .timer i c pc → c ≠ cb)
    (h7 : ∀ x ∈ s'.log, x.1 = cb → x ∈ s.log ∨ x.2 ≠ .timeout ∧ Done cb id k0 s ∧ s'.timers.get? id ≠ some cb) : InTime cb id k0 s' := by
  have hd : Done cb id k0 s → Done cb id k0 s' := by
    rintro ⟨pc, a1, a2⟩
    exact ⟨pc, a1, by rw [ht, List.getElem?_set_ne hj]; exact a2⟩
  constructor
  · obtain ⟨pc, h⟩ := f.here
    exact ⟨pc, by rw [ht, List.getElem?_set_ne hj]; exact h⟩
  · intro k i c timed pc h hor
    rw [ht] at h
    rcases get_set _ _ _ _ _ h with ⟨_, h⟩ | ⟨_, h⟩
    · exact f.ems _ _ _ _ _ h hor
    · have := h5 _ _ _ _ h.symm
      rcases hor with hor | hor
      · exact absurd hor this.2
      · exact absurd hor this.1
  · rw [hi]; exact f.le
  · intro i e h hc
    have h := h1 i e h hc
    exact ⟨(f.acks i e h hc).1, hd (f.acks i e h hc).2⟩
  · intro k i a pc e h hc
    rw [ht] at h
    rcases get_set _ _ _ _ _ h with ⟨_, h⟩ | ⟨_, h⟩
    · obtain ⟨a1, a2, a3⟩ := f.hands _ _ _ _ _ h hc
      exact ⟨a1, hd a2, fun hpc ht => a3 hpc (h3 _ ht)⟩
    · obtain ⟨a1, a2, a3⟩ := h4 _ _ _ _ h.symm hc
      exact ⟨a1, hd a2, a3⟩
  · intro i h; exact f.tims i (h3 i h)
  · intro k i c pc h
    rw [ht] at h
    rcases get_set _ _ _ _ _ h with ⟨_, h⟩ | ⟨_, h⟩
    · exact f.runs _ _ _ _ h
    · exact h6 _ _ _ h.symm
  · intro x hx hc
    rcases h7 x hx hc with hx | ⟨a1, a2, a3⟩
    · obtain ⟨a1, a2, a3⟩ := f.late x hx hc
      exact ⟨a1, hd a2, fun ht => a3 (h3 _ ht)⟩
    · exact ⟨a1, hd a2, a3⟩

/-- The goroutine of the emission makes a step before it has stored the callback. -/
theorem inTime_self {cb id k0 : Nat} {s s' : CSt} (f : InTime cb id k0 s) (pc : Nat) (hk : s.threads[k0]? = some (.emitter id cb true pc))
    (hpc : pc < 2) (ht : s'.threads = s.threads.set k0 (.emitter id cb true (pc + 1))) (hi : s'.ids = s.ids)
    (h1 : ∀ i e, s'.acks.get? i = some e → e.cb = cb → s.acks.get? i = some e ∨ (e.timer = some id ∧ pc = 1))
    (h3 : ∀ i, s'.timers.get? i = some cb → s.timers.get? i = some cb ∨ i = id) (h2 : s'.log = s.log) : InTime cb id k0 s' := by
  have hn : ¬ Done cb id k0 s := by
    rintro ⟨pc', a1, a2⟩
    rw [hk] at a2; cases a2; omega
  have hlt := (List.getElem?_eq_some_iff.1 hk).1
  have hs : s'.threads[k0]? = some (.emitter id cb true (pc + 1)) := by rw [ht, List.getElem?_set, if_pos rfl, if_pos hlt]
  constructor
  · exact ⟨_, hs⟩
  · intro k i c timed pc' h hor
    rw [ht] at h
    rcases get_set _ _ _ _ _ h with ⟨_, h⟩ | ⟨h, _⟩
    · exact f.ems _ _ _ _ _ h hor
    · exact h
  · rw [hi]; exact f.le
  · intro i e h hc
    rcases h1 i e h hc with h | ⟨h, h'⟩
    · exact absurd (f.acks i e h hc).2 hn
    · exact ⟨h, _, by omega, hs⟩
  · intro k i a pc' e h hc
    rw [ht] at h
    rcases get_set _ _ _ _ _ h with ⟨_, h⟩ | ⟨_, h⟩
    · exact absurd (f.hands _ _ _ _ _ h hc).2.1 hn
    · cases h
  · intro i h
    rcases h3 i h with h | h
    · exact f.tims i h
    · exact h
  · intro k i c pc' h
    rw [ht] at h
    rcases get_set _ _ _ _ _ h with ⟨_, h⟩ | ⟨_, h⟩
    · exact f.runs _ _ _ _ h
    · cases h
  · intro x hx hc
    rw [h2] at hx
    exact absurd (f.late x hx hc).2.1 hn

theorem inTime_step {cb id k0 : Nat} {s : CSt} (f : InTime cb id k0 s) (e : Ev) (he : passes cb e = false)
    (hf : e = .fire id → s.timers.get? id ≠ some cb) : InTime cb id k0 (cstep s e) := by
  cases e with
  | emit c timed =>
    have hc : c ≠ cb := by simpa [passes] using he
    refine inTime_snoc f (.emitter (s.ids + 1) c timed 0) rfl (Nat.le_succ _) rfl rfl (fun _ h => h) (fun _ _ _ _ h => by cases h)
      ?_ (fun _ _ _ h => by cases h)
    intro i c' timed' pc h
    cases h
    exact ⟨hc, by have := f.le; omega⟩
  | recv i args =>
    exact inTime_snoc f (.handler i args 0 none) rfl (Nat.le_refl _) rfl rfl (fun _ h => h) (fun _ _ _ _ h => by cases h)
      (fun _ _ _ _ h => by cases h) (fun _ _ _ h => by cases h)
  | fire i =>
    simp only [cstep]
    cases hg : s.timers.get? i with
    | none => exact f
    | some c =>
      have hc : c ≠ cb := by
        rintro rfl
        have := f.tims i hg
        subst this
        exact hf rfl hg
      refine inTime_snoc f (.timer i c 0) rfl (Nat.le_refl _) rfl rfl ?_ (fun _ _ _ _ h => by cases h)
        (fun _ _ _ _ h => by cases h) (fun _ _ _ h => by cases h; exact hc)
      intro i'; simp only [FMap.get?_erase]; split
      · simp
      · exact fun h => h
  | adv j =>
    simp only [cstep]
    cases hk : s.threads[j]? with
    | none => exact f
    | some t =>
      dsimp only
      cases t with
      | emitter i c timed pc =>
        by_cases hj : j = k0
        · subst hj
          obtain ⟨pc', h'⟩ := f.here
          rw [hk] at h'
          cases h'
          rcases pc with _ | _ | pc
          · refine inTime_self f 0 hk (by omega) rfl rfl (fun i e h _ => .inl h) ?_ rfl
            intro i'
            show (FMap.get? (s.timers.insert id cb) i') = _ → _
            rw [FMap.get?_insert]; split
            · rename_i h; intro _; exact .inr (by first | exact h | exact h.symm)
            · exact .inl
          · refine inTime_self f 1 hk (by omega) rfl rfl ?_ (fun _ h => .inl h) rfl
            intro i' e
            show (FMap.get? (s.acks.insert id ⟨cb, some id⟩) i') = _ → _
            rw [FMap.get?_insert]; split
            · intro h _; cases h; exact .inr ⟨rfl, rfl⟩
            · exact fun h _ => .inl h
          · have : advThread s (.emitter id cb true (pc + 1 + 1)) = (s, .emitter id cb true (pc + 1 + 1)) := rfl
            rw [this]
            have e : s.threads.set j (.emitter id cb true (pc + 1 + 1)) = s.threads := by
              obtain ⟨hlt, he⟩ := List.getElem?_eq_some_iff.1 hk
              rw [← he]; exact List.set_getElem_self hlt
            dsimp only
            rw [e]; exact f
        · have hi : i ≠ id := fun h => hj (f.ems _ _ _ _ _ hk (.inl h))
          have hc : c ≠ cb := fun h => hj (f.ems _ _ _ _ _ hk (.inr h))
          have go : ∀ (s' : CSt) (pc' : Nat), s'.threads = s.threads.set j (.emitter i c timed pc') → s'.ids = s.ids →
              (∀ i e, s'.acks.get? i = some e → e.cb = cb → s.acks.get? i = some e) →
              (∀ i, s'.timers.get? i = some cb → s.timers.get? i = some cb) → s'.log = s.log → InTime cb id k0 s' := by
            intro s' pc' a0 a1 a2 a3 a4
            exact inTime_set f j hj (.emitter i c timed pc') a0 a1 a2 a3 (fun _ _ _ _ h => by cases h)
              (fun _ _ _ _ h => by cases h; exact ⟨hc, hi⟩) (fun _ _ _ h => by cases h) (fun x hx _ => .inl (a4 ▸ hx))
          rcases pc with _ | _ | pc
          · cases timed
            · exact go _ 1 rfl rfl (fun _ _ h _ => h) (fun _ h => h) rfl
            · refine go _ 1 rfl rfl (fun _ _ h _ => h) ?_ rfl
              intro i'
              show (FMap.get? (s.timers.insert i c) i') = _ → _
              rw [FMap.get?_insert]; split
              · intro h; cases h; exact absurd rfl hc
              · exact fun h => h
          · refine go _ 2 rfl rfl ?_ (fun _ h => h) rfl
            intro i' e
            show (FMap.get? (s.acks.insert i ⟨c, if timed then some i else none⟩) i') = _ → _
            rw [FMap.get?_insert]; split
            · intro h hc'; cases h; exact absurd hc' hc
            · exact fun h _ => h
          · exact go _ (pc + 1 + 1) rfl rfl (fun _ _ h _ => h) (fun _ h => h) rfl
      | timer i c pc =>
        have hc := f.runs _ _ _ _ hk
        have hj : j ≠ k0 := by
          rintro rfl
          obtain ⟨pc', h'⟩ := f.here
          rw [hk] at h'; cases h'
        have go : ∀ (s' : CSt) (pc' : Nat), s'.threads = s.threads.set j (.timer i c pc') → s'.ids = s.ids →
            (∀ i e, s'.acks.get? i = some e → e.cb = cb → s.acks.get? i = some e) → s'.timers = s.timers →
            (∀ x ∈ s'.log, x.1 = cb → x ∈ s.log) → InTime cb id k0 s' := by
          intro s' pc' a0 a1 a2 a3 a4
          exact inTime_set f j hj (.timer i c pc') a0 a1 a2 (fun _ h => a3 ▸ h) (fun _ _ _ _ h => by cases h)
            (fun _ _ _ _ h => by cases h) (fun _ _ _ h => by cases h; exact hc) (fun x hx h => .inl (a4 x hx h))
        rcases pc with _ | _ | pc
        · refine go _ 1 rfl rfl ?_ rfl (fun _ h _ => h)
          intro i' e
          show (FMap.get? (s.acks.erase i) i') = _ → _
          rw [FMap.get?_erase]; split
          · intro h; cases h
          · exact fun h _ => h
        · refine go _ 2 rfl rfl (fun _ _ h _ => h) rfl ?_
          intro x hx hx'
          rcases List.mem_append.1 hx with h | h
          · exact h
          · cases List.mem_singleton.1 h; exact absurd hx' hc
        · exact go _ (pc + 1 + 1) rfl rfl (fun _ _ h _ => h) rfl (fun _ h _ => h)
      | handler i a pc e =>
        have hj : j ≠ k0 := by
          rintro rfl
          obtain ⟨pc', h'⟩ := f.here
          rw [hk] at h'; cases h'
        have er : ∀ i' e, (s.acks.erase i).get? i' = some e → e.cb = cb → s.acks.get? i' = some e := by
          intro i' e; rw [FMap.get?_erase]; split
          · intro h; cases h
          · exact fun h _ => h
        have keep : ∀ (s' : CSt) (pc' : Nat), s'.threads = s.threads.set j (.handler i a pc' e) → s'.ids = s.ids →
            (∀ i e, s'.acks.get? i = some e → e.cb = cb → s.acks.get? i = some e) → s'.timers = s.timers → s'.log = s.log →
            (2 ≤ pc' → 2 ≤ pc) → InTime cb id k0 s' := by
          intro s' pc' a0 a1 a2 a3 a4 a5
          refine inTime_set f j hj _ a0 a1 a2 (fun _ h => a3 ▸ h) ?_ (fun _ _ _ _ h => by cases h) (fun _ _ _ h => by cases h)
            (fun x hx _ => .inl (a4 ▸ hx))
          intro i' a' pc'' e' h hc
          cases h
          obtain ⟨b1, b2, b3⟩ := f.hands _ _ _ _ _ hk hc
          exact ⟨b1, b2, fun h => a3 ▸ b3 (a5 h)⟩
        rcases pc with _ | _ | _ | _ | pc
        · simp only [advThread]
          cases hg : s.acks.get? i with
          | none =>
            exact inTime_set f j hj (.handler i a 4 none) rfl rfl (fun _ _ h _ => h) (fun _ h => h) (fun _ _ _ _ h => by cases h)
              (fun _ _ _ _ h => by cases h) (fun _ _ _ h => by cases h) (fun x hx _ => .inl hx)
          | some e0 =>
            refine inTime_set f j hj (.handler i a 1 (some e0)) rfl rfl (fun _ _ h _ => h) (fun _ h => h) ?_
              (fun _ _ _ _ h => by cases h) (fun _ _ _ h => by cases h) (fun x hx _ => .inl hx)
            intro i' a' pc' e' h hc
            cases h
            obtain ⟨b1, b2⟩ := f.acks _ _ hg hc
            exact ⟨b1, b2, fun h => by omega⟩
        · cases e with
          | none => exact keep _ 1 rfl rfl (fun _ _ h _ => h) rfl rfl (fun h => h)
          | some e =>
            have ht : ∀ i', (advThread s (.handler i a 1 (some e))).1.timers.get? i' = some cb → s.timers.get? i' = some cb := by
              intro i'
              simp only [advThread]
              cases e.timer with
              | none => exact fun h => h
              | some t =>
                show (FMap.get? (s.timers.erase t) i') = _ → _
                rw [FMap.get?_erase]; split
                · intro h; cases h
                · exact fun h => h
            refine inTime_set f j hj (.handler i a 2 (some e)) rfl (by simp only [advThread]; split <;> rfl)
              (by simp only [advThread]; split <;> exact fun _ _ h _ => h) ht ?_
              (fun _ _ _ _ h => by cases h) (fun _ _ _ h => by cases h) (by simp only [advThread]; split <;> exact fun x hx _ => .inl hx)
            intro i' a' pc' e' h hc
            cases h
            obtain ⟨b1, b2, _⟩ := f.hands _ _ _ _ _ hk hc
            refine ⟨b1, b2, fun _ => ?_⟩
            simp only [advThread, b1]
            rw [FMap.get?_erase, if_pos rfl]
            simp
        · cases e with
          | none => exact keep _ 2 rfl rfl (fun _ _ h _ => h) rfl rfl (fun h => h)
          | some e =>
            refine inTime_set f j hj (.handler i a 3 (some e)) rfl rfl (fun _ _ h _ => h) (fun _ h => h) ?_
              (fun _ _ _ _ h => by cases h) (fun _ _ _ h => by cases h) ?_
            · intro i' a' pc' e' h hc
              cases h
              obtain ⟨b1, b2, b3⟩ := f.hands _ _ _ _ _ hk hc
              exact ⟨b1, b2, fun _ => b3 (by omega)⟩
            · intro x hx hc
              rcases List.mem_append.1 hx with h | h
              · exact .inl h
              · cases List.mem_singleton.1 h
                obtain ⟨b1, b2, b3⟩ := f.hands _ _ _ _ _ hk hc
                exact .inr ⟨by simp, b2, b3 (by omega)⟩
        · have : advThread s (.handler i a (0 + 1 + 1 + 1) e) = ({ s with acks := s.acks.erase i }, .handler i a 4 e) := by
            cases e <;> rfl
          rw [this]
          exact keep _ 4 rfl rfl er rfl rfl (fun _ => by omega)
        · have : advThread s (.handler i a (pc + 1 + 1 + 1 + 1) e) = (s, .handler i a (pc + 1 + 1 + 1 + 1) e) := by
            cases e <;> rfl
          rw [this]
          exact keep _ _ rfl rfl (fun _ _ h _ => h) rfl rfl (fun h => h)

theorem inTime_run {cb id k0 : Nat} (h : List Ev) {s : CSt} (f : InTime cb id k0 s) (hp : ∀ e ∈ h, passes cb e = false)
    (hf : .fire id ∉ h) : InTime cb id k0 (h.foldl cstep s) := by
  induction h generalizing s with
  | nil => exact f
  | cons e h ih =>
    exact ih (inTime_step f e (hp e (by simp)) (fun h' => absurd (by simp [h']) hf)) (fun e' h' => hp e' (by simp [h']))
      (fun h' => hf (by simp [h']))

/-- Once the answer has been passed on, the timer does not fire. -/
theorem answered_run {cb id k0 : Nat} (h : List Ev) {s : CSt} (f : InTime cb id k0 s) (hp : ∀ e ∈ h, passes cb e = false)
    (x : Nat × Res) (hx : x ∈ s.log) (hc : x.1 = cb) : InTime cb id k0 (h.foldl cstep s) := by
  induction h generalizing s with
  | nil => exact f
  | cons e h ih =>
    refine ih (inTime_step f e (hp e (by simp)) (fun _ => (f.late x hx hc).2.2)) (fun e' h' => hp e' (by simp [h'])) ?_
    cases e with
    | emit => exact hx
    | recv => exact hx
    | fire i => simp only [cstep]; split <;> exact hx
    | adv k =>
      simp only [cstep]
      split
      · rename_i t _
        cases t with
        | emitter i c timed pc => rcases pc with _ | _ | pc <;> simp only [advThread] <;> first | exact hx | (split <;> exact hx)
        | handler i a pc e =>
          rcases pc with _ | _ | _ | _ | pc <;> cases e <;> simp only [advThread]
          all_goals first | exact hx | (split <;> exact hx) | exact List.mem_append_left _ hx
        | timer i c pc => rcases pc with _ | _ | pc <;> simp only [advThread] <;> first | exact hx | exact List.mem_append_left _ hx
      · exact hx

end Verif.Acks
