import Verif.Spec.BeatRace
import Verif.Lib.ListExtra

/-! The heartbeat timer, goroutine by goroutine. -/

namespace Verif.BeatRace
open Verif Verif.Spec

variable {revive : Bool}

theorem run_snoc (h : List Ev) (e : Ev) : run revive (h ++ [e]) = step revive (run revive h) e := by simp [run]

theorem run_append (a b : List Ev) : run revive (a ++ b) = b.foldl (step revive) (run revive a) := by simp [run]

/-- With one timer. -/
structure Inv (s : St) : Prop where
  before : s.field = none → ∀ t ∈ s.ths, (t.pc = .load ∧ s.timers = []) ∨ (t.pc = .create ∧ s.timers = []) ∨ (t.pc = .store 0 ∧ s.timers.length = 1)
  fresh : s.field = none → s.ths = [] → s.timers = []
  after : ∀ t, s.field = some t → t = 0 ∧ s.timers.length = 1 ∧ ∀ x ∈ s.ths, x.pc ≠ .create ∧ (∀ j, x.pc ≠ .store j) ∧ ∀ j, x.pc = .refresh j → j = 0

theorem mem_set_th {l : List Th} {k : Nat} {t t' u : Th} (hu : u ∈ l.set k t') : u = t' ∨ u ∈ l := by
  rcases List.mem_or_eq_of_mem_set hu with h | h
  · exact .inr h
  · exact .inl h

theorem inv_spawn {s : St} (i : Inv s) (m : Msg) (h1 : s.field = none → s.ths = []) : Inv { s with ths := s.ths ++ [⟨m, .load⟩] } := by
  refine ⟨?_, ?_, ?_⟩
  · intro hf t ht
    have h0 := h1 hf
    dsimp only at ht
    rw [h0] at ht
    cases List.mem_singleton.mp ht
    exact .inl ⟨rfl, i.fresh hf h0⟩
  · intro _ h; simp at h
  · intro t hf
    obtain ⟨a, b, c⟩ := i.after t hf
    refine ⟨a, b, fun x hx => ?_⟩
    rcases List.mem_append.mp hx with hx | hx
    · exact c x hx
    · cases List.mem_singleton.mp hx; simp

theorem inv_step {s : St} (i : Inv s) (e : Ev) (h0 : s.field = none → s.ths.length ≤ 1)
    (h1 : (step revive s e).field = none → (step revive s e).ths.length ≤ 1) : Inv (step revive s e) := by
  have hspawn : ∀ m : Msg, (({ s with ths := s.ths ++ [⟨m, .load⟩] } : St).field = none → ({ s with ths := s.ths ++ [⟨m, .load⟩] } : St).ths.length ≤ 1) →
      s.field = none → s.ths = [] := by
    intro m h hf
    have := h hf
    simpa using this
  cases e with
  | publish => exact inv_spawn i _ (hspawn _ h1)
  | close => exact inv_spawn i _ (hspawn _ h1)
  | fire t =>
    simp only [step] at h1 ⊢
    split
    · rename_i ha
      rw [if_pos ha] at h1
      have i' : Inv { s with timers := s.timers.set t .fired } := by
        refine ⟨?_, ?_, ?_⟩
        · intro hf x hx
          rcases i.before hf x hx with ⟨_, h⟩ | ⟨_, h⟩ | h
          · rw [h] at ha; simp at ha
          · rw [h] at ha; simp at ha
          · exact .inr (.inr (by simpa using h))
        · intro hf hx; rw [i.fresh hf hx] at ha; simp at ha
        · intro t' hf
          obtain ⟨a, b, c⟩ := i.after t' hf
          exact ⟨a, by simpa using b, c⟩
      refine inv_spawn i' _ fun hf => ?_
      have := h1 hf
      simpa using this
    · exact i
  | adv k =>
    simp only [step]
    cases hk : s.ths[k]? with
    | none => exact i
    | some t =>
      dsimp only
      have hm : t ∈ s.ths := List.mem_of_getElem? hk
      cases hf : s.field with
      | none =>
        have hlen := h0 hf
        have hth : s.ths = [t] := by
          cases hx : s.ths with
          | nil => rw [hx] at hm; cases hm
          | cons a l =>
            rw [hx] at hlen hm
            have : l = [] := by simpa using hlen
            subst this
            rw [List.mem_singleton.mp hm]
        have hk0 : k = 0 := by
          have := (List.getElem?_eq_some_iff.mp hk).1
          rw [hth] at this; simpa using this
        subst hk0
        rcases i.before hf t hm with ⟨hp, hT⟩ | ⟨hp, hT⟩ | ⟨hp, hT⟩
        · simp only [hp, advance, hf, hth]
          exact ⟨fun _ x hx => by simp at hx; subst hx; exact .inr (.inl ⟨rfl, hT⟩), by simp, by simp⟩
        · simp only [hp, advance, hth, hT]
          exact ⟨fun _ x hx => by simp at hx; subst hx; exact .inr (.inr ⟨rfl, rfl⟩), by simp, fun t h => by simp [hf] at h⟩
        · simp only [hp, advance, hth]
          refine ⟨by simp, by simp, ?_⟩
          intro t' ht'
          simp only [Option.some.injEq] at ht'
          subst ht'
          refine ⟨rfl, hT, fun x hx => ?_⟩
          simp at hx; subst hx; simp
      | some f =>
        obtain ⟨rfl, hT, hc⟩ := i.after f hf
        obtain ⟨c1, c2, c3⟩ := hc t hm
        have hset : ∀ pc : Pc, pc ≠ .create → (∀ j, pc ≠ .store j) → (∀ j, pc = .refresh j → j = 0) →
            ∀ x ∈ s.ths.set k { t with pc := pc }, x.pc ≠ .create ∧ (∀ j, x.pc ≠ .store j) ∧ ∀ j, x.pc = .refresh j → j = 0 := by
          intro pc p1 p2 p3 x hx
          rcases mem_set_th (t := t) hx with rfl | hx
          · exact ⟨p1, p2, p3⟩
          · exact hc x hx
        have fin : ∀ s' : St, s'.field = some 0 → s'.timers.length = 1 →
            (∀ x ∈ s'.ths, x.pc ≠ .create ∧ (∀ j, x.pc ≠ .store j) ∧ ∀ j, x.pc = .refresh j → j = 0) → Inv s' := by
          intro s' f1 f2 f3
          refine ⟨fun h => (by rw [f1] at h; cases h), fun h => (by rw [f1] at h; cases h), fun t' h => ?_⟩
          rw [f1] at h; cases h
          exact ⟨rfl, f2, f3⟩
        cases hp : t.pc with
        | load =>
          simp only [advance, hf]
          exact fin _ rfl hT (hset _ (by simp) (by simp) (by simp))
        | refresh j =>
          simp only [advance]
          exact fin _ hf (by simpa using hT) (hset _ (by simp) (by simp) (by simp))
        | create => exact absurd hp c1
        | store j => exact absurd hp (c2 j)
        | send =>
          simp only [advance]
          refine fin _ hf hT (hset _ ?_ ?_ ?_) <;> split <;> simp
        | clear =>
          simp only [advance, hf]
          exact fin _ rfl (by simpa using hT) (hset _ (by simp) (by simp) (by simp))
        | done =>
          simp only [advance]
          exact fin _ hf hT (hset _ (by simp) (by simp) (by simp))

theorem alone_prefix {h : List Ev} {e : Ev} (ha : FirstAlone revive (h ++ [e])) : FirstAlone revive h :=
  fun a b hab => ha a (b ++ [e]) (by rw [hab]; simp)

theorem inv_run (h : List Ev) (ha : FirstAlone revive h) : Inv (run revive h) := by
  induction h using snocRec with
  | nil => exact ⟨by simp [run], by simp [run], by simp [run]⟩
  | append_singleton h e ih =>
    have := ha (h ++ [e]) [] (by simp)
    rw [run_snoc] at this ⊢
    exact inv_step (ih (alone_prefix ha)) e (alone_prefix ha h [] (by simp)) this

/-- After `ClearTimeout` the only timer is stopped. -/
theorem cleared (h : List Ev) (ha : FirstAlone revive h) {k : Nat} (hc : Closing (run revive h) k) :
    (run revive (h ++ [.adv k])).timers = [.stopped] ∧ (run revive (h ++ [.adv k])).field = some 0 ∧
    (run revive (h ++ [.adv k])).log = (run revive h).log ∧
    (run revive (h ++ [.adv k])).ths = (run revive h).ths.set k ⟨.goodbye, .done⟩ := by
  have i := inv_run h ha
  have hm : (⟨.goodbye, .clear⟩ : Th) ∈ (run revive h).ths := List.mem_of_getElem? hc
  unfold Closing at hc
  rw [run_snoc]
  cases hf : (run revive h).field with
  | none => rcases i.before hf _ hm with ⟨h, _⟩ | ⟨h, _⟩ | ⟨h, _⟩ <;> cases h
  | some t =>
    obtain ⟨rfl, hT, -⟩ := i.after t hf
    obtain ⟨x, hx⟩ := List.length_eq_one_iff.mp hT
    simp only [step, hc, advance, hf, hx]
    exact ⟨rfl, trivial, trivial, trivial⟩

/-- Nothing moves any more. -/
theorem still {s : St} (ht : s.timers = [.stopped]) (hd : ∀ x ∈ s.ths, x.pc = .done) (b : List Ev) (hb : ∀ e ∈ b, e ≠ .publish ∧ e ≠ .close) :
    b.foldl (step revive) s = s := by
  induction b with
  | nil => rfl
  | cons e b ih =>
    rw [List.foldl_cons]
    have : step revive s e = s := by
      have he := hb e (by simp)
      cases e with
      | publish => exact absurd rfl he.1
      | close => exact absurd rfl he.2
      | fire t =>
        simp only [step]
        rw [if_neg]
        rw [ht]
        cases t <;> simp
      | adv k =>
        simp only [step]
        cases hk : s.ths[k]? with
        | none => rfl
        | some t =>
          have hp := hd t (List.mem_of_getElem? hk)
          dsimp only
          rw [hp]
          simp only [advance]
          have : s.ths.set k { t with pc := .done } = s.ths := by
            have : ({ t with pc := .done } : Th) = t := by cases t; simp_all
            rw [this]
            obtain ⟨h1, h2⟩ := List.getElem?_eq_some_iff.mp hk
            rw [← h2]; exact List.set_getElem_self h1
          rw [this]
    rw [this]
    exact ih fun e' he' => hb e' (by simp [he'])

theorem silent (h b : List Ev) (ha : FirstAlone revive h) {k : Nat} (hc : Closing (run revive h) k)
    (hd : ∀ j t, (run revive h).ths[j]? = some t → j ≠ k → t.pc = .done) (hb : ∀ e ∈ b, e ≠ .publish ∧ e ≠ .close) :
    (run revive (h ++ .adv k :: b)).log = (run revive h).log := by
  obtain ⟨c1, c2, c3, c4⟩ := cleared h ha hc
  have : run revive (h ++ .adv k :: b) = run revive (h ++ [.adv k]) := by
    rw [show h ++ Ev.adv k :: b = (h ++ [.adv k]) ++ b by simp, run_append]
    refine still c1 ?_ b hb
    intro x hx
    rw [c4] at hx
    obtain ⟨j, hj⟩ := List.getElem?_of_mem hx
    by_cases hjk : j = k
    · subst hjk
      rw [List.getElem?_set] at hj
      simp only [if_true] at hj
      split at hj
      · cases hj; rfl
      · cases hj
    · rw [List.getElem?_set_ne (Ne.symm hjk)] at hj
      exact hd j x hj hjk
  rw [this, c3]

/-! If `Refresh` leaves stopped timers alone -/

structure Dead (s : St) (n : Nat) : Prop where
  timers : s.timers = [.stopped]
  field : s.field = some 0
  ths : ∀ x ∈ s.ths, x.pc ≠ .create ∧ (∀ j, x.pc ≠ .store j)
  beats : (Spec.beats s).length = n

theorem beats_set (l : List Th) (k : Nat) (t : Th) (hk : l[k]? = some t) (pc : Pc) :
    ((l.set k { t with pc := pc }).filter fun t => decide (t.msg = .heartbeat)).length = (l.filter fun t => decide (t.msg = .heartbeat)).length := by
  induction l generalizing k with
  | nil => simp at hk
  | cons a l ih =>
    cases k with
    | zero =>
      simp only [List.getElem?_cons_zero, Option.some.injEq] at hk
      subst hk
      simp only [List.set_cons_zero, List.filter_cons]
      split <;> simp
    | succ k =>
      simp only [List.getElem?_cons_succ] at hk
      simp only [List.set_cons_succ, List.filter_cons]
      split <;> simp [ih k hk]

theorem dead_step {s : St} {n : Nat} (d : Dead s n) (e : Ev) : Dead (step false s e) n := by
  have hspawn : ∀ m : Msg, m ≠ .heartbeat → Dead { s with ths := s.ths ++ [⟨m, .load⟩] } n := by
    intro m hm
    refine ⟨d.timers, d.field, fun x hx => ?_, ?_⟩
    · rcases List.mem_append.mp hx with hx | hx
      · exact d.ths x hx
      · cases List.mem_singleton.mp hx; simp
    · have := d.beats
      simp only [Spec.beats, List.filter_append, List.length_append] at this ⊢
      simp [hm, this]
  cases e with
  | publish => exact hspawn _ (by simp)
  | close => exact hspawn _ (by simp)
  | fire t =>
    simp only [step]
    rw [if_neg]
    · exact d
    · rw [d.timers]; cases t <;> simp
  | adv k =>
    simp only [step]
    cases hk : s.ths[k]? with
    | none => exact d
    | some t =>
      dsimp only
      obtain ⟨c1, c2⟩ := d.ths t (List.mem_of_getElem? hk)
      have hset : ∀ pc : Pc, pc ≠ .create → (∀ j, pc ≠ .store j) → ∀ x ∈ s.ths.set k { t with pc := pc }, x.pc ≠ .create ∧ (∀ j, x.pc ≠ .store j) := by
        intro pc p1 p2 x hx
        rcases mem_set_th (t := t) hx with rfl | hx
        · exact ⟨p1, p2⟩
        · exact d.ths x hx
      have hb : ∀ pc : Pc, ((s.ths.set k { t with pc := pc }).filter fun t => decide (t.msg = .heartbeat)).length = n :=
        fun pc => (beats_set _ _ _ hk pc).trans d.beats
      cases hp : t.pc with
      | load => simp only [advance, d.field]; exact ⟨d.timers, rfl, hset _ (by simp) (by simp), hb _⟩
      | refresh j =>
        simp only [advance, d.timers]
        refine ⟨?_, d.field, hset _ (by simp) (by simp), hb _⟩
        cases j <;> simp [refreshed]
      | create => exact absurd hp c1
      | store j => exact absurd hp (c2 j)
      | send =>
        simp only [advance]
        refine ⟨d.timers, d.field, hset _ ?_ ?_, hb _⟩ <;> split <;> simp
      | clear =>
        simp only [advance, d.field, d.timers]
        exact ⟨rfl, rfl, hset _ (by simp) (by simp), hb _⟩
      | done => simp only [advance]; exact ⟨d.timers, d.field, hset _ (by simp) (by simp), hb _⟩

theorem stopped (h b : List Ev) (ha : FirstAlone false h) {k : Nat} (hc : Closing (run false h) k) :
    (run false (h ++ .adv k :: b)).timers = [.stopped] ∧ (Spec.beats (run false (h ++ .adv k :: b))).length = (Spec.beats (run false h)).length := by
  obtain ⟨c1, c2, c3, c4⟩ := cleared h ha hc
  have i := inv_run h ha
  have hk : k < (run false h).ths.length := (List.getElem?_eq_some_iff.mp hc).1
  have d0 : Dead (run false (h ++ [.adv k])) (Spec.beats (run false h)).length := by
    refine ⟨c1, c2, ?_, ?_⟩
    · intro x hx
      rw [c4] at hx
      rcases mem_set_th (t := ⟨.goodbye, .clear⟩) hx with rfl | hx
      · simp
      · cases hf : (run false h).field with
        | none =>
          rcases i.before hf _ (List.mem_of_getElem? hc) with ⟨h, _⟩ | ⟨h, _⟩ | ⟨h, _⟩ <;> cases h
        | some t => exact ⟨((i.after t hf).2.2 x hx).1, ((i.after t hf).2.2 x hx).2.1⟩
    · unfold Spec.beats
      rw [c4]
      exact beats_set _ _ _ hc _
  have : ∀ b, Dead (run false ((h ++ [.adv k]) ++ b)) (Spec.beats (run false h)).length := by
    intro b
    induction b using snocRec with
    | nil => simpa using d0
    | append_singleton b e ih => rw [← List.append_assoc, run_snoc]; exact dead_step ih e
  have d := this b
  rw [show (h ++ [Ev.adv k]) ++ b = h ++ .adv k :: b by simp] at d
  exact ⟨d.timers, d.beats⟩

/-- The call that has returned was about to stop the timer before. -/
theorem returned (h : List Ev) (k : Nat) (hk : (run revive h).ths[k]? = some ⟨.goodbye, .done⟩) :
    ∃ a b, h = a ++ .adv k :: b ∧ Closing (run revive a) k := by
  induction h using snocRec with
  | nil => simp [run] at hk
  | append_singleton h e ih =>
    by_cases h0 : (run revive h).ths[k]? = some ⟨.goodbye, .done⟩
    · obtain ⟨a, b, rfl, hc⟩ := ih h0
      exact ⟨a, b ++ [e], by simp, hc⟩
    · have hspawn : ∀ m : Msg, ((run revive h).ths ++ [⟨m, .load⟩])[k]? ≠ some ⟨.goodbye, .done⟩ := by
        intro m hm
        rw [List.getElem?_append] at hm
        split at hm
        · exact h0 hm
        · rw [List.getElem?_singleton] at hm
          split at hm <;> simp at hm
      rw [run_snoc] at hk
      cases e with
      | publish => exact absurd hk (hspawn _)
      | close => exact absurd hk (hspawn _)
      | fire t =>
        simp only [step] at hk
        split at hk
        · exact absurd hk (hspawn _)
        · exact absurd hk h0
      | adv j =>
        simp only [step] at hk
        cases hj : (run revive h).ths[j]? with
        | none => rw [hj] at hk; exact absurd hk h0
        | some t =>
          rw [hj] at hk
          dsimp only at hk
          rw [List.getElem?_set] at hk
          split at hk
          · rename_i e
            subst e
            split at hk
            · obtain ⟨m, pc⟩ := t
              simp only [Option.some.injEq, Th.mk.injEq] at hk
              obtain ⟨rfl, hk⟩ := hk
              refine ⟨h, [], rfl, ?_⟩
              unfold Closing
              rw [hj]
              cases pc with
              | clear => rfl
              | done => exact absurd hj h0
              | load => simp only [advance] at hk; split at hk <;> cases hk
              | refresh => simp [advance] at hk
              | create => simp [advance] at hk
              | store => simp [advance] at hk
              | send => simp [advance] at hk
            · cases hk
          · exact absurd hk h0

end Verif.BeatRace
