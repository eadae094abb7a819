import Verif.Spec.TimerRace
import Verif.Lib.ListExtra
import Verif.Lib.FMap

/-! The connect timeout, goroutine by goroutine. -/

namespace Verif.TimerRace
open Verif Verif.Spec

theorem run_snoc (h : List Ev) (e : Ev) : run (h ++ [e]) = step (run h) e := by simp [run]

/-- The timer goes off once; its function cuts once. -/
structure Inv (s : St) : Prop where
  arm : s.setup = .arm → s.timer = .unset
  set : s.timer = .unset → s.setup = .arm
  idle : s.timer ≠ .fired → s.tmo = .idle
  uncut : s.cut ≠ none → s.tmo = .done
  noted : ∀ k ∈ s.nsps, ∃ pc, s.ths[k]? = some pc ∧ pc ≠ .flag

theorem noted_set {l : List Pc} {k j : Nat} {pc' : Pc} (h' : pc' ≠ .flag) (h : ∃ pc, l[j]? = some pc ∧ pc ≠ .flag) :
    ∃ pc, (l.set k pc')[j]? = some pc ∧ pc ≠ .flag := by
  obtain ⟨pc, h1, h2⟩ := h
  by_cases e : k = j
  · subst e
    exact ⟨pc', by rw [List.getElem?_set_self (List.getElem?_eq_some_iff.mp h1).1], h'⟩
  · exact ⟨pc, by rw [List.getElem?_set_ne e]; exact h1, h2⟩

theorem advance_pc (s : St) (k : Nat) (pc : Pc) : (advance s k pc).2 ≠ .flag := by
  cases pc <;> simp only [advance] <;> (try split) <;> simp

theorem inv_step {s : St} (i : Inv s) (e : Ev) : Inv (step s e) := by
  cases e with
  | setup =>
    simp only [step, setupStep]
    split
    · rename_i h
      have h1 := i.arm h
      refine ⟨by simp, by simp, fun _ => i.idle (by rw [h1]; simp), i.uncut, i.noted⟩
    · rename_i h
      exact ⟨by simp, fun h1 => (by have := i.set h1; rw [h] at this; cases this), i.idle, i.uncut, i.noted⟩
    · exact i
  | come =>
    refine ⟨i.arm, i.set, i.idle, i.uncut, fun k hk => ?_⟩
    obtain ⟨pc, h1, h2⟩ := i.noted k hk
    exact ⟨pc, by simp only [step]; rw [List.getElem?_append_left (List.getElem?_eq_some_iff.mp h1).1]; exact h1, h2⟩
  | adv k =>
    simp only [step]
    split
    · exact i
    · rename_i pc hk
      have hlt := (List.getElem?_eq_some_iff.mp hk).1
      have hn : ∀ j ∈ s.nsps, ∃ p, (s.ths.set k (advance s k pc).2)[j]? = some p ∧ p ≠ .flag :=
        fun j hj => noted_set (advance_pc s k pc) (i.noted j hj)
      cases pc with
      | name =>
        refine ⟨i.arm, i.set, i.idle, i.uncut, fun j hj => ?_⟩
        simp only [advance, LSet.mem_add] at hj
        rcases hj with rfl | hj
        · exact ⟨_, List.getElem?_set_self hlt, advance_pc s j .name⟩
        · exact hn j hj
      | clear =>
        simp only [advance]
        refine ⟨fun h => ?_, fun h => ?_, fun h => ?_, i.uncut, hn⟩
        · show (if s.timer = .armed then Timer.cleared else s.timer) = _
          rw [i.arm h]; rfl
        · refine i.set ?_
          dsimp only at h
          split at h
          · cases h
          · exact h
        · refine i.idle fun hf => ?_
          dsimp only at h
          rw [if_neg (by rw [hf]; simp)] at h; exact h hf
      | _ => exact ⟨i.arm, i.set, i.idle, i.uncut, hn⟩
  | leave k =>
    refine ⟨i.arm, i.set, i.idle, i.uncut, fun j hj => ?_⟩
    simp only [step, LSet.mem_del] at hj
    exact i.noted j hj.2
  | fire =>
    simp only [step]
    split
    · rename_i h
      have hi := i.idle (by rw [h]; simp)
      refine ⟨fun h1 => ?_, by simp, by simp, fun hc => ?_, i.noted⟩
      · have := i.arm h1; rw [h] at this; cases this
      · have := i.uncut hc; rw [hi] at this; cases this
    · exact i
  | tick =>
    simp only [step, tmoStep]
    split
    · exact i
    · rename_i h
      have hf : s.timer = .fired := Classical.byContradiction fun hf => by rw [i.idle hf] at h; cases h
      exact ⟨i.arm, i.set, fun h1 => absurd hf h1, fun hc => (by have := i.uncut hc; rw [h] at this; cases this), i.noted⟩
    · rename_i h
      have hf : s.timer = .fired := Classical.byContradiction fun hf => by rw [i.idle hf] at h; cases h
      exact ⟨i.arm, i.set, fun h1 => absurd hf h1, fun hc => (by have := i.uncut hc; rw [h] at this; cases this), i.noted⟩
    · rename_i h
      have hf : s.timer = .fired := Classical.byContradiction fun hf => by rw [i.idle hf] at h; cases h
      exact ⟨i.arm, i.set, fun h1 => absurd hf h1, fun _ => rfl, i.noted⟩
    · exact i
  | hangup => exact ⟨i.arm, i.set, i.idle, i.uncut, i.noted⟩

theorem inv_run (h : List Ev) : Inv (run h) := by
  induction h using snocRec with
  | nil => exact ⟨fun _ => rfl, fun _ => rfl, fun _ => rfl, fun h => absurd rfl h, fun k hk => (by cases hk)⟩
  | append_singleton h e ih => rw [run_snoc]; exact inv_step ih e

/-! ## Nobody is cut off -/

structure Alone (s : St) : Prop where
  live : s.tmo = .state ∨ s.tmo = .close → s.live = []
  cut : ∀ l, s.cut = some l → l = []

theorem alone_run (h : List Ev) (hn : NoneHalfway h) : Alone (run h) := by
  induction h using snocRec with
  | nil => exact ⟨fun h => (by rcases h with h | h <;> cases h), fun l h => (by cases h)⟩
  | append_singleton h e ih =>
    have ih := ih fun p t e' => hn p (t ++ [e]) (by rw [e', List.append_assoc])
    have here := hn h [e] rfl
    have next := hn (h ++ [e]) [] (by simp)
    have i := inv_run h
    rw [run_snoc] at next ⊢
    generalize run h = s at *
    cases e with
    | setup => simp only [step, setupStep]; split <;> exact ⟨ih.live, ih.cut⟩
    | come => exact ⟨ih.live, ih.cut⟩
    | adv k =>
      simp only [step] at next ⊢
      split at next
      · exact ih
      · rename_i pc hk
        cases pc with
        | flag =>
          refine ⟨fun ht => ?_, ih.cut⟩
          have := next (by simp only [advance]; rcases ht with ht | ht <;> (simp only [advance] at ht; rw [ht]; simp)) k (by simp [advance])
          obtain ⟨pc, h1, h2⟩ := i.noted k this
          rw [hk] at h1; cases h1; exact absurd rfl h2
        | _ => exact ⟨ih.live, ih.cut⟩
    | leave k =>
      refine ⟨fun ht => ?_, ih.cut⟩
      simp only [step] at ht ⊢
      rw [ih.live ht]; rfl
    | fire =>
      simp only [step]
      split
      · exact ⟨fun h => (by rcases h with h | h <;> cases h), ih.cut⟩
      · exact ih
    | tick =>
      simp only [step, tmoStep]
      split
      · exact ih
      · rename_i ht
        refine ⟨fun _ => ?_, ih.cut⟩
        rename_i h1
        dsimp only at h1
        by_cases hs : s.nsps = []
        · have := here (by rw [ht]; simp)
          rw [hs] at this
          show s.live = []
          cases hl : s.live with
          | nil => rfl
          | cons a l => rw [hl] at this; have := this a (by simp); cases this
        · rw [if_neg hs] at h1; rcases h1 with h1 | h1 <;> cases h1
      · rename_i ht
        exact ⟨fun _ => ih.live (.inl ht), ih.cut⟩
      · rename_i ht
        refine ⟨fun h => (by rcases h with h | h <;> cases h), fun l hl => ?_⟩
        have := ih.live (.inr ht)
        simp only [Option.some.injEq] at hl
        rw [← hl, this]
      · exact ih
    | hangup => exact ⟨ih.live, ih.cut⟩

/-- A socket that the client has noted before the test. -/
structure Safe (k : Nat) (s : St) : Prop where
  noted : k ∈ s.nsps
  tmo : s.tmo ≠ .state ∧ s.tmo ≠ .close
  cut : s.cut = none

theorem safe_step {k : Nat} {s : St} (a : Safe k s) (e : Ev) (he : e ≠ .leave k) : Safe k (step s e) := by
  cases e with
  | setup => simp only [step, setupStep]; split <;> exact ⟨a.noted, a.tmo, a.cut⟩
  | come => exact ⟨a.noted, a.tmo, a.cut⟩
  | adv j =>
    simp only [step]
    split
    · exact a
    · rename_i pc _
      cases pc with
      | name => exact ⟨by simp [advance, a.noted], a.tmo, a.cut⟩
      | _ => exact ⟨a.noted, a.tmo, a.cut⟩
  | leave j =>
    exact ⟨by simp only [step, LSet.mem_del]; exact ⟨fun e => he (by rw [e]), a.noted⟩, a.tmo, a.cut⟩
  | fire =>
    simp only [step]; split
    · exact ⟨a.noted, by simp, a.cut⟩
    · exact a
  | tick =>
    simp only [step, tmoStep]
    split
    · exact a
    · rw [if_neg (fun e => (by have := a.noted; rw [e] at this; cases this))]
      exact ⟨a.noted, by simp, a.cut⟩
    · rename_i h; exact absurd h a.tmo.1
    · rename_i h; exact absurd h a.tmo.2
    · exact a
  | hangup => exact ⟨a.noted, a.tmo, a.cut⟩

theorem safe_run {k : Nat} {p : List Ev} (a : Safe k (run p)) (q : List Ev) (hq : .leave k ∉ q) : Safe k (run (p ++ q)) := by
  induction q using snocRec with
  | nil => simpa using a
  | append_singleton q e ih =>
    rw [← List.append_assoc, run_snoc]
    exact safe_step (ih fun h => hq (by simp [h])) e fun h => hq (by simp [h])

/-! ## The timer is stopped -/

structure Stop (s : St) : Prop where
  first : s.setup = .done ∨ s.ths = []
  ptr : s.setup = .done → s.ptr = false → s.timer ≠ .armed
  ths : ∀ pc ∈ s.ths, pc = .forget ∨ pc = .done → s.timer ≠ .armed

theorem stop_run (h : List Ev) (hs : SetUpFirst h) : Stop (run h) := by
  induction h using snocRec with
  | nil => exact ⟨.inr rfl, fun h => (by cases h), fun pc hp => (by cases hp)⟩
  | append_singleton h e ih =>
    have ih := ih fun p t e' => hs p (t ++ [e]) (by rw [e']; simp)
    have now : e = .come → (run h).setup = .done := fun e' => hs h [] (by rw [e'])
    rw [run_snoc]
    generalize run h = s at *
    cases e with
    | setup =>
      simp only [step, setupStep]
      split
      · rename_i h0
        have : s.ths = [] := by rcases ih.first with h1 | h1; (rw [h0] at h1; cases h1); exact h1
        exact ⟨.inr this, fun h => (by cases h), fun pc hp => (by dsimp only at hp; rw [this] at hp; cases hp)⟩
      · rename_i h0
        have : s.ths = [] := by rcases ih.first with h1 | h1; (rw [h0] at h1; cases h1); exact h1
        exact ⟨.inr this, fun _ h => (by cases h), fun pc hp => (by dsimp only at hp; rw [this] at hp; cases hp)⟩
      · exact ih
    | come =>
      refine ⟨.inl (now rfl), ih.ptr, fun pc hp h => ?_⟩
      simp only [step] at hp
      rcases List.mem_append.mp hp with hp | hp
      · exact ih.ths pc hp h
      · cases List.mem_singleton.mp hp; rcases h with h | h <;> cases h
    | adv k =>
      simp only [step]
      split
      · exact ih
      · rename_i pc hk
        have hm := List.mem_of_getElem? hk
        have hd : s.setup = .done := by
          rcases ih.first with h1 | h1
          · exact h1
          · rw [h1] at hm; cases hm
        have hset : ∀ pc' x, x ∈ s.ths.set k pc' → x = pc' ∨ x ∈ s.ths := fun pc' x hx => (List.mem_or_eq_of_mem_set hx).symm
        cases pc with
        | load =>
          refine ⟨.inl hd, ih.ptr, fun x hx h => ?_⟩
          rcases hset _ x hx with rfl | hx
          · by_cases hp : s.ptr = true
            · simp [advance, hp] at h
            · exact ih.ptr hd (by simpa using hp)
          · exact ih.ths x hx h
        | clear =>
          have hne : (if s.timer = .armed then Timer.cleared else s.timer) ≠ .armed := by
            split
            · simp
            · assumption
          exact ⟨.inl hd, fun _ _ => hne, fun x hx h => hne⟩
        | forget =>
          have := ih.ths .forget hm (.inl rfl)
          exact ⟨.inl hd, fun _ _ => this, fun x hx h => this⟩
        | done =>
          have := ih.ths .done hm (.inr rfl)
          exact ⟨.inl hd, ih.ptr, fun x hx h => this⟩
        | _ =>
          refine ⟨.inl hd, ih.ptr, fun x hx h => ?_⟩
          rcases hset _ x hx with rfl | hx
          · simp [advance] at h
          · exact ih.ths x hx h
    | leave k => exact ⟨ih.first, ih.ptr, ih.ths⟩
    | fire =>
      simp only [step]; split
      · exact ⟨ih.first, fun _ _ => (by simp), fun _ _ _ => (by simp)⟩
      · exact ih
    | tick =>
      simp only [step, tmoStep]; split <;> exact ⟨ih.first, ih.ptr, ih.ths⟩
    | hangup => exact ⟨ih.first, ih.ptr, ih.ths⟩

/-- The timer was stopped before it went off. -/
structure Off (s : St) : Prop where
  timer : s.timer = .cleared
  setup : s.setup ≠ .arm
  tmo : s.tmo = .idle
  cut : s.cut = none

theorem off_step {s : St} (a : Off s) (e : Ev) : Off (step s e) := by
  obtain ⟨a1, a2, a3, a4⟩ := a
  cases e with
  | setup =>
    simp only [step, setupStep]; split
    · contradiction
    · exact ⟨a1, by simp, a3, a4⟩
    · exact ⟨a1, a2, a3, a4⟩
  | come => exact ⟨a1, a2, a3, a4⟩
  | adv j =>
    simp only [step]; split
    · exact ⟨a1, a2, a3, a4⟩
    · rename_i pc _
      cases pc with
      | clear => exact ⟨by simp [advance, a1], a2, a3, a4⟩
      | _ => exact ⟨a1, a2, a3, a4⟩
  | leave j => exact ⟨a1, a2, a3, a4⟩
  | fire => simp only [step, a1]; exact ⟨a1, a2, a3, a4⟩
  | tick => simp only [step, tmoStep, a3]; exact ⟨a1, a2, a3, a4⟩
  | hangup => exact ⟨a1, a2, a3, a4⟩

theorem off_run {p : List Ev} (a : Off (run p)) (q : List Ev) : Off (run (p ++ q)) := by
  induction q using snocRec with
  | nil => simpa using a
  | append_singleton q e ih => rw [← List.append_assoc, run_snoc]; exact off_step ih e

/-! ## The timer does its work -/

theorem shut_step (s : St) (e : Ev) (h : s.isOpen = false) : (step s e).isOpen = false := by
  cases e with
  | setup => simp only [step, setupStep]; split <;> exact h
  | come => exact h
  | adv k =>
    simp only [step]; split
    · exact h
    · rename_i pc _; cases pc <;> exact h
  | leave k => exact h
  | fire => simp only [step]; split <;> exact h
  | tick => simp only [step, tmoStep]; split <;> first | exact h | rfl
  | hangup => rfl

theorem tmo_step (s : St) (e : Ev) (h : e ≠ .tick) (hf : s.timer ≠ .armed) : (step s e).tmo = s.tmo := by
  cases e with
  | setup => simp only [step, setupStep]; split <;> rfl
  | come => rfl
  | adv k =>
    simp only [step]; split
    · rfl
    · rename_i pc _; cases pc <;> rfl
  | leave k => rfl
  | fire => simp only [step, hf, if_false]
  | tick => exact absurd rfl h
  | hangup => rfl

theorem over_run (h : List Ev) (hd : (run h).tmo = .done) :
    (run h).isOpen = false ∨ ∃ p t, h = p ++ .tick :: t ∧ (run p).tmo = .test ∧ (run p).nsps ≠ [] := by
  induction h using snocRec with
  | nil => cases hd
  | append_singleton h e ih =>
    rw [run_snoc] at hd ⊢
    by_cases hb : (run h).tmo = .done
    · rcases ih hb with h1 | ⟨p, t, h1, h2, h3⟩
      · exact .inl (shut_step _ _ h1)
      · exact .inr ⟨p, t ++ [e], by rw [h1]; simp, h2, h3⟩
    · have het : e = .tick := by
        refine Classical.byContradiction fun he => ?_
        by_cases ha : (run h).timer = .armed
        · have hi := (inv_run h).idle (by rw [ha]; simp)
          have : (step (run h) e).tmo = .idle ∨ (step (run h) e).tmo = .test := by
            cases e with
            | fire => simp [step, ha]
            | setup => simp only [step, setupStep]; split <;> exact .inl hi
            | come => exact .inl hi
            | adv k =>
              simp only [step]; split
              · exact .inl hi
              · rename_i pc _; cases pc <;> exact .inl hi
            | leave k => exact .inl hi
            | tick => exact absurd rfl he
            | hangup => exact .inl hi
          rcases this with h1 | h1 <;> rw [hd] at h1 <;> cases h1
        · rw [tmo_step _ _ he ha] at hd; exact hb hd
      subst het
      have hd' := hd
      simp only [step, tmoStep] at hd' ⊢
      split at hd'
      · contradiction
      · rename_i ht
        refine .inr ⟨h, [], rfl, ht, fun hn => ?_⟩
        simp [hn] at hd'
      · rename_i ht
        by_cases ho : (run h).isOpen = true
        · simp [ho] at hd'
        · exact .inl (by simpa using ho)
      · rename_i ht
        exact .inl rfl
      · contradiction

end Verif.TimerRace
