import Verif.Spec.PollSeq
import Verif.Proof.PollRace
import Verif.Proof.CollectorConc

/-! # Callbacks that run one at a time do what the callbacks of `Collector.run` do -/

namespace Verif.Collector
open Verif Verif.Spec

/-- What a goroutine makes of the variables when it is not interrupted. -/
def complete (s : St) (reg : Nat) : List Micro → St
  | [] => s
  | m :: rest =>
    if (micro s reg rest m).2.prog = [] then (micro s reg rest m).1 else complete (micro s reg rest m).1 (micro s reg rest m).2.reg rest

theorem micro_prog (s : St) (reg : Nat) (rest : List Micro) (m : Micro) :
    (micro s reg rest m).2.prog = rest ∨ (micro s reg rest m).2.prog = [] := by
  cases m <;> simp only [micro] <;> (try split) <;> simp

theorem complete_adv (s : St) (reg : Nat) (rest : List Micro) (m : Micro) :
    complete (micro s reg rest m).1 (micro s reg rest m).2.reg (micro s reg rest m).2.prog = complete s reg (m :: rest) := by
  rw [complete]
  split
  · rename_i h; rw [h]; rfl
  · rename_i h
    rcases micro_prog s reg rest m with h' | h'
    · rw [h']
    · exact absurd h' h

theorem complete_check (s : St) (reg : Nat) : complete s reg checkProg = check false s := by
  unfold checkProg check
  cases h1 : s.timedOut
  · by_cases h2 : s.expectedServers = s.actualServers
    · by_cases h3 : s.responses.length = s.expectedClients
      · simp [complete, micro, h1, h2, h3, finish]
      · simp [complete, micro, h1, h2, h3, finish]
    · simp [complete, micro, h1, h2, finish]
  · simp [complete, micro, h1]

theorem complete_prog (s : St) (e : Ev) (hp : s.panicked = false) (he : e ≠ .fire) : complete s 0 (prog e) = step false s e := by
  obtain ⟨a, b, c, d, f, g, l, pn⟩ := s
  simp only at hp
  subst hp
  cases e with
  | count n => simp only [step, Bool.false_eq_true, if_false]; rw [← complete_check _ 0]; rfl
  | answer a => simp only [step, Bool.false_eq_true, if_false]; rw [← complete_check _ 0]; rfl
  | servers k => simp only [step, Bool.false_eq_true, if_false]; rw [← complete_check _ 0]; rfl
  | fire => exact absurd rfl he

theorem step_unpanicked (s : St) (e : Ev) (hp : s.panicked = false) : (step false s e).panicked = false := by
  cases e <;> simp only [step, hp, Bool.false_eq_true, if_false, check, finish, fire] <;> split <;> simp [hp]

theorem run_unpanicked (h : List Ev) : (run false h).panicked = false := by
  unfold run
  have : ∀ s : St, s.panicked = false → (h.foldl (step false) s).panicked = false := by
    induction h with
    | nil => intro s hs; exact hs
    | cons e h ih => intro s hs; exact ih _ (step_unpanicked s e hs)
  exact this _ rfl

/-- At most goroutine `k` is under way, and when it has finished the variables are those of the other model. -/
structure InTurn (h : List CEv) (k : Nat) : Prop where
  rest : ∀ j t, j ≠ k → (crun h).threads[j]? = some t → t.prog = []
  mine : ∀ t, (crun h).threads[k]? = some t → complete (crun h).s t.reg t.prog = run false (started h)
  none : (crun h).threads[k]? = none → (crun h).s = run false (started h)

theorem InTurn.done {h : List CEv} {k : Nat} (i : InTurn h k) (hd : ∀ t ∈ (crun h).threads, t.prog = []) :
    (crun h).s = run false (started h) := by
  cases e : (crun h).threads[k]? with
  | none => exact i.none e
  | some t =>
    have := i.mine t e
    rw [hd t (List.mem_of_getElem? e)] at this
    exact this

theorem crun_snoc (h : List CEv) (e : CEv) : crun (h ++ [e]) = cstep (crun h) e := by simp [crun, List.foldl_append]

theorem started_snoc (h : List CEv) (e : CEv) : started (h ++ [e]) = started h ++ match e with | .start e => [e] | .adv _ => [] := by
  induction h with
  | nil => cases e <;> rfl
  | cons a h ih => cases a <;> simp [started, ih]

theorem run_snocE (h : List Ev) (e : Ev) : run false (h ++ [e]) = step false (run false h) e := by simp [run, List.foldl_append]

theorem inTurn (h : List CEv) (ho : OneAtATime h) : ∃ k, InTurn h k := by
  induction h using snocRec with
  | nil => exact ⟨0, by simp [crun], by simp [crun], fun _ => rfl⟩
  | append_singleton h e ih =>
    obtain ⟨k, i⟩ := ih fun h₁ a h₂ eq => ho h₁ a (h₂ ++ [e]) (by simp [eq])
    cases e with
    | start e =>
      have hd := ho h e [] rfl
      have hs := i.done hd
      have hs' : started (h ++ [.start e]) = started h ++ [e] := by rw [started_snoc]
      have hp := run_unpanicked (started h)
      by_cases he : e = .fire
      · subst he
        by_cases ht : (crun h).s.timer = true
        · have h1 : crun (h ++ [.start .fire]) =
              { s := { (crun h).s with timer := false }, threads := (crun h).threads ++ [⟨prog .fire, 0⟩] } := by
            rw [crun_snoc]; simp [cstep, ht]
          refine ⟨(crun h).threads.length, ?_, ?_, ?_⟩
          · intro j t hj ht'
            rw [h1, List.getElem?_append] at ht'
            split at ht'
            · exact hd t (List.mem_of_getElem? ht')
            · have : j - (crun h).threads.length ≠ 0 := by omega
              simp [this] at ht'
          · intro t ht'
            rw [h1] at ht'
            simp at ht'
            subst ht'
            rw [h1, hs', run_snocE, ← hs]
            simp [complete, prog, micro, step, hs ▸ hp, fire, ht]
          · intro hn; rw [h1] at hn; simp at hn
        · have h1 : crun (h ++ [.start .fire]) = crun h := by rw [crun_snoc]; simp [cstep, ht]
          have h2 : run false (started (h ++ [.start .fire])) = run false (started h) := by
            rw [hs', run_snocE, ← hs]; simp [step, fire, ht]
          refine ⟨k, ?_, ?_, ?_⟩
          · rw [h1]; exact i.rest
          · rw [h1, h2]; exact i.mine
          · rw [h1, h2]; exact i.none
      · have h1 : crun (h ++ [.start e]) = { (crun h) with threads := (crun h).threads ++ [⟨prog e, 0⟩] } := by
          rw [crun_snoc]
          cases e <;> first | rfl | exact absurd rfl he
        refine ⟨(crun h).threads.length, ?_, ?_, ?_⟩
        · intro j t hj ht'
          rw [h1, List.getElem?_append] at ht'
          split at ht'
          · exact hd t (List.mem_of_getElem? ht')
          · have : j - (crun h).threads.length ≠ 0 := by omega
            simp [this] at ht'
        · intro t ht'
          rw [h1] at ht'
          simp at ht'
          subst ht'
          rw [h1, hs', run_snocE, ← hs]
          exact complete_prog _ e (hs ▸ hp) he
        · intro hn; rw [h1] at hn; simp at hn
    | adv j =>
      have hs' : started (h ++ [.adv j]) = started h := by rw [started_snoc]; simp
      have same : crun (h ++ [.adv j]) = crun h → InTurn (h ++ [.adv j]) k := by
        intro h1
        refine ⟨?_, ?_, ?_⟩
        · rw [h1]; exact i.rest
        · rw [h1, hs']; exact i.mine
        · rw [h1, hs']; exact i.none
      refine ⟨k, ?_⟩
      cases ej : (crun h).threads[j]? with
      | none => exact same (by rw [crun_snoc]; simp [cstep, ej])
      | some t =>
        obtain ⟨pr, reg⟩ := t
        cases pr with
        | nil => exact same (by rw [crun_snoc]; simp [cstep, ej])
        | cons m rest =>
          by_cases hjk : j = k
          · subst hjk
            have h1 : crun (h ++ [.adv j]) = ⟨(micro (crun h).s reg rest m).1,
                (crun h).threads.set j (micro (crun h).s reg rest m).2⟩ := by
              rw [crun_snoc]; simp only [cstep, ej]
            have hl : j < (crun h).threads.length := by
              rw [List.getElem?_eq_some_iff] at ej; exact ej.1
            refine ⟨?_, ?_, ?_⟩
            · intro l t hl' ht
              rw [h1] at ht
              simp only [List.getElem?_set_ne (Ne.symm hl')] at ht
              exact i.rest l t hl' ht
            · intro t ht
              rw [h1] at ht
              simp only [List.getElem?_set_self hl, Option.some.injEq] at ht
              subst ht
              rw [h1, hs', ← i.mine _ ej]
              exact complete_adv _ _ _ _
            · intro hn; rw [h1] at hn; simp [List.getElem?_set_self hl] at hn
          · exact absurd (i.rest j _ hjk ej) (by simp)

/-- Without the firing of the timer everything has still arrived. -/
theorem full_drop {k : Nat} {a b : List Ev} (h : Full k (a ++ .fire :: b)) : Full k (a ++ b) := by
  obtain ⟨h1, h2, h3, h4, h5⟩ := h
  refine ⟨?_, ?_, fun k' hk => h3 k' ?_, ?_, fun x hx => h5 x ?_⟩
  · simpa [reports] using h1
  · simpa [serverReads] using h2
  · simp only [List.mem_append, List.mem_cons] at hk ⊢; rcases hk with hk | hk <;> simp [hk]
  · rw [notified_append] at h4 ⊢
    simpa [answered, notified] using h4
  · simp only [List.mem_append, List.mem_cons] at hx ⊢; rcases hx with hx | hx <;> simp [hx]

/-- The timer has fired somewhere, and not before. -/
theorem first_fire (h : List Ev) (hf : .fire ∈ h) : ∃ a b, h = a ++ .fire :: b ∧ ∀ e ∈ a, isArrival e = true := by
  induction h with
  | nil => cases hf
  | cons e h ih =>
    by_cases he : e = .fire
    · subst he; exact ⟨[], h, rfl, by simp⟩
    · have hf' : .fire ∈ h := by
        rcases List.mem_cons.1 hf with hf | hf
        · exact absurd hf.symm he
        · exact hf
      obtain ⟨a, b, h1, h2⟩ := ih hf'
      refine ⟨e :: a, b, by rw [h1]; rfl, ?_⟩
      intro x hx
      rcases List.mem_cons.1 hx with rfl | hx
      · cases x <;> first | rfl | exact absurd rfl he
      · exact h2 x hx

end Verif.Collector
