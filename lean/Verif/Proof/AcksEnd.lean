import Verif.Proof.AckTable
import Verif.Proof.Returns

/-! # The goroutines of acknowledgements come to their end -/

namespace Verif.Acks
open Verif Verif.Spec

/-- How far a goroutine can have come. -/
def PcOk : Thread → Prop
  | .emitter _ _ _ pc => pc ≤ 2
  | .handler _ _ pc o => pc ≤ 4 ∧ (o = none → pc = 0 ∨ pc = 4)
  | .timer _ _ pc => pc ≤ 2

theorem pcOk_adv (s : CSt) (t : Thread) (h : PcOk t) : PcOk (advThread s t).2 := by
  cases t with
  | emitter i c tm pc =>
    rcases pc with _ | _ | pc
    · exact (by decide : (1 : Nat) ≤ 2)
    · exact Nat.le_refl 2
    · exact h
  | handler i a pc o =>
    rcases pc with _ | _ | _ | _ | pc
    · cases hg : s.acks.get? i with
      | none => cases o <;> simp [advThread, hg, PcOk]
      | some e => cases o <;> simp [advThread, hg, PcOk]
    · cases o with
      | none => have := h.2 rfl; omega
      | some e => simp [advThread, PcOk]
    · cases o with
      | none => have := h.2 rfl; omega
      | some e => simp [advThread, PcOk]
    · cases o <;> simp [advThread, PcOk]
    · cases o <;> exact h
  | timer i c pc =>
    rcases pc with _ | _ | pc
    · exact (by decide : (1 : Nat) ≤ 2)
    · exact Nat.le_refl 2
    · exact h

theorem pcOk_run (h : List Ev) : ∀ t ∈ (crun h).threads, PcOk t := by
  induction h using snocRec with
  | nil => intro t ht; simp [crun] at ht
  | append_singleton h e ih =>
    rw [crun_snoc]
    have app : ∀ u, PcOk u → ∀ t ∈ (crun h).threads ++ [u], PcOk t := by
      intro u hu t ht
      rw [List.mem_append, List.mem_singleton] at ht
      rcases ht with ht | rfl
      · exact ih t ht
      · exact hu
    cases e with
    | emit c tm => exact app _ (Nat.zero_le 2)
    | recv i a => exact app _ ⟨Nat.zero_le 4, fun _ => .inl rfl⟩
    | fire i =>
      simp only [cstep]
      cases (crun h).timers.get? i with
      | none => exact ih
      | some c => exact app (.timer i c 0) (Nat.zero_le 2)
    | adv k =>
      simp only [cstep]
      cases hk : (crun h).threads[k]? with
      | none => exact ih
      | some t =>
        intro u hu
        rcases mem_of_mem_set hu with hu | rfl
        · exact ih u hu
        · exact pcOk_adv _ t (ih t (List.mem_of_getElem? hk))

/-- What a goroutine has still to do. -/
def ackLeft : Thread → Nat
  | .emitter _ _ _ pc => 2 - pc
  | .handler _ _ pc o => if o = none ∧ 0 < pc then 0 else 4 - pc
  | .timer _ _ pc => 2 - pc

theorem left_adv (s : CSt) (t : Thread) (h : ackLeft t ≠ 0) : ackLeft (advThread s t).2 < ackLeft t := by
  cases t with
  | emitter i c tm pc =>
    rcases pc with _ | _ | pc
    · exact (by decide : (1 : Nat) < 2)
    · exact (by decide : (0 : Nat) < 1)
    · exact absurd (by simp only [ackLeft]; omega) h
  | handler i a pc o =>
    rcases pc with _ | _ | _ | _ | pc
    · cases hg : s.acks.get? i with
      | none => cases o <;> simp [advThread, hg, ackLeft]
      | some e => cases o <;> simp [advThread, hg, ackLeft]
    · cases o with
      | none => exact absurd (by simp [ackLeft]) h
      | some e => simp [advThread, ackLeft]
    · cases o with
      | none => exact absurd (by simp [ackLeft]) h
      | some e => simp [advThread, ackLeft]
    · cases o with
      | none => exact absurd (by simp [ackLeft]) h
      | some e => simp [advThread, ackLeft]
    · exact absurd (by simp only [ackLeft]; split <;> omega) h
  | timer i c pc =>
    rcases pc with _ | _ | pc
    · exact (by decide : (1 : Nat) < 2)
    · exact (by decide : (0 : Nat) < 1)
    · exact absurd (by simp only [ackLeft]; omega) h

/-- The number of steps that goroutine `k` has still to make. -/
def leftOf (k : Nat) (s : CSt) : Nat := match s.threads[k]? with
  | some t => ackLeft t
  | none => 0

theorem length_step (s : CSt) (e : Ev) : s.threads.length ≤ (cstep s e).threads.length := by
  cases e with
  | emit c tm => simp [cstep]
  | recv i a => simp [cstep]
  | fire i => simp only [cstep]; split <;> simp
  | adv k => simp only [cstep]; split <;> simp

theorem left_other (s : CSt) (e : Ev) (k : Nat) (he : e ≠ .adv k) (h : leftOf k s ≠ 0) : leftOf k (cstep s e) = leftOf k s := by
  have hl : k < s.threads.length := by
    refine Nat.lt_of_not_le fun hn => h ?_
    simp only [leftOf, List.getElem?_eq_none hn]
  have app : ∀ t, (s.threads ++ [t])[k]? = s.threads[k]? := fun t => List.getElem?_append_left hl
  have same : (cstep s e).threads[k]? = s.threads[k]? := by
    cases e with
    | emit c tm => exact app _
    | recv i a => exact app _
    | fire i => simp only [cstep]; split
                · exact app _
                · rfl
    | adv j =>
      simp only [cstep]
      cases hj : s.threads[j]? with
      | none => rfl
      | some t => exact List.getElem?_set_ne (fun e => he (by rw [e]))
  simp only [leftOf, same]

/-- A goroutine that is not forgotten comes to its end. -/
theorem thread_ends (σ : Nat → Ev) (k : Nat) (fair : AgainAndAgain (.adv k) σ) (h : List Ev) (hk : k < (crun h).threads.length) :
    ∃ n t, (crun (h ++ firstOf σ n)).threads[k]? = some t ∧ ThreadDone t := by
  obtain ⟨n, hn⟩ := Returns.ends cstep (fun s => leftOf k s = 0) (.adv k) (leftOf k) (· < ·) Nat.lt_wfRel.wf
    (fun s hd => by
      refine .inr ?_
      cases ht : s.threads[k]? with
      | none => exact absurd (by simp only [leftOf, ht]) hd
      | some t =>
        have hl := (List.getElem?_eq_some_iff.1 ht).1
        have e1 : leftOf k (cstep s (.adv k)) = ackLeft (advThread s t).2 := by
          simp only [leftOf, cstep, ht, List.getElem?_set_self hl]
        have e2 : leftOf k s = ackLeft t := by simp only [leftOf, ht]
        rw [e1, e2]
        exact left_adv s t (by rw [← e2]; exact hd))
    (fun s e he hd => .inr (left_other s e k he hd)) σ fair (crun h)
  have e1 : (firstOf σ n).foldl cstep (crun h) = crun (h ++ firstOf σ n) := by simp [crun]
  rw [e1] at hn
  have hl : k < (crun (h ++ firstOf σ n)).threads.length := by
    rw [← e1]
    generalize crun h = s at hk
    generalize firstOf σ n = l
    induction l generalizing s with
    | nil => exact hk
    | cons e l ih => exact ih _ (Nat.lt_of_lt_of_le hk (length_step s e))
  refine ⟨n, _, List.getElem?_eq_getElem hl, ?_⟩
  have ok := pcOk_run (h ++ firstOf σ n) _ (List.getElem_mem hl)
  simp only [leftOf, List.getElem?_eq_getElem hl] at hn
  generalize (crun (h ++ firstOf σ n)).threads[k] = t at hn ok
  cases t with
  | emitter i c tm pc => simp only [ackLeft, PcOk, ThreadDone] at *; omega
  | handler i a pc o =>
    simp only [ackLeft, PcOk, ThreadDone] at *
    split at hn
    · rename_i h'; have := ok.2 h'.1; omega
    · omega
  | timer i c pc => simp only [ackLeft, PcOk, ThreadDone] at *; omega

theorem firstOf_add {E : Type} (σ : Nat → E) (n m : Nat) : firstOf σ (n + m) = firstOf σ n ++ firstOf (fun i => σ (n + i)) m := by
  induction m with
  | zero => simp [firstOf]
  | succ m ih => rw [← Nat.add_assoc, Returns.firstOf_succ, ih, Returns.firstOf_succ, List.append_assoc]

theorem again_shift {E : Type} {e : E} {σ : Nat → E} (h : AgainAndAgain e σ) (n : Nat) : AgainAndAgain e (fun i => σ (n + i)) := by
  intro m
  obtain ⟨j, h1, h2⟩ := h (n + m)
  exact ⟨j - n, by omega, by show σ (n + (j - n)) = e; rw [show n + (j - n) = j by omega]; exact h2⟩

/-- A timer goroutine calls in the end. -/
theorem timer_calls (cb : Nat) (timed : Bool) (pre post : List Ev) (σ : Nat → Ev) (fair : ∀ k, AgainAndAgain (.adv k) σ)
    (h : ∃ c pc, Thread.timer (emitId pre) c pc ∈ (crun (pre ++ .emit cb timed :: post)).threads) :
    ∃ n, Called cb (crun ((pre ++ .emit cb timed :: post) ++ firstOf σ n)) := by
  obtain ⟨c, pc, h⟩ := h
  obtain ⟨k, hk⟩ := List.getElem?_of_mem h
  obtain ⟨n, t, h1, h2⟩ := thread_ends σ k (fair k) _ (List.getElem?_eq_some_iff.1 hk).1
  have stays : ∀ (l : List Ev) (s : CSt), (∃ pc, s.threads[k]? = some (.timer (emitId pre) c pc)) →
      ∃ pc, (l.foldl cstep s).threads[k]? = some (.timer (emitId pre) c pc) := by
    intro l
    induction l with
    | nil => exact fun s h => h
    | cons e l ih =>
      rintro s ⟨q, hq⟩
      refine ih _ ?_
      have hl := (List.getElem?_eq_some_iff.1 hq).1
      have app : ∀ t, (s.threads ++ [t])[k]? = some (.timer (emitId pre) c q) := fun t => by rw [List.getElem?_append_left hl]; exact hq
      cases e with
      | emit c' tm => exact ⟨q, app _⟩
      | recv i a => exact ⟨q, app _⟩
      | fire i => simp only [cstep]; split
                  · exact ⟨q, app _⟩
                  · exact ⟨q, hq⟩
      | adv j =>
        simp only [cstep]
        by_cases e : j = k
        · subst e
          simp only [hq]
          obtain ⟨q', e1, _⟩ := adv_timer s (emitId pre) c q
          exact ⟨q', by rw [e1]; exact List.getElem?_set_self hl⟩
        · cases hj : s.threads[j]? with
          | none => exact ⟨q, hq⟩
          | some t => exact ⟨q, by rw [← hq]; exact List.getElem?_set_ne e⟩
  obtain ⟨q, hq⟩ := stays (firstOf σ n) _ ⟨pc, hk⟩
  have e1 : (firstOf σ n).foldl cstep (crun (pre ++ .emit cb timed :: post)) = crun ((pre ++ .emit cb timed :: post) ++ firstOf σ n) := by simp [crun]
  rw [e1] at hq
  rw [h1] at hq
  cases hq
  have e2 : (pre ++ .emit cb timed :: post) ++ firstOf σ n = pre ++ .emit cb timed :: (post ++ firstOf σ n) := by simp
  have l := live_run cb timed pre (post ++ firstOf σ n)
  rw [← e2] at l
  have hq2 : q = 2 := h2
  exact ⟨n, (l.threads _ (List.mem_of_getElem? h1) rfl).2 (by omega)⟩

/-- A handler that has the callback calls it in the end. -/
theorem handler_calls (cb : Nat) (timed : Bool) (pre post : List Ev) (σ : Nat → Ev) (fair : ∀ k, AgainAndAgain (.adv k) σ)
    (h : ∃ a pc e, 1 ≤ pc ∧ Thread.handler (emitId pre) a pc (some e) ∈ (crun (pre ++ .emit cb timed :: post)).threads) :
    ∃ n, Called cb (crun ((pre ++ .emit cb timed :: post) ++ firstOf σ n)) := by
  obtain ⟨a, pc, e, hpc, h⟩ := h
  obtain ⟨k, hk⟩ := List.getElem?_of_mem h
  obtain ⟨n, t, h1, h2⟩ := thread_ends σ k (fair k) _ (List.getElem?_eq_some_iff.1 hk).1
  have stays : ∀ (l : List Ev) (s : CSt), (∃ pc, 1 ≤ pc ∧ s.threads[k]? = some (.handler (emitId pre) a pc (some e))) →
      ∃ pc, 1 ≤ pc ∧ (l.foldl cstep s).threads[k]? = some (.handler (emitId pre) a pc (some e)) := by
    intro l
    induction l with
    | nil => exact fun s h => h
    | cons ev l ih =>
      rintro s ⟨q, hq1, hq⟩
      refine ih _ ?_
      have hl := (List.getElem?_eq_some_iff.1 hq).1
      have app : ∀ t, (s.threads ++ [t])[k]? = some (.handler (emitId pre) a q (some e)) := fun t => by rw [List.getElem?_append_left hl]; exact hq
      cases ev with
      | emit c' tm => exact ⟨q, hq1, app _⟩
      | recv i a => exact ⟨q, hq1, app _⟩
      | fire i => simp only [cstep]; split
                  · exact ⟨q, hq1, app _⟩
                  · exact ⟨q, hq1, hq⟩
      | adv j =>
        simp only [cstep]
        by_cases ej : j = k
        · subst ej
          simp only [hq]
          have : ∃ q', 1 ≤ q' ∧ (advThread s (.handler (emitId pre) a q (some e))).2 = .handler (emitId pre) a q' (some e) := by
            rcases q with _ | _ | _ | _ | q
            · omega
            · exact ⟨2, by omega, rfl⟩
            · exact ⟨3, by omega, rfl⟩
            · exact ⟨4, by omega, rfl⟩
            · exact ⟨q + 4, by omega, rfl⟩
          obtain ⟨q', e0, e1⟩ := this
          exact ⟨q', e0, by rw [e1]; exact List.getElem?_set_self hl⟩
        · cases hj : s.threads[j]? with
          | none => exact ⟨q, hq1, hq⟩
          | some t => exact ⟨q, hq1, by rw [← hq]; exact List.getElem?_set_ne ej⟩
  obtain ⟨q, _, hq⟩ := stays (firstOf σ n) _ ⟨pc, hpc, hk⟩
  have e1 : (firstOf σ n).foldl cstep (crun (pre ++ .emit cb timed :: post)) = crun ((pre ++ .emit cb timed :: post) ++ firstOf σ n) := by simp [crun]
  rw [e1] at hq
  rw [h1] at hq
  cases hq
  have e2 : (pre ++ .emit cb timed :: post) ++ firstOf σ n = pre ++ .emit cb timed :: (post ++ firstOf σ n) := by simp
  have l := live_run cb timed pre (post ++ firstOf σ n)
  rw [← e2] at l
  have hq2 : q = 4 := h2
  exact ⟨n, (l.threads _ (List.mem_of_getElem? h1)).2.2 rfl (by omega) (by simp)⟩

theorem spent_calls (cb : Nat) (timed : Bool) (pre post : List Ev) (σ : Nat → Ev) (fair : ∀ k, AgainAndAgain (.adv k) σ)
    (h : Spent (emitId pre) (crun (pre ++ .emit cb timed :: post))) :
    ∃ n, Called cb (crun ((pre ++ .emit cb timed :: post) ++ firstOf σ n)) := by
  rcases h with h | ⟨a, pc, e, h1, h2⟩
  · exact timer_calls cb timed pre post σ fair h
  · exact handler_calls cb timed pre post σ fair ⟨a, pc, e, by omega, h2⟩

/-- The goroutine of an answer that came after the emission had returned. -/
theorem handles_run (cb : Nat) (timed : Bool) (args : List Val) (pre mid post : List Ev)
    (r : EmitReturned (crun (pre ++ .emit cb timed :: mid)) (emitId pre) cb timed) :
    EmitReturned (crun (pre ++ .emit cb timed :: (mid ++ .recv (emitId pre) args :: post))) (emitId pre) cb timed ∧
      Handles cb (emitId pre) (crun (pre ++ .emit cb timed :: mid)).threads.length
        (crun (pre ++ .emit cb timed :: (mid ++ .recv (emitId pre) args :: post))) := by
  induction post using snocRec with
  | nil =>
    have e1 : pre ++ .emit cb timed :: (mid ++ [.recv (emitId pre) args]) = (pre ++ .emit cb timed :: mid) ++ [.recv (emitId pre) args] := by simp
    rw [e1, crun_snoc]
    exact ⟨emitted_step _ r, args, 0, none, by simp [cstep], fun h => by omega⟩
  | append_singleton post e ih =>
    have e1 : pre ++ .emit cb timed :: (mid ++ .recv (emitId pre) args :: (post ++ [e])) =
      (pre ++ .emit cb timed :: (mid ++ .recv (emitId pre) args :: post)) ++ [e] := by simp
    rw [e1, crun_snoc]
    exact ⟨emitted_step _ ih.1, handles_step (live_run cb timed pre _) ih.1 e ih.2⟩

/-- An answer that came after the emission had returned is passed on in the end. -/
theorem answer_calls (cb : Nat) (timed : Bool) (args : List Val) (pre mid post : List Ev) (σ : Nat → Ev) (fair : ∀ k, AgainAndAgain (.adv k) σ)
    (r : EmitReturned (crun (pre ++ .emit cb timed :: mid)) (emitId pre) cb timed) :
    ∃ n, Called cb (crun (pre ++ .emit cb timed :: (mid ++ .recv (emitId pre) args :: (post ++ firstOf σ n)))) := by
  obtain ⟨_, _, _, h0, _⟩ := (handles_run cb timed args pre mid post r).2
  obtain ⟨n, t, h1, h2⟩ := thread_ends σ _ (fair _) _ (List.getElem?_eq_some_iff.1 h0).1
  have e1 : (pre ++ .emit cb timed :: (mid ++ .recv (emitId pre) args :: post)) ++ firstOf σ n =
      pre ++ .emit cb timed :: (mid ++ .recv (emitId pre) args :: (post ++ firstOf σ n)) := by simp
  rw [e1] at h1
  obtain ⟨a, pc, o, g1, g2⟩ := (handles_run cb timed args pre mid (post ++ firstOf σ n) r).2
  rw [h1] at g1
  cases g1
  have hpc : pc = 4 := h2
  have l := live_run cb timed pre (mid ++ .recv (emitId pre) args :: (post ++ firstOf σ n))
  by_cases ho : o = none
  · rcases g2 hpc ho with h | ⟨c, q, _, h⟩
    · exact ⟨n, h⟩
    · obtain ⟨m, hm⟩ := timer_calls cb timed pre (mid ++ .recv (emitId pre) args :: (post ++ firstOf σ n)) (fun i => σ (n + i))
        (fun k => again_shift (fair k) n) ⟨c, q, h⟩
      refine ⟨n + m, ?_⟩
      rw [firstOf_add]
      simpa using hm
  · exact ⟨n, (l.threads _ (List.mem_of_getElem? h1)).2.2 rfl (by omega) ho⟩

/-- The end of the time given after the emission had returned leads to a call in the end. -/
theorem expiry_calls (cb : Nat) (pre mid post : List Ev) (σ : Nat → Ev) (fair : ∀ k, AgainAndAgain (.adv k) σ)
    (r : EmitReturned (crun (pre ++ .emit cb true :: mid)) (emitId pre) cb true) :
    ∃ n, Called cb (crun (pre ++ .emit cb true :: (mid ++ .fire (emitId pre) :: (post ++ firstOf σ n)))) := by
  have key : Spent (emitId pre) (crun (pre ++ .emit cb true :: (mid ++ .fire (emitId pre) :: post))) := by
    induction post using snocRec with
    | nil =>
      have e1 : pre ++ .emit cb true :: (mid ++ [.fire (emitId pre)]) = (pre ++ .emit cb true :: mid) ++ [.fire (emitId pre)] := by simp
      rw [e1, crun_snoc]
      have l := live_run cb true pre mid
      cases hg : (crun (pre ++ .emit cb true :: mid)).timers.get? (emitId pre) with
      | some c => exact .inl ⟨c, 0, by simp [cstep, hg]⟩
      | none =>
        rcases l.timed ⟨cb, 2, by omega, r⟩ with h | h
        · exact absurd hg h
        · exact spent_step _ h
    | append_singleton post e ih =>
      have e1 : pre ++ .emit cb true :: (mid ++ .fire (emitId pre) :: (post ++ [e])) =
        (pre ++ .emit cb true :: (mid ++ .fire (emitId pre) :: post)) ++ [e] := by simp
      rw [e1, crun_snoc]
      exact spent_step e ih
  obtain ⟨n, hn⟩ := spent_calls cb true pre (mid ++ .fire (emitId pre) :: post) σ fair key
  exact ⟨n, by simpa using hn⟩

end Verif.Acks
