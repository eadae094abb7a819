import Verif.Proof.AskRace

/-!
# C94: a request to the cluster ends
-/

namespace Verif.Props
open Verif Verif.Spec

/-- **C94, the call comes (partial).** Whatever answers, arrivals, departures and the timer do at the same time: when nothing is under way any
more and the timer has gone off or was stopped, the callback has been called.
Missing: a timer that goes off before the request is in the table (`C94_early_fails`). -/
theorem C94_called_partial (kind : Heartbeat.Kind) (here : List Val) (h : List AskRace.Ev) (hf : FiresLate kind here h)
    (hr : AtRest (AskRace.run kind here h)) (ht : (AskRace.run kind here h).timer ≠ .armed) : (AskRace.run kind here h).calls ≠ [] :=
  AskRace.called_late h hf hr ht

/-- **C94, without waiting for the timer (partial).** Once every server asked has answered, or was found to be gone after the request was in
the table, and nothing is under way any more, the callback has been called.
Missing: servers that leave while the request is being made (`C94_left_fails`, `C94_empty_fails`). -/
theorem C94_prompt_partial (kind : Heartbeat.Kind) (here : List Val) (h : List AskRace.Ev) (A : List String)
    (hA : (AskRace.run kind here h).asked = some A) (hne : A ≠ []) (hr : AtRest (AskRace.run kind here h))
    (hall : ∀ u ∈ A, Answers kind here h u ∨ LeavesLater kind here h u) : (AskRace.run kind here h).calls ≠ [] :=
  AskRace.called_prompt h A hA hne hr hall

/-- **C94, the values.** Whenever the callback is called without an error it is given the values of this server, then only values from
answers, and of every server asked that is not found to be gone a whole answer. -/
theorem C94_values (kind : Heartbeat.Kind) (here : List Val) (h : List AskRace.Ev) (c : List Val)
    (hc : .ok c ∈ (AskRace.run kind here h).calls) :
    here <+: c ∧ (∀ x ∈ c, x ∈ here ∨ ∃ u l, .respond u l ∈ h ∧ x ∈ l) ∧
    ∀ A, (AskRace.run kind here h).asked = some A → ∀ u ∈ A, (∃ l, .respond u l ∈ h ∧ l <:+: c) ∨ .leave u ∈ h :=
  (AskRace.vals_run h).calls c hc

/-- **C94, errors.** The callback is called with an error only if the timer went off before it was called without. -/
theorem C94_error (kind : Heartbeat.Kind) (here : List Val) (h : List AskRace.Ev) (l : List Val)
    (he : .err l ∈ (AskRace.run kind here h).calls) : ∃ a b, h = a ++ .fire :: b ∧ ∀ c, .ok c ∉ (AskRace.run kind here a).calls :=
  AskRace.error_at h l he

/-- **C94, at most once (partial).** If no two of the answers, the departures and the timer work on the request at the same time, the callback
is called once at most.
Missing: two that do (`C94_both_fails`, `C94_twins_fail`). -/
theorem C94_once_partial (kind : Heartbeat.Kind) (here : List Val) (h : List AskRace.Ev) (hx : NoOverlap kind here h) :
    (AskRace.run kind here h).calls.length ≤ 1 := AskRace.at_most_once h hx

/-- Three servers are known; `a` answers, `b` is found to be gone while this answer is handled, `c` answers last. -/
def Demo.askRun : List AskRace.Ev :=
  [.arrive "a", .arrive "b", .arrive "c", .ask, .ask, .ask, .ask, .ask, .respond "a" [.num 1], .adv 0, .adv 0, .leave "b", .adv 1, .adv 1,
   .adv 1, .adv 0, .adv 0, .adv 1, .respond "c" [.num 3], .adv 2, .adv 2, .adv 2, .adv 2, .adv 2, .adv 2, .adv 2]

example : AtRest (AskRace.run .fetch [.num 0] Demo.askRun) ∧ (AskRace.run .fetch [.num 0] Demo.askRun).timer = .cleared ∧
    (AskRace.run .fetch [.num 0] Demo.askRun).asked = some ["c", "b", "a"] ∧
    (AskRace.run .fetch [.num 0] Demo.askRun).calls = [.ok [.num 0, .num 1, .num 3]] :=
  ⟨⟨by decide, by decide, by decide⟩, by decide, by decide, by decide⟩

example : ∀ u ∈ ["c", "b", "a"], Answers .fetch [.num 0] Demo.askRun u ∨ LeavesLater .fetch [.num 0] Demo.askRun u := by
  intro u hu
  simp only [List.mem_cons, List.not_mem_nil, or_false] at hu
  rcases hu with rfl | rfl | rfl
  · exact .inl ⟨Demo.askRun.take 18, [.num 3], Demo.askRun.drop 19, by decide, by decide⟩
  · exact .inr ⟨Demo.askRun.take 11, Demo.askRun.drop 12, by decide, .inr ⟨by decide, by decide⟩⟩
  · exact .inl ⟨Demo.askRun.take 8, [.num 1], Demo.askRun.drop 9, by decide, by decide⟩

/-- The timer goes off after `a` has answered and before `b` does. -/
def Demo.askLate : List AskRace.Ev :=
  [.arrive "a", .arrive "b", .ask, .ask, .ask, .ask, .ask, .respond "a" [.num 1], .adv 0, .adv 0, .adv 0, .adv 0, .fire, .tick, .tick, .tick]

example : AtRest (AskRace.run .sse [] Demo.askLate) ∧ (AskRace.run .sse [] Demo.askLate).calls = [.err [.num 1]] ∧
    FiresLate .sse [] Demo.askLate := by
  refine ⟨⟨by decide, by decide, by decide⟩, by decide, ?_⟩
  intro a b hab _
  have hlen : a.length = 12 := by
    have h1 : Demo.askLate[a.length]? = some .fire := by rw [hab]; simp
    have h2 : a.length < 16 := by
      have := congrArg List.length hab
      simp [Demo.askLate] at this
      omega
    exact (by decide : ∀ n < 16, Demo.askLate[n]? = some .fire → n = 12) _ h2 h1
  have : a = Demo.askLate.take 12 := by rw [hab, ← hlen]; simp
  rw [this]
  exact .inr ⟨by decide, by decide⟩

/-- A server that leaves while the request is being made is waited for: it was found to be gone, the other has answered, nothing is under way,
and the callback is not called before the timer goes off; then with an error, for `FetchSockets` without the answer there is. -/
theorem C94_left_fails : ∃ h : List AskRace.Ev, AtRest (AskRace.run .fetch [] h) ∧ (AskRace.run .fetch [] h).asked = some ["b", "a"] ∧
    .leave "a" ∈ h ∧ Answers .fetch [] h "b" ∧ (AskRace.run .fetch [] h).nodes = ["b"] ∧ (AskRace.run .fetch [] h).calls = [] ∧
    (AskRace.run .fetch [] (h ++ [.fire, .tick, .tick, .tick])).calls = [.err []] := by
  refine ⟨[.arrive "a", .arrive "b", .ask, .ask, .leave "a", .adv 0, .ask, .ask, .ask, .adv 0, .respond "b" [.num 1], .adv 1, .adv 1, .adv 1,
    .adv 1], ⟨by decide, by decide, by decide⟩, by decide, by decide, ?_, by decide, by decide, by decide⟩
  exact ⟨[.arrive "a", .arrive "b", .ask, .ask, .leave "a", .adv 0, .ask, .ask, .ask, .adv 0], [.num 1], [.adv 1, .adv 1, .adv 1, .adv 1], by decide,
    by decide⟩

/-- If all leave between the two looks at the table of servers, nobody is asked, and the callback waits for the timer. -/
theorem C94_empty_fails : ∃ h : List AskRace.Ev, AtRest (AskRace.run .fetch [] h) ∧ (AskRace.run .fetch [] h).asked = some [] ∧
    (AskRace.run .fetch [] h).calls = [] :=
  ⟨[.arrive "a", .ask, .ask, .leave "a", .adv 0, .adv 0, .ask, .ask, .ask], ⟨by decide, by decide, by decide⟩, by decide, by decide⟩

/-- If the timer goes off before the request is in the table and a server asked does not answer, the callback is never called: nothing is under
way, and the timer is gone. -/
theorem C94_early_fails : ∃ h : List AskRace.Ev, AtRest (AskRace.run .fetch [] h) ∧ (AskRace.run .fetch [] h).timer = .fired ∧
    (AskRace.run .fetch [] h).asked = some ["a"] ∧ (AskRace.run .fetch [] h).calls = [] :=
  ⟨[.arrive "a", .ask, .ask, .fire, .tick, .ask, .ask, .ask], ⟨by decide, by decide, by decide⟩, by decide, by decide, by decide⟩

/-- An answer that comes when the timer goes off: the callback is called twice, with the values and with an error. -/
theorem C94_both_fails : ∃ h : List AskRace.Ev, (AskRace.run .fetch [] h).calls = [.ok [.num 1], .err []] :=
  ⟨[.arrive "a", .ask, .ask, .ask, .ask, .ask, .respond "a" [.num 1], .adv 0, .adv 0, .adv 0, .adv 0, .fire, .tick, .adv 0, .adv 0, .tick], by decide⟩

/-- The answers of the last two servers at the same time: the callback is called twice. -/
theorem C94_twins_fail : ∃ h : List AskRace.Ev, .fire ∉ h ∧ (AskRace.run .fetch [] h).calls = [.ok [.num 1, .num 2], .ok [.num 1, .num 2]] :=
  ⟨[.arrive "a", .arrive "b", .ask, .ask, .ask, .ask, .ask, .respond "a" [.num 1], .respond "b" [.num 2], .adv 0, .adv 0, .adv 0, .adv 1, .adv 1,
    .adv 1, .adv 0, .adv 0, .adv 0, .adv 1, .adv 1, .adv 1], by decide, by decide⟩

/-- Two answers one after the other, the timer after them. -/
def Demo.askTurns : List AskRace.Ev :=
  [.arrive "a", .arrive "b", .ask, .ask, .ask, .ask, .ask, .respond "a" [.num 1], .respond "b" [.num 2], .adv 0, .adv 0, .adv 0, .adv 0,
   .adv 1, .adv 1, .adv 1, .adv 1, .adv 1, .adv 1, .adv 1, .leave "a", .adv 2, .adv 2]

/-- `OneInHand`, so that it can be computed. -/
def Demo.oneInHand (s : AskRace.St) : Bool :=
  ((s.ths.filter fun t => decide (t.pc ≠ .load ∧ t.pc ≠ .forget ∧ t.pc ≠ .done)).length ≤ 1) && (s.tmo == .idle)

theorem Demo.oneInHand_sound {s : AskRace.St} (h : Demo.oneInHand s = true) : OneInHand s := by
  simp only [Demo.oneInHand, Bool.and_eq_true, decide_eq_true_eq, beq_iff_eq] at h
  obtain ⟨hl, ht⟩ := h
  refine ⟨?_, fun t _ _ => by simp [ht]⟩
  suffices ∀ (l : List AskRace.Th), (l.filter fun t => decide (t.pc ≠ .load ∧ t.pc ≠ .forget ∧ t.pc ≠ .done)).length ≤ 1 →
      ∀ (i j : Nat) t u, l[i]? = some t → l[j]? = some u → InHand t → InHand u → i = j from this s.ths hl
  intro l
  induction l with
  | nil => intro _ i j t u hi; simp at hi
  | cons x xs ih =>
    intro hl i j t u hi hj hti huj
    have none : InHand x → ∀ y ∈ xs, ¬ InHand y := by
      intro hx y hy hyy
      have hx' : decide (x.pc ≠ .load ∧ x.pc ≠ .forget ∧ x.pc ≠ .done) = true := decide_eq_true hx
      rw [List.filter_cons, if_pos hx'] at hl
      have : y ∈ xs.filter fun t => decide (t.pc ≠ .load ∧ t.pc ≠ .forget ∧ t.pc ≠ .done) := List.mem_filter.mpr ⟨hy, decide_eq_true hyy⟩
      have := List.length_pos_of_mem this
      simp only [List.length_cons] at hl
      omega
    have hl' : (xs.filter fun t => decide (t.pc ≠ .load ∧ t.pc ≠ .forget ∧ t.pc ≠ .done)).length ≤ 1 := by
      rw [List.filter_cons] at hl
      split at hl
      · simp only [List.length_cons] at hl; omega
      · exact hl
    match i, j with
    | 0, 0 => rfl
    | 0, j + 1 =>
      simp at hi hj; subst hi
      exact absurd huj (none hti u (List.mem_of_getElem? hj))
    | i + 1, 0 =>
      simp at hi hj; subst hj
      exact absurd hti (none huj t (List.mem_of_getElem? hi))
    | i + 1, j + 1 =>
      simp at hi hj
      rw [ih hl' i j t u hi hj hti huj]

example : NoOverlap .fetch [] Demo.askTurns ∧ (AskRace.run .fetch [] Demo.askTurns).calls = [.ok [.num 1, .num 2]] := by
  refine ⟨?_, by decide⟩
  intro a b hab
  have hlen : a.length ≤ 23 := by
    have := congrArg List.length hab
    simp [Demo.askTurns] at this
    omega
  have ha : a = Demo.askTurns.take a.length := by rw [hab]; simp
  rw [ha]
  apply Demo.oneInHand_sound
  generalize a.length = n at hlen
  revert n
  decide

end Verif.Props
