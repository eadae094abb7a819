import Verif.Spec.Collector
import Verif.Lib.ListExtra

/-! # Lemmas on the collector of broadcast acknowledgements -/

namespace Verif.Collector
open Verif Verif.Spec

theorem answersOf_append (a b : List Ev) : answersOf (a ++ b) = answersOf a ++ answersOf b := by
  induction a with
  | nil => rfl
  | cons e a ih => cases e <;> simp [answersOf, ih]

theorem notified_append (a b : List Ev) : notified (a ++ b) = notified a + notified b := by
  induction a with
  | nil => simp [notified]
  | cons e a ih => cases e <;> simp [notified, ih]; omega

theorem reports_append (a b : List Ev) : reports (a ++ b) = reports a + reports b := by simp [reports]
theorem answered_append (a b : List Ev) : answered (a ++ b) = answered a + answered b := by simp [answered]
theorem serverReads_append (a b : List Ev) : serverReads (a ++ b) = serverReads a + serverReads b := by
  simp [serverReads]

theorem answersOf_length (h : List Ev) (one : ∀ args, .answer args ∈ h → args.length = 1) :
    (answersOf h).length = answered h := by
  induction h with
  | nil => rfl
  | cons e h ih =>
    have ih := ih (fun a ha => one a (by simp [ha]))
    cases e with
    | answer a =>
      have := one a (by simp)
      simp only [answersOf, List.length_append, ih, this, answered, List.countP_cons]
      simp; omega
    | _ => simpa [answersOf, answered] using ih

theorem notified_zero (h : List Ev) (h0 : reports h = 0) : notified h = 0 := by
  induction h with
  | nil => rfl
  | cons e h ih =>
    cases e with
    | count n => simp [reports] at h0
    | _ => simp only [notified]; exact ih (by simpa [reports] using h0)

theorem no_arrival (h : List Ev) (h1 : reports h = 0) (h2 : answered h = 0) (h3 : serverReads h = 0) :
    h.any isArrival = false := by
  induction h with
  | nil => rfl
  | cons e h ih =>
    cases e with
    | count n => simp [reports] at h1
    | answer a => simp [answered] at h2
    | servers k => simp [serverReads] at h3
    | fire =>
      have := ih (by simpa [reports] using h1) (by simpa [answered] using h2) (by simpa [serverReads] using h3)
      simpa [isArrival] using this

theorem no_arrival_counts (h : List Ev) (hn : h.any isArrival = false) :
    reports h = 0 ∧ answered h = 0 ∧ serverReads h = 0 ∧ answersOf h = [] := by
  induction h with
  | nil => simp [reports, answered, serverReads, answersOf]
  | cons e h ih =>
    cases e with
    | fire => simpa [reports, answered, serverReads, answersOf] using ih (by simpa [isArrival] using hn)
    | _ => simp [isArrival] at hn

/-- The completeness test succeeds exactly when nothing is missing. -/
theorem complete_iff {k : Nat} {pre post : List Ev} (hf : Full k (pre ++ post)) :
    (1 ≤ serverReads pre ∧ k = reports pre ∧ (answersOf pre).length = notified pre) ↔
      post.any isArrival = false := by
  have one : ∀ args, Ev.answer args ∈ pre → args.length = 1 := fun a ha => hf.one a (by simp [ha])
  have h1 := hf.servers; rw [reports_append] at h1
  have h2 := hf.read; rw [serverReads_append] at h2
  have h3 := hf.clients; rw [answered_append, notified_append] at h3
  rw [answersOf_length pre one]
  constructor
  · rintro ⟨a, b, c⟩
    have hr : reports post = 0 := by omega
    have hn := notified_zero post hr
    exact no_arrival post hr (by omega) (by omega)
  · intro h
    obtain ⟨a, b, c, _⟩ := no_arrival_counts post h
    have hn := notified_zero post a
    omega

/-- State after the arrivals `pre` without timer expiry, when `more` says whether something is missing. -/
structure At (k : Nat) (pre : List Ev) (more : Bool) (s : St) : Prop where
  responses : s.responses = answersOf pre
  actual : s.actualServers = reports pre
  clients : s.expectedClients = notified pre
  expected : s.expectedServers = if serverReads pre = 0 then -1 else (k : Int)
  timedOut : s.timedOut = false
  panicked : s.panicked = false
  timer : s.timer = more
  calls : s.calls = if more then [] else [.ok (answersOf pre)]

theorem at_run {k : Nat} (pre : List Ev) : ∀ post, Full k (pre ++ post) → (∀ e ∈ pre, isArrival e = true) →
    At k pre (post.any isArrival) (run false pre) := by
  induction pre using snocRec with
  | nil =>
    intro post hf _
    have : post.any isArrival = true := by
      by_cases h : post.any isArrival = true
      · exact h
      · have := (complete_iff (pre := []) hf).2 (by simpa using h)
        simp [serverReads] at this
    rw [this]
    constructor <;> simp [run, answersOf, reports, notified, serverReads]
  | append_singleton pre e ih =>
    intro post hf hna
    have hf' : Full k (pre ++ (e :: post)) := by simpa using hf
    have he : isArrival e = true := hna e (by simp)
    have h := ih (e :: post) hf' (fun e' he' => hna e' (by simp [he']))
    have hm : (e :: post).any isArrival = true := by simp [he]
    rw [hm] at h
    have hc := complete_iff hf
    have key : ∀ s : St, s.responses = answersOf (pre ++ [e]) → s.actualServers = reports (pre ++ [e]) →
        s.expectedClients = notified (pre ++ [e]) →
        s.expectedServers = (if serverReads (pre ++ [e]) = 0 then -1 else (k : Int)) →
        s.timedOut = false → s.panicked = false → s.timer = true → s.calls = [] →
        At k (pre ++ [e]) (post.any isArrival) (check false s) := by
      intro s a1 a2 a3 a4 a5 a6 a7 a8
      have cond : (s.timedOut = false ∧ s.expectedServers = s.actualServers ∧
          s.responses.length = s.expectedClients) ↔ post.any isArrival = false := by
        rw [← hc, a1, a2, a3, a4]
        constructor
        · rintro ⟨_, b, c⟩
          split at b
          · omega
          · exact ⟨by omega, by omega, c⟩
        · rintro ⟨b, c, d⟩
          refine ⟨a5, ?_, d⟩
          rw [if_neg (by omega)]; omega
      by_cases hp : post.any isArrival = false
      · have hcheck : check false s = finish false s := by
          simp only [check]; rw [if_pos (cond.2 hp)]
        rw [hcheck, hp]
        constructor <;> simp [finish, *]
      · have hcheck : check false s = s := by
          simp only [check]; rw [if_neg (fun h => hp (cond.1 h))]
        have hp' : post.any isArrival = true := by simpa using hp
        rw [hcheck, hp']
        constructor <;> simp [*]
    have hrun : run false (pre ++ [e]) = step false (run false pre) e := by simp [run, List.foldl_append]
    rw [hrun]
    simp only [step, h.panicked, Bool.false_eq_true, if_false]
    cases e with
    | fire => simp [isArrival] at he
    | count n =>
      refine key _ ?_ ?_ ?_ ?_ h.timedOut rfl h.timer h.calls
      · simp [h.responses, answersOf_append, answersOf]
      · simp [h.actual, reports]
      · simp [h.clients, notified_append, notified]
      · simp [h.expected, serverReads]
    | answer args =>
      refine key _ ?_ ?_ ?_ ?_ h.timedOut rfl h.timer h.calls
      · simp [h.responses, answersOf_append, answersOf]
      · simp [h.actual, reports]
      · simp [h.clients, notified_append, notified]
      · simp [h.expected, serverReads]
    | servers k' =>
      have hk : k' = k := hf.readVal k' (by simp)
      refine key _ ?_ ?_ ?_ ?_ h.timedOut rfl h.timer h.calls
      · simp [h.responses, answersOf_append, answersOf]
      · simp [h.actual, reports]
      · simp [h.clients, notified_append, notified]
      · simp [serverReads, hk]

/-- After the timeout nothing is called any more. -/
theorem timedOut_fold (post : List Ev) (s : St) (h1 : s.timedOut = true) (h2 : s.timer = false) :
    (post.foldl (step false) s).calls = s.calls := by
  induction post generalizing s with
  | nil => rfl
  | cons e post ih =>
    rw [List.foldl_cons]
    by_cases hp : s.panicked = true
    · simp only [step, hp, if_true]; exact ih s h1 h2
    · cases e <;> simp only [step, hp, check, fire, h1, h2, Bool.false_eq_true, if_false, Bool.true_eq_false,
        false_and]
      all_goals exact (ih _ (by first | exact h1 | rfl) (by first | exact h2 | rfl)).trans rfl

theorem timers_fold (post : List Ev) (s : St) (h : post.any isArrival = false) (h2 : s.timer = false) :
    post.foldl (step false) s = s := by
  induction post generalizing s with
  | nil => rfl
  | cons e post ih =>
    cases e with
    | fire =>
      rw [List.foldl_cons]
      have : step false s .fire = s := by
        simp only [step, fire, h2]; split <;> rfl
      rw [this]; exact ih s (by simpa [isArrival] using h) h2
    | _ => simp [isArrival] at h

end Verif.Collector
