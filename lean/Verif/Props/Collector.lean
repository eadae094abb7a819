import Verif.Spec.Collector
import Verif.Proof.CollectorConc

/-! # C32, C33: acknowledgements of broadcasts -/

namespace Verif.Props
open Verif Verif.Spec Verif.Collector

/-! ## C32 -/

/-- **C32**, clients answering with one value each, events handled one at a time.  For every number of
servers and clients and every order of arrival: as long as something is missing the callback is not called;
at the moment the last piece arrives it is called once, with one response per client in order of arrival;
the timer has no effect afterwards. -/
theorem C32_complete_partial (k : Nat) (pre post : List Collector.Ev) (hf : Full k (pre ++ post))
    (arrivals : ∀ e ∈ pre, isArrival e = true) :
    (Collector.run false pre).calls = (if post.any isArrival then [] else [.ok (answersOf pre)]) ∧
    (post.any isArrival = false → (Collector.run false (pre ++ post)).calls = [.ok (answersOf pre)] ∧
      (answersOf pre).length = notified pre) := by
  have h := at_run pre post hf arrivals
  refine ⟨h.calls, fun hp => ?_⟩
  rw [hp] at h
  have : Collector.run false (pre ++ post) = post.foldl (Collector.step false) (Collector.run false pre) := by
    simp [Collector.run, List.foldl_append]
  rw [this, timers_fold post _ hp h.timer]
  exact ⟨by simpa using h.calls, ((complete_iff hf).2 hp).2.2⟩

/-- **C32**, the timer first: if the timer expires while something is missing, the callback is called once,
with an error and the responses so far, whatever arrives later. -/
theorem C32_timeout_partial (k : Nat) (pre post : List Collector.Ev) (hf : Full k (pre ++ post))
    (arrivals : ∀ e ∈ pre, isArrival e = true) (missing : post.any isArrival = true) :
    (Collector.run false (pre ++ .fire :: post)).calls = [.err (answersOf pre)] := by
  have h := at_run pre post hf arrivals
  rw [missing] at h
  have : Collector.run false (pre ++ .fire :: post) =
      post.foldl (Collector.step false) (Collector.step false (Collector.run false pre) .fire) := by
    simp [Collector.run, List.foldl_append]
  rw [this]
  generalize hr : Collector.run false pre = r at *
  have hs : Collector.step false r .fire =
      { r with timer := false, timedOut := true, calls := r.calls ++ [Call.err r.responses] } := by
    simp only [Collector.step, h.panicked, Collector.fire, h.timer, Bool.false_eq_true, if_false, if_true]
  rw [hs, timedOut_fold post _ rfl rfl]
  simp [h.calls, h.responses]

/-- Two servers with two and one clients; an answer overtakes the report of its server. -/
def arrivals32 : List Collector.Ev :=
  [.count 2, .answer [.str "a"], .answer [.str "c"], .servers 2, .count 1, .answer [.str "b"]]

example : Full 2 arrivals32 :=
  ⟨by decide, by decide, by simp [arrivals32], by decide, by simp [arrivals32]⟩

example : (Collector.run false arrivals32).calls = [.ok [.str "a", .str "c", .str "b"]] ∧
    (Collector.run false (arrivals32.take 4)).calls = [] ∧
    (Collector.run false (arrivals32.take 4 ++ .fire :: arrivals32.drop 4)).calls = [.err [.str "a", .str "c"]] := by
  decide

/-- **C32 fails for other payloads.**  One client that answers with two values completes a broadcast to two
clients; a client that answers without values is never counted, although all have answered, so that only the
timeout ends the wait; and with answers of two and no values the callback is called a second time. -/
theorem C32_payload_false :
    (Collector.run false [.count 2, .servers 1, .answer [.str "a1", .str "a2"]]).calls =
      [.ok [.str "a1", .str "a2"]] ∧
    (Collector.run false [.count 2, .servers 1, .answer [.str "a"], .answer []]).calls = [] ∧
    (Collector.run false [.count 2, .servers 1, .answer [.str "a1", .str "a2"], .answer []]).calls =
      [.ok [.str "a1", .str "a2"], .ok [.str "a1", .str "a2"]] := by decide

/-- **C32 without a timeout** (`flags.Timeout == nil`): the timer is set with duration zero, so it may fire
before any client answers; the callback then gets an error. -/
example : (Collector.run false [.fire, .count 1, .servers 1, .answer [.str "a"]]).calls = [.err []] := by decide

/-- Two answers handled by two goroutines that both push before either tests. -/
def bothPush : List Collector.CEv :=
  [.start (.count 2), .adv 0, .adv 0, .start (.servers 1), .adv 1,
   .start (.answer [.str "a"]), .start (.answer [.str "b"]), .adv 2, .adv 3,
   .adv 2, .adv 2, .adv 2, .adv 2, .adv 3, .adv 3, .adv 3, .adv 3, .adv 2, .adv 2, .adv 3, .adv 3]

/-- **C32 fails under concurrency**: everything has arrived and each client answered with one value, and the
callback is called twice. -/
theorem C32_concurrent_false : Full 1 (started bothPush) ∧
    (crun bothPush).s.calls = [.ok [.str "a", .str "b"], .ok [.str "a", .str "b"]] :=
  ⟨⟨by decide, by decide, by simp [bothPush, started], by decide, by simp [bothPush, started]⟩, by decide⟩

/-- **C32**, every interleaving of the individual operations, one value per answer.  Whenever the callback is
called without an error, it gets exactly all the answers.  And if the timer does not fire, then once all
goroutines have finished it has been called. -/
theorem C32_interleaved_partial (k : Nat) (h : List Collector.CEv) (hf : Full k (started h)) :
    (∀ l, .ok l ∈ (crun h).s.calls → l.Perm (answersOf (started h)) ∧ l.length = notified (started h)) ∧
    (.fire ∉ started h → (∀ t ∈ (crun h).threads, t.prog = []) → (crun h).s.calls ≠ []) := by
  have hf' : Full k (started h ++ []) := by simpa using hf
  have hi := cinv_run h [] hf'
  rw [List.append_nil] at hi
  have hlen : (answersOf (started h)).length = notified (started h) := by
    rw [answersOf_length _ hf.one, hf.clients]
  refine ⟨fun l hl => ⟨(hi.calls l hl).1, ?_⟩, fun hn hq => ?_⟩
  · rw [(hi.calls l hl).1.length_eq, hlen]
  · have hl := live_run h [] hf' hn
    rw [List.append_nil] at hl
    rcases hl.live with hc | hc | ⟨j, t, hj, ht⟩
    · exact hc
    · exfalso
      apply hc
      have z : ∀ f, pend f (crun h).threads = 0 := fun f => pend_zero_of (fun t ht => by simp [hq t ht])
      have hp : pending (crun h).threads = [] := by
        simp only [pending, List.flatMap_eq_nil_iff]
        intro t ht; simp [hq t ht]
      refine ⟨?_, ?_, ?_, ?_⟩
      · have := hi.answers.length_eq
        rw [hp] at this; simp at this; omega
      · have := hi.actual; rw [z, hf.servers] at this; omega
      · rcases hi.read (by rw [hf.read]; exact Nat.le_refl _) with h | h
        · exact h
        · rw [z] at h; omega
      · have := hi.clients; rw [z] at this; omega
    · exfalso
      have := hq t (List.mem_iff_getElem?.2 ⟨j, hj⟩)
      cases ht <;> simp at this

/-- All goroutines of `bothPush` have finished or can be run to the end. -/
example : (∀ t ∈ (crun (bothPush ++ [.adv 0, .adv 0, .adv 0, .adv 0, .adv 0, .adv 0,
      .adv 1, .adv 1, .adv 1, .adv 1, .adv 1, .adv 1])).threads, t.prog = []) ∧
    .fire ∉ started (bothPush ++ [.adv 0, .adv 0, .adv 0, .adv 0, .adv 0, .adv 0,
      .adv 1, .adv 1, .adv 1, .adv 1, .adv 1, .adv 1]) := by decide

/-- **C32**, every interleaving of the individual operations, whatever arrives and however many values the answers have: if the timer
has fired then, once all goroutines have finished, the callback has been called.  It is called with an error at most once, and only if
the timer has fired. -/
theorem C32_fired_partial (h : List Collector.CEv) :
    (.fire ∈ started h → (∀ t ∈ (crun h).threads, t.prog = []) → (crun h).s.calls ≠ []) ∧
    (crun h).s.calls.countP isErr ≤ 1 ∧ (.fire ∉ started h → (crun h).s.calls.countP isErr = 0) := by
  have hi := timer_run h
  refine ⟨fun hf hq => ?_, ?_, ?_⟩
  · rcases hi.due (hi.fired hf) with h | ⟨t, ht, h⟩
    · exact h
    · rw [hq t ht] at h; simp at h
  · have := hi.errs; omega
  · intro hf; have := hi.none hf; omega

/-- The timer fires while an answer is being handled: the callback is called with an error, and then without (C32_concurrent_false
has two calls without). -/
example :
    let h : List Collector.CEv := [.start (.count 1), .adv 0, .adv 0, .start (.servers 1), .adv 1, .start (.answer [.str "a"]),
      .adv 2, .adv 2, .start .fire, .adv 3, .adv 3, .adv 2, .adv 2, .adv 2, .adv 2, .adv 2, .adv 0, .adv 1]
    (∀ t ∈ (crun h).threads, t.prog = []) ∧ .fire ∈ started h ∧ (crun h).s.calls = [.err [.str "a"], .ok [.str "a"]] := by
  decide

/-- **C32**, every interleaving of the individual operations: after the callback has been called with an error, and no goroutine is
between its test whether that has happened and its call, it is not called any more, whatever arrives. -/
theorem C32_over (h t : List Collector.CEv) (he : ∃ x ∈ (crun h).s.calls, isErr x = true)
    (hn : ∀ t ∈ (crun h).threads, .call ∈ t.prog → .ckTimeout ∈ t.prog) : (crun (h ++ t)).s.calls = (crun h).s.calls := by
  have hm := marked_run h
  have ht := timer_run h
  obtain ⟨x, hx, hx'⟩ := he
  have h1 : 1 ≤ (crun h).s.calls.countP isErr := List.countP_pos_iff.2 ⟨x, hx, hx'⟩
  have h2 := ht.errs
  have o : Over (crun h) := by
    refine ⟨hm.calls x hx hx', ?_, hn, ?_⟩
    · cases e : (crun h).s.timer with
      | false => rfl
      | true => rw [e] at h2; simp only [if_true] at h2; omega
    · intro t' ht' hc
      have := pend_pos ht' hc
      omega
  have : Over (crun (h ++ t)) ∧ (crun (h ++ t)).s.calls = (crun h).s.calls := by
    induction t using snocRec with
    | nil => simpa using o
    | append_singleton t e ih =>
      rw [← List.append_assoc, show crun (h ++ t ++ [e]) = cstep (crun (h ++ t)) e by simp [crun]]
      obtain ⟨a, b⟩ := over_step _ e (marked_run (h ++ t)).suf ih.1
      exact ⟨a, b.trans ih.2⟩
  exact this.2

/-- A late answer changes nothing. -/
example :
    let h : List Collector.CEv := [.start (.count 1), .adv 0, .adv 0, .start (.servers 1), .adv 1, .start .fire, .adv 2, .adv 2]
    let t : List Collector.CEv := [.start (.answer [.str "a"]), .adv 3, .adv 3, .adv 3, .adv 3, .adv 3, .adv 3, .adv 0, .adv 1]
    (crun h).s.calls = [.err []] ∧ (∀ t ∈ (crun h).threads, .call ∈ t.prog → .ckTimeout ∈ t.prog) ∧ (crun (h ++ t)).s.responses = [.str "a"] := by
  decide

/-! ## C33 -/

/-- What reaches the callback of `remoteSocket.Emit` when the one client answers with `args` and then the
timer expires, and whether the program survives. -/
def remoteAnswer (args : List Val) : List Collector.Call × Bool :=
  let s := Collector.run true [.count 1, .servers 1, .answer args, .fire]
  (s.calls, s.panicked)

/-- **C33 fails**: the callback never gets the arguments `["ok"]` the client answered with: a single value
that is not an array ends the program with a failed type assertion, two values or none are only ever reported
as a timeout, an array is unpacked.  If the socket has gone, the emission itself ends the program. -/
theorem C33_answer_false :
    remoteAnswer [.str "ok"] = ([], true) ∧
    remoteAnswer [.str "a", .str "b"] = ([.err []], false) ∧
    remoteAnswer [] = ([.err []], false) ∧
    remoteAnswer [.arr [.str "a", .str "b"]] = ([.ok [.str "a", .str "b"]], false) ∧
    (Collector.run true [.count 0, .servers 1]).panicked = true := by decide

/-- **C33**, what does hold, for every payload: the callback is called with a result exactly when the answer
is a single array, and then with the elements of that array; the program panics exactly on a single value
that is not an array; every other answer leads to the timeout error. -/
theorem C33_answer_partial (args : List Val) :
    remoteAnswer args = match args with
      | [.arr l] => ([.ok (l.map .at)], false)
      | [_] => ([], true)
      | _ => ([.err []], false) := by
  unfold remoteAnswer
  match args with
  | [] => decide
  | [.arr l] => simp [Collector.run, Collector.step, check, finish, fire]
  | [.at a] => simp [Collector.run, Collector.step, check, finish]
  | [.fn k] => simp [Collector.run, Collector.step, check, finish]
  | a :: b :: l => simp [Collector.run, Collector.step, check, fire]

example : remoteAnswer [.arr [.num 1]] = ([.ok [.num 1]], false) := by decide

end Verif.Props
