import Verif.Proof.AcksEnd
import Verif.Props.Settle

/-!
# C29, C123: in the end

`C29_answered` and `C29_expired` speak of the time when all goroutines have come to their end.  Here it is shown that the call is made
in the end, also if new emissions, answers and expiries never cease, provided only that no goroutine is forgotten by the scheduler.
-/

namespace Verif.Props
open Verif Verif.Spec

/-- **C29**: every goroutine, be it of an emission, an answer or a timer, comes to its end. -/
theorem C29_returns (h : List Acks.Ev) (k : Nat) (σ : Nat → Acks.Ev) (fair : AgainAndAgain (.adv k) σ) (begun : k < (Acks.crun h).threads.length) :
    ∃ n t, (Acks.crun (h ++ firstOf σ n)).threads[k]? = some t ∧ ThreadDone t :=
  Acks.thread_ends σ k fair h begun

/-- **C29**: an answer that arrives after the emission has returned leads to a call of the callback in the end, whatever goes on meanwhile
and after. -/
theorem C29_answered_in_the_end (pre mid post : List Acks.Ev) (cb : Nat) (timed : Bool) (args : List Val) (σ : Nat → Acks.Ev)
    (fair : ∀ k, AgainAndAgain (.adv k) σ)
    (returned : EmitReturned (Acks.crun (pre ++ .emit cb timed :: mid)) (emitId pre) cb timed) :
    ∃ n, callsOf cb (Acks.crun (pre ++ .emit cb timed :: (mid ++ .recv (emitId pre) args :: (post ++ firstOf σ n)))).log ≠ [] :=
  Acks.answer_calls cb timed args pre mid post σ fair returned

/-- **C29**: if the time given runs out after the emission has returned, the callback is called in the end, whatever goes on meanwhile and
after. -/
theorem C29_expired_in_the_end (pre mid post : List Acks.Ev) (cb : Nat) (σ : Nat → Acks.Ev) (fair : ∀ k, AgainAndAgain (.adv k) σ)
    (returned : EmitReturned (Acks.crun (pre ++ .emit cb true :: mid)) (emitId pre) cb true) :
    ∃ n, callsOf cb (Acks.crun (pre ++ .emit cb true :: (mid ++ .fire (emitId pre) :: (post ++ firstOf σ n)))).log ≠ [] :=
  Acks.expiry_calls cb pre mid post σ fair returned

/-- **C123**: once an emission that has returned is answered, the socket forgets the callback in the end, for good, whatever goes on
meanwhile and after. -/
theorem C123_forgotten_in_the_end (pre mid post : List Acks.Ev) (cb : Nat) (timed : Bool) (args : List Val) (σ : Nat → Acks.Ev)
    (fair : ∀ k, AgainAndAgain (.adv k) σ)
    (returned : EmitReturned (Acks.crun (pre ++ .emit cb timed :: mid)) (emitId pre) cb timed) :
    ∃ n, ∀ m, n ≤ m →
      ¬stillHolds (Acks.crun (pre ++ .emit cb timed :: (mid ++ .recv (emitId pre) args :: (post ++ firstOf σ m)))) (emitId pre) := by
  have p := Acks.past_of (Acks.uniq_run _) returned
  have e1 : ∀ q, Acks.crun (pre ++ .emit cb timed :: (mid ++ .recv (emitId pre) args :: q)) =
      q.foldl Acks.cstep (Acks.cstep (Acks.crun (pre ++ .emit cb timed :: mid)) (.recv (emitId pre) args)) := by
    intro q
    have : pre ++ .emit cb timed :: (mid ++ .recv (emitId pre) args :: q) = (pre ++ .emit cb timed :: mid) ++ (.recv (emitId pre) args :: q) := by simp
    rw [this, Acks.crun, List.foldl_append]; rfl
  have pasts : ∀ (q : List Acks.Ev) (s : Acks.CSt), Acks.Past (emitId pre) s → Acks.Past (emitId pre) (q.foldl Acks.cstep s) ∧
      (s.acks.get? (emitId pre) = none → (q.foldl Acks.cstep s).acks.get? (emitId pre) = none) := by
    intro q
    induction q with
    | nil => exact fun s h => ⟨h, fun h => h⟩
    | cons e q ih =>
      intro s h
      have h' := Acks.past_step h e
      exact ⟨(ih _ h'.1).1, fun hn => (ih _ h'.1).2 (h'.2 hn)⟩
  have d0 : Acks.Drops (emitId pre) (Acks.crun (pre ++ .emit cb timed :: mid)).threads.length
      (Acks.cstep (Acks.crun (pre ++ .emit cb timed :: mid)) (.recv (emitId pre) args)) :=
    .inl ⟨args, 0, none, List.getElem?_concat_length, by omega⟩
  have p0 := (Acks.past_step p (.recv (emitId pre) args)).1
  have hl : (Acks.crun (pre ++ .emit cb timed :: mid)).threads.length <
      (Acks.crun (pre ++ .emit cb timed :: (mid ++ .recv (emitId pre) args :: post))).threads.length := by
    rw [e1]
    rcases Acks.drops_run post p0 d0 with ⟨_, _, _, h, _⟩ | ⟨_, _, h, _⟩ <;> exact (List.getElem?_eq_some_iff.1 h).1
  obtain ⟨n, t, h1, h2⟩ := C29_returns _ _ σ (fair _) hl
  have e2 : ∀ q, (pre ++ .emit cb timed :: (mid ++ .recv (emitId pre) args :: post)) ++ q =
      pre ++ .emit cb timed :: (mid ++ .recv (emitId pre) args :: (post ++ q)) := by intro q; simp
  rw [e2, e1] at h1
  have gone := Acks.drops_done (Acks.drops_run (post ++ firstOf σ n) p0 d0) h1 h2
  refine ⟨n, fun m hm => ?_⟩
  obtain ⟨d, rfl⟩ := Nat.exists_eq_add_of_le hm
  rw [e1, Acks.firstOf_add, ← List.append_assoc, List.foldl_append]
  refine fun h => h ((pasts _ _ (pasts _ _ p0).1).2 ?_)
  exact Classical.byContradiction gone

/-- The hypotheses are met: an emission with a timeout has returned while the answer of another is handled, and every goroutine has its turn again and again. -/
example : let pre : List Acks.Ev := [.emit 3 false, .adv 0, .adv 0, .recv 1 [], .adv 1]
    let mid : List Acks.Ev := [.adv 2, .adv 2, .adv 1]
    (∀ k, AgainAndAgain (.adv k) fun n => Acks.Ev.adv (n - 2 ^ n.log2)) ∧
    EmitReturned (Acks.crun (pre ++ .emit 7 true :: mid)) (emitId pre) 7 true :=
  ⟨everyTurn _, by show Acks.Thread.emitter 2 7 true 2 ∈ (Acks.crun _).threads; decide⟩

end Verif.Props
