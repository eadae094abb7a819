import Verif.Proof.AcksLive
import Verif.Props.Acks

/-!
# C29: the callback of an emission, whatever interleaves

What C29 says of the single call is false under concurrency (`C29_concurrent_false`).  This holds in every interleaving.
-/

namespace Verif.Props
open Verif Verif.Spec

/-- **C29**, every interleaving: a callback is only ever called with the arguments of an answer that came with the number of its own
emission, or with the error of its own timer, if it has one and that has fired.  An answer with an unknown number has no effect on it. -/
theorem C29_genuine (pre post : List Acks.Ev) (cb : Nat) (timed : Bool) (once : ∀ e ∈ pre ++ post, passes cb e = false) :
    (∀ args, .ok args ∈ callsOf cb (Acks.crun (pre ++ .emit cb timed :: post)).log → .recv (emitId pre) args ∈ pre ++ post) ∧
    (.timeout ∈ callsOf cb (Acks.crun (pre ++ .emit cb timed :: post)).log → timed = true ∧ .fire (emitId pre) ∈ pre ++ post) := by
  have g := Acks.gen_run (timed := timed) pre (fun e he => once e (by simp [he])) post (fun e he => once e (by simp [he]))
  have out : ∀ r, r ∈ callsOf cb (Acks.crun (pre ++ .emit cb timed :: post)).log → (cb, r) ∈ (Acks.crun (pre ++ .emit cb timed :: post)).log := by
    intro r hr
    obtain ⟨⟨c, q⟩, hx, hq⟩ := List.mem_filterMap.1 hr
    by_cases hc : c = cb
    · simp only [hc, if_true, Option.some.injEq] at hq; rw [hq, hc] at hx; exact hx
    · simp [hc] at hq
  refine ⟨fun args h => ?_, fun h => ?_⟩
  · simpa using g.ok args (out _ h)
  · simpa using g.out (out _ h)

/-- **C29**, every interleaving: if an answer arrives after the emission has returned, then, when all goroutines have come to their end, the
callback has been called. -/
theorem C29_answered (pre mid post : List Acks.Ev) (cb : Nat) (timed : Bool) (args : List Val)
    (returned : EmitReturned (Acks.crun (pre ++ .emit cb timed :: mid)) (emitId pre) cb timed)
    (idle : AcksIdle (Acks.crun (pre ++ .emit cb timed :: (mid ++ .recv (emitId pre) args :: post)))) :
    callsOf cb (Acks.crun (pre ++ .emit cb timed :: (mid ++ .recv (emitId pre) args :: post))).log ≠ [] :=
  Acks.answered_called cb timed args pre mid post returned idle

/-- **C29**, every interleaving: if the time given runs out after the emission has returned, then, when all goroutines have come to their
end, the callback has been called: it does not wait for ever. -/
theorem C29_expired (pre mid post : List Acks.Ev) (cb : Nat)
    (returned : EmitReturned (Acks.crun (pre ++ .emit cb true :: mid)) (emitId pre) cb true)
    (idle : AcksIdle (Acks.crun (pre ++ .emit cb true :: (mid ++ .fire (emitId pre) :: post)))) :
    callsOf cb (Acks.crun (pre ++ .emit cb true :: (mid ++ .fire (emitId pre) :: post))).log ≠ [] :=
  Acks.expired_called cb pre mid post returned idle

/-- **C29**: without a timeout and with one answer, that comes after the emission has returned, the callback is called exactly once, with
the arguments of that answer, whatever else interleaves. -/
theorem C29_single (pre mid post : List Acks.Ev) (cb : Nat) (args : List Val)
    (once : ∀ e ∈ pre ++ (mid ++ post), passes cb e = false) (one : answersTo (emitId pre) (pre ++ (mid ++ post)) = 0)
    (returned : EmitReturned (Acks.crun (pre ++ .emit cb false :: mid)) (emitId pre) cb false)
    (idle : AcksIdle (Acks.crun (pre ++ .emit cb false :: (mid ++ .recv (emitId pre) args :: post)))) :
    callsOf cb (Acks.crun (pre ++ .emit cb false :: (mid ++ .recv (emitId pre) args :: post))).log = [.ok args] := by
  have h0 := C29_answered pre mid post cb false args returned idle
  have once' : ∀ e ∈ pre ++ (mid ++ .recv (emitId pre) args :: post), passes cb e = false := by
    intro e he
    simp only [List.mem_append, List.mem_cons] at he
    rcases he with he | he | rfl | he
    · exact once e (by simp [he])
    · exact once e (by simp [he])
    · rfl
    · exact once e (by simp [he])
  have h1 := C29_interleaved_partial pre (mid ++ .recv (emitId pre) args :: post) cb false once'
  have h2 := C29_genuine pre (mid ++ .recv (emitId pre) args :: post) cb false once'
  have hone : answersTo (emitId pre) (pre ++ (mid ++ .recv (emitId pre) args :: post)) = 1 := by
    simp only [answersTo, List.countP_append, List.countP_cons, decide_true, if_true] at one ⊢
    omega
  rw [hone] at h1
  generalize callsOf cb (Acks.crun (pre ++ .emit cb false :: (mid ++ .recv (emitId pre) args :: post))).log = l at h0 h1 h2
  match l, h0, h1, h2 with
  | [], h0, _, _ => exact absurd rfl h0
  | [.timeout], _, _, h2 => exact absurd (h2.2 (by simp)).1 (by simp)
  | [.ok a], _, _, h2 =>
    have hm := h2.1 a (by simp)
    have none : ∀ b, Acks.Ev.recv (emitId pre) b ∉ pre ++ (mid ++ post) := by
      intro b hb
      have := List.countP_eq_zero.1 one _ hb
      simp at this
    simp only [List.mem_append, List.mem_cons, Acks.Ev.recv.injEq, true_and] at hm
    rcases hm with hm | hm | hm | hm
    · exact absurd (by simp [hm]) (none a)
    · exact absurd (by simp [hm]) (none a)
    · rw [hm]
    · exact absurd (by simp [hm]) (none a)
  | _ :: _ :: _, _, h1, _ => simp at h1

/-- An emission without a timeout amid another with one, whose timer fires while the answer is handled; and one with a timeout. -/
example : let pre : List Acks.Ev := [.emit 3 true, .adv 0, .recv 7 []]
    let mid : List Acks.Ev := [.adv 2, .adv 2, .adv 1, .adv 0]
    let post : List Acks.Ev := [.fire 1, .adv 3, .adv 4, .adv 3, .adv 3, .adv 4, .adv 3]
    (∀ e ∈ pre ++ (mid ++ post), passes 7 e = false) ∧ answersTo (emitId pre) (pre ++ (mid ++ post)) = 0 ∧
    Acks.Thread.emitter 2 7 false 2 ∈ (Acks.crun (pre ++ .emit 7 false :: mid)).threads ∧
    (Acks.crun (pre ++ .emit 7 false :: (mid ++ .recv 2 [.at (.str "a")] :: post))).threads =
      [.emitter 1 3 true 2, .handler 7 [] 4 none, .emitter 2 7 false 2, .handler 2 [.at (.str "a")] 4 (some ⟨7, none⟩), .timer 1 3 2] ∧
    callsOf 3 (Acks.crun (pre ++ .emit 7 false :: (mid ++ .recv 2 [.at (.str "a")] :: post))).log = [.timeout] := by decide

/-- The hypotheses of `C29_expired` are met. -/
example : let pre : List Acks.Ev := [.recv 1 []]
    let mid : List Acks.Ev := [.adv 1, .adv 1, .adv 0]
    let post : List Acks.Ev := [.adv 2, .adv 0, .adv 2, .adv 0, .adv 0, .adv 0]
    Acks.Thread.emitter 1 7 true 2 ∈ (Acks.crun (pre ++ .emit 7 true :: mid)).threads ∧
    (Acks.crun (pre ++ .emit 7 true :: (mid ++ .fire 1 :: post))).threads =
      [.handler 1 [] 4 (some ⟨7, some 1⟩), .emitter 1 7 true 2, .timer 1 7 2] ∧
    callsOf 7 (Acks.crun (pre ++ .emit 7 true :: (mid ++ .fire 1 :: post))).log = [.timeout, .ok []] := by decide

end Verif.Props
