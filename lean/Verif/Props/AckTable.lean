import Verif.Proof.AckTable

/-!
# C123: acknowledgements that are over are forgotten

For calls made in turn it is known exactly what is held.  While goroutines are at work it does not always hold: `registerAckCallback`
starts the timer before it stores the callback.
-/

namespace Verif.Props
open Verif Verif.Spec

/-- **C123**, calls in turn: after an emission with a callback, the sockets hold under its number the callback of that emission until it
has been answered or its time has run out, and nothing else. -/
theorem C123_exact (pre post : List Acks.Op) (sock cb : Nat) (timed : Bool) (k : Nat) :
    holdsAck (Acks.run (pre ++ .emit sock cb timed :: post)) k (idAfter pre) ↔ k = sock ∧ outcome sock (idAfter pre) timed post = none := by
  have inv := Acks.inv_run pre
  have hid : idAfter pre = (Acks.run pre).ids + 1 := by rw [inv.ids]; rfl
  have fresh : ∀ k', (Acks.run pre).acks.get? (k', idAfter pre) = none := by
    intro k'
    cases h : (Acks.run pre).acks.get? (k', idAfter pre) with
    | none => rfl
    | some e => have := inv.bound _ _ _ h; omega
  obtain ⟨e1, e2, e3⟩ := Acks.emit_tables (Acks.run pre) sock cb timed
  rw [Acks.run_append, List.foldl_cons]
  by_cases hk : k = sock
  · subst hk
    simp only [true_and]
    refine Acks.held_fold (cb := cb) post ⟨?_, ?_, ?_, by rw [e3, hid]; exact Nat.le_refl _⟩
    · rw [e1, hid]; exact FMap.get?_insert_self _ _ _
    · rw [e2, hid]
      cases timed with
      | true => simp
      | false =>
        simp only [Bool.false_eq_true, if_false]
        cases h : (Acks.run pre).timers.get? ((Acks.run pre).ids + 1) with
        | none => rfl
        | some p => have := inv.tbound _ _ h; omega
    · intro k' i e hne h ht
      rw [e1, ← hid, FMap.get?_insert_ne (fun h => hne h.symm)] at h
      have h1 := inv.own _ _ _ _ h ht
      have h2 := inv.bound _ _ _ h
      omega
  · simp only [hk, false_and, iff_false]
    have g : Acks.Gone k (idAfter pre) (Acks.step (Acks.run pre) (.emit sock cb timed)) := by
      refine ⟨?_, by rw [e3, hid]; exact Nat.le_refl _⟩
      rw [e1, FMap.get?_insert_ne (by simp; omega)]
      exact fresh k
    exact fun h => h (Acks.gone_fold post g).here

/-- **C123**, calls in turn: a socket that a broadcast with a callback has reached holds the callback until that socket has answered,
however long ago the time given to the broadcast has run out; no other socket holds it. -/
theorem C123_broadcast (pre post : List Acks.Op) (socks : List Nat) (cb k : Nat) :
    holdsAck (Acks.run (pre ++ .bcast socks cb :: post)) k (idAfter pre) ↔ k ∈ socks ∧ ∀ args, .answer k (some (idAfter pre)) args ∉ post := by
  have inv := Acks.inv_run pre
  have hid : idAfter pre = (Acks.run pre).ids + 1 := by rw [inv.ids]; rfl
  have out : outcome k (idAfter pre) false post = none ↔ ∀ args, Acks.Op.answer k (some (idAfter pre)) args ∉ post := by
    generalize idAfter pre = i
    clear inv hid
    induction post with
    | nil => simp [outcome]
    | cons op post ih =>
      cases op with
      | emit => simp [outcome, ih]
      | bcast => simp [outcome, ih]
      | expire j => simp [outcome, ih]
      | answer k' j args =>
        cases j with
        | none => simp [outcome, ih]
        | some j =>
          simp only [outcome]
          by_cases h : k' = k ∧ j = i
          · simp only [h, and_self, if_true]
            constructor
            · intro h'; cases h'
            · intro h'; exact absurd (List.mem_cons_self) (h' args)
          · simp only [h, if_false, ih, List.mem_cons, Acks.Op.answer.injEq, Option.some.injEq, not_or]
            constructor
            · exact fun h' a => ⟨fun hh => h ⟨hh.1.symm, hh.2.1.symm⟩, h' a⟩
            · exact fun h' a => (h' a).2
  obtain ⟨e1, e2, _, e3⟩ := Acks.bcast_acks socks ((Acks.run pre).ids + 1) cb { Acks.run pre with ids := (Acks.run pre).ids + 1 }
  have e1' : (Acks.step (Acks.run pre) (.bcast socks cb)).ids = (Acks.run pre).ids + 1 := e1
  have old : ∀ k' i e, (Acks.run pre).acks.get? (k', i) = some e → i < idAfter pre := by
    intro k' i e h; have := inv.bound _ _ _ h; omega
  rw [Acks.run_append, List.foldl_cons]
  by_cases hk : k ∈ socks
  · simp only [hk, true_and]
    rw [← out]
    refine Acks.held_fold (cb := cb) post ⟨?_, ?_, ?_, by rw [e1', hid]; exact Nat.le_refl _⟩
    · refine (e3 k (idAfter pre)).trans ?_
      rw [if_pos ⟨hid, hk⟩]; rfl
    · refine (congrArg (fun m => FMap.get? m (idAfter pre)) e2).trans ?_
      simp only [Bool.false_eq_true, if_false]
      cases h : (Acks.run pre).timers.get? (idAfter pre) with
      | none => rfl
      | some p => have := inv.tbound _ _ h; omega
    · intro k' i e _ h ht
      have h' := (e3 k' i).symm.trans h
      split at h'
      · cases h'; cases ht
      · have h1 := inv.own _ _ _ _ h' ht
        have h2 := old _ _ _ h'
        omega
  · simp only [hk, false_and, iff_false]
    have g : Acks.Gone k (idAfter pre) (Acks.step (Acks.run pre) (.bcast socks cb)) := by
      refine ⟨(e3 k (idAfter pre)).trans ?_, by rw [e1', hid]; exact Nat.le_refl _⟩
      rw [if_neg (fun h => hk h.2)]
      cases h : (Acks.run pre).acks.get? (k, idAfter pre) with
      | none => rfl
      | some e => have := old _ _ _ h; omega
    exact fun h => h (Acks.gone_fold post g).here

/-- An emission that expires, one that is answered by another socket first, a broadcast that one of two sockets answers. -/
example : let s := Acks.run [.emit 0 5 true, .emit 1 6 false, .bcast [0, 1] 7, .answer 0 (some 2) [], .expire 1, .answer 1 (some 3) []]
    (s.acks.get? (0, 1), s.acks.get? (1, 2), s.acks.get? (0, 3), s.acks.get? (1, 3)) = (none, some ⟨6, none⟩, some ⟨7, none⟩, none) := by decide

/-- **C123**, every interleaving: when the goroutine that handles an answer that came after the emission had returned has come to its
end, the socket no longer holds the callback, and never will again. -/
theorem C123_answered (pre mid post : List Acks.Ev) (cb : Nat) (timed : Bool) (args : List Val) (t : Acks.Thread)
    (returned : EmitReturned (Acks.crun (pre ++ .emit cb timed :: mid)) (emitId pre) cb timed)
    (itsGoroutine : (Acks.crun (pre ++ .emit cb timed :: (mid ++ .recv (emitId pre) args :: post))).threads[(Acks.crun (pre ++ .emit cb timed :: mid)).threads.length]? = some t)
    (done : ThreadDone t) :
    ¬stillHolds (Acks.crun (pre ++ .emit cb timed :: (mid ++ .recv (emitId pre) args :: post))) (emitId pre) := by
  have e1 : pre ++ .emit cb timed :: (mid ++ .recv (emitId pre) args :: post) = (pre ++ .emit cb timed :: mid) ++ (.recv (emitId pre) args :: post) := by simp
  rw [e1, Acks.crun, List.foldl_append] at itsGoroutine ⊢
  have p := Acks.past_of (Acks.uniq_run _) returned
  refine Acks.drops_done ?_ itsGoroutine done
  rw [List.foldl_cons]
  refine Acks.drops_run post (Acks.past_step p _).1 (.inl ⟨args, 0, none, ?_, by omega⟩)
  exact List.getElem?_concat_length

/-- **C123**, every interleaving: if the time given runs out after the emission has returned, then, when the goroutine of the timer has
come to its end, the socket no longer holds the callback, and never will again.  Missing: the timer that runs out before the emission has
stored the callback. -/
theorem C123_expired_partial (pre mid post : List Acks.Ev) (cb : Nat) (t : Acks.Thread)
    (returned : EmitReturned (Acks.crun (pre ++ .emit cb true :: mid)) (emitId pre) cb true)
    (running : (Acks.crun (pre ++ .emit cb true :: mid)).timers.get? (emitId pre) ≠ none)
    (itsGoroutine : (Acks.crun (pre ++ .emit cb true :: (mid ++ .fire (emitId pre) :: post))).threads[(Acks.crun (pre ++ .emit cb true :: mid)).threads.length]? = some t)
    (done : ThreadDone t) :
    ¬stillHolds (Acks.crun (pre ++ .emit cb true :: (mid ++ .fire (emitId pre) :: post))) (emitId pre) := by
  have e1 : pre ++ .emit cb true :: (mid ++ .fire (emitId pre) :: post) = (pre ++ .emit cb true :: mid) ++ (.fire (emitId pre) :: post) := by simp
  rw [e1, Acks.crun, List.foldl_append] at itsGoroutine ⊢
  have p := Acks.past_of (Acks.uniq_run _) returned
  refine Acks.drops_done ?_ itsGoroutine done
  rw [List.foldl_cons]
  cases h : (Acks.crun (pre ++ .emit cb true :: mid)).timers.get? (emitId pre) with
  | none => exact absurd h running
  | some c =>
    refine Acks.drops_run post (Acks.past_step p _).1 (.inr ⟨c, 0, ?_, by omega⟩)
    have h' : (List.foldl Acks.cstep {} (pre ++ Acks.Ev.emit cb true :: mid)).timers.get? (emitId pre) = some c := h
    simp only [Acks.cstep, h']
    exact List.getElem?_concat_length

/-- **C123**, every interleaving: as long as nobody has answered the emission and its time has not run out, the socket holds the callback
once the emission has returned. -/
theorem C123_kept (pre mid : List Acks.Ev) (cb : Nat) (timed : Bool) (waiting : ∀ e ∈ pre ++ mid, endsAck (emitId pre) e = false)
    (returned : EmitReturned (Acks.crun (pre ++ .emit cb timed :: mid)) (emitId pre) cb timed) :
    stillHolds (Acks.crun (pre ++ .emit cb timed :: mid)) (emitId pre) := by
  refine (Acks.calm_run (id := emitId pre) _ (fun e he => ?_)).kept ⟨cb, timed, 2, Nat.le_refl _, returned⟩
  simp only [List.mem_append, List.mem_cons] at he
  rcases he with he | rfl | he
  · exact waiting e (by simp [he])
  · rfl
  · exact waiting e (by simp [he])

/-- **C123** is false as it stands: the timer runs out before `Emit` has stored the callback; the callback has been called with the error,
all goroutines have come to their end, and the socket holds it still: an answer would call it again. -/
theorem C123_early_fails : let h : List Acks.Ev := [.emit 7 true, .adv 0, .fire 1, .adv 1, .adv 1, .adv 0]
    AcksIdle (Acks.crun h) ∧ callsOf 7 (Acks.crun h).log = [.timeout] ∧ stillHolds (Acks.crun h) (emitId []) ∧
    callsOf 7 (Acks.crun (h ++ [.recv 1 [], .adv 2, .adv 2, .adv 2, .adv 2])).log = [.timeout, .ok []] := by
  refine ⟨?_, by decide, ?_, by decide⟩
  · have e : (Acks.crun [.emit 7 true, .adv 0, .fire 1, .adv 1, .adv 1, .adv 0]).threads = [.emitter 1 7 true 2, .timer 1 7 2] := by decide
    intro t ht
    rw [e] at ht
    simp only [List.mem_cons, List.not_mem_nil, or_false] at ht
    rcases ht with rfl | rfl <;> rfl
  · show FMap.get? _ _ ≠ none
    decide

/-- The hypotheses of `C123_answered` and `C123_kept` are met: an emission amid another, whose timer fires meanwhile. -/
example : let pre : List Acks.Ev := [.emit 3 true, .adv 0, .recv 7 []]
    let mid : List Acks.Ev := [.adv 2, .adv 2, .adv 1, .adv 0, .fire 1]
    let post : List Acks.Ev := [.adv 3, .adv 4, .adv 3, .adv 4, .adv 4, .adv 4]
    Acks.Thread.emitter 2 7 false 2 ∈ (Acks.crun (pre ++ .emit 7 false :: mid)).threads ∧ (∀ e ∈ pre ++ mid, endsAck (emitId pre) e = false) ∧
    (Acks.crun (pre ++ .emit 7 false :: (mid ++ .recv 2 [] :: post))).threads[(Acks.crun (pre ++ .emit 7 false :: mid)).threads.length]? =
      some (.handler 2 [] 4 (some ⟨7, none⟩)) := by decide

/-- The hypotheses of `C123_expired_partial` are met: the timer fires while an answer is handled. -/
example : let pre : List Acks.Ev := [.recv 1 []]
    let mid : List Acks.Ev := [.adv 1, .adv 1, .adv 0]
    let post : List Acks.Ev := [.adv 2, .adv 0, .adv 2, .adv 0]
    Acks.Thread.emitter 1 7 true 2 ∈ (Acks.crun (pre ++ .emit 7 true :: mid)).threads ∧
    (Acks.crun (pre ++ .emit 7 true :: mid)).timers.get? (emitId pre) ≠ none ∧
    (Acks.crun (pre ++ .emit 7 true :: (mid ++ .fire 1 :: post))).threads[(Acks.crun (pre ++ .emit 7 true :: mid)).threads.length]? =
      some (.timer 1 7 2) := by decide

end Verif.Props
