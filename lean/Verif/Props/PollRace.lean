import Verif.Proof.PollRace
import Verif.Props.CastRace
import Verif.Props.Collector

/-! # C119: a broadcast with acknowledgement while other things happen -/

set_option maxRecDepth 4000

namespace Verif.Props
open Verif Verif.Spec Verif.PollRace

theorem poll_written {p : List PollRace.Ev} {rooms except order : List Nat} {q : List PollRace.Ev} (w : WholePoll p rooms except order q) :
    (polled p rooms except order q).written =
      sentTo (trace {} p) rooms except order (trace (PollRace.run (p ++ [.emit rooms except order])) q) ∧
    (polled p rooms except order q).written = (polled p rooms except order q).stored := by
  have b := PollRace.book rooms except order w.begins q w.one
  have hp : (polled p rooms except order q).pc = .idle := w.ends
  have h1 := b.sent
  have h2 := b.stored
  simp only [hp, List.append_nil] at h1 h2
  refine ⟨?_, h2.symm⟩
  unfold sentTo
  rw [← PollRace.whole_at w.begins, ← h2, ← h1]
  rfl

/-- Part of C119.  Whatever happens meanwhile, the event is sent to no socket twice. -/
theorem C119_once (p : List PollRace.Ev) (rooms except order : List Nat) (q : List PollRace.Ev) (w : WholePoll p rooms except order q) :
    (polled p rooms except order q).written.Nodup := by
  rw [(poll_written w).1]; exact C74_once _ _ _ _ _ (PollRace.whole_of w)

theorem poll_until {p : List PollRace.Ev} {rooms except order : List Nat} {q : List PollRace.Ev}
    (w : WholePoll p rooms except order q) (id : Nat) {P : RoomRace.St → (Nat → Bool) → Prop}
    (h : UntilPolled p rooms except order q id fun s => P s.cast.tab s.cast.reg) :
    UntilReached (trace {} p) rooms except order (trace (PollRace.run (p ++ [.emit rooms except order])) q) id P := by
  intro t₁ t₂ ht
  obtain ⟨q₁, q₂, e1, e2⟩ := PollRace.trace_prefix q _ t₁ t₂ ht
  have := h q₁ q₂ e1
  simp only [polled, PollRace.whole_at w.begins, e2] at this
  exact this

theorem poll_meanwhile {p : List PollRace.Ev} {rooms except order : List Nat} {q : List PollRace.Ev}
    (w : WholePoll p rooms except order q) {P : RoomRace.St → (Nat → Bool) → Prop}
    (h : WhilePolling p rooms except order q fun s => P s.cast.tab s.cast.reg) :
    Meanwhile (trace {} p) rooms except order (trace (PollRace.run (p ++ [.emit rooms except order])) q) P := by
  intro t₁ t₂ ht
  obtain ⟨q₁, q₂, e1, e2⟩ := PollRace.trace_prefix q _ t₁ t₂ ht
  have := h q₁ q₂ e1
  simp only [polled, PollRace.whole_at w.begins, e2] at this
  exact this

/-- Part of C119.  Whatever happens meanwhile, the event is sent to a socket that, until the loop comes to it, is in the namespace and in one
of the rooms selected all the time, and at no time in an excepted room or about to join one. -/
theorem C119_selected_partial (p : List PollRace.Ev) (rooms except order : List Nat) (q : List PollRace.Ev)
    (w : WholePoll p rooms except order q) (id r : Nat) (hr : r ∈ rooms)
    (h : UntilPolled p rooms except order q id fun s =>
      InRoom s.cast.tab id r ∧ s.cast.reg id = true ∧ ∀ x ∈ except, ¬ NearRoom s.cast.tab id x) :
    id ∈ (polled p rooms except order q).written := by
  rw [(poll_written w).1]
  have := C74_reached_partial _ rooms except order _ (PollRace.whole_of w) id r hr
    (poll_until w id (P := fun s reg => InRoom s id r ∧ reg id = true ∧ ∀ x ∈ except, ¬ NearRoom s id x) h)
  exact List.count_pos_iff.1 (by rw [this]; exact Nat.one_pos)

/-- Part of C119.  The same for a broadcast to everybody. -/
theorem C119_everybody_partial (p : List PollRace.Ev) (except order : List Nat) (q : List PollRace.Ev)
    (w : WholePoll p [] except order q) (id : Nat)
    (h : UntilPolled p [] except order q id fun s =>
      (s.cast.tab.sids id).isSome = true ∧ s.cast.reg id = true ∧ ∀ x ∈ except, ¬ NearRoom s.cast.tab id x) :
    id ∈ (polled p [] except order q).written := by
  rw [(poll_written w).1]
  have := C74_all_partial _ except order _ (PollRace.whole_of w) id
    (poll_until w id (P := fun s reg => (s.sids id).isSome = true ∧ reg id = true ∧ ∀ x ∈ except, ¬ NearRoom s id x) h)
  exact List.count_pos_iff.1 (by rw [this]; exact Nat.one_pos)

/-- Part of C119.  Whatever happens meanwhile, the event is not sent to a socket that at no time is in one of the rooms selected or about to
join one; nor to one that is in an excepted room all the time; nor to one that is not in the namespace at any time. -/
theorem C119_untouched_partial (p : List PollRace.Ev) (rooms except order : List Nat) (q : List PollRace.Ev)
    (w : WholePoll p rooms except order q) (id : Nat)
    (h : (rooms ≠ [] ∧ WhilePolling p rooms except order q fun s => ∀ r ∈ rooms, ¬ NearRoom s.cast.tab id r) ∨
      (∃ x ∈ except, WhilePolling p rooms except order q fun s => InRoom s.cast.tab id x) ∨
      (WhilePolling p rooms except order q fun s => s.cast.reg id = false)) :
    id ∉ (polled p rooms except order q).written := by
  rw [(poll_written w).1]
  rcases h with ⟨hr, h⟩ | ⟨x, hx, h⟩ | h
  · exact C74_elsewhere_partial _ rooms except order _ (PollRace.whole_of w) hr id
      (poll_meanwhile w (P := fun s _ => ∀ r ∈ rooms, ¬ NearRoom s id r) h)
  · exact C74_excepted_partial _ rooms except order _ (PollRace.whole_of w) id x hx (poll_meanwhile w (P := fun s _ => InRoom s id x) h)
  · exact C74_absent _ rooms except order _ (PollRace.whole_of w) id (poll_meanwhile w (P := fun _ reg => reg id = false) h)

theorem poll_unmoved (q : List PollRace.Ev) (s : PollRace.St) (hq : NobodyMoves q) (ho : ∀ r x o, .emit r x o ∉ q) :
    ∀ e ∈ trace s q, e = .adv := by
  induction q generalizing s with
  | nil => simp [trace]
  | cons e q ih =>
    intro x hx
    rw [trace, List.mem_append] at hx
    rcases hx with hx | hx
    · have h0 := hq e (by simp)
      cases e with
      | room r => exact absurd rfl (h0.1 r)
      | connect id => exact absurd rfl (h0.2.1 id)
      | disconnect id => exact absurd rfl (h0.2.2 id)
      | emit r x o => exact absurd (by simp) (ho r x o)
      | adv => simp only [does] at hx; split at hx <;> simp at hx; exact hx
      | answer _ _ => simp [does] at hx
      | fire => simp [does] at hx
      | coll _ => simp [does] at hx
    · exact ih _ (fun e he => hq e (by simp [he])) (fun r y o hm => ho r y o (by simp [hm])) x hx

/-- Part of C119.  When nobody joins, leaves, comes or goes meanwhile, and no call of the adapter is half way, the event is sent to exactly
the sockets that are selected, whenever clients answer and the timer fires. -/
theorem C119_alone (p : List PollRace.Ev) (rooms except order : List Nat) (q : List PollRace.Ev) (w : WholePoll p rooms except order q)
    (hq : NobodyMoves q) (hquiet : Quiet (PollRace.run p).cast.tab) (id : Nat) :
    id ∈ (polled p rooms except order q).written ↔ (PollRace.run p).cast.reg id = true ∧
      (if rooms = [] then ((PollRace.run p).cast.tab.sids id).isSome = true else ∃ r ∈ rooms, InRoom (PollRace.run p).cast.tab id r) ∧
      ∀ x ∈ except, ¬ InRoom (PollRace.run p).cast.tab id x := by
  rw [(poll_written w).1, PollRace.run_cast p]
  exact (C74_alone _ _ _ _ _ (PollRace.whole_of w) (poll_unmoved q _ hq w.one) (by rw [← PollRace.run_cast p]; exact hquiet) id).1

/-- Part of C119.  At every moment: only answers of sockets the event has been sent to, or is being sent to, are counted, and of each only
one. -/
theorem C119_counted (p : List PollRace.Ev) (rooms except order : List Nat) (q : List PollRace.Ev) (hb : (PollRace.run p).pc = .idle)
    (ho : ∀ r x o, .emit r x o ∉ q) :
    (heardFrom (polled p rooms except order q)).Nodup ∧
      ∀ id ∈ heardFrom (polled p rooms except order q), id ∈ (polled p rooms except order q).cast.sent := by
  have b := PollRace.book rooms except order hb q ho
  refine ⟨b.heard.1, fun id hm => ?_⟩
  rw [b.sent]
  exact List.mem_append_left _ (b.heard.2 id hm)

/-- Part of C119.  The first answer of a client to which the event has been sent is counted, whenever it comes: also before the event has
been sent to the others. -/
theorem C119_heard (p : List PollRace.Ev) (rooms except order : List Nat) (q : List PollRace.Ev) (hb : (PollRace.run p).pc = .idle)
    (ho : ∀ r x o, .emit r x o ∉ q) (id : Nat) (args : List Val) (hw : id ∈ (polled p rooms except order q).written)
    (hn : id ∉ heardFrom (polled p rooms except order q)) :
    (polled p rooms except order (q ++ [.answer id args])).heard = (polled p rooms except order q).heard ++ [(id, args)] := by
  have b := PollRace.book rooms except order hb q ho
  have e1 : p ++ .emit rooms except order :: (q ++ [.answer id args]) = (p ++ .emit rooms except order :: q) ++ [.answer id args] := by simp
  have ha : (PollRace.run (p ++ .emit rooms except order :: q)).acks id = true :=
    (b.acks id).2 ⟨by rw [b.stored]; exact List.mem_append_left _ hw, hn⟩
  unfold polled
  rw [e1, PollRace.run_snoc]
  simp only [PollRace.step, PollRace.other, ha, if_true]

theorem poll_full {p : List PollRace.Ev} {rooms except order : List Nat} {q : List PollRace.Ev} (w : WholePoll p rooms except order q)
    (hall : ∀ id ∈ (polled p rooms except order q).written, id ∈ heardFrom (polled p rooms except order q))
    (h1 : OneValue (polled p rooms except order q)) : Full 1 (started (polled p rooms except order q).hist) := by
  have b := PollRace.book rooms except order w.begins q w.one
  have t := PollRace.told rooms except order w.begins q w.one
  have hws := (poll_written w).2
  have hp : (polled p rooms except order q).pc = .idle := w.ends
  have hlen : (polled p rooms except order q).heard.length = (polled p rooms except order q).stored.length := by
    have h2 : (heardFrom (polled p rooms except order q)).length = (polled p rooms except order q).heard.length := by simp [heardFrom]
    rw [← h2]
    refine Nat.le_antisymm ?_ ?_
    · exact PollRace.nodup_length_le b.heard.1 b.heard.2
    · rw [← hws]
      exact PollRace.nodup_length_le (C119_once p rooms except order q w) hall
  exact PollRace.full t hp hlen h1

/-- Part of C119.  The broadcast is over, and every client it was sent to has answered with one value.  Whenever the callback is called
without error it gets just these answers, one per client.  And if the timer has not fired and no goroutine is half way, it has been called. -/
theorem C119_complete_partial (p : List PollRace.Ev) (rooms except order : List Nat) (q : List PollRace.Ev)
    (w : WholePoll p rooms except order q)
    (hall : ∀ id ∈ (polled p rooms except order q).written, id ∈ heardFrom (polled p rooms except order q))
    (h1 : OneValue (polled p rooms except order q)) :
    (∀ l, .ok l ∈ outcomes (polled p rooms except order q) →
      l.Perm (replies (polled p rooms except order q)) ∧ l.length = (polled p rooms except order q).written.length) ∧
    (.fire ∉ q → NobodyInside (polled p rooms except order q) → outcomes (polled p rooms except order q) ≠ []) := by
  have t := PollRace.told rooms except order w.begins q w.one
  have hws := (poll_written w).2
  have hp : (polled p rooms except order q).pc = .idle := w.ends
  have hf := poll_full w hall h1
  obtain ⟨c1, c2⟩ := C32_interleaved_partial 1 _ hf
  refine ⟨fun l hl => ?_, fun hfire hq => c2 (PollRace.nofire w.begins q w.one hfire) hq⟩
  obtain ⟨d1, d2⟩ := c1 l hl
  rw [t.replies] at d1
  have := t.count
  simp only [hp, or_true, if_true] at this
  exact ⟨d1, by rw [d2, this, hws]⟩

/-- Part of C119.  At every moment: as long as the loop is under way, or a client that the event was sent to has not answered, the callback
is not called without error, if the answers so far have one value each. -/
theorem C119_waits_partial (p : List PollRace.Ev) (rooms except order : List Nat) (q : List PollRace.Ev) (hb : (PollRace.run p).pc = .idle)
    (ho : ∀ r x o, .emit r x o ∉ q) (h1 : OneValue (polled p rooms except order q))
    (hm : (∃ id ∈ (polled p rooms except order q).written, id ∉ heardFrom (polled p rooms except order q)) ∨
      (polled p rooms except order q).cast.pc ≠ .idle) (l : List Val) :
    .ok l ∉ outcomes (polled p rooms except order q) := by
  have b := PollRace.book rooms except order hb q ho
  have t := PollRace.told rooms except order hb q ho
  have hi := PollRace.inStep_run (p ++ .emit rooms except order :: q)
  have hle : (polled p rooms except order q).heard.length ≤ (polled p rooms except order q).stored.length := by
    have h2 : (heardFrom (polled p rooms except order q)).length = (polled p rooms except order q).heard.length := by simp [heardFrom]
    rw [← h2]; exact PollRace.nodup_length_le b.heard.1 b.heard.2
  by_cases hp : (polled p rooms except order q).pc = .read ∨ (polled p rooms except order q).pc = .idle
  · have hid : ∃ id ∈ (polled p rooms except order q).written, id ∉ heardFrom (polled p rooms except order q) := by
      refine hm.resolve_right fun h => h (hi ?_)
      rcases hp with hp | hp
      · exact .inr (.inr hp)
      · exact .inl hp
    obtain ⟨id, hw, hn⟩ := hid
    have hst : id ∈ (polled p rooms except order q).stored := by rw [b.stored]; exact List.mem_append_left _ hw
    have hlt : (polled p rooms except order q).heard.length < (polled p rooms except order q).stored.length := by
      have h3 : (id :: heardFrom (polled p rooms except order q)).length ≤ (polled p rooms except order q).stored.length := by
        refine PollRace.nodup_length_le (List.nodup_cons.2 ⟨hn, b.heard.1⟩) ?_
        intro x hx
        rcases List.mem_cons.1 hx with rfl | hx
        · exact hst
        · exact b.heard.2 x hx
      simp [heardFrom] at h3
      omega
    exact PollRace.not_early t ((polled p rooms except order q).stored.length - (polled p rooms except order q).heard.length) (by omega)
      (fun _ => by omega) h1 l
  · exact PollRace.not_early t 1 (by omega) (fun h => absurd h hp) h1 l

/-- Part of C119.  Whatever other goroutines do, the call returns. -/
theorem C119_returns (h : List PollRace.Ev) (σ : Nat → PollRace.Ev) (fair : AgainAndAgain .adv σ) :
    ∃ n, (PollRace.run (h ++ firstOf σ n)).pc = .idle := by
  obtain ⟨n, hn⟩ := PollRace.poll_ends σ fair (PollRace.run h)
  exact ⟨n, by simpa [PollRace.run] using hn⟩

/-- A statement about all moments can be checked moment by moment. -/
theorem whilePolling_of (p : List PollRace.Ev) (rooms except order : List Nat) (q : List PollRace.Ev) (P : PollRace.St → Prop)
    (h : ∀ n, n < q.length + 1 → P (PollRace.run (p ++ .emit rooms except order :: q.take n))) : WhilePolling p rooms except order q P := by
  intro q₁ q₂ e
  have := h q₁.length (by rw [e]; simp; omega)
  rwa [e, List.take_left] at this

theorem pollBelow_th (n : Nat) (h : List PollRace.Ev) (hb : CastRaceLoop.below n (trace {} h) = true) (k : Nat) (hk : n ≤ k) :
    ((PollRace.run h).cast.tab.th k).2 = .done := by
  rw [PollRace.run_cast]; exact CastRaceLoop.below_run n _ hb k hk

namespace Demo
/-- Sockets 1 and 2 are in the namespace and in room 7; 3 is in the namespace and in room 6. -/
def pollP : List PollRace.Ev := [.connect 1, .connect 2, .connect 3, .room (.call 1 1 (.join [7]))] ++
  List.replicate 6 (.room (.adv 1)) ++ [.room (.call 2 2 (.join [7]))] ++ List.replicate 6 (.room (.adv 2)) ++
  [.room (.call 3 3 (.join [6]))] ++ List.replicate 6 (.room (.adv 3))

/-- Socket 2 answers before the event has been sent to socket 1, and then leaves the room; socket 1 answers when the call has returned. -/
def pollQ : List PollRace.Ev := List.replicate 6 .adv ++ [.answer 2 [.str "b"], .coll 0, .room (.call 2 2 (.leave 7))] ++
  List.replicate 6 (.room (.adv 2)) ++ List.replicate 8 .adv ++ List.replicate 8 (.coll 0) ++ List.replicate 8 (.coll 1) ++
  List.replicate 8 (.coll 2) ++ [.answer 1 [.str "a"]] ++ List.replicate 8 (.coll 3)
end Demo

/-- The hypotheses of `C119_selected_partial`, `C119_untouched_partial` and `C119_complete_partial` are met. -/
theorem demo_poll : WholePoll Demo.pollP [7] [] [] Demo.pollQ ∧
    (UntilPolled Demo.pollP [7] [] [] Demo.pollQ 1 fun s =>
      InRoom s.cast.tab 1 7 ∧ s.cast.reg 1 = true ∧ ∀ x ∈ ([] : List Nat), ¬ NearRoom s.cast.tab 1 x) ∧
    (WhilePolling Demo.pollP [7] [] [] Demo.pollQ fun s => ∀ r ∈ [7], ¬ NearRoom s.cast.tab 3 r) ∧
    (∀ id ∈ (polled Demo.pollP [7] [] [] Demo.pollQ).written, id ∈ heardFrom (polled Demo.pollP [7] [] [] Demo.pollQ)) ∧
    OneValue (polled Demo.pollP [7] [] [] Demo.pollQ) ∧ .fire ∉ Demo.pollQ ∧ NobodyInside (polled Demo.pollP [7] [] [] Demo.pollQ) ∧
    outcomes (polled Demo.pollP [7] [] [] Demo.pollQ) = [.ok [.str "b", .str "a"]] := by
  have hb : ∀ n, n < Demo.pollQ.length + 1 →
      CastRaceLoop.below 4 (trace {} (Demo.pollP ++ .emit [7] [] [] :: Demo.pollQ.take n)) = true := by
    decide
  refine ⟨⟨by decide, by decide, by simp [Demo.pollQ]⟩, whilePolling_of _ _ _ _ _ _ fun n hn _ => ⟨?_, ?_, by simp⟩,
    whilePolling_of _ _ _ _ _ _ fun n hn r hr => ?_, by decide, by unfold OneValue; decide, by decide, by unfold NobodyInside; decide,
    by decide⟩
  · revert n; decide
  · revert n; decide
  · simp at hr
    subst hr
    rintro (h | ⟨k, hk1, hk2⟩)
    · revert n; decide
    · by_cases h3 : 4 ≤ k
      · rw [pollBelow_th 4 _ (hb n hn) k h3] at hk2; cases hk2
      · have key : ∀ n, n < Demo.pollQ.length + 1 → ∀ k, k < 4 →
          7 ∉ joining ((PollRace.run (Demo.pollP ++ .emit [7] [] [] :: Demo.pollQ.take n)).cast.tab.th k).2 := by decide
        exact key n hn k (by omega) hk2

example := demo_poll

/-- Those of `C119_heard` and `C119_waits_partial`, in the middle of the loop. -/
example : (PollRace.run Demo.pollP).pc = .idle ∧ 2 ∈ (polled Demo.pollP [7] [] [] (Demo.pollQ.take 6)).written ∧
    2 ∉ heardFrom (polled Demo.pollP [7] [] [] (Demo.pollQ.take 6)) ∧
    (polled Demo.pollP [7] [] [] (Demo.pollQ.take 6)).cast.pc ≠ .idle ∧ OneValue (polled Demo.pollP [7] [] [] (Demo.pollQ.take 20)) ∧
    heardFrom (polled Demo.pollP [7] [] [] (Demo.pollQ.take 20)) = [2] ∧ 1 ∈ (polled Demo.pollP [7] [] [] (Demo.pollQ.take 20)).written := by
  refine ⟨by decide, by decide, by decide, by decide, by unfold OneValue; decide, by decide, by decide⟩

namespace Demo
/-- Nothing but the call. -/
def pollAlone : List PollRace.Ev := List.replicate 30 .adv
end Demo

/-- Those of `C119_everybody_partial`, and of `C119_untouched_partial` in its other ways. -/
example : WholePoll Demo.pollP [] [] [2, 1] Demo.pollAlone ∧
    (UntilPolled Demo.pollP [] [] [2, 1] Demo.pollAlone 1 fun s =>
      (s.cast.tab.sids 1).isSome = true ∧ s.cast.reg 1 = true ∧ ∀ x ∈ ([] : List Nat), ¬ NearRoom s.cast.tab 1 x) ∧
    (polled Demo.pollP [] [] [2, 1] Demo.pollAlone).written = [2, 1, 3] ∧
    (WhilePolling Demo.pollP [] [6] [2, 1] Demo.pollAlone fun s => InRoom s.cast.tab 3 6) ∧
    (WhilePolling (Demo.pollP ++ [.disconnect 2]) [7] [] [] Demo.pollAlone fun s => s.cast.reg 2 = false) := by
  refine ⟨⟨by decide, by decide, by simp [Demo.pollAlone]⟩, whilePolling_of _ _ _ _ _ _ fun n hn _ => ⟨?_, ?_, by simp⟩,
    by decide, whilePolling_of _ _ _ _ _ _ (by decide), whilePolling_of _ _ _ _ _ _ (by decide)⟩
  · revert n; decide
  · revert n; decide

/-- Those of `C119_alone`. -/
example : WholePoll Demo.pollP [7] [] [] (Demo.pollAlone ++ [.answer 1 [.str "a"]]) ∧ NobodyMoves (Demo.pollAlone ++ [.answer 1 [.str "a"]]) ∧
    Quiet (PollRace.run Demo.pollP).cast.tab := by
  refine ⟨⟨by decide, by decide, by simp [Demo.pollAlone]⟩, by simp [NobodyMoves, Demo.pollAlone], fun k => ?_⟩
  by_cases h : 4 ≤ k
  · exact pollBelow_th 4 _ (by decide) k h
  · have key : ∀ k, k < 4 → ((PollRace.run Demo.pollP).cast.tab.th k).2 = .done := by decide
    exact key k (by omega)

/-- A call that has been made while other goroutines do things returns: the schedule of `C119_returns` may be this one. -/
example : AgainAndAgain PollRace.Ev.adv fun n => if n % 2 = 0 then .coll 0 else .adv :=
  fun n => ⟨2 * n + 1, by omega, by simp⟩

namespace Demo
/-- The broadcast is over, then the two clients answer at the same time: both answers are stored before it is tested whether all are there. -/
def pollBoth : List PollRace.Ev := List.replicate 12 .adv ++ List.replicate 8 (.coll 0) ++ [.adv] ++ List.replicate 8 (.coll 1) ++
  [.answer 1 [.str "a"], .answer 2 [.str "b"], .coll 2, .coll 3] ++ List.replicate 6 (.coll 2) ++ List.replicate 6 (.coll 3)
end Demo

/-- Although every client answers once and with one value, and the timer does not fire, the callback may be called twice. -/
theorem C119_twice_fails :
    ¬ ∀ (p : List PollRace.Ev) (rooms except order : List Nat) (q : List PollRace.Ev), WholePoll p rooms except order q →
      (∀ id ∈ (polled p rooms except order q).written, id ∈ heardFrom (polled p rooms except order q)) →
      OneValue (polled p rooms except order q) → .fire ∉ q → (outcomes (polled p rooms except order q)).length ≤ 1 := by
  intro hall
  exact absurd (hall Demo.pollP [7] [] [] Demo.pollBoth ⟨by decide, by decide, by simp [Demo.pollBoth]⟩ (by decide) (by unfold OneValue; decide)
    (by decide)) (by decide)

end Verif.Props
