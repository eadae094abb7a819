import Verif.Proof.KickRace
import Verif.Props.CastRace

/-! # C117: disconnecting many sockets while other things happen -/

set_option maxRecDepth 4000

namespace Verif.Props
open Verif Verif.Spec Verif.KickRace

/-- Part of C117.  Whatever happens meanwhile, the call comes to no socket twice. -/
theorem C117_once (p : List KickRace.Ev) (rooms except order : List Nat) (q : List KickRace.Ev) (w : WholeKick p rooms except order q) :
    (kicked p rooms except order q).cast.sent.Nodup := by
  have := C74_once _ _ _ _ _ (KickRace.whole_of w)
  unfold sentTo at this
  rwa [← KickRace.whole_at w.begins] at this

/-- Part of C117.  Whatever happens meanwhile, what the call does to a socket is nothing; or the DISCONNECT packet only, because another
goroutine disconnects the socket at that moment; or the packet, `disconnecting` and `disconnect`, each once, in that order. -/
theorem C117_events (p : List KickRace.Ev) (rooms except order : List Nat) (q : List KickRace.Ev) (w : WholeKick p rooms except order q)
    (id : Nat) :
    doneTo id (kicked p rooms except order q).log = [] ∨ doneTo id (kicked p rooms except order q).log = [.packet id] ∨
      doneTo id (kicked p rooms except order q).log = [.packet id, .disconnecting id, .disconnect id] := by
  have hp := ((KickRace.idle_iff _).1 w.ends).2.1
  exact (KickRace.told_run w.begins q w.one id).after fun st h => by rw [hp] at h; cases h

theorem kick_until {p : List KickRace.Ev} {rooms except order : List Nat} {q : List KickRace.Ev}
    (w : WholeKick p rooms except order q) (id : Nat) {P : RoomRace.St → (Nat → Bool) → Prop}
    (h : WhileKicking p rooms except order q fun s => id ∉ s.cast.sent → P s.cast.tab s.cast.reg) :
    UntilReached (trace {} p) rooms except order (trace (KickRace.run (p ++ [.kick rooms except order])) q) id P := by
  intro t₁ t₂ ht
  obtain ⟨q₁, q₂, e1, e2⟩ := KickRace.trace_prefix q _ t₁ t₂ ht
  have := h q₁ q₂ e1
  simp only [kicked, KickRace.whole_at w.begins, e2] at this
  exact this

theorem kick_meanwhile {p : List KickRace.Ev} {rooms except order : List Nat} {q : List KickRace.Ev}
    (w : WholeKick p rooms except order q) {P : RoomRace.St → (Nat → Bool) → Prop}
    (h : WhileKicking p rooms except order q fun s => P s.cast.tab s.cast.reg) :
    Meanwhile (trace {} p) rooms except order (trace (KickRace.run (p ++ [.kick rooms except order])) q) P := by
  intro t₁ t₂ ht
  obtain ⟨q₁, q₂, e1, e2⟩ := KickRace.trace_prefix q _ t₁ t₂ ht
  have := h q₁ q₂ e1
  simp only [kicked, KickRace.whole_at w.begins, e2] at this
  exact this

/-- Part of C117.  Whatever happens meanwhile, the call comes to a socket that, until it does, is in the namespace and in one of the rooms
selected all the time, and at no time in an excepted room or about to join one. -/
theorem C117_selected_partial (p : List KickRace.Ev) (rooms except order : List Nat) (q : List KickRace.Ev)
    (w : WholeKick p rooms except order q) (id r : Nat) (hr : r ∈ rooms)
    (h : WhileKicking p rooms except order q fun s => id ∉ s.cast.sent →
      InRoom s.cast.tab id r ∧ s.cast.reg id = true ∧ ∀ x ∈ except, ¬ NearRoom s.cast.tab id x) :
    CameTo (kicked p rooms except order q) id := by
  have := C74_reached_partial _ rooms except order _ (KickRace.whole_of w) id r hr (kick_until w id h)
  unfold sentTo at this
  rw [← KickRace.whole_at w.begins] at this
  exact List.count_pos_iff.1 (by unfold kicked; rw [this]; exact Nat.one_pos)

/-- Part of C117.  The same for a call for everybody. -/
theorem C117_everybody_partial (p : List KickRace.Ev) (except order : List Nat) (q : List KickRace.Ev)
    (w : WholeKick p [] except order q) (id : Nat)
    (h : WhileKicking p [] except order q fun s => id ∉ s.cast.sent →
      (s.cast.tab.sids id).isSome = true ∧ s.cast.reg id = true ∧ ∀ x ∈ except, ¬ NearRoom s.cast.tab id x) :
    CameTo (kicked p [] except order q) id := by
  have := C74_all_partial _ except order _ (KickRace.whole_of w) id
    (kick_until w id (P := fun s reg => (s.sids id).isSome = true ∧ reg id = true ∧ ∀ x ∈ except, ¬ NearRoom s id x) h)
  unfold sentTo at this
  rw [← KickRace.whole_at w.begins] at this
  exact List.count_pos_iff.1 (by unfold kicked; rw [this]; exact Nat.one_pos)

/-- Part of C117.  Whatever happens meanwhile, the call does nothing to a socket that at no time is in one of the rooms selected or about
to join one; nor to one that is in an excepted room all the time; nor to one that is not in the namespace at any time. -/
theorem C117_untouched_partial (p : List KickRace.Ev) (rooms except order : List Nat) (q : List KickRace.Ev)
    (w : WholeKick p rooms except order q) (id : Nat)
    (h : (rooms ≠ [] ∧ WhileKicking p rooms except order q fun s => ∀ r ∈ rooms, ¬ NearRoom s.cast.tab id r) ∨
      (∃ x ∈ except, WhileKicking p rooms except order q fun s => InRoom s.cast.tab id x) ∨
      (WhileKicking p rooms except order q fun s => s.cast.reg id = false)) :
    doneTo id (kicked p rooms except order q).log = [] := by
  refine (KickRace.told_run w.begins q w.one id).before ?_
  rw [KickRace.whole_at w.begins]
  rcases h with ⟨hr, h⟩ | ⟨x, hx, h⟩ | h
  · exact C74_elsewhere_partial _ rooms except order _ (KickRace.whole_of w) hr id
      (kick_meanwhile w (P := fun s _ => ∀ r ∈ rooms, ¬ NearRoom s id r) h)
  · exact C74_excepted_partial _ rooms except order _ (KickRace.whole_of w) id x hx (kick_meanwhile w (P := fun s _ => InRoom s id x) h)
  · exact C74_absent _ rooms except order _ (KickRace.whole_of w) id (kick_meanwhile w (P := fun _ reg => reg id = false) h)

/-- Part of C117.  A socket the call came to, that nobody else had disconnected before the call announced it, has been sent the DISCONNECT
packet and seen `disconnecting` and `disconnect`, once each; when the call returns it is not in the namespace, not connected, and can join
no room. -/
theorem C117_disconnected_partial (p : List KickRace.Ev) (rooms except order : List Nat) (q : List KickRace.Ev)
    (w : WholeKick p rooms except order q) (id : Nat) (hc : CameTo (kicked p rooms except order q) id)
    (h : WhileKicking p rooms except order q fun s => .disconnecting id ∉ s.log → s.connected id = true) :
    doneTo id (kicked p rooms except order q).log = [.packet id, .disconnecting id, .disconnect id] ∧
      Kicked (kicked p rooms except order q) id := by
  have hp := ((KickRace.idle_iff _).1 w.begins).2.1
  have key := KickRace.while_ind w.one h (KickRace.Fate id) ?_ fun s e _ _ he h1 _ hf => KickRace.fate_step e he h1 hf
  · exact key.done hc fun st h => by rw [((KickRace.idle_iff _).1 w.ends).2.1] at h; cases h
  · have ht := KickRace.told_run (rooms := rooms) (except := except) (order := order) w.begins [] (by simp) id
    have hcon := h [] q rfl
    simp only [kicked] at hcon
    rw [KickRace.run_snoc] at ht hcon
    rw [KickRace.kick_start w.begins] at ht hcon ⊢
    refine ⟨ht, KickRace.finished_run p id (hcon (by simp)), ?_, ?_⟩
    · intro st h; simp only [hp] at h; cases h
    · intro hm; cases hm

/-- Part of C117.  The call does nothing to a socket that is not connected at any time during the call. -/
theorem C117_already (p : List KickRace.Ev) (rooms except order : List Nat) (q : List KickRace.Ev)
    (w : WholeKick p rooms except order q) (id : Nat) (h : WhileKicking p rooms except order q fun s => s.connected id = false) :
    doneTo id (kicked p rooms except order q).log = [] :=
  (KickRace.apart_run w.begins q w.one true id fun q₁ q₂ e _ => h q₁ q₂ e).log.resolve_right fun hb => by cases hb.1

/-- Part of C117.  A socket that is no longer connected when the call has sent it the packet, because another goroutine has disconnected
it, sees no event from this call. -/
theorem C117_overtaken (p : List KickRace.Ev) (rooms except order : List Nat) (q : List KickRace.Ev)
    (w : WholeKick p rooms except order q) (id : Nat)
    (h : WhileKicking p rooms except order q fun s => .packet id ∈ s.log → s.connected id = false) :
    .disconnecting id ∉ (kicked p rooms except order q).log ∧ .disconnect id ∉ (kicked p rooms except order q).log := by
  have key := (KickRace.apart_run w.begins q w.one false id fun q₁ q₂ e hm => h q₁ q₂ e (hm.resolve_left (by simp))).log
  have h1 : ∀ o, o = .disconnecting id ∨ o = .disconnect id → o ∉ (kicked p rooms except order q).log := by
    intro o ho hm
    have : o ∈ doneTo id (kicked p rooms except order q).log := by rcases ho with rfl | rfl <;> simpa [doneTo] using hm
    unfold kicked at this
    rcases key with k | ⟨_, k⟩ <;> rw [k] at this <;> rcases ho with rfl | rfl <;> simp at this
  exact ⟨h1 _ (.inl rfl), h1 _ (.inr rfl)⟩

/-- Part of C117.  A socket the call has disconnected is in no room when the call returns, in both tables, if the tables agree about it
when the call begins and no other call of the adapter is for this socket meanwhile. -/
theorem C117_cleared_partial (p : List KickRace.Ev) (rooms except order : List Nat) (q : List KickRace.Ev)
    (w : WholeKick p rooms except order q) (id g : Nat) (hc : .disconnect id ∈ (kicked p rooms except order q).log)
    (hb : InRoom (KickRace.run p).cast.tab id g → HasRoom (KickRace.run p).cast.tab id g)
    (h : WhileKicking p rooms except order q fun s => ∀ j, j ≠ 0 → (s.cast.tab.th j).1 = id → (s.cast.tab.th j).2 = .done) :
    ¬ InRoom (kicked p rooms except order q).cast.tab id g ∧ ¬ HasRoom (kicked p rooms except order q).cast.tab id g := by
  obtain ⟨_, hp, hth⟩ := (KickRace.idle_iff _).1 w.begins
  obtain ⟨_, hp', hth'⟩ := (KickRace.idle_iff _).1 w.ends
  have key := KickRace.while_ind w.one h (KickRace.Clear id g) ?_ fun s e wf o he h1 _ hf => KickRace.clear_step wf o e he h1 hf
  · rcases key.rest with ⟨_, h1, _⟩ | ⟨_, h1⟩ | h1
    · refine absurd ?_ (h1.resolve_right (by rw [hp']; simp))
      have hm : .disconnect id ∈ doneTo id (kicked p rooms except order q).log := by simpa [doneTo] using hc
      rw [KickRace.mem_doneTo]
      rcases C117_events p rooms except order q w id with h2 | h2 | h2 <;> rw [h2] at hm
      · cases hm
      · simp at hm
      · unfold kicked at h2; rw [h2]; simp
    · rw [hth'] at h1; exact h1.elim
    · exact ⟨h1.2, h1.1⟩
  · rw [KickRace.kick_start w.begins]
    refine ⟨fun hn => absurd hth hn, .inl ⟨hb, .inl (by simp), ?_⟩⟩
    simp [hp]

/-- Part of C117.  Whatever other goroutines do, the call returns. -/
theorem C117_returns (h : List KickRace.Ev) (σ : Nat → KickRace.Ev) (fair : AgainAndAgain .adv σ) :
    ∃ n, (KickRace.run (h ++ firstOf σ n)).idle = true := by
  obtain ⟨n, hn⟩ := KickRace.kick_ends σ fair (KickRace.run h)
  exact ⟨n, by simpa [KickRace.run] using hn⟩

/-- A statement about all moments can be checked moment by moment. -/
theorem whileKicking_of (p : List KickRace.Ev) (rooms except order : List Nat) (q : List KickRace.Ev) (P : KickRace.St → Prop)
    (h : ∀ n, n < q.length + 1 → P (KickRace.run (p ++ .kick rooms except order :: q.take n))) : WhileKicking p rooms except order q P := by
  intro q₁ q₂ e
  have := h q₁.length (by rw [e]; simp; omega)
  rwa [e, List.take_left] at this

theorem kickBelow_th (n : Nat) (h : List KickRace.Ev) (hb : CastRaceLoop.below n (trace {} h) = true) (k : Nat) (hk : n ≤ k) :
    ((KickRace.run h).cast.tab.th k).2 = .done := by
  rw [KickRace.run_cast]; exact CastRaceLoop.below_run n _ hb k hk

namespace Demo
/-- Sockets 1, 2 and 3 are connected; 1 and 2 are in room 7. -/
def kickP : List KickRace.Ev := [.store 1, .flag 1, .store 2, .flag 2, .store 3, .flag 3, .room (.call 1 1 (.join [7]))] ++
  List.replicate 6 (.room (.adv 1)) ++ [.room (.call 2 2 (.join [7]))] ++ List.replicate 6 (.room (.adv 2))

/-- While the call is under way, socket 3 joins room 6, and another goroutine disconnects socket 2. -/
def kickQ : List KickRace.Ev := [.adv, .adv, .room (.call 3 3 (.join [6])), .room (.adv 3), .room (.adv 3)] ++
  [.adv, .adv, .adv, .room (.call 2 2 .leaveAll)] ++ List.replicate 8 (.room (.adv 2)) ++ [.remove 2, .forbid 2, .unflag 2] ++
  List.replicate 30 .adv
end Demo

/-- The hypotheses of `C117_selected_partial`, `C117_disconnected_partial` and `C117_cleared_partial` are met, and those of
`C117_untouched_partial`; socket 2, which is disconnected by another goroutine at the same time, is sent the packet only. -/
theorem demo_kick : WholeKick Demo.kickP [7] [] [] Demo.kickQ ∧
    (WhileKicking Demo.kickP [7] [] [] Demo.kickQ fun s => 1 ∉ s.cast.sent →
      InRoom s.cast.tab 1 7 ∧ s.cast.reg 1 = true ∧ ∀ x ∈ ([] : List Nat), ¬ NearRoom s.cast.tab 1 x) ∧
    (WhileKicking Demo.kickP [7] [] [] Demo.kickQ fun s => .disconnecting 1 ∉ s.log → s.connected 1 = true) ∧
    (WhileKicking Demo.kickP [7] [] [] Demo.kickQ fun s => ∀ j, j ≠ 0 → (s.cast.tab.th j).1 = 1 → (s.cast.tab.th j).2 = .done) ∧
    HasRoom (KickRace.run Demo.kickP).cast.tab 1 7 ∧
    (kicked Demo.kickP [7] [] [] Demo.kickQ).log = [.packet 2, .packet 1, .disconnecting 1, .disconnect 1] := by
  have hb : ∀ n, n < Demo.kickQ.length + 1 →
      CastRaceLoop.below 4 (trace {} (Demo.kickP ++ .kick [7] [] [] :: Demo.kickQ.take n)) = true := by
    decide
  refine ⟨⟨by decide, by decide, by simp [Demo.kickQ]⟩, whileKicking_of _ _ _ _ _ _ fun n hn hns => ⟨?_, ?_, by simp⟩,
    whileKicking_of _ _ _ _ _ _ (by decide), whileKicking_of _ _ _ _ _ _ fun n hn j h0 hj => ?_, ⟨0, by decide, by decide⟩, by decide⟩
  · revert n; decide
  · revert n; decide
  · by_cases h3 : 4 ≤ j
    · exact kickBelow_th 4 _ (hb n hn) j h3
    · have key : ∀ n, n < Demo.kickQ.length + 1 → ∀ j, j < 4 → j ≠ 0 →
        ((KickRace.run (Demo.kickP ++ .kick [7] [] [] :: Demo.kickQ.take n)).cast.tab.th j).1 = 1 →
        ((KickRace.run (Demo.kickP ++ .kick [7] [] [] :: Demo.kickQ.take n)).cast.tab.th j).2 = .done := by decide
      exact key n hn j (by omega) h0 hj

example := demo_kick

/-- Those of `C117_everybody_partial`, and of `C117_untouched_partial` in each of its three ways. -/
example : WholeKick Demo.kickP [] [] [2, 1] (List.replicate 60 .adv) ∧
    (WhileKicking Demo.kickP [] [] [2, 1] (List.replicate 60 .adv) fun s => 1 ∉ s.cast.sent →
      (s.cast.tab.sids 1).isSome = true ∧ s.cast.reg 1 = true ∧ ∀ x ∈ ([] : List Nat), ¬ NearRoom s.cast.tab 1 x) ∧
    (kicked Demo.kickP [] [] [2, 1] (List.replicate 60 .adv)).log =
      [.packet 2, .disconnecting 2, .disconnect 2, .packet 1, .disconnecting 1, .disconnect 1] ∧
    (WhileKicking (Demo.kickP ++ [.remove 2]) [7] [] [] (List.replicate 60 .adv) fun s => s.cast.reg 2 = false) ∧
    (WhileKicking Demo.kickP [] [7] [2, 1] (List.replicate 60 .adv) fun s => InRoom s.cast.tab 2 7) ∧
    (WhileKicking Demo.kickP [7] [] [] (List.replicate 60 .adv) fun s => ∀ r ∈ [7], ¬ NearRoom s.cast.tab 3 r) := by
  refine ⟨⟨by decide, by decide, by simp⟩, whileKicking_of _ _ _ _ _ _ fun n hn _ => ⟨?_, ?_, by simp⟩, by decide,
    whileKicking_of _ _ _ _ _ _ (by decide), whileKicking_of _ _ _ _ _ _ (by decide), whileKicking_of _ _ _ _ _ _ fun n hn r hr => ?_⟩
  · revert n; decide
  · revert n; decide
  · simp at hr
    subst hr
    have hb : ∀ n, n < (List.replicate 60 KickRace.Ev.adv).length + 1 →
        CastRaceLoop.below 4 (trace {} (Demo.kickP ++ .kick [7] [] [] :: (List.replicate 60 .adv).take n)) = true := by
      decide
    rintro (h | ⟨k, hk1, hk2⟩)
    · revert n; decide
    · by_cases h3 : 4 ≤ k
      · rw [kickBelow_th 4 _ (hb n hn) k h3] at hk2; cases hk2
      · have key : ∀ n, n < (List.replicate 60 KickRace.Ev.adv).length + 1 → ∀ k, k < 4 →
          7 ∉ joining ((KickRace.run (Demo.kickP ++ .kick [7] [] [] :: (List.replicate 60 .adv).take n)).cast.tab.th k).2 := by decide
        exact key n hn k (by omega) hk2

namespace Demo
/-- Another goroutine has marked socket 2 as not connected, and is about to remove it from the namespace. -/
def kickOff : List KickRace.Ev := Demo.kickP ++ [.unflag 2]

/-- Another goroutine marks socket 2 as not connected just before the packet is written. -/
def kickOverAt : List KickRace.Ev := List.replicate 5 .adv ++ [.unflag 2] ++ List.replicate 30 .adv
end Demo

/-- The hypothesis of `C117_already` is met by socket 2, which is in room 7 and in the namespace; that of `C117_overtaken` by socket 2 if it
is marked as not connected between the two tests. -/
example : WholeKick Demo.kickOff [7] [] [] (List.replicate 60 .adv) ∧
    (WhileKicking Demo.kickOff [7] [] [] (List.replicate 60 .adv) fun s => s.connected 2 = false) ∧
    CameTo (kicked Demo.kickOff [7] [] [] (List.replicate 60 .adv)) 2 ∧
    WholeKick Demo.kickP [7] [] [] Demo.kickOverAt ∧
    (WhileKicking Demo.kickP [7] [] [] Demo.kickOverAt fun s => .packet 2 ∈ s.log → s.connected 2 = false) ∧
    (kicked Demo.kickP [7] [] [] Demo.kickOverAt).log = [.packet 2, .packet 1, .disconnecting 1, .disconnect 1] :=
  ⟨⟨by decide, by decide, by simp⟩, whileKicking_of _ _ _ _ _ _ (by decide), by unfold CameTo; decide,
    ⟨by decide, by decide, by simp [Demo.kickOverAt]⟩, whileKicking_of _ _ _ _ _ _ (by decide), by decide⟩

/-- A call that has been made while other goroutines do things returns: the schedule of `C117_returns` may be this one. -/
example : AgainAndAgain KickRace.Ev.adv fun n => if n % 2 = 0 then .room (.adv 1) else .adv :=
  fun n => ⟨2 * n + 1, by omega, by simp⟩

namespace Demo
/-- Socket 1 is in the namespace; in a middleware it has joined room 7; it is not marked as connected yet. -/
def midKick : List KickRace.Ev := [.room (.call 1 1 (.join [7]))] ++ List.replicate 6 (.room (.adv 1)) ++ [.store 1]
end Demo

/-- A socket that is in the namespace and in the room all the time may stay connected: the call comes to it before it is marked as
connected, and does nothing. -/
theorem C117_early_fails :
    ¬ ∀ (p : List KickRace.Ev) (rooms except order : List Nat) (q : List KickRace.Ev) (id r : Nat), WholeKick p rooms except order q →
      r ∈ rooms →
      (WhileKicking p rooms except order q fun s => id ∉ s.cast.sent →
        InRoom s.cast.tab id r ∧ s.cast.reg id = true ∧ ∀ x ∈ except, ¬ NearRoom s.cast.tab id x) →
      (kicked p rooms except order q).connected id = false := by
  intro hall
  have := hall Demo.midKick [7] [] [] (List.replicate 20 .adv ++ [.flag 1]) 1 7 ⟨by decide, by decide, by simp⟩ (by simp)
    (whileKicking_of _ _ _ _ _ _ fun n hn _ => ⟨by revert n; decide, by revert n; decide, by simp⟩)
  revert this
  decide

namespace Demo
/-- Socket 1 has begun to join room 9 when it is disconnected; it goes on when the call has made it leave all rooms. -/
def kickGhost : List KickRace.Ev := [.room (.call 1 1 (.join [9])), .room (.adv 1)] ++ List.replicate 60 .adv ++ List.replicate 6 (.room (.adv 1))
end Demo

/-- Without the hypothesis that no other call is for the socket, `C117_cleared_partial` fails: the socket is disconnected, and in a room
for good. -/
theorem C117_cleared_fails :
    ¬ ∀ (p : List KickRace.Ev) (rooms except order : List Nat) (q : List KickRace.Ev) (id g : Nat), WholeKick p rooms except order q →
      .disconnect id ∈ (kicked p rooms except order q).log →
      (InRoom (KickRace.run p).cast.tab id g → HasRoom (KickRace.run p).cast.tab id g) →
      ¬ InRoom (kicked p rooms except order q).cast.tab id g := by
  intro hall
  refine hall Demo.kickP [7] [] [] Demo.kickGhost 1 9 ⟨by decide, by decide, by simp [Demo.kickGhost]⟩ (by decide) ?_ ?_
  · rintro ⟨t, h, _⟩; revert h; simp [show (KickRace.run Demo.kickP).cast.tab.rooms 9 = none by decide]
  · cases h : (kicked Demo.kickP [7] [] [] Demo.kickGhost).cast.tab.rooms 9 with
    | none => revert h; decide
    | some t =>
      refine ⟨t, h, ?_⟩
      have : (match (kicked Demo.kickP [7] [] [] Demo.kickGhost).cast.tab.rooms 9 with
        | none => false | some t => decide (1 ∈ (kicked Demo.kickP [7] [] [] Demo.kickGhost).cast.tab.rset t)) = true := by decide
      rw [h] at this
      simpa using this

end Verif.Props
