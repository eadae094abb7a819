import Verif.Proof.KickEnd
import Verif.Props.KickRace

/-! # C117: the sockets that `DisconnectSockets` selects are disconnected in the end -/

namespace Verif.Props
open Verif Verif.Spec Verif.RoomRace Verif.KickRace

theorem kickRun_eq (p : List KickRace.Ev) (r x o : List Nat) (q : List KickRace.Ev) :
    KickRace.run (p ++ .kick r x o :: q) = q.foldl KickRace.step (KickRace.step (KickRace.run p) (.kick r x o)) := by simp [KickRace.run]

/-- The call returns in the end. -/
theorem kick_whole (p : List KickRace.Ev) (rooms except order : List Nat) (begins : (KickRace.run p).idle = true)
    (σ : Nat → KickRace.Ev) (one : ∀ i r x o, σ i ≠ .kick r x o) (fair : AgainAndAgain .adv σ) :
    ∃ n, ∀ m, n ≤ m → WholeKick p rooms except order (firstOf σ m) := by
  obtain ⟨n, hn⟩ := KickRace.kick_ends σ fair (KickRace.step (KickRace.run p) (.kick rooms except order))
  refine ⟨n, fun m hm => ⟨begins, ?_, fun r x o h => ?_⟩⟩
  · obtain ⟨d, rfl⟩ := Nat.exists_eq_add_of_le hm
    have := KickRace.kick_stays (firstOf (fun i => σ (n + i)) d) _
      (fun a b c h => by obtain ⟨i, hi⟩ := Returns.mem_firstOf h; exact one _ a b c hi) hn
    rw [← List.foldl_append, ← Acks.firstOf_add] at this
    rw [kickRun_eq]; exact this
  · obtain ⟨i, hi⟩ := Returns.mem_firstOf h
    exact one i r x o hi

/-- **C117**, partial as `C117_selected_partial` and `C117_disconnected_partial`: under every schedule that goes on with the call, a socket
that is in the namespace and in one of the rooms selected all the time until the call comes to it, and not excepted, and that nobody else has
disconnected before the call announces it, has in the end been sent the packet and seen both events, once each and in that order, and is not in
the namespace, not connected and able to join no room. -/
theorem C117_disconnected_in_the_end_partial (p : List KickRace.Ev) (rooms except order : List Nat) (begins : (KickRace.run p).idle = true)
    (σ : Nat → KickRace.Ev) (one : ∀ i r x o, σ i ≠ .kick r x o) (fair : AgainAndAgain .adv σ) (id r : Nat) (hr : r ∈ rooms)
    (selected : ∀ n, let s := kicked p rooms except order (firstOf σ n)
      id ∉ s.cast.sent → InRoom s.cast.tab id r ∧ s.cast.reg id = true ∧ ∀ x ∈ except, ¬ NearRoom s.cast.tab id x)
    (stays : ∀ n, let s := kicked p rooms except order (firstOf σ n)
      .disconnecting id ∉ s.log → s.connected id = true) :
    ∃ n, ∀ m, n ≤ m → doneTo id (kicked p rooms except order (firstOf σ m)).log = [.packet id, .disconnecting id, .disconnect id] ∧
      Kicked (kicked p rooms except order (firstOf σ m)) id := by
  obtain ⟨n, hn⟩ := kick_whole p rooms except order begins σ one fair
  refine ⟨n, fun m hm => C117_disconnected_partial p rooms except order _ (hn m hm) id
    (C117_selected_partial p rooms except order _ (hn m hm) id r hr fun q₁ q₂ e => ?_) fun q₁ q₂ e => ?_⟩
  · rw [Returns.prefix_firstOf e]; exact selected _
  · rw [Returns.prefix_firstOf e]; exact stays _

/-- The hypotheses are met: socket 1 is in room 7, while socket 3 joins a room and another goroutine disconnects socket 2. -/
example :
    let σ := Returns.thenOn Demo.kickQ .adv
    (KickRace.run Demo.kickP).idle = true ∧ (∀ i r x o, σ i ≠ .kick r x o) ∧ AgainAndAgain .adv σ ∧
    (∀ n, let s := kicked Demo.kickP [7] [] [] (firstOf σ n)
      1 ∉ s.cast.sent → InRoom s.cast.tab 1 7 ∧ s.cast.reg 1 = true ∧ ∀ x ∈ ([] : List Nat), ¬ NearRoom s.cast.tab 1 x) ∧
    ∀ n, let s := kicked Demo.kickP [7] [] [] (firstOf σ n)
      .disconnecting 1 ∉ s.log → s.connected 1 = true := by
  obtain ⟨w, u, v, _⟩ := demo_kick
  refine ⟨w.begins, fun i r x o h => ?_, Returns.thenOn_fair _ _, fun n => ?_, fun n => ?_⟩
  · rcases Returns.thenOn_mem h with h | h
    · cases h
    · exact w.one r x o h
  · rw [kicked, kickRun_eq]
    exact Returns.thenOn_always KickRace.step _ _ .adv (KickRace.kick_rest _ (by rw [← kickRun_eq]; exact w.ends))
      (fun s => 1 ∉ s.cast.sent → InRoom s.cast.tab 1 7 ∧ s.cast.reg 1 = true ∧ ∀ x ∈ ([] : List Nat), ¬ NearRoom s.cast.tab 1 x)
      (fun a b e => by rw [← kickRun_eq]; exact u a b e) n
  · rw [kicked, kickRun_eq]
    exact Returns.thenOn_always KickRace.step _ _ .adv (KickRace.kick_rest _ (by rw [← kickRun_eq]; exact w.ends))
      (fun s => .disconnecting 1 ∉ s.log → s.connected 1 = true)
      (fun a b e => by rw [← kickRun_eq]; exact v a b e) n

end Verif.Props
