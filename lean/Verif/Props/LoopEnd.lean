import Verif.Proof.LoopEnd
import Verif.Props.CloseLoop
import Verif.Props.Settle

/-! # C108: a socket that a call is to close is closed in the end -/

namespace Verif.Props
open Verif Verif.Spec Verif.CloseLoop

/-- Partial: for the sockets that are connected (see `C108_missed_fails`).  A socket that a call is to close, and that is connected when the call
begins, is in the end out of the namespace, not connected and able to join no room, for good, and its `disconnect` event has been fired,
whichever other calls close it too, at the same time or later. -/
theorem C108_in_the_end_partial (p : List Ev) (ids : List Nat) (id : Nat) (there : ((run p).sk id).connected = true) (asked : id ∈ ids)
    (σ : Nat → Ev) (fair : ∀ k, AgainAndAgain (.adv k) σ) :
    ∃ n, ∀ m, n ≤ m → id ∈ (afterClose p ids (firstOf σ m)).log ∧ ((afterClose p ids (firstOf σ m)).sk id).inNsp = false ∧
      ((afterClose p ids (firstOf σ m)).sk id).connected = false ∧ ((afterClose p ids (firstOf σ m)).sk id).canJoin = false := by
  obtain ⟨n, hn⟩ := Returns.often _ σ (fair (callNo p)) (7 * ids.length)
  have back := C108_returns p ids (firstOf σ n) (hn n (Nat.le_refl n))
  have gone := C108_gone_partial p ids _ id there asked back
  have hd := (track_run p ids (firstOf σ n) id there asked).1
  have I : Inv (afterClose p ids (firstOf σ n)) id := inv_run _ id
  have hf : ∃ j, Fires j id 3 (afterClose p ids (firstOf σ n)) := by
    rcases I.out hd gone with ⟨c, hc, h⟩ | ⟨_, h⟩
    · obtain ⟨j, hj⟩ := List.getElem?_of_mem hc
      refine ⟨j, .inr ⟨c.1, c.2, hj, ?_⟩⟩
      rcases h with h | h | h
      · exact .inl ⟨h, by omega⟩
      · exact .inr (.inl ⟨h, by omega⟩)
      · exact .inr (.inr ⟨h, by omega⟩)
    · exact ⟨0, .inl h⟩
  obtain ⟨j, hj⟩ := hf
  obtain ⟨n', hn'⟩ := Returns.often _ _ (Acks.again_shift (fair j) n) 3
  refine ⟨n + n', fun m hm => ?_⟩
  obtain ⟨d, rfl⟩ := Nat.exists_eq_add_of_le (Nat.le_trans (Nat.le_add_right n n') hm)
  have h := fires_count j id _ _ 3 hj (hn' d (by omega))
  have e : (firstOf (fun i => σ (n + i)) d).foldl step (afterClose p ids (firstOf σ n)) = afterClose p ids (firstOf σ (n + d)) := by
    rw [Acks.firstOf_add]; simp [afterClose, run]
  rw [e] at h
  obtain ⟨h1, h2, h3⟩ := C108_event (p ++ .close ids :: firstOf σ (n + d)) id h
  exact ⟨h, h2, h1, h3⟩

/-- The hypotheses are met: socket 2 is connected and another call is already closing it. -/
example : ((run [.connect 2, .conn 2, .conn 2, .connect 3, .close [2], .adv 0, .adv 0, .adv 0]).sk 2).connected = true ∧
    ∀ k, AgainAndAgain (.adv k) fun n => Ev.adv (n - 2 ^ n.log2) :=
  ⟨by decide, everyTurn Ev.adv⟩

end Verif.Props
