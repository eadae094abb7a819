import Verif.Proof.ConnEnd
import Verif.Props.ConnRace
import Verif.Props.Settle

/-! # C77: a connection that has closed leaves nothing in the end -/

namespace Verif.Props
open Verif Verif.Spec Verif.ConnRace

/-- **C77**: if the connection did not close, and nobody disconnected the socket, while it was being connected, and the connection has now
closed and its listeners are being told, then in the end nothing is left of the socket, and the handlers of `disconnect` have been called
if those of `connection` have, provided that no goroutine is forgotten by the scheduler. -/
theorem C77_in_the_end_partial (h : List ConnRace.Ev) (hm : NotMeanwhile h) (closed : (ConnRace.run h).isOpen = false)
    (told : ∃ t ∈ (ConnRace.run h).closers, t.1 = true) (σ : Nat → ConnRace.Ev) (noMore : ∀ n, σ n = .conn ∨ ∃ k, σ n = .adv k)
    (fairConn : AgainAndAgain .conn σ) (fair : ∀ k, AgainAndAgain (.adv k) σ) :
    ∃ n, NothingLeft (ConnRace.run (h ++ firstOf σ n)) ∧
      (Out.connection ∈ (ConnRace.run (h ++ firstOf σ n)).log → Out.disconnect ∈ (ConnRace.run (h ++ firstOf σ n)).log) := by
  have only : ∀ n, ∃ k, σ n = turn k := by
    intro n
    rcases noMore n with h | ⟨k, h⟩
    · exact ⟨0, h⟩
    · exact ⟨k + 1, h⟩
  have mem : ∀ n, ∀ e ∈ firstOf σ n, ∃ k, e = turn k := by
    intro n e he
    simp only [firstOf, List.mem_map] at he
    obtain ⟨i, _, rfl⟩ := he
    exact only i
  obtain ⟨n, hn⟩ := conn_settles σ only (fun k => by cases k with
    | zero => exact fairConn
    | succ k => exact fair k) (ConnRace.run h)
  have e1 : (firstOf σ n).foldl ConnRace.step (ConnRace.run h) = ConnRace.run (h ++ firstOf σ n) := by simp [ConnRace.run]
  obtain ⟨k1, k2⟩ := steps_keep (firstOf σ n) (mem n) (ConnRace.run h)
  rw [e1] at hn k1 k2
  refine ⟨n, C77_nothing_left_partial _ (meanwhile_steps h _ (mem n) hm) ⟨by rw [k1, closed], ?_, ?_, ?_⟩⟩
  · have h0 := hn 0
    simp only [atEnd] at h0
    generalize (ConnRace.run (h ++ firstOf σ n)).conn = c at h0
    cases c <;> simp [connLeft] at h0 ⊢
  · obtain ⟨t, ht, hw⟩ := told
    have : true ∈ (ConnRace.run (h ++ firstOf σ n)).closers.map (·.1) := by
      rw [k2, ← hw]; exact List.mem_map_of_mem ht
    obtain ⟨u, hu, hw'⟩ := List.mem_map.1 this
    exact ⟨u, hu, hw'⟩
  · intro t ht
    obtain ⟨k, hk⟩ := List.getElem?_of_mem ht
    exact hn (k + 1) t hk

/-- The hypotheses are met: the connection closes while the handlers of `connection` are still to be called. -/
example : let h : List ConnRace.Ev := [.pass, .conn, .conn, .conn, .conn, .conn, .conn, .hangup, .onclose, .adv 0]
    (ConnRace.run h).conn = .name ∧ (ConnRace.run h).isOpen = false ∧ (ConnRace.run h).closers = [(true, .check)] ∧
    ((∀ n, (fun n => turn (n - 2 ^ n.log2)) n = .conn ∨ ∃ k, (fun n => turn (n - 2 ^ n.log2)) n = .adv k) ∧
      AgainAndAgain .conn (fun n => turn (n - 2 ^ n.log2)) ∧ ∀ k, AgainAndAgain (.adv k) fun n => turn (n - 2 ^ n.log2)) := by
  refine ⟨by decide, by decide, by decide, fun n => ?_, everyTurn turn 0, fun k => everyTurn turn (k + 1)⟩
  show turn (n - 2 ^ n.log2) = .conn ∨ ∃ k, turn (n - 2 ^ n.log2) = .adv k
  cases n - 2 ^ n.log2 with
  | zero => exact .inl rfl
  | succ k => exact .inr ⟨k, rfl⟩

example : NotMeanwhile [.pass, .conn, .conn, .conn, .conn, .conn, .conn, .hangup, .onclose, .adv 0] :=
  (before_iff (fun s => s.conn ∉ [CPC.store, .flag, .join, .write, .register]) _ _).2 (by decide)

end Verif.Props
