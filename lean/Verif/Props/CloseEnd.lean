import Verif.Proof.CloseEnd
import Verif.Props.CloseRace
import Verif.Props.Settle

/-! # C49: a socket that is closed is disconnected in the end -/

namespace Verif.Props
open Verif Verif.Spec

/-- **C49**, every interleaving: once somebody has begun to close a socket it is disconnected in the end, for good, and `disconnect` has been
emitted, however many others close it at the same time or later, provided that no goroutine is forgotten by the scheduler. -/
theorem C49_in_the_end (rooms : List Nat) (h : List CloseRace.Ev) (begun : ∃ b, .close b ∈ h) (σ : Nat → CloseRace.Ev)
    (fair : ∀ k, AgainAndAgain (.adv k) σ) :
    ∃ n, ∀ m, n ≤ m → (CloseRace.run rooms (h ++ firstOf σ m)).connected = false ∧ 1 ≤ disconnects (CloseRace.run rooms (h ++ firstOf σ m)) := by
  have e1 : ∀ m, CloseRace.run rooms (h ++ firstOf σ m) = (firstOf σ m).foldl CloseRace.step (CloseRace.run rooms h) := by
    intro m; simp [CloseRace.run]
  have hl : 0 < (CloseRace.run rooms h).ths.length := by
    obtain ⟨b, hb⟩ := begun
    obtain ⟨p, q, rfl⟩ := List.append_of_mem hb
    have : CloseRace.run rooms (p ++ .close b :: q) = q.foldl CloseRace.step (CloseRace.step (CloseRace.run rooms p) (.close b)) := by
      simp [CloseRace.run]
    rw [this]
    refine Nat.lt_of_lt_of_le ?_ (CloseRace.closed_run q _).2.2
    simp [CloseRace.step]
  obtain ⟨n, t, h1, h2⟩ := CloseRace.call_ends σ 0 (fair 0) _ hl
  have i := CloseRace.told_run rooms (h ++ firstOf σ n)
  rw [← e1] at h1
  have hc := i.past t (List.mem_of_getElem? h1) (by rw [h2]; rfl)
  have fin : ∀ d, 1 ≤ disconnects (CloseRace.run rooms (h ++ firstOf σ (n + d))) →
      ∃ n, ∀ m, n ≤ m → (CloseRace.run rooms (h ++ firstOf σ m)).connected = false ∧ 1 ≤ disconnects (CloseRace.run rooms (h ++ firstOf σ m)) := by
    intro d hd
    refine ⟨n + d, fun m hm => ?_⟩
    obtain ⟨x, rfl⟩ := Nat.exists_eq_add_of_le hm
    have e2 : ∀ a b, CloseRace.run rooms (h ++ firstOf σ (a + b)) =
        (firstOf (fun i => σ (a + i)) b).foldl CloseRace.step (CloseRace.run rooms (h ++ firstOf σ a)) := by
      intro a b; rw [Acks.firstOf_add]; simp [CloseRace.run]
    refine ⟨?_, ?_⟩
    · rw [Nat.add_assoc, e2 n (d + x)]
      exact (CloseRace.closed_run _ _).1 hc
    · rw [e2 (n + d) x]
      exact Nat.le_trans hd (CloseRace.closed_run _ _).2.1
  rcases i.fired hc with h3 | h3
  · exact fin 0 h3
  · obtain ⟨d, hd⟩ := CloseRace.fires (fun i => σ (n + i)) (fun k => Acks.again_shift (fair k) n) _ h3
    refine fin d ?_
    rw [Acks.firstOf_add, ← List.append_assoc]
    have : ∀ q, CloseRace.run rooms (h ++ firstOf σ n ++ q) = q.foldl CloseRace.step (CloseRace.run rooms (h ++ firstOf σ n)) := by
      intro q; simp [CloseRace.run]
    rw [this]
    exact hd

/-- The hypotheses are met by two calls at the same time, and others that never cease to come. -/
example : (∃ b, CloseRace.Ev.close b ∈ [CloseRace.Ev.close true, .adv 0, .close false, .adv 1]) ∧
    ∀ k, AgainAndAgain (.adv k) fun n => (fun k => CloseRace.Ev.adv k) (n - 2 ^ n.log2) := ⟨⟨true, by simp⟩, everyTurn _⟩

end Verif.Props
