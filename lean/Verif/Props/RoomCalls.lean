import Verif.Proof.RoomCalls

/-! # C48: what one call has done when it returns, whatever others do meanwhile -/

namespace Verif.Props
open Verif Verif.RoomRace Verif.Spec

/-- **C48, partial**: a call of `Join` has put the socket into the room when it returns, in both tables, and it stays there, as long as
from the beginning of the call no call takes the socket out of the room and the room is not deleted.  Everything else may happen
meanwhile, also to this socket, and before. -/
theorem C48_joined_partial (p : List RoomRace.Ev) (k id : Nat) (rs : List Nat) (q : List RoomRace.Ev)
    (w : Returned p k id (.join rs) q) (g : Nat) (hg : g ∈ rs)
    (hd : Throughout p k id (.join rs) q fun s => (∀ j, (s.th j).1 = id → mayLeave g (s.th j).2 = false) ∧
      s.deleted.count g = (RoomRace.run p).deleted.count g) :
    InRoom (RoomRace.run (p ++ .call k id (.join rs) :: q)) id g ∧ HasRoom (RoomRace.run (p ++ .call k id (.join rs) :: q)) id g := by
  have key := through_ind hd (fun s => Entering s k id g)
    (by
      refine .inl ?_
      simp only [step, w.free, if_true, World.upd_same]
      exact ⟨trivial, hg⟩)
    (fun s e wf o h1 h2 h => entering_step wf o e h1.1 (fun hh => by
      have h3 := h1.2; have h4 := h2.2
      rw [hh, List.count_append] at h4
      simp at h4
      omega) h)
  rcases key with ⟨_, h⟩ | h
  · rw [w.back] at h; exact h.elim
  · exact ⟨h.2, h.1⟩

/-- Part of C48.  A call of `Leave` has taken the socket out of the room when it returns, in both tables, and it stays out, as long as
from the beginning of the call no call is making it join the room.  Everything else may happen meanwhile, and before. -/
theorem C48_left (p : List RoomRace.Ev) (k id g : Nat) (q : List RoomRace.Ev) (w : Returned p k id (.leave g) q)
    (hd : Throughout p k id (.leave g) q fun s => ∀ j, (s.th j).1 = id → g ∉ joining (s.th j).2) :
    ¬ InRoom (RoomRace.run (p ++ .call k id (.leave g) :: q)) id g ∧ ¬ HasRoom (RoomRace.run (p ++ .call k id (.leave g) :: q)) id g := by
  have key := through_ind hd (fun s => Leaving s k id g)
    (by
      refine .inl ?_
      simp only [step, w.free, if_true, World.upd_same]
      exact ⟨trivial, rfl⟩)
    (fun s e wf o h1 _ h => leaving_step wf o e h1 h)
  rcases key with ⟨_, h⟩ | h
  · rw [w.back] at h; exact h.elim
  · exact ⟨h.2, h.1⟩

/-- Part of C48.  A call that takes the socket out of all rooms, as when it disconnects, has done so when it returns, if the two tables
agree about the socket before it, and from the beginning of the call nobody else makes a call for this socket.  Other sockets may do
anything meanwhile. -/
theorem C48_cleared (p : List RoomRace.Ev) (k id : Nat) (q : List RoomRace.Ev) (w : Returned p k id .leaveAll q) (g : Nat)
    (ha : InRoom (RoomRace.run p) id g → HasRoom (RoomRace.run p) id g)
    (hd : Throughout p k id .leaveAll q fun s => ∀ j, (s.th j).1 = id → (j ≠ k → (s.th j).2 = .done) ∧ g ∉ joining (s.th j).2) :
    ¬ InRoom (RoomRace.run (p ++ .call k id .leaveAll :: q)) id g ∧ ¬ HasRoom (RoomRace.run (p ++ .call k id .leaveAll :: q)) id g := by
  have key := through_ind hd (fun s => Clearing s k id g)
    (by
      refine .inl ?_
      simp only [step, w.free, if_true, World.upd_same]
      exact ⟨trivial, ha⟩)
    (fun s e wf o h1 _ h => clearing_step wf o e h1 h)
  rcases key with ⟨_, h⟩ | h
  · rw [w.back] at h; exact h.elim
  · exact ⟨h.2, h.1⟩

/-- A statement about all moments can be checked moment by moment. -/
theorem throughout_of (p : List RoomRace.Ev) (k id : Nat) (c : RoomRace.Call) (q : List RoomRace.Ev) (P : RoomRace.St → Prop)
    (h : ∀ n, n < q.length + 1 → P (RoomRace.run (p ++ .call k id c :: q.take n))) : Throughout p k id c q P := by
  intro q₁ q₂ e
  have := h q₁.length (by rw [e]; simp; omega)
  rwa [e, List.take_left] at this

/-- Goroutines from `n` on make no call. -/
def callsBelow (n : Nat) (h : List RoomRace.Ev) : Bool :=
  h.all fun e => match e with
    | .call k _ _ => decide (k < n)
    | .adv _ => true

theorem callsBelow_th (n : Nat) (h : List RoomRace.Ev) (hb : callsBelow n h = true) (k : Nat) (hk : n ≤ k) :
    (RoomRace.run h).th k = (0, .done) := by
  induction h using snocRec with
  | nil => rfl
  | append_singleton h e ih =>
    rw [run_snoc]
    simp only [callsBelow, List.all_append, Bool.and_eq_true] at hb
    have ih := ih hb.1
    cases e with
    | call j i c =>
      have hj : j < n := by simpa using hb.2
      simp only [step]
      split
      · simp only [World.upd_ne _ _ (show k ≠ j by omega)]; exact ih
      · exact ih
    | adv j =>
      simp only [step]
      by_cases e : k = j
      · subst e; rw [advance_th, ih]; rfl
      · rw [advance_th_ne _ e]; exact ih

namespace Demo
/-- While goroutine 0 makes socket 1 join rooms 5 and 6, goroutine 1 makes it leave room 7 and goroutine 2 makes it join room 6; goroutine
3 had made it join room 7 and is half way. -/
def mixP : List RoomRace.Ev := .call 3 1 (.join [7]) :: [.adv 3, .adv 3, .adv 3]
def mixQ : List RoomRace.Ev := [.call 1 1 (.leave 7), .call 2 1 (.join [6])] ++
  (List.replicate 10 [.adv 0, .adv 1, .adv 2, .adv 3]).flatten

theorem mix_below : ∀ n, n < mixQ.length + 1 → callsBelow 4 (mixP ++ .call 0 1 (.join [5, 6]) :: mixQ.take n) = true := by decide
end Demo

/-- The hypotheses of `C48_joined_partial` are met, though other calls about the same socket are under way all the time. -/
example : Returned Demo.mixP 0 1 (.join [5, 6]) Demo.mixQ ∧
    Throughout Demo.mixP 0 1 (.join [5, 6]) Demo.mixQ (fun s => (∀ j, (s.th j).1 = 1 → mayLeave 6 (s.th j).2 = false) ∧
      s.deleted.count 6 = (RoomRace.run Demo.mixP).deleted.count 6) := by
  refine ⟨⟨by decide, by decide⟩, throughout_of _ _ _ _ _ _ fun n hn => ⟨fun j hj => ?_, ?_⟩⟩
  · by_cases h4 : 4 ≤ j
    · rw [callsBelow_th 4 _ (Demo.mix_below n hn) j h4]; rfl
    · have : j < 4 := by omega
      have key : ∀ n, n < Demo.mixQ.length + 1 → ∀ j, j < 4 →
        mayLeave 6 ((RoomRace.run (Demo.mixP ++ .call 0 1 (.join [5, 6]) :: Demo.mixQ.take n)).th j).2 = false := by decide
      exact key n hn j this
  · have key : ∀ n, n < Demo.mixQ.length + 1 →
      (RoomRace.run (Demo.mixP ++ .call 0 1 (.join [5, 6]) :: Demo.mixQ.take n)).deleted.count 6 = (RoomRace.run Demo.mixP).deleted.count 6 := by
      decide
    exact key n hn

namespace Demo
/-- Socket 1 joins room 7; then goroutine 0 makes it leave room 7 while goroutine 1 makes it leave room 7 too and goroutine 2 makes it join
room 8. -/
def outP : List RoomRace.Ev := .call 0 1 (.join [7]) :: List.replicate 6 (.adv 0)
def outQ : List RoomRace.Ev := [.call 1 1 (.leave 7), .call 2 1 (.join [8])] ++ (List.replicate 7 [.adv 0, .adv 1, .adv 2]).flatten
/-- While goroutine 0 makes socket 1 leave all rooms, socket 2 joins room 7. -/
def allQ : List RoomRace.Ev := [.call 1 2 (.join [7])] ++ (List.replicate 7 [.adv 0, .adv 1]).flatten
end Demo

/-- Those of `C48_left`. -/
example : InRoom (RoomRace.run Demo.outP) 1 7 ∧ Returned Demo.outP 0 1 (.leave 7) Demo.outQ ∧
    Throughout Demo.outP 0 1 (.leave 7) Demo.outQ (fun s => ∀ j, (s.th j).1 = 1 → 7 ∉ joining (s.th j).2) := by
  refine ⟨⟨1, by decide, by decide⟩, ⟨by decide, by decide⟩, throughout_of _ _ _ _ _ _ fun n hn j hj => ?_⟩
  by_cases h4 : 3 ≤ j
  · have key : ∀ n, n < Demo.outQ.length + 1 → callsBelow 3 (Demo.outP ++ .call 0 1 (.leave 7) :: Demo.outQ.take n) = true := by decide
    rw [callsBelow_th 3 _ (key n hn) j h4]; simp [joining]
  · have key : ∀ n, n < Demo.outQ.length + 1 → ∀ j, j < 3 →
      7 ∉ joining ((RoomRace.run (Demo.outP ++ .call 0 1 (.leave 7) :: Demo.outQ.take n)).th j).2 := by decide
    exact key n hn j (by omega)

/-- Those of `C48_cleared`. -/
example : InRoom (RoomRace.run Demo.outP) 1 7 ∧ HasRoom (RoomRace.run Demo.outP) 1 7 ∧ Returned Demo.outP 0 1 .leaveAll Demo.allQ ∧
    Throughout Demo.outP 0 1 .leaveAll Demo.allQ
      (fun s => ∀ j, (s.th j).1 = 1 → (j ≠ 0 → (s.th j).2 = .done) ∧ 7 ∉ joining (s.th j).2) := by
  refine ⟨⟨1, by decide, by decide⟩, ⟨0, by decide, by decide⟩, ⟨by decide, by decide⟩, throughout_of _ _ _ _ _ _ fun n hn j hj => ?_⟩
  by_cases h4 : 2 ≤ j
  · have key : ∀ n, n < Demo.allQ.length + 1 → callsBelow 2 (Demo.outP ++ .call 0 1 .leaveAll :: Demo.allQ.take n) = true := by decide
    rw [callsBelow_th 2 _ (key n hn) j h4]; simp [joining]
  · have key : ∀ n, n < Demo.allQ.length + 1 → ∀ j, j < 2 →
      (((RoomRace.run (Demo.outP ++ .call 0 1 .leaveAll :: Demo.allQ.take n)).th j).1 ≠ 1 ∨ j = 0) ∧
      7 ∉ joining ((RoomRace.run (Demo.outP ++ .call 0 1 .leaveAll :: Demo.allQ.take n)).th 0).2 := by decide
    obtain ⟨k1, k2⟩ := key n hn j (by omega)
    rcases k1 with k1 | rfl
    · exact absurd hj k1
    · exact ⟨fun h => absurd rfl h, k2⟩

end Verif.Props
