import Verif.Proof.CloseLoop

/-! # C108: closing many sockets while sockets come and go -/

namespace Verif.Props
open Verif Verif.Spec Verif.CloseLoop

/-- Partial: for the sockets that are connected (see `C108_missed_fails`).  When a call that closes sockets has returned, those of them
that were connected when it began are not in the namespace, whatever else happened before, meanwhile and since. -/
theorem C108_gone_partial (p : List Ev) (ids : List Nat) (q : List Ev) (id : Nat)
    (there : ((run p).sk id).connected = true) (asked : id ∈ ids)
    (back : cameBack (afterClose p ids q) (callNo p)) :
    ((afterClose p ids q).sk id).inNsp = false := by
  obtain ⟨_, todo, pc, hk, h⟩ := track_run p ids q id there asked
  rw [cameBack, hk] at back
  cases back
  rcases h with h | h | h | h | h
  · exact h
  · cases h
  all_goals cases h

/-- Partial likewise.  If moreover no other call is just closing it, the socket is not connected, can join no room, and its `disconnect`
event has been fired. -/
theorem C108_closed_partial (p : List Ev) (ids : List Nat) (q : List Ev) (id : Nat)
    (there : ((run p).sk id).connected = true) (asked : id ∈ ids)
    (back : cameBack (afterClose p ids q) (callNo p)) (alone : Undisturbed (afterClose p ids q) id) :
    ((afterClose p ids q).sk id).connected = false ∧ ((afterClose p ids q).sk id).canJoin = false ∧ id ∈ (afterClose p ids q).log := by
  have hd := (track_run p ids q id there asked).1
  have I : Inv (afterClose p ids q) id := inv_run _ id
  rcases I.out hd (C108_gone_partial p ids q id there asked back) with ⟨c, hc, h⟩ | ⟨h1, h2⟩
  · have := alone c hc
    rcases h with h | h | h <;> simp [h, atWork] at this
  · exact ⟨h1, (I.there hd h1).2, h2⟩

/-- Partial likewise.  A call that closes all the sockets of the namespace: whoever was connected is out when it has returned. -/
theorem C108_everybody_partial (p : List Ev) (ids : List Nat) (q : List Ev)
    (all : ∀ id, ((run p).sk id).inNsp = true → id ∈ ids)
    (back : cameBack (afterClose p ids q) (callNo p)) (id : Nat) (there : ((run p).sk id).connected = true) :
    ((afterClose p ids q).sk id).inNsp = false := by
  by_cases hn : ((run p).sk id).inNsp = true
  · exact C108_gone_partial p ids q id there (all id hn) back
  · have I := inv_run p id
    have hd : ((run p).sk id).conn = .done := by
      by_cases h : ((run p).sk id).conn = .done
      · exact h
      · have := (I.early h).1; rw [there] at this; cases this
    have key : ∀ q, ((afterClose p ids q).sk id).conn = .done ∧ ((afterClose p ids q).sk id).inNsp = false := by
      intro q
      induction q using snocRec with
      | nil => simp only [afterClose, run_snoc]; exact ⟨hd, (by simpa using hn : ((run p).sk id).inNsp = false)⟩
      | append_singleton q e ih =>
        have : afterClose p ids (q ++ [e]) = step (afterClose p ids q) e := by simp [afterClose, run]
        rw [this]
        have := sk_done _ e id ih.1
        exact ⟨this.1, this.2 ih.2⟩
    exact (key q).2

/-- A socket whose `disconnect` event has been fired is not connected, not in the namespace, and can join no room: from then on. -/
theorem C108_event (h : List Ev) (id : Nat) (fired : id ∈ (run h).log) :
    ((run h).sk id).connected = false ∧ ((run h).sk id).inNsp = false ∧ ((run h).sk id).canJoin = false := by
  have I := inv_run h id
  have hd : ((run h).sk id).conn = .done := by
    by_cases hd : ((run h).sk id).conn = .done
    · exact hd
    · exact absurd fired (I.early hd).2.1
  have hc := I.log fired
  exact ⟨hc, I.there hd hc⟩

/-- A socket that no call was to close is, once it has been connected, in the namespace, connected and able to join, and no `disconnect`
event has been fired for it. -/
theorem C108_spared (h : List Ev) (id : Nat) (nobody : ∀ ids, .close ids ∈ h → id ∉ ids)
    (connected : ((run h).sk id).conn = .done) :
    ((run h).sk id).inNsp = true ∧ ((run h).sk id).connected = true ∧ ((run h).sk id).canJoin = true ∧ id ∉ (run h).log := by
  have S := spared_run h id nobody
  exact ⟨(S.done connected).2, (S.done connected).1, S.join, S.log⟩

/-- A call returns: after seven steps of its own for each socket, at most, however many sockets are connected and whatever others do. -/
theorem C108_returns (p : List Ev) (ids : List Nat) (q : List Ev) (steps : 7 * ids.length ≤ q.count (.adv (callNo p))) :
    cameBack (afterClose p ids q) (callNo p) := by
  obtain ⟨c, hc, hl⟩ := left_run p ids q
  rw [cameBack, hc, left_zero c (by omega)]

/-- The code fails the full property: a socket that is in the namespace but not yet marked as connected when the call comes to it is
passed over; it is connected after the call, and stays so. -/
theorem C108_missed_fails : ∃ p ids q id,
    ((run p).sk id).inNsp = true ∧ id ∈ ids ∧ cameBack (afterClose p ids q) (callNo p) ∧ Undisturbed (afterClose p ids q) id ∧
    ((afterClose p ids q).sk id).inNsp = true ∧ ((afterClose p ids q).sk id).connected = true ∧
    ((afterClose p ids q).sk id).canJoin = true := by
  refine ⟨[.connect 1, .conn 1], [1], [.adv 0, .adv 0, .conn 1], 1, by decide, by decide, by unfold cameBack; decide, ?_, by decide,
    by decide, by decide⟩
  unfold Undisturbed; decide

/-- The second part of `C108_closed_partial` needs that no other call is just closing the socket: a call may return while the socket, out
of the namespace, is still connected. -/
theorem C108_early_fails : ∃ p ids q id,
    ((run p).sk id).connected = true ∧ id ∈ ids ∧ cameBack (afterClose p ids q) (callNo p) ∧
    ((afterClose p ids q).sk id).connected = true ∧ id ∉ (afterClose p ids q).log :=
  ⟨[.connect 1, .conn 1, .conn 1, .close [1], .adv 0, .adv 0, .adv 0, .adv 0], [1], [.adv 1], 1, by decide, by decide,
    by unfold cameBack; decide, by decide, by decide⟩

/-! ## The hypotheses can be met -/

/-- Sockets 1, 2 and 3 are connected, socket 4 is being connected, somebody is disconnecting socket 2. -/
def closeCrowd : List Ev := [.connect 1, .conn 1, .conn 1, .connect 2, .conn 2, .conn 2, .connect 3, .conn 3, .conn 3, .connect 4, .conn 4,
  .close [2], .adv 0, .adv 0]

/-- The call closes 1, 2 and 4 while 4 becomes connected and the other call goes on. -/
def closeMeanwhile : List Ev := [.adv 1, .conn 4, .adv 1, .adv 0, .adv 1, .adv 1, .adv 0, .adv 1, .adv 1, .adv 1, .adv 1, .adv 0, .adv 0, .adv 0,
  .adv 1, .adv 1, .adv 1, .adv 1, .adv 1, .adv 1, .adv 1, .adv 1]

set_option maxRecDepth 4000 in
example : callNo closeCrowd = 1 ∧ ((run closeCrowd).sk 1).connected = true ∧ ((run closeCrowd).sk 2).connected = true ∧
    ((run closeCrowd).sk 4).connected = false ∧ cameBack (afterClose closeCrowd [1, 2, 4] closeMeanwhile) 1 ∧
    ((afterClose closeCrowd [1, 2, 4] closeMeanwhile).sk 2).inNsp = false ∧ ((afterClose closeCrowd [1, 2, 4] closeMeanwhile).sk 3).inNsp = true ∧
    (afterClose closeCrowd [1, 2, 4] closeMeanwhile).log = [1, 2, 4] := by
  refine ⟨by decide, by decide, by decide, by decide, by unfold cameBack; decide, by decide, by decide, by decide⟩

set_option maxRecDepth 4000 in
example : ∀ id ∈ [1, 2], ((afterClose closeCrowd [1, 2, 4] closeMeanwhile).sk id).connected = false := fun id h =>
  (C108_closed_partial closeCrowd [1, 2, 4] closeMeanwhile id
    (by rcases List.mem_cons.1 h with rfl | h
        · decide
        · rw [List.mem_singleton.1 h]; decide)
    (by rcases List.mem_cons.1 h with rfl | h <;> simp_all) (by unfold cameBack; decide)
    (by have : Undisturbed (afterClose closeCrowd [1, 2, 4] closeMeanwhile) 1 ∧ Undisturbed (afterClose closeCrowd [1, 2, 4] closeMeanwhile) 2 := by
          unfold Undisturbed; decide
        rcases List.mem_cons.1 h with rfl | h
        · exact this.1
        · rw [List.mem_singleton.1 h]; exact this.2)).1

example : ((run [.connect 3, .close [1], .conn 3, .conn 3, .adv 0]).sk 3).inNsp = true :=
  (C108_spared _ 3 (by intro ids h; simp at h; simp [h]) (by decide)).1

example : cameBack (afterClose [.connect 1, .conn 1, .conn 1] [1] (List.replicate 7 (.adv 0))) 0 :=
  C108_returns _ _ _ (by decide)

end Verif.Props
