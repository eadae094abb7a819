import Verif.Proof.RoomJoins

/-! # C48: sockets that only join -/

namespace Verif.Props
open Verif Verif.RoomRace Verif.Spec

/-- **C48, partial**, for concurrent calls about one socket: if none of them takes the socket out of the room, the room was not deleted
meanwhile, and all calls have returned, then the socket is in the room exactly if one of them made it join, in both tables.  The calls
for this socket and those for others overlap as they like, and the others may do anything. -/
theorem C48_joins_partial (h : List RoomRace.Ev) (hq : Quiet (RoomRace.run h)) (id r : Nat) (hn : NeverLeaves id r h)
    (hr : r ∉ (RoomRace.run h).deleted) :
    (InRoom (RoomRace.run h) id r ↔ Joins h id r) ∧ (HasRoom (RoomRace.run h) id r ↔ Joins h id r) := by
  have j := j_run h id r hn hr
  have all : Joins h id r → HasRoom (RoomRace.run h) id r ∧ InRoom (RoomRace.run h) id r := by
    intro a
    rcases j.all a with b | ⟨k, _, h2⟩
    · exact b
    · rw [hq k] at h2; exact h2.elim
  exact ⟨⟨j.inn, fun a => (all a).2⟩, ⟨j.has, fun a => (all a).1⟩⟩

/-- **C48, partial**: while nobody leaves the room, all concurrent joins of it succeed, of whatever sockets, and it is not deleted. -/
theorem C48_nobody_leaves_partial (h : List RoomRace.Ev) (hq : Quiet (RoomRace.run h)) (r : Nat) (hn : ∀ id, NeverLeaves id r h) :
    r ∉ (RoomRace.run h).deleted ∧
    ∀ id, (InRoom (RoomRace.run h) id r ↔ Joins h id r) ∧ (HasRoom (RoomRace.run h) id r ↔ Joins h id r) :=
  ⟨never_deleted h r hn, fun id => C48_joins_partial h hq id r (hn id) (never_deleted h r hn)⟩

/-- Two goroutines make socket 1 join rooms 5 and 6, and rooms 6 and 5, at the same time, while a third makes it leave room 7 and a
fourth makes socket 2 join room 5. -/
def joinTwice : List RoomRace.Ev :=
  [.call 0 1 (.join [5, 6]), .call 1 1 (.join [6, 5]), .call 2 1 (.leave 7), .call 3 2 (.join [5])] ++
  (List.replicate 12 [.adv 0, .adv 1, .adv 2, .adv 3]).flatten

theorem joinTwice_quiet : Quiet (RoomRace.run joinTwice) := by
  intro k
  match k with
  | 0 => decide
  | 1 => decide
  | 2 => decide
  | 3 => decide
  | k + 4 => simp [joinTwice, RoomRace.run, RoomRace.step, RoomRace.advance, Verif.World.upd, List.replicate]

theorem joinTwice_never (id : Nat) : NeverLeaves id 5 joinTwice := by
  intro k c h
  simp [joinTwice, List.replicate] at h
  rcases h with ⟨_, _, rfl⟩ | ⟨_, _, rfl⟩ | ⟨_, _, rfl⟩ | ⟨_, _, rfl⟩
  · exact .inl ⟨_, rfl⟩
  · exact .inl ⟨_, rfl⟩
  · exact .inr ⟨7, rfl, by decide⟩
  · exact .inl ⟨_, rfl⟩

example : InRoom (RoomRace.run joinTwice) 1 5 ∧ HasRoom (RoomRace.run joinTwice) 1 5 ∧ InRoom (RoomRace.run joinTwice) 2 5 ∧
    ¬ InRoom (RoomRace.run joinTwice) 3 5 := by
  have key := (C48_nobody_leaves_partial joinTwice joinTwice_quiet 5 joinTwice_never).2
  have j1 : Joins joinTwice 1 5 := ⟨[], 0, [5, 6], _, rfl, rfl, by decide⟩
  have j2 : Joins joinTwice 2 5 := ⟨joinTwice.take 3, 3, [5], _, rfl, rfl, by decide⟩
  refine ⟨(key 1).1.mpr j1, (key 1).2.mpr j1, (key 2).1.mpr j2, ?_⟩
  rintro ⟨t, h1, h2⟩
  have e : (RoomRace.run joinTwice).rooms 5 = some 2 := by decide
  rw [e] at h1
  cases h1
  revert h2
  decide

end Verif.Props
