import Verif.Proof.RoomSet

/-!
# C93: the sets `Rooms()` returns
-/

namespace Verif.Props
open Verif Verif.Spec

/-- Whatever the program does with the sets it has got: for a socket and a room it has not added to or removed from a set in the table,
`Rooms()` and the deliveries to the room go by the calls of `Join` and `Leave`. -/
theorem C93_partial (d : Bool) (h : List RoomSet.Ev) (s r : String) (hn : NeverEdits d h s r) :
    (r ∈ Adapter.roomsOf (RoomSet.run d h).ad s ↔ Member (roomCalls h) s r) ∧
    ((∃ l, (RoomSet.run d h).ad.rooms.get? r = some l ∧ s ∈ l) ↔ Member (roomCalls h) s r) := by
  obtain ⟨h1, h2⟩ := RoomSet.pair_run (d := d) h s r hn
  exact ⟨by rw [RoomSet.mem_roomsOf]; exact h2, h1⟩

/-- A room the program has not added to or removed from any set exists just while it has a member. -/
theorem C93_room_partial (d : Bool) (h : List RoomSet.Ev) (r : String) (hn : ∀ s, NeverEdits d h s r) :
    (∃ l, (RoomSet.run d h).ad.rooms.get? r = some l) ↔ ∃ s, Member (roomCalls h) s r := by
  constructor
  · rintro ⟨l, hl⟩
    cases l with
    | nil => exact absurd rfl (RoomSet.ne_run h r _ hl)
    | cons s l => exact ⟨s, (C93_partial d h s r (hn s)).2.mp ⟨_, hl, by simp⟩⟩
  · rintro ⟨s, hs⟩
    obtain ⟨l, hl, -⟩ := (C93_partial d h s r (hn s)).2.mpr hs
    exact ⟨l, hl⟩

/-- What a set shows later: it follows the socket until it leaves all its rooms, and keeps what it had then.  For a socket that is in no
rooms it is, and stays, without them. -/
theorem C93_shows_partial (d : Bool) (h1 h2 : List RoomSet.Ev) (id r : String) (hn : NeverEdits d (h1 ++ .take id :: h2) id r)
    (hk : ∀ e ∈ h2, e ≠ .add (RoomSet.run d h1).handles.length r ∧ e ≠ .remove (RoomSet.run d h1).handles.length r) :
    SetHolds (RoomSet.run d (h1 ++ .take id :: h2)) (RoomSet.run d h1).handles.length r ↔
      Seated (roomCalls h1) id ∧ Member (roomCalls (h1 ++ .take id :: untilGone id h2)) id r := by
  rw [← RoomSet.seated_run (d := d)]
  have hsplit : h1 ++ RoomSet.Ev.take id :: h2 = (h1 ++ [.take id]) ++ h2 := by simp
  cases hg : (RoomSet.run d h1).ad.sids.get? id with
  | none =>
    have hj : (RoomSet.run d (h1 ++ [.take id])).handles[(RoomSet.run d h1).handles.length]? = some (.own []) := by
      rw [RoomSet.run_snoc]; simp [RoomSet.step, Adapter.socketRooms, hg]
    obtain ⟨l', h3, h4⟩ := RoomSet.taken_own (d := d) _ h2 r _ _ hj hk
    rw [← hsplit] at h3
    simp only [reduceCtorEq, exists_false, false_and, iff_false]
    rintro ⟨x, hx, hr⟩
    rw [h3] at hx; cases hx
    exact absurd (h4.mp hr) (by simp)
  | some l =>
    have hj : (RoomSet.run d (h1 ++ [.take id])).handles[(RoomSet.run d h1).handles.length]? = some (.live id) := by
      rw [RoomSet.run_snoc]; simp [RoomSet.step, Adapter.socketRooms, hg]
    obtain ⟨i1, i2⟩ := RoomSet.taken_live (d := d) h1 h2 id r _ hj hn hk
    simp only [Option.some.injEq, exists_eq', true_and]
    by_cases hgone : .call (.delAll id) ∈ h2
    · obtain ⟨l, h3, h4⟩ := i2 hgone
      rw [← h4]
      constructor
      · rintro ⟨x, hx, hr⟩; rw [h3] at hx; cases hx; exact hr
      · intro hr; exact ⟨_, h3, hr⟩
    · rw [RoomSet.untilGone_all _ _ hgone, ← (C93_partial d _ id r hn).1]
      constructor
      · rintro ⟨x, hx, hr⟩; rw [i1 hgone] at hx; cases hx; exact hr
      · intro hr; exact ⟨_, i1 hgone, hr⟩

/-- Without edits of the room, the hypotheses of the theorems above hold: sets come and go, other rooms are edited. -/
def Demo.roomSetRun : List RoomSet.Ev :=
  [.call (.addAll "a" ["a", "x"]), .take "a", .call (.addAll "a" ["y"]), .add 0 "z", .call (.delAll "a"), .remove 0 "x", .take "a"]

example : NeverEdits true Demo.roomSetRun "a" "y" := by
  intro a e b hb
  rintro ⟨k, he, -⟩
  have : e ∈ Demo.roomSetRun := by rw [hb]; simp
  rcases he with rfl | rfl <;> revert this <;> simp [Demo.roomSetRun]

example : SetHolds (RoomSet.run true (Demo.roomSetRun.take 4)) 0 "y" ∧ SetHolds (RoomSet.run true Demo.roomSetRun) 0 "y" ∧
    ¬ SetHolds (RoomSet.run true Demo.roomSetRun) 1 "y" := by
  refine ⟨⟨.live "a", by decide, by decide⟩, ⟨.own ["z", "y", "a"], by decide, by decide⟩, ?_⟩
  rintro ⟨x, hx, hr⟩
  have : (RoomSet.run true Demo.roomSetRun).handles[1]? = some (.own []) := by decide
  rw [this] at hx; cases hx; cases hr

/-- A set the program keeps does not stay as it was: a room the socket joins later is in it. -/
theorem C93_snapshot_fails : ∃ (h1 h2 : List RoomSet.Ev) (r : String), (∀ e ∈ h2, ∃ op, e = .call op) ∧
    ¬ SetHolds (RoomSet.run true h1) 0 r ∧ SetHolds (RoomSet.run true (h1 ++ h2)) 0 r := by
  refine ⟨[.call (.addAll "a" ["a"]), .take "a"], [.call (.addAll "a" ["y"])], "y", by simp, ?_, ⟨.live "a", by decide, by decide⟩⟩
  rintro ⟨x, hx, hr⟩
  have : (RoomSet.run true [.call (.addAll "a" ["a"]), .take "a"]).handles[0]? = some (.live "a") := by decide
  rw [this] at hx; cases hx
  revert hr; decide

/-- A program that removes a room from the set leaves the socket in the room for good: it stays there after it has left all its rooms, and
the room stays although nobody is in it. -/
theorem C93_ghost_fails : ∃ (h : List RoomSet.Ev) (s r : String), (∀ s' r', ¬ Member (roomCalls h) s' r') ∧
    s ∈ ((RoomSet.run true h).ad.rooms.get? r).getD [] := by
  refine ⟨[.call (.addAll "a" ["a", "x"]), .take "a", .remove 0 "x", .call (.delAll "a")], "a", "x", ?_, by decide⟩
  intro s' r' hm
  rw [show roomCalls [.call (.addAll "a" ["a", "x"]), .take "a", .remove 0 "x", .call (.delAll "a")]
    = [Call.join "a" ["a", "x"]] ++ [Call.leaveAll "a"] from rfl, Adapter.member_snoc,
    show [Call.join "a" ["a", "x"]] = [] ++ [Call.join "a" ["a", "x"]] from rfl, Adapter.member_snoc] at hm
  rcases hm with h | ⟨h1, h2⟩
  · exact h
  · rcases h1 with ⟨h3, -⟩ | ⟨⟨pre, c, post, h4, -⟩, -⟩
    · exact h2 h3
    · simp at h4

/-- A program that adds a room to the set makes `Rooms()` say so, but messages to the room do not reach the socket. -/
theorem C93_unseen_fails : ∃ (h : List RoomSet.Ev) (s r : String),
    r ∈ Adapter.roomsOf (RoomSet.run true h).ad s ∧ (RoomSet.run true h).ad.rooms.get? r = none :=
  ⟨[.call (.addAll "a" ["a"]), .take "a", .add 0 "x"], "a", "x", by decide, by decide⟩

end Verif.Props
