import Verif.Proof.Rooms
import Verif.Proof.Delivery

/-! # C01, C02: room membership and room events -/

namespace Verif.Props
open Verif Verif.Adapter

/-- **C01.**  After any history of joins, leaves and leave-alls (`Reach` also lets the iteration order
of every map and set change arbitrarily between calls):
* `Rooms()` of a socket contains `r` exactly when the history says the socket is a member of `r`;
* so does the member set of the room;
* a room exists exactly when it has a member;
* no socket and no room is listed twice. -/
theorem C01_membership (d : Bool) (h : List Op) (a : Ad) (evs : List Ev) (hr : Reach d h a evs) :
    (∀ s r, r ∈ roomsOf a s ↔ Spec.Member (h.map Op.toCall) s r) ∧
    (∀ s r, (∃ l, a.rooms.get? r = some l ∧ s ∈ l) ↔ Spec.Member (h.map Op.toCall) s r) ∧
    (∀ r, (∃ l, a.rooms.get? r = some l) ↔ ∃ s, Spec.Member (h.map Op.toCall) s r) ∧
    (∀ s, (roomsOf a s).Nodup) ∧ (∀ r l, a.rooms.get? r = some l → l.Nodup) := by
  have hi := reach_inv hr
  have hm := reach_member hr
  refine ⟨fun s r => ?_, fun s r => hm s r, fun r => ?_, fun s => ?_, hi.ndRooms⟩
  · rw [Delivery.mem_roomsOf hi, hm]
  · constructor
    · rintro ⟨l, hl⟩
      cases hl' : l with
      | nil => exact absurd hl' (hi.nonempty r l hl)
      | cons s l' => exact ⟨s, (hm s r).1 ⟨l, hl, by simp [hl']⟩⟩
    · rintro ⟨s, hs⟩
      obtain ⟨l, hl, _⟩ := (hm s r).2 hs
      exact ⟨l, hl⟩
  · unfold roomsOf socketRooms
    cases hl : a.sids.get? s with
    | none => exact List.nodup_nil
    | some l => exact hi.ndSids s l hl

/-- Non-vacuity for C01: two sockets, overlapping rooms, a leave, a leave-all. -/
example : ∃ a evs, Reach true
    [.addAll "a" ["a", "x", "y"], .addAll "b" ["b", "x"], .del "a" "x", .delAll "b"] a evs ∧
    a.rooms.get? "x" = none ∧ roomsOf a "a" = ["y", "a"] := by
  refine ⟨_, _, (((Reach.init.step _).step _).step _).step _, ?_, ?_⟩ <;> decide

example : Spec.Member ([.addAll "a" ["a", "x"], .del "a" "x", .addAll "a" ["x"]].map Op.toCall) "a" "x" :=
  ⟨[.join "a" ["a", "x"], .leave "a" "x"], .join "a" ["x"], [], rfl, ⟨rfl, by simp⟩, by simp⟩

/-- **C02.**  A listener that sees only the adapter's events, and treats any irregular event as a
protocol violation (creating an existing room, joining twice, deleting a non-empty room, ...), never
sees a violation and always ends with exactly the rooms and members of the adapter.  `d` is what the
library's `Set.Delete` answers for an absent key: if `false` then even leaving a room one is not in
is a violation (`strict`), i.e. there is exactly one leave-room per departure. -/
theorem C02_events (d : Bool) (h : List Op) (a : Ad) (evs : List Ev) (hr : Reach d h a evs) :
    ∃ m, Spec.Mirror.replay (!d) (fun _ => none) (evs.map Ev.toSpec) = some m ∧
      (∀ r, m r = none ↔ a.rooms.get? r = none) ∧
      (∀ r l s, m r = some l → (s ∈ l ↔ Spec.Member (h.map Op.toCall) s r)) := by
  obtain ⟨m, h1, h2⟩ := reach_mirror hr
  refine ⟨m, h1, ?_, ?_⟩
  · intro r; have := h2 r
    cases hm : m r <;> cases ha : a.rooms.get? r <;> simp [hm, ha] at this ⊢
  · intro r l s hl
    rw [← reach_member hr]
    have := h2 r
    unfold Ad.inRoom
    cases ha : a.rooms.get? r <;> simp [hl, ha] at this ⊢
    exact this s

/-- Every departure of a member emits a leave-room event for it (also when the library answers `true`
for absent keys, in which case superfluous leave-room events may occur). -/
theorem C02_departure (d : Bool) (a : Ad) (op : Op) (s : Sid) (r : Room) (hi : Inv a)
    (hin : r ∈ roomsOf a s) (hout : r ∉ roomsOf (step d a op).1 s) :
    Ev.leave r s ∈ (step d a op).2 := by
  have hi' := inv_step hi d op
  rw [Delivery.mem_roomsOf hi] at hin
  rw [Delivery.mem_roomsOf hi'] at hout
  obtain ⟨l, hl, hs⟩ := hin
  have hdel : ∀ a' : Ad, (∃ l, a'.rooms.get? r = some l ∧ s ∈ l) → Ev.leave r s ∈ (del_ d a' r s).2 := by
    rintro a' ⟨l, hl, hs⟩
    unfold del_; rw [hl]
    simp only [hs, decide_true, deleteResult, Bool.true_or, if_true]
    split <;> simp
  have hkeep : ∀ rooms : List Room, ∀ p : Ad × List Ev, p.1.inRoom s r → r ∈ rooms →
      Ev.leave r s ∈ (rooms.foldl (delLoop d s) p).2 := by
    have mono : ∀ rooms : List Room, ∀ p : Ad × List Ev, ∀ e ∈ p.2,
        e ∈ (rooms.foldl (delLoop d s) p).2 := by
      intro rooms; induction rooms with
      | nil => intro p e he; exact he
      | cons x xs ih => intro p e he; exact ih _ e (by simp [delLoop, he])
    intro rooms; induction rooms with
    | nil => simp
    | cons x xs ih =>
      intro p hp hr
      rw [List.foldl_cons]
      by_cases e : x = r
      · subst e
        apply mono; simp only [delLoop, List.mem_append]; exact .inr (hdel p.1 hp)
      · apply ih
        · show (del_ d p.1 x s).1.inRoom s r
          rw [del__inRoom]; exact ⟨hp, fun h => e h.2.symm⟩
        · rcases List.mem_cons.1 hr with h | h
          · exact absurd h.symm e
          · exact h
  cases op with
  | addAll id rooms =>
    exfalso; apply hout; rw [show step d a (.addAll id rooms) = addAll a id rooms from rfl,
      (addAll_spec hi id rooms).2.1]; exact .inl ⟨l, hl, hs⟩
  | del id room =>
    have : s = id ∧ r = room := by
      apply Classical.byContradiction; intro hc
      apply hout; show (del d a id room).1.inRoom s r
      rw [(del_spec hi d id room).2.1]; exact ⟨⟨l, hl, hs⟩, hc⟩
    obtain ⟨rfl, rfl⟩ := this
    show Ev.leave r s ∈ (del d a s r).2
    unfold del
    cases a.sids.get? s with
    | none => exact hdel a ⟨l, hl, hs⟩
    | some mine => exact hdel _ ⟨l, hl, hs⟩
  | delAll id =>
    have : s = id := by
      apply Classical.byContradiction; intro hc
      apply hout; show (delAll d a id).1.inRoom s r
      rw [(delAll_spec hi d id).2.1]; exact ⟨⟨l, hl, hs⟩, hc⟩
    subst this
    obtain ⟨l', hl', hr'⟩ := (hi.agree s r).1 ⟨l, hl, hs⟩
    show Ev.leave r s ∈ (delAll d a s).2
    unfold delAll; rw [hl']
    exact hkeep l' (a, []) ⟨l, hl, hs⟩ hr'

/-- Non-vacuity for C02: the events of a small history. -/
example : ∃ a evs, Reach false
    [.addAll "a" ["x"], .addAll "b" ["x"], .delAll "a", .del "b" "x"] a evs ∧
    evs = [.create "x", .join "x" "a", .join "x" "b", .leave "x" "a", .leave "x" "b", .delete "x"] := by
  refine ⟨_, _, (((Reach.init.step _).step _).step _).step _, ?_⟩; decide

example : Inv (addAll {} "a" ["x"]).1 ∧ "x" ∈ roomsOf (addAll {} "a" ["x"]).1 "a" ∧
    "x" ∉ roomsOf (step true (addAll {} "a" ["x"]).1 (.delAll "a")).1 "a" :=
  ⟨(addAll_spec inv_empty _ _).1, by decide, by decide⟩

end Verif.Props
