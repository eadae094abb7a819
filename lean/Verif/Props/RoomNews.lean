import Verif.Proof.RoomNews
import Verif.Proof.RoomLeft

/-! # C120: the events of rooms under concurrent calls -/

set_option maxRecDepth 4000

namespace Verif.Props
open Verif Verif.Spec Verif.RoomNews

/-- Part of C120.  Whatever calls overlap, for one socket or for many: when all have returned, `create-room` has been announced once more
than `delete-room` for every room that exists, and as often for every other. -/
theorem C120_rooms [SetLib] (h : List RoomRace.Ev) (hf : AllFree (RoomNews.run h)) (r : Nat) :
    (announced h).count (.created r) = (announced h).count (.deleted r) + if (RoomNews.run h).tab.rooms r = none then 0 else 1 := by
  have p := (perm_of_free (kept_run h) fun k => (hf k).2).map (·.2)
  have b := balance_run h r
  unfold announced
  rw [← p.count_eq, ← p.count_eq]
  exact b

/-- Part of C120.  The calls for each socket are made one after the other, while those for different sockets overlap in any way.  At every
moment, if deleting an absent key from a set gives `false`, for a room that has not been deleted: `join-room` and `leave-room` of the socket have been announced in turn, beginning with
`join-room`; and when no call for this socket is under way, it is in the room exactly if `join-room` was the last. -/
theorem C120_members_partial [SetLib] (hab : SetLib.absent = false) (h : List RoomRace.Ev) (ho : OneByOneNews h) (id r : Nat) (hr : r ∉ (RoomNews.run h).tab.deleted) :
    Alternates (comings r id (announced h)) ∧
    ((∀ k, ((RoomNews.run h).tab.th k).1 = id → FreeNow (RoomNews.run h) k) →
      (InRoom (RoomNews.run h).tab id r ↔ (comings r id (announced h)).getLast? = some true)) := by
  have m := mem_run hab h ho
  obtain ⟨al, ai⟩ := m.alt id r hr
  unfold announced
  have last : ∀ l : List Bool, Alternates l → (l.length % 2 = 1 ↔ l.getLast? = some true) := by
    intro l hl
    rw [List.getLast?_eq_getElem?]
    cases hg : l[l.length - 1]? with
    | none =>
      rw [List.getElem?_eq_none_iff] at hg
      have : l.length = 0 := by omega
      simp [this]
    | some b =>
      have := hl _ _ hg
      rw [List.getElem?_eq_some_iff] at hg
      have h0 := hg.1
      rw [this]
      simp only [Option.some.injEq, decide_eq_true_eq]
      omega
  by_cases hb : ∃ k e, (run h).due k = some e ∧ ((run h).tab.th k).1 = id
  · obtain ⟨k, e, h1, h2⟩ := hb
    have b := m.busy k e h1 r
    rw [h2] at b
    rw [b] at al
    refine ⟨alternates_left al, fun hf => ?_⟩
    have := (hf k h2).2
    rw [this] at h1; cases h1
  · have e := m.idle id r fun k hk => by
      cases hd : (run h).due k with
      | none => rfl
      | some e => exact absurd ⟨k, e, hd, hk⟩ hb
    rw [e] at al ai
    exact ⟨al, fun _ => ai.trans (last _ al)⟩

/-- Part of C120.  Whatever calls overlap, for one socket or for many: when all have returned, `leave-room` of a socket has been announced at
most as often as `join-room`, if deleting an absent key from a set gives `false`. -/
theorem C120_left [SetLib] (hab : SetLib.absent = false) (h : List RoomRace.Ev) (hf : AllFree (RoomNews.run h)) (r id : Nat) :
    (announced h).count (.left r id) ≤ (announced h).count (.joined r id) := by
  have p := (perm_of_free (kept_run h) fun k => (hf k).2).map (·.2)
  unfold announced
  rw [← p.count_eq, ← p.count_eq]
  exact left_le hab h r id

namespace Demo
variable [SetLib]

/-- Whether only goroutines below `n` occur. -/
def newsBelow (n : Nat) (h : List RoomRace.Ev) : Bool := h.all fun | .call k _ _ => k < n | .adv k => k < n

def newsFree (s : RoomNews.St) (k : Nat) : Bool := (s.tab.th k).2 = .done ∧ s.due k = none

/-- Whether the calls for each socket are made one after the other, by free goroutines. -/
def newsTurns (n : Nat) (h : List RoomRace.Ev) : Bool :=
  (List.range h.length).all fun i => match h[i]? with
    | some (.call k id _) => newsFree (RoomNews.run (h.take i)) k &&
        (List.range n).all fun k' => ((RoomNews.run (h.take i)).tab.th k').1 ≠ id || newsFree (RoomNews.run (h.take i)) k'
    | _ => true

theorem newsBelow_run (n : Nat) (h : List RoomRace.Ev) (hb : newsBelow n h = true) (k : Nat) (hk : n ≤ k) :
    ((RoomNews.run h).tab.th k).2 = .done ∧ (RoomNews.run h).due k = none := by
  induction h using snocRec with
  | nil => exact ⟨rfl, rfl⟩
  | append_singleton h e ih =>
    simp only [newsBelow, List.all_append, Bool.and_eq_true, List.all_cons, List.all_nil, and_true] at hb
    have ih := ih hb.1
    rw [run_snoc]
    cases e with
    | call j id c =>
      have hj : k ≠ j := by have := hb.2; simp at this; omega
      simp only [RoomNews.step, RoomRace.step]
      split
      · split
        · simp only [World.upd_apply, hj, if_false]; exact ih
        · exact ih
      · exact ih
    | adv j =>
      have hj : k ≠ j := by have := hb.2; simp at this; omega
      cases hd : (RoomNews.run h).due j with
      | some a => rw [(step_due hd).1]; simp only [World.upd_apply, hj, if_false]; exact ih
      | none => rw [(step_adv hd).1]; simp only [World.upd_apply, RoomRace.advance, hj, if_false]; exact ih

theorem newsBelow_take (n : Nat) (h : List RoomRace.Ev) (hb : newsBelow n h = true) (i : Nat) : newsBelow n (h.take i) = true := by
  unfold newsBelow at *
  rw [List.all_eq_true] at *
  exact fun x hx => hb x (List.mem_of_mem_take hx)

theorem newsTurns_ok (n : Nat) (h : List RoomRace.Ev) (hb : newsBelow n h = true) (hc : newsTurns n h = true) : OneByOneNews h := by
  intro p k id c t e
  have hi : p.length < h.length := by rw [e]; simp
  have h1 := List.all_eq_true.1 hc p.length (List.mem_range.2 hi)
  have h2 : h[p.length]? = some (.call k id c) := by rw [e]; simp
  have h3 : h.take p.length = p := by rw [e, List.take_left]
  simp only [h2, h3, Bool.and_eq_true] at h1
  refine ⟨by simpa [newsFree, FreeNow] using h1.1, fun k' hk' => ?_⟩
  by_cases hn : n ≤ k'
  · exact newsBelow_run n p (h3 ▸ newsBelow_take n h hb p.length) k' hn
  · have := List.all_eq_true.1 h1.2 k' (List.mem_range.2 (by omega))
    simpa [newsFree, hk', FreeNow] using this

theorem newsAll (n : Nat) (h : List RoomRace.Ev) (hb : newsBelow n h = true) (hc : (List.range n).all (newsFree (RoomNews.run h)) = true) :
    AllFree (RoomNews.run h) := by
  intro k
  by_cases hn : n ≤ k
  · exact newsBelow_run n h hb k hn
  · have := List.all_eq_true.1 hc k (List.mem_range.2 (by omega))
    simpa [newsFree, FreeNow] using this

end Demo

section
/-- Deleting an absent key from a set gives `false`. -/
local instance Demo.plainSet : SetLib := ⟨false⟩

namespace Demo
/-- Sockets 1 and 2 join room 7 at the same time; then socket 1 leaves it while socket 2 leaves it and joins it again. -/
def newsH : List RoomRace.Ev := [.call 1 1 (.join [7]), .call 2 2 (.join [7, 8])] ++ [.adv 1, .adv 2, .adv 1, .adv 2, .adv 1, .adv 2, .adv 2, .adv 2,
  .adv 2, .adv 1, .adv 1, .adv 1, .adv 1, .adv 1] ++ List.replicate 8 (.adv 2) ++ [.call 1 1 (.leave 7)] ++ List.replicate 7 (.adv 1) ++
  [.call 1 1 (.join [7])] ++ List.replicate 7 (.adv 1) ++ [.call 2 2 (.leave 7)] ++ List.replicate 7 (.adv 2) ++ [.call 2 2 (.leave 8)] ++
  List.replicate 9 (.adv 2)
end Demo

/-- The hypotheses of `C120_rooms` and `C120_members_partial` are met. -/
example : AllFree (RoomNews.run Demo.newsH) ∧ OneByOneNews Demo.newsH ∧ (7 : Nat) ∉ (RoomNews.run Demo.newsH).tab.deleted ∧
    announced Demo.newsH = [.joined 7 2, .created 7, .joined 7 1, .created 8, .joined 8 2, .left 7 1, .joined 7 1, .left 7 2, .left 8 2,
      .deleted 8] := by
  refine ⟨Demo.newsAll 3 _ (by decide) (by decide), Demo.newsTurns_ok 3 _ (by decide) (by decide), by decide, by decide⟩

namespace Demo
/-- Socket 1 leaves room 7, which is empty then; before the room is removed socket 2 joins it. -/
def newsLost : List RoomRace.Ev := [.call 1 1 (.join [7])] ++ List.replicate 10 (.adv 1) ++ [.call 1 1 (.leave 7)] ++ List.replicate 6 (.adv 1) ++
  [.call 2 2 (.join [7])] ++ List.replicate 10 (.adv 2) ++ List.replicate 3 (.adv 1)

/-- Two goroutines make socket 1 join room 7. -/
def newsTwice : List RoomRace.Ev := [.call 1 1 (.join [7]), .call 2 1 (.join [7])] ++ List.replicate 5 (.adv 1) ++ List.replicate 5 (.adv 2) ++
  List.replicate 5 (.adv 1) ++ List.replicate 5 (.adv 2)

/-- Socket 2 joins room 7, which has been created for socket 1, before this is announced. -/
def newsEarly : List RoomRace.Ev := [.call 1 1 (.join [7]), .call 2 2 (.join [7])] ++ List.replicate 3 (.adv 1) ++ List.replicate 9 (.adv 2) ++
  List.replicate 9 (.adv 1)
end Demo

/-- If a room is deleted while a socket joins it, `join-room` is the last that is announced although the socket is not in the room (C48). -/
theorem C120_members_fails :
    ¬ ∀ (h : List RoomRace.Ev), OneByOneNews h → AllFree (RoomNews.run h) → ∀ id r,
      (InRoom (RoomNews.run h).tab id r ↔ (comings r id (announced h)).getLast? = some true) := by
  intro hall
  obtain ⟨t, ht, _⟩ := (hall Demo.newsLost (Demo.newsTurns_ok 3 _ (by decide) (by decide)) (Demo.newsAll 3 _ (by decide) (by decide)) 2 7).2 (by decide)
  exact absurd ht (by rw [show (RoomNews.run Demo.newsLost).tab.rooms 7 = none by decide]; simp)

/-- If two goroutines make the same socket join a room, `join-room` may be announced twice. -/
theorem C120_twice_fails :
    ¬ ∀ (h : List RoomRace.Ev), AllFree (RoomNews.run h) → ∀ id r, r ∉ (RoomNews.run h).tab.deleted → Alternates (comings r id (announced h)) := by
  intro hall
  have := hall Demo.newsTwice (Demo.newsAll 3 _ (by decide) (by decide)) 1 7 (by decide) 1 true (by decide)
  exact absurd this (by decide)

/-- `join-room` of a room may be announced before `create-room`. -/
theorem C120_order_fails :
    ¬ ∀ (h : List RoomRace.Ev), OneByOneNews h → ∀ l₁ l₂ id r, announced h = l₁ ++ .joined r id :: l₂ → .created r ∈ l₁ := by
  intro hall
  have := hall Demo.newsEarly (Demo.newsTurns_ok 3 _ (by decide) (by decide)) [] [.created 7, .joined 7 1] 2 7 (by decide)
  cases this

end

section
/-- Deleting an absent key from a set gives `true`. -/
local instance Demo.oddSet : SetLib := ⟨true⟩

/-- If deleting an absent key from a set gives `true`, then `leave-room` is announced for a socket that has never been in the room. -/
theorem C120_absent_fails :
    ¬ ∀ (h : List RoomRace.Ev), OneByOneNews h → AllFree (RoomNews.run h) → ∀ r id,
      (announced h).count (.left r id) ≤ (announced h).count (.joined r id) := by
  intro hall
  have := hall ([.call 1 1 (.join [7])] ++ List.replicate 8 (.adv 1) ++ [.call 1 2 (.leave 7)] ++ List.replicate 6 (.adv 1))
    (Demo.newsTurns_ok 3 _ (by decide) (by decide)) (Demo.newsAll 3 _ (by decide) (by decide)) 7 2
  exact absurd this (by decide)

end

end Verif.Props
