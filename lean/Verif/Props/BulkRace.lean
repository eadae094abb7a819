import Verif.Proof.BulkRace
import Verif.Props.CastRace

/-! # C107: bulk joins and leaves while other things happen -/

set_option maxRecDepth 4000

namespace Verif.Props
open Verif Verif.Spec Verif.BulkRace

/-- Part of C107.  Whatever happens meanwhile, a bulk call comes to no socket twice. -/
theorem C107_once (p : List BulkRace.Ev) (a : Act) (rooms except order : List Nat) (q : List BulkRace.Ev)
    (w : WholeBulk p a rooms except order q) : (cameTo p a rooms except order q).Nodup := by
  have := C74_once _ _ _ _ _ (whole_of w).2
  unfold sentTo at this
  rwa [← whole_at w.begins] at this

/-- Part of C107.  Whatever happens meanwhile, the calls a bulk call makes for a socket are the ones asked for, each once and in order,
if it comes to the socket, and none otherwise.  (A socket that is being disconnected may refuse to join.) -/
theorem C107_calls (p : List BulkRace.Ev) (a : Act) (rooms except order : List Nat) (q : List BulkRace.Ev)
    (w : WholeBulk p a rooms except order q) (id : Nat)
    (hs : (∃ rs, a = .leave rs) ∨ During p a rooms except order q fun s => s.shut id = false) :
    callsFor id p a rooms except order q = if id ∈ cameTo p a rooms except order q then wanted a else [] := by
  have m := made_run w.begins q w.one id hs
  have ht := ((idle_iff _).1 w.ends).2.1
  unfold cameTo
  split
  · next h =>
    have := m.after h
    rw [ht] at this
    simpa using this
  · next h => exact m.before h

/-- Part of C107.  Whatever happens meanwhile, a bulk join makes no call for a socket that cannot join rooms any more when it begins. -/
theorem C107_refused (p : List BulkRace.Ev) (rs rooms except order : List Nat) (q : List BulkRace.Ev)
    (w : WholeBulk p (.join rs) rooms except order q) (id : Nat)
    (hs : During p (.join rs) rooms except order q fun s => s.shut id = true) : callsFor id p (.join rs) rooms except order q = [] :=
  (refused_run w.begins q w.one id hs).none

theorem to_until {p : List BulkRace.Ev} {a : Act} {rooms except order : List Nat} {q : List BulkRace.Ev}
    (w : WholeBulk p a rooms except order q) (id : Nat) {P : RoomRace.St → (Nat → Bool) → Prop}
    (h : During p a rooms except order q fun s => id ∉ s.cast.sent → P s.cast.tab s.cast.reg) :
    UntilReached (trace {} p) rooms except order (trace (BulkRace.run (p ++ [.bulk a rooms except order])) q) id P := by
  intro t₁ t₂ ht
  obtain ⟨q₁, q₂, e1, e2⟩ := trace_prefix q _ t₁ t₂ ht
  have := h q₁ q₂ e1
  simp only [whole_at w.begins, e2] at this
  exact this

theorem to_meanwhile {p : List BulkRace.Ev} {a : Act} {rooms except order : List Nat} {q : List BulkRace.Ev}
    (w : WholeBulk p a rooms except order q) {P : RoomRace.St → (Nat → Bool) → Prop}
    (h : During p a rooms except order q fun s => P s.cast.tab s.cast.reg) :
    Meanwhile (trace {} p) rooms except order (trace (BulkRace.run (p ++ [.bulk a rooms except order])) q) P := by
  intro t₁ t₂ ht
  obtain ⟨q₁, q₂, e1, e2⟩ := trace_prefix q _ t₁ t₂ ht
  have := h q₁ q₂ e1
  simp only [whole_at w.begins, e2] at this
  exact this

/-- Part of C107.  Whatever happens meanwhile, a bulk call comes to a socket that, until it does, is in the namespace and in one of the
rooms selected all the time, and at no time in an excepted room or about to join one.  The call itself may take the socket out of that
room, or put it into an excepted one. -/
theorem C107_selected_partial (p : List BulkRace.Ev) (a : Act) (rooms except order : List Nat) (q : List BulkRace.Ev)
    (w : WholeBulk p a rooms except order q) (id r : Nat) (hr : r ∈ rooms)
    (h : During p a rooms except order q fun s => id ∉ s.cast.sent →
      InRoom s.cast.tab id r ∧ s.cast.reg id = true ∧ ∀ x ∈ except, ¬ NearRoom s.cast.tab id x) :
    id ∈ cameTo p a rooms except order q := by
  have := C74_reached_partial _ rooms except order _ (whole_of w).2 id r hr (to_until w id h)
  unfold sentTo at this
  rw [← whole_at w.begins] at this
  exact List.count_pos_iff.1 (by unfold cameTo; rw [this]; exact Nat.one_pos)

/-- Part of C107.  The same for a bulk call for everybody. -/
theorem C107_everybody_partial (p : List BulkRace.Ev) (a : Act) (except order : List Nat) (q : List BulkRace.Ev)
    (w : WholeBulk p a [] except order q) (id : Nat)
    (h : During p a [] except order q fun s => id ∉ s.cast.sent →
      (s.cast.tab.sids id).isSome = true ∧ s.cast.reg id = true ∧ ∀ x ∈ except, ¬ NearRoom s.cast.tab id x) :
    id ∈ cameTo p a [] except order q := by
  have := C74_all_partial _ except order _ (whole_of w).2 id
    (to_until w id (P := fun s reg => (s.sids id).isSome = true ∧ reg id = true ∧ ∀ x ∈ except, ¬ NearRoom s id x) h)
  unfold sentTo at this
  rw [← whole_at w.begins] at this
  exact List.count_pos_iff.1 (by unfold cameTo; rw [this]; exact Nat.one_pos)

/-- Part of C107.  Whatever happens meanwhile, a bulk call makes no call for a socket that at no time is in one of the rooms selected or
about to join one; nor for one that is in an excepted room all the time; nor for one that is not in the namespace at any time. -/
theorem C107_untouched_partial (p : List BulkRace.Ev) (a : Act) (rooms except order : List Nat) (q : List BulkRace.Ev)
    (w : WholeBulk p a rooms except order q) (id : Nat)
    (h : (rooms ≠ [] ∧ During p a rooms except order q fun s => ∀ r ∈ rooms, ¬ NearRoom s.cast.tab id r) ∨
      (∃ x ∈ except, During p a rooms except order q fun s => InRoom s.cast.tab id x) ∨
      (During p a rooms except order q fun s => s.cast.reg id = false)) :
    id ∉ cameTo p a rooms except order q ∧ (callsFor id p a rooms except order q = []) := by
  have hno : id ∉ cameTo p a rooms except order q := by
    unfold cameTo
    rw [whole_at w.begins]
    rcases h with ⟨hr, h⟩ | ⟨x, hx, h⟩ | h
    · exact C74_elsewhere_partial _ rooms except order _ (whole_of w).2 hr id
        (to_meanwhile w (P := fun s _ => ∀ r ∈ rooms, ¬ NearRoom s id r) h)
    · exact C74_excepted_partial _ rooms except order _ (whole_of w).2 id x hx (to_meanwhile w (P := fun s _ => InRoom s id x) h)
    · exact C74_absent _ rooms except order _ (whole_of w).2 id (to_meanwhile w (P := fun _ reg => reg id = false) h)
  refine ⟨hno, ?_⟩
  exact none_run w.begins q w.one id hno

/-- Part of C107.  `SocketsJoin`: a socket the call came to is in each of the rooms when the call returns, in both tables, if from the
beginning of the call it is not being disconnected, no call takes it out of the room, and the room is not deleted. -/
theorem C107_joined_partial (p : List BulkRace.Ev) (rs rooms except order : List Nat) (q : List BulkRace.Ev)
    (w : WholeBulk p (.join rs) rooms except order q) (id : Nat) (hc : id ∈ cameTo p (.join rs) rooms except order q) (g : Nat) (hg : g ∈ rs)
    (hd : During p (.join rs) rooms except order q fun s => s.shut id = false ∧
      (∀ j, (s.cast.tab.th j).1 = id → mayLeave g (s.cast.tab.th j).2 = false) ∧
      s.cast.tab.deleted.count g = (BulkRace.run p).cast.tab.deleted.count g) :
    InRoom (BulkRace.run (p ++ .bulk (.join rs) rooms except order :: q)).cast.tab id g ∧
    HasRoom (BulkRace.run (p ++ .bulk (.join rs) rooms except order :: q)).cast.tab id g := by
  have key := during_ind w.one hd (Join rs id g)
    (by
      rw [bulk_start w.begins]
      have ht := ((idle_iff _).1 w.begins).2.1
      exact ⟨rfl, fun h => absurd ht h, fun h => by cases h⟩)
    (fun s e wf o he h1 h2 h => join_step wf o e he hg h1.1 h1.2.1 (fun hh => by
      have h3 := h1.2.2; have h4 := h2.2.2
      rw [hh, List.count_append] at h4
      simp at h4
      omega) h)
  obtain ⟨_, ht, hth⟩ := (idle_iff _).1 w.ends
  rcases key.2.2 hc with ⟨_, h⟩ | ⟨_, h⟩ | h
  · rw [ht] at h; cases h
  · rw [hth] at h; exact h.elim
  · exact ⟨h.2, h.1⟩

/-- Part of C107.  `SocketsLeave`: a socket the call came to is in none of the rooms when the call returns, in both tables, if from the
beginning of the call no call makes it join the room. -/
theorem C107_left (p : List BulkRace.Ev) (rs rooms except order : List Nat) (q : List BulkRace.Ev)
    (w : WholeBulk p (.leave rs) rooms except order q) (id : Nat) (hc : id ∈ cameTo p (.leave rs) rooms except order q) (g : Nat)
    (hg : g ∈ rs)
    (hd : During p (.leave rs) rooms except order q fun s => ∀ j, (s.cast.tab.th j).1 = id → g ∉ joining (s.cast.tab.th j).2) :
    ¬ InRoom (BulkRace.run (p ++ .bulk (.leave rs) rooms except order :: q)).cast.tab id g ∧
    ¬ HasRoom (BulkRace.run (p ++ .bulk (.leave rs) rooms except order :: q)).cast.tab id g := by
  have key := during_ind w.one hd (Leave rs id g)
    (by
      rw [bulk_start w.begins]
      have ht := ((idle_iff _).1 w.begins).2.1
      exact ⟨rfl, fun h => absurd ht h, fun h => by cases h⟩)
    (fun s e wf o he h1 _ h => leave_step wf o e he hg h1 h)
  obtain ⟨_, ht, hth⟩ := (idle_iff _).1 w.ends
  rcases key.2.2 hc with ⟨_, h⟩ | ⟨_, h⟩ | h
  · rw [ht] at h; cases h
  · rw [hth] at h; exact h.elim
  · exact ⟨h.2, h.1⟩

/-- A statement about all moments can be checked moment by moment. -/
theorem during_of (p : List BulkRace.Ev) (a : Act) (rooms except order : List Nat) (q : List BulkRace.Ev) (P : BulkRace.St → Prop)
    (h : ∀ n, n < q.length + 1 → P (BulkRace.run (p ++ .bulk a rooms except order :: q.take n))) : During p a rooms except order q P := by
  intro q₁ q₂ e
  have := h q₁.length (by rw [e]; simp; omega)
  rwa [e, List.take_left] at this

/-- Goroutines from `n` on make no call. -/
def bulkBelow (n : Nat) (h : List BulkRace.Ev) : Bool := CastRaceLoop.below n (trace {} h)

theorem bulkBelow_th (n : Nat) (h : List BulkRace.Ev) (hb : bulkBelow n h = true) (k : Nat) (hk : n ≤ k) :
    ((BulkRace.run h).cast.tab.th k).2 = .done := by
  rw [run_cast]; exact CastRaceLoop.below_run n _ hb k hk

namespace Demo
/-- Sockets 1 and 2 are connected and in room 7. -/
def bulkP : List BulkRace.Ev := [.connect 1, .connect 2, .room (.call 1 1 (.join [7]))] ++ List.replicate 6 (.room (.adv 1)) ++
  [.room (.call 2 2 (.join [7]))] ++ List.replicate 6 (.room (.adv 2))

/-- While the bulk call is under way, goroutine 1 makes socket 1 join room 6, and socket 2 disconnects. -/
def bulkQ : List BulkRace.Ev := [.adv, .adv, .room (.call 1 1 (.join [6]))] ++ List.replicate 6 (.room (.adv 1)) ++
  [.room (.call 2 2 .leaveAll)] ++ List.replicate 6 (.room (.adv 2)) ++ [.disconnect 2, .shut 2] ++ List.replicate 20 .adv
end Demo

/-- The hypotheses of `C107_selected_partial` and `C107_joined_partial` are met: sockets of room 7 that are not in room 8 join rooms 8
and 9, while socket 1 joins room 6 and socket 2 disconnects. -/
theorem demo_bulkJoin : WholeBulk Demo.bulkP (.join [8, 9]) [7] [8] [] Demo.bulkQ ∧
    (During Demo.bulkP (.join [8, 9]) [7] [8] [] Demo.bulkQ fun s => 1 ∉ s.cast.sent →
      InRoom s.cast.tab 1 7 ∧ s.cast.reg 1 = true ∧ ∀ x ∈ [8], ¬ NearRoom s.cast.tab 1 x) ∧
    (During Demo.bulkP (.join [8, 9]) [7] [8] [] Demo.bulkQ fun s => s.shut 1 = false ∧
      (∀ j, (s.cast.tab.th j).1 = 1 → mayLeave 8 (s.cast.tab.th j).2 = false) ∧
      s.cast.tab.deleted.count 8 = (BulkRace.run Demo.bulkP).cast.tab.deleted.count 8) ∧
    cameTo Demo.bulkP (.join [8, 9]) [7] [8] [] Demo.bulkQ = [1] := by
  have hb : ∀ n, n < Demo.bulkQ.length + 1 → bulkBelow 3 (Demo.bulkP ++ .bulk (.join [8, 9]) [7] [8] [] :: Demo.bulkQ.take n) = true := by
    decide
  refine ⟨⟨by decide, by decide, by simp [Demo.bulkQ]⟩, during_of _ _ _ _ _ _ _ fun n hn hns => ⟨?_, ?_, ?_⟩,
    during_of _ _ _ _ _ _ _ fun n hn => ⟨?_, fun j hj => ?_, ?_⟩, by decide⟩
  · revert n; decide
  · revert n; decide
  · intro x hx
    simp at hx
    subst hx
    rintro (h | ⟨k, hk1, hk2⟩)
    · revert n; decide
    · by_cases h3 : 3 ≤ k
      · rw [bulkBelow_th 3 _ (hb n hn) k h3] at hk2; cases hk2
      · have key : ∀ n, n < Demo.bulkQ.length + 1 → ∀ k, k < 3 →
          1 ∉ (BulkRace.run (Demo.bulkP ++ .bulk (.join [8, 9]) [7] [8] [] :: Demo.bulkQ.take n)).cast.sent →
          8 ∉ joining ((BulkRace.run (Demo.bulkP ++ .bulk (.join [8, 9]) [7] [8] [] :: Demo.bulkQ.take n)).cast.tab.th k).2 := by decide
        exact key n hn k (by omega) hns hk2
  · revert n; decide
  · by_cases h3 : 3 ≤ j
    · rw [bulkBelow_th 3 _ (hb n hn) j h3]; rfl
    · have key : ∀ n, n < Demo.bulkQ.length + 1 → ∀ j, j < 3 →
        ((BulkRace.run (Demo.bulkP ++ .bulk (.join [8, 9]) [7] [8] [] :: Demo.bulkQ.take n)).cast.tab.th j).1 = 1 →
        mayLeave 8 ((BulkRace.run (Demo.bulkP ++ .bulk (.join [8, 9]) [7] [8] [] :: Demo.bulkQ.take n)).cast.tab.th j).2 = false := by decide
      exact key n hn j (by omega) hj
  · revert n; decide

example := demo_bulkJoin

/-- The hypotheses of `C107_refused` are met by socket 2, which is in room 7 and in the namespace, and to which the call comes. -/
example : WholeBulk (Demo.bulkP ++ [.shut 2]) (.join [9]) [7] [] [] (List.replicate 30 .adv) ∧
    (During (Demo.bulkP ++ [.shut 2]) (.join [9]) [7] [] [] (List.replicate 30 .adv) fun s => s.shut 2 = true) ∧
    2 ∈ cameTo (Demo.bulkP ++ [.shut 2]) (.join [9]) [7] [] [] (List.replicate 30 .adv) :=
  ⟨⟨by decide, by decide, by simp⟩, during_of _ _ _ _ _ _ _ (by decide), by decide⟩

namespace Demo
/-- Goroutine 2 makes socket 2 leave room 7, and goroutine 1 makes socket 1 join room 6, while the bulk call is under way. -/
def outBulk : List BulkRace.Ev := [.adv, .adv, .room (.call 2 2 (.leave 7)), .room (.adv 2), .room (.adv 2), .adv,
  .room (.call 1 1 (.join [6])), .room (.adv 1), .adv, .room (.adv 1)] ++ List.replicate 4 (.room (.adv 2)) ++ List.replicate 26 .adv
end Demo

/-- The hypotheses of `C107_left` and of `C107_calls` are met by a call that makes the sockets of room 7 leave room 7, though sockets 1 and
2 are busy. -/
theorem demo_bulkLeave : WholeBulk Demo.bulkP (.leave [7, 9]) [7] [] [] Demo.outBulk ∧
    cameTo Demo.bulkP (.leave [7, 9]) [7] [] [] Demo.outBulk = [2, 1] ∧
    (During Demo.bulkP (.leave [7, 9]) [7] [] [] Demo.outBulk fun s => ∀ j, (s.cast.tab.th j).1 = 1 → 7 ∉ joining (s.cast.tab.th j).2) ∧
    callsFor 1 Demo.bulkP (.leave [7, 9]) [7] [] [] Demo.outBulk = [.leave 7, .leave 9] := by
  refine ⟨⟨by decide, by decide, by simp [Demo.outBulk]⟩, by decide, during_of _ _ _ _ _ _ _ fun n hn j hj => ?_, by decide⟩
  have hb : ∀ n, n < Demo.outBulk.length + 1 → bulkBelow 3 (Demo.bulkP ++ .bulk (.leave [7, 9]) [7] [] [] :: Demo.outBulk.take n) = true := by
    decide
  by_cases h3 : 3 ≤ j
  · rw [bulkBelow_th 3 _ (hb n hn) j h3]; simp [joining]
  · have key : ∀ n, n < Demo.outBulk.length + 1 → ∀ j, j < 3 →
      7 ∉ joining ((BulkRace.run (Demo.bulkP ++ .bulk (.leave [7, 9]) [7] [] [] :: Demo.outBulk.take n)).cast.tab.th j).2 := by decide
    exact key n hn j (by omega)

example := demo_bulkLeave

/-- Those of `C107_untouched_partial` (socket 2 is in room 7 and not in the namespace) and of `C107_everybody_partial`. -/
example : WholeBulk (Demo.bulkP ++ [.disconnect 2]) (.join [8]) [] [] [] (List.replicate 14 .adv) ∧
    (During (Demo.bulkP ++ [.disconnect 2]) (.join [8]) [] [] [] (List.replicate 14 .adv) fun s => s.cast.reg 2 = false) ∧
    (During (Demo.bulkP ++ [.disconnect 2]) (.join [8]) [] [] [] (List.replicate 14 .adv) fun s => 1 ∉ s.cast.sent →
      (s.cast.tab.sids 1).isSome = true ∧ s.cast.reg 1 = true ∧ ∀ x ∈ ([] : List Nat), ¬ NearRoom s.cast.tab 1 x) :=
  ⟨⟨by decide, by decide, by simp⟩, during_of _ _ _ _ _ _ _ (by decide), during_of _ _ _ _ _ _ _ fun n hn _ => by
    refine ⟨?_, ?_, by simp⟩
    · revert n; decide
    · revert n; decide⟩

namespace Demo
/-- The bulk call comes to socket 1; before it joins the room, the socket leaves all rooms, is removed from the namespace, and can join
no more; then it joins. -/
def ghostQ : List BulkRace.Ev := List.replicate 4 .adv ++ [.room (.call 1 1 .leaveAll)] ++ List.replicate 8 (.room (.adv 1)) ++
  [.disconnect 1, .shut 1] ++ List.replicate 20 .adv

/-- Socket 1 is connected and in room 7. -/
def ghostP : List BulkRace.Ev := [.connect 1, .room (.call 1 1 (.join [7]))] ++ List.replicate 6 (.room (.adv 1))
end Demo

/-- A socket that disconnects while a bulk call is under way may be in a room for good: when everything has returned, it is not in the
namespace, cannot join rooms, has left all rooms, and is in one. -/
theorem C107_ghost_fails :
    ¬ ∀ (p : List BulkRace.Ev) (a : Act) (rooms except order : List Nat) (q : List BulkRace.Ev) (id g : Nat),
      WholeBulk p a rooms except order q → Quiet (BulkRace.run (p ++ .bulk a rooms except order :: q)).cast.tab →
      .room (.call 1 id .leaveAll) ∈ q → (BulkRace.run (p ++ .bulk a rooms except order :: q)).cast.reg id = false →
      (BulkRace.run (p ++ .bulk a rooms except order :: q)).shut id = true →
      ¬ InRoom (BulkRace.run (p ++ .bulk a rooms except order :: q)).cast.tab id g := by
  intro hall
  refine hall Demo.ghostP (.join [9]) [7] [] [] Demo.ghostQ 1 9 ⟨by decide, by decide, by simp [Demo.ghostQ]⟩ ?_ (by decide) (by decide)
    (by decide) ⟨3, by decide, by decide⟩
  intro k
  by_cases h : 2 ≤ k
  · exact bulkBelow_th 2 _ (by decide) k h
  · have : ∀ k, k < 2 → ((BulkRace.run (Demo.ghostP ++ .bulk (.join [9]) [7] [] [] :: Demo.ghostQ)).cast.tab.th k).2 = .done := by decide
    exact this k (by omega)

end Verif.Props
