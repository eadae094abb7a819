import Verif.Proof.JoinRace

/-! # C65: a closed socket is in no room, and its rooms are saved -/

namespace Verif.Props
open Verif Verif.Spec Verif.JoinRace

/-- Once the socket has been disconnected, it is only in rooms of a `Join` that overlapped every close that disconnected it: no room
it was in before, no room of a `Join` that had returned before the close began, and none of a `Join` that began after the close had
returned. -/
theorem C65_partial (rooms : List Nat) (h : List JoinRace.Ev) (k : Nat) (hd : DisconnectedBy (JoinRace.run rooms h) k) (r : Nat)
    (hr : r ∈ (JoinRace.run rooms h).rooms) :
    ∃ (i : Nat) (rs : List Nat), IsJoin (JoinRace.run rooms h) i rs ∧ r ∈ rs ∧
      ∀ j, DisconnectedBy (JoinRace.run rooms h) j → Overlap (JoinRace.run rooms h).log i j := by
  have i := inv_run rooms h
  rcases i.rooms r hr with ⟨_, h1⟩ | ⟨a, rs, h1, h2, h3⟩
  · obtain ⟨b, h2⟩ := i.disconnect k hd
    have := h1 k b _ h2
    simp [left] at this
  · refine ⟨a, rs, ⟨_, h1⟩, h2, fun j hj => ?_⟩
    obtain ⟨b, h4⟩ := i.disconnect j hj
    exact (h3 j b _ h4 (by simp [left])).1

/-- So a disconnected socket is in no room at all if no `Join` overlapped the close. -/
theorem C65_quiet_partial (rooms : List Nat) (h : List JoinRace.Ev) (k : Nat) (hd : DisconnectedBy (JoinRace.run rooms h) k)
    (hq : ∀ i rs, IsJoin (JoinRace.run rooms h) i rs → ¬ Overlap (JoinRace.run rooms h).log i k) : (JoinRace.run rooms h).rooms = [] := by
  cases e : (JoinRace.run rooms h).rooms with
  | nil => rfl
  | cons r l =>
    obtain ⟨i, rs, h1, _, h3⟩ := C65_partial rooms h k hd r (by simp [e])
    exact absurd (h3 k hd) (hq i rs h1)

/-- If only one goroutine closes the socket, the session it saves has the rooms of the start and those of every `Join` that had
returned before the close began. -/
theorem C65_saved_partial (rooms : List Nat) (h : List JoinRace.Ev) (k : Nat) (l : List Nat)
    (hs : .saved k l ∈ (JoinRace.run rooms h).log) (ho : ∀ j, IsClose (JoinRace.run rooms h) j → j = k) :
    (∀ r ∈ rooms, r ∈ l) ∧ ∀ i rs, IsJoin (JoinRace.run rooms h) i rs →
      Before (JoinRace.run rooms h).log (.returned i) (.called k) → ∀ r ∈ rs, r ∈ l := by
  obtain ⟨_, ⟨j, b, pc, h1, h2⟩ | ⟨h1, h2⟩⟩ := (keep_run rooms h).saved k l hs
  · exact absurd (ho j ⟨b, pc, h2⟩) h1
  · exact ⟨h1, fun i rs ⟨pc, hi⟩ => h2 i rs pc hi⟩

/-- Hypotheses met: a `Join` before the close and one after it, which is refused. -/
def Demo.quietJoin : List JoinRace.Ev :=
  [.call (.join [5, 6]), .adv 0, .adv 0, .call (.close true), .adv 1, .adv 1, .adv 1, .adv 1, .adv 1, .adv 1, .adv 1, .adv 1,
   .call (.join [7]), .adv 2]

example : DisconnectedBy (JoinRace.run [1] Demo.quietJoin) 1 ∧ (JoinRace.run [1] Demo.quietJoin).rooms = [] ∧
    .saved 1 [1, 5, 6] ∈ (JoinRace.run [1] Demo.quietJoin).log := by
  unfold DisconnectedBy; decide

/-- A `Join` that looked at the flag before the close and adds the rooms after it. -/
def Demo.ghostJoin : List JoinRace.Ev :=
  [.call (.join [5]), .adv 0, .call (.close true), .adv 1, .adv 1, .adv 1, .adv 1, .adv 1, .adv 1, .adv 1, .adv 1, .adv 0]

/-- The claim itself fails: every call has returned, the socket is disconnected and gone from the namespace, and it is in a room. -/
theorem C65_fail : ∃ (h : List JoinRace.Ev) (k : Nat), AllReturned (JoinRace.run [1] h) ∧ DisconnectedBy (JoinRace.run [1] h) k ∧
    (JoinRace.run [1] h).registered = false ∧ (JoinRace.run [1] h).connected = false ∧ (JoinRace.run [1] h).rooms = [5] :=
  ⟨Demo.ghostJoin, 1, by unfold AllReturned; decide, by unfold DisconnectedBy; decide, by decide, by decide, by decide⟩

/-- A `Join` that returns while the close is between saving the session and emptying the rooms. -/
def Demo.lostJoin : List JoinRace.Ev :=
  [.call (.close true), .adv 0, .adv 0, .adv 0, .call (.join [5]), .adv 1, .adv 1, .adv 0, .adv 0, .adv 0, .adv 0, .adv 0]

/-- And a `Join` can succeed, returning before the socket is disconnected, without being saved. -/
theorem C65_lost_fail : ∃ (h : List JoinRace.Ev) (i k : Nat), AllReturned (JoinRace.run [1] h) ∧
    Before (JoinRace.run [1] h).log (.returned i) (.disconnect k) ∧ (JoinRace.run [1] h).ths[i]? = some (.join [5], .done true) ∧
    (∀ l, .saved k l ∈ (JoinRace.run [1] h).log → 5 ∉ l) ∧ .saved k [1] ∈ (JoinRace.run [1] h).log ∧ (JoinRace.run [1] h).rooms = [] := by
  refine ⟨Demo.lostJoin, 1, 0, by unfold AllReturned; decide, ⟨[.called 0, .disconnecting 0, .handled 0, .saved 0 [1], .called 1, .returned 1], [.returned 0], by decide, by decide⟩,
    by decide, ?_, by decide, by decide⟩
  have : (JoinRace.run [1] Demo.lostJoin).log = [.called 0, .disconnecting 0, .handled 0, .saved 0 [1], .called 1, .returned 1, .disconnect 0, .returned 0] := by decide
  rw [this]
  intro l hl
  simp at hl
  subst hl; simp

end Verif.Props
