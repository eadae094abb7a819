import Verif.Proof.JoinHandlers

/-!
# C82: what the handlers of "disconnecting" and "disconnect" find

`Model/JoinRace`: any number of goroutines join rooms and close the socket.
-/

namespace Verif.Props
open Verif Verif.Spec Verif.JoinRace

/-- **C82**, "disconnecting", when one goroutine closes the socket: while its handlers run, the socket is still connected and registered,
and `Rooms()` are exactly the rooms of the start and those of the `Join` calls that have returned. -/
theorem C82_disconnecting_partial (rooms : List Nat) (h : List JoinRace.Ev) (k : Nat) (hd : InDisconnecting (JoinRace.run rooms h) k)
    (ho : ∀ j, IsClose (JoinRace.run rooms h) j → j = k) :
    (JoinRace.run rooms h).connected = true ∧ (JoinRace.run rooms h).registered = true ∧
    ∀ r, r ∈ (JoinRace.run rooms h).rooms ↔
      r ∈ rooms ∨ ∃ i rs, IsJoin (JoinRace.run rooms h) i rs ∧ .returned i ∈ (JoinRace.run rooms h).log ∧ r ∈ rs := by
  obtain ⟨_, b, hk⟩ := hd
  have i := inv_run rooms h
  have q := keep_run rooms h
  have t := late_run rooms h
  have only : ∀ (j : Nat) (b' : Bool) (pc : PC), (JoinRace.run rooms h).ths[j]? = some (.close b', pc) → pc = .persist := by
    intro j b' pc hj
    have := ho j ⟨b', pc, hj⟩
    subst this
    rw [hk] at hj; cases hj; rfl
  refine ⟨?_, ?_, fun r => ⟨fun hr => ?_, ?_⟩⟩
  · cases hc : (JoinRace.run rooms h).connected with
    | true => rfl
    | false =>
      obtain ⟨j, b', pc, h1, h2⟩ := t.con.1 hc
      rw [only j b' pc h1] at h2; cases h2
  · cases hc : (JoinRace.run rooms h).registered with
    | true => rfl
    | false =>
      obtain ⟨j, b', pc, h1, h2⟩ := t.reg.1 hc
      rw [only j b' pc h1] at h2; cases h2
  · rcases i.rooms r hr with ⟨h1, _⟩ | ⟨a, rs, h1, h2, _⟩
    · exact .inl h1
    · exact .inr ⟨a, rs, ⟨_, h1⟩, t.ret _ _ _ h1, h2⟩
  · have hf := q.fresh.resolve_left (by rintro ⟨j, b', pc, h1, h2⟩; rw [only j b' pc h1] at h2; cases h2)
    rintro (h1 | ⟨a, rs, ⟨pc, h1⟩, h2, h3⟩)
    · exact hf.1 r h1
    · obtain ⟨c, ok, h4⟩ := i.returned a h2
      rw [h1] at h4; cases h4
      cases ok with
      | true => exact hf.2 a rs h1 r h3
      | false =>
        obtain ⟨j, b', pc, h5, h6⟩ := q.refused a rs h1
        rw [only j b' pc h5] at h6; cases h6

/-- **C82**, "disconnect": from the moment it is fired the socket is neither connected nor registered, and it is in no room unless a `Join`
overlapped the close and had not returned when the handlers of "disconnecting" had (so those handlers may join rooms). -/
theorem C82_disconnect_partial (rooms : List Nat) (h : List JoinRace.Ev) (k : Nat) (hd : DisconnectedBy (JoinRace.run rooms h) k) :
    (JoinRace.run rooms h).connected = false ∧ (JoinRace.run rooms h).registered = false ∧
    ((∀ i rs, IsJoin (JoinRace.run rooms h) i rs → Overlap (JoinRace.run rooms h).log i k →
      Before (JoinRace.run rooms h).log (.returned i) (.handled k)) → (JoinRace.run rooms h).rooms = []) := by
  have i := inv_run rooms h
  have t := late_run rooms h
  obtain ⟨b, hk⟩ := i.disconnect k hd
  refine ⟨t.con.2 ⟨k, b, _, hk, rfl⟩, t.reg.2 ⟨k, b, _, hk, rfl⟩, fun hq => ?_⟩
  cases e : (JoinRace.run rooms h).rooms with
  | nil => rfl
  | cons r l =>
    rcases i.rooms r (by simp [e]) with ⟨_, h1⟩ | ⟨a, rs, h1, _, h3⟩
    · have := h1 k b _ hk; simp [left] at this
    · obtain ⟨h4, h5⟩ := h3 k b _ hk (by simp [left])
      exact absurd (hq a rs ⟨_, h1⟩ h4) h5

/-- The claim fails when two goroutines close the socket: the second fires "disconnecting" when the rooms are gone. -/
theorem C82_disconnecting_fail :
    let h : List JoinRace.Ev := [.call (.close false), .call (.close false), .adv 1, .adv 0, .adv 0, .adv 0, .adv 0, .adv 1]
    InDisconnecting (JoinRace.run [1] h) 1 ∧ (JoinRace.run [1] h).rooms = [] :=
  ⟨⟨by decide, false, by decide⟩, by decide⟩

/-- The claim fails when a `Join` is under way: the handlers of "disconnect" find the socket in a room. -/
theorem C82_disconnect_fail :
    let h : List JoinRace.Ev := [.call (.join [5]), .adv 0, .call (.close true), .adv 1, .adv 1, .adv 1, .adv 1, .adv 0, .adv 1, .adv 1, .adv 1, .adv 1]
    DisconnectedBy (JoinRace.run [1] h) 1 ∧ (JoinRace.run [1] h).rooms = [5] :=
  ⟨by unfold DisconnectedBy; decide, by decide⟩

/-- Hypotheses met: a socket in room 1 joins 5 and 6; a handler of "disconnecting" finds the three rooms and joins 7; those of "disconnect" find none. -/
example :
    let h₁ : List JoinRace.Ev := [.call (.join [5, 6]), .adv 0, .adv 0, .call (.close true), .adv 1, .adv 1]
    let h₂ : List JoinRace.Ev := h₁ ++ [.call (.join [7]), .adv 2, .adv 2]
    let h₃ : List JoinRace.Ev := h₂ ++ [.adv 1, .adv 1, .adv 1, .adv 1, .adv 1, .adv 1]
    InDisconnecting (JoinRace.run [1] h₁) 1 ∧ (JoinRace.run [1] h₁).rooms = [1, 5, 6] ∧
    InDisconnecting (JoinRace.run [1] h₂) 1 ∧ (JoinRace.run [1] h₂).rooms = [1, 5, 6, 7] ∧
    DisconnectedBy (JoinRace.run [1] h₃) 1 ∧ (JoinRace.run [1] h₃).rooms = [] :=
  ⟨⟨by decide, true, by decide⟩, by decide, ⟨by decide, true, by decide⟩, by decide, by unfold DisconnectedBy; decide, by decide⟩

end Verif.Props
