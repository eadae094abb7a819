import Verif.Proof.CastEnd
import Verif.Props.CastRace
import Verif.Props.BulkRace

/-! # C74, C107: a broadcast reaches its sockets in the end, and a bulk call does what it is to do -/

namespace Verif.Props
open Verif Verif.Spec Verif.RoomRace

theorem castRun_eq (p : List CastRace.Ev) (r x o : List Nat) (q : List CastRace.Ev) :
    CastRace.run (p ++ .cast r x o :: q) = q.foldl CastRace.step (CastRace.step (CastRace.run p) (.cast r x o)) := by simp [CastRace.run]

theorem bulkRun_eq (p : List BulkRace.Ev) (a : BulkRace.Act) (r x o : List Nat) (q : List BulkRace.Ev) :
    BulkRace.run (p ++ .bulk a r x o :: q) = q.foldl BulkRace.step (BulkRace.step (BulkRace.run p) (.bulk a r x o)) := by simp [BulkRace.run]

/-- The broadcast returns in the end. -/
theorem cast_whole (p : List CastRace.Ev) (rooms except order : List Nat) (begins : (CastRace.run p).pc = .idle) (σ : Nat → CastRace.Ev)
    (one : ∀ i a b c, σ i ≠ .cast a b c) (fair : AgainAndAgain .adv σ) : ∃ n, ∀ m, n ≤ m → Whole p rooms except order (firstOf σ m) := by
  obtain ⟨n, hn⟩ := Returns.cast_ends σ fair (CastRace.step (CastRace.run p) (.cast rooms except order))
  refine ⟨n, fun m hm => ⟨begins, ?_, fun a b c h => ?_⟩⟩
  · obtain ⟨d, rfl⟩ := Nat.exists_eq_add_of_le hm
    have := Returns.cast_stays (firstOf (fun i => σ (n + i)) d) _
      (fun a b c h => by obtain ⟨i, hi⟩ := Returns.mem_firstOf h; exact one _ a b c hi) hn
    rw [← List.foldl_append, ← Acks.firstOf_add] at this
    simpa [CastRace.run] using this
  · obtain ⟨i, hi⟩ := Returns.mem_firstOf h
    exact one i a b c hi

/-- **C74**, partial as `C74_reached_partial`: under every schedule that goes on with the broadcast, a socket that, until it is reached, is in
the namespace and in one of the rooms all the time, and at no time in an excepted room or about to join one, is reached in the end, and once
only. -/
theorem C74_reached_in_the_end_partial (p : List CastRace.Ev) (rooms except order : List Nat) (begins : (CastRace.run p).pc = .idle)
    (σ : Nat → CastRace.Ev) (one : ∀ i a b c, σ i ≠ .cast a b c) (fair : AgainAndAgain .adv σ) (id r : Nat) (hr : r ∈ rooms)
    (stays : ∀ n, id ∉ sentTo p rooms except order (firstOf σ n) →
      InRoom (CastRace.run (p ++ .cast rooms except order :: firstOf σ n)).tab id r ∧
      (CastRace.run (p ++ .cast rooms except order :: firstOf σ n)).reg id = true ∧
      ∀ x ∈ except, ¬ NearRoom (CastRace.run (p ++ .cast rooms except order :: firstOf σ n)).tab id x) :
    ∃ n, ∀ m, n ≤ m → (sentTo p rooms except order (firstOf σ m)).count id = 1 := by
  obtain ⟨n, hn⟩ := cast_whole p rooms except order begins σ one fair
  refine ⟨n, fun m hm => C74_reached_partial p rooms except order _ (hn m hm) id r hr fun q₁ q₂ e hq => ?_⟩
  rw [Returns.prefix_firstOf e] at hq ⊢
  exact stays _ hq

/-- The hypotheses are met: socket 1 joins a room and socket 2 leaves while the broadcast is under way. -/
example : (CastRace.run Demo.twoIn).pc = .idle ∧ (∀ i a b c, Returns.thenOn Demo.busy .adv i ≠ .cast a b c) ∧
    AgainAndAgain .adv (Returns.thenOn Demo.busy .adv) ∧
    ∀ n, 1 ∉ sentTo Demo.twoIn [7] [8] [] (firstOf (Returns.thenOn Demo.busy .adv) n) →
      InRoom (CastRace.run (Demo.twoIn ++ .cast [7] [8] [] :: firstOf (Returns.thenOn Demo.busy .adv) n)).tab 1 7 ∧
      (CastRace.run (Demo.twoIn ++ .cast [7] [8] [] :: firstOf (Returns.thenOn Demo.busy .adv) n)).reg 1 = true ∧
      ∀ x ∈ [8], ¬ NearRoom (CastRace.run (Demo.twoIn ++ .cast [7] [8] [] :: firstOf (Returns.thenOn Demo.busy .adv) n)).tab 1 x := by
  obtain ⟨w, u, _⟩ := demo_busy
  refine ⟨w.begins, fun i a b c h => ?_, Returns.thenOn_fair _ _, fun n => ?_⟩
  · rcases Returns.thenOn_mem h with h | h
    · cases h
    · exact w.one a b c h
  · rw [sentTo, castRun_eq]
    exact Returns.thenOn_always CastRace.step _ Demo.busy .adv (Returns.cast_rest _ (by rw [← castRun_eq]; exact w.ends))
      (fun s => 1 ∉ s.sent → InRoom s.tab 1 7 ∧ s.reg 1 = true ∧ ∀ x ∈ [8], ¬ NearRoom s.tab 1 x)
      (fun a b e => by rw [← castRun_eq]; exact u a b e) n

/-- **C74**, partial as `C74_all_partial`: the same for a broadcast to everybody. -/
theorem C74_all_in_the_end_partial (p : List CastRace.Ev) (except order : List Nat) (begins : (CastRace.run p).pc = .idle)
    (σ : Nat → CastRace.Ev) (one : ∀ i a b c, σ i ≠ .cast a b c) (fair : AgainAndAgain .adv σ) (id : Nat)
    (stays : ∀ n, id ∉ sentTo p [] except order (firstOf σ n) →
      ((CastRace.run (p ++ .cast [] except order :: firstOf σ n)).tab.sids id).isSome = true ∧
      (CastRace.run (p ++ .cast [] except order :: firstOf σ n)).reg id = true ∧
      ∀ x ∈ except, ¬ NearRoom (CastRace.run (p ++ .cast [] except order :: firstOf σ n)).tab id x) :
    ∃ n, ∀ m, n ≤ m → (sentTo p [] except order (firstOf σ m)).count id = 1 := by
  obtain ⟨n, hn⟩ := cast_whole p [] except order begins σ one fair
  refine ⟨n, fun m hm => C74_all_partial p except order _ (hn m hm) id fun q₁ q₂ e hq => ?_⟩
  rw [Returns.prefix_firstOf e] at hq ⊢
  exact stays _ hq

/-- The hypotheses are met: socket 1 joins a room while the broadcast to everybody except those in room 8 is under way. -/
example :
    let p := Demo.twoIn ++ Demo.joinEv 2 [8]
    let σ := Returns.thenOn (Demo.joinEv 1 [9] ++ List.replicate 6 .adv) .adv
    (CastRace.run p).pc = .idle ∧ (∀ i a b c, σ i ≠ .cast a b c) ∧ AgainAndAgain .adv σ ∧
    ∀ n, 1 ∉ sentTo p [] [8] [2] (firstOf σ n) →
      ((CastRace.run (p ++ .cast [] [8] [2] :: firstOf σ n)).tab.sids 1).isSome = true ∧
      (CastRace.run (p ++ .cast [] [8] [2] :: firstOf σ n)).reg 1 = true ∧
      ∀ x ∈ [8], ¬ NearRoom (CastRace.run (p ++ .cast [] [8] [2] :: firstOf σ n)).tab 1 x := by
  obtain ⟨w, u, _⟩ := demo_everybody
  refine ⟨w.begins, fun i a b c h => ?_, Returns.thenOn_fair _ _, fun n => ?_⟩
  · rcases Returns.thenOn_mem h with h | h
    · cases h
    · exact w.one a b c h
  · rw [sentTo, castRun_eq]
    exact Returns.thenOn_always CastRace.step _ _ .adv (Returns.cast_rest _ (by rw [← castRun_eq]; exact w.ends))
      (fun s => 1 ∉ s.sent → (s.tab.sids 1).isSome = true ∧ s.reg 1 = true ∧ ∀ x ∈ [8], ¬ NearRoom s.tab 1 x)
      (fun a b e => by rw [← castRun_eq]; exact u a b e) n

/-- The bulk call returns in the end. -/
theorem bulk_whole (p : List BulkRace.Ev) (a : BulkRace.Act) (rooms except order : List Nat) (begins : (BulkRace.run p).idle = true)
    (σ : Nat → BulkRace.Ev) (one : ∀ i b r x o, σ i ≠ .bulk b r x o) (fair : AgainAndAgain .adv σ) :
    ∃ n, ∀ m, n ≤ m → WholeBulk p a rooms except order (firstOf σ m) := by
  obtain ⟨n, hn⟩ := Returns.bulk_ends σ fair (BulkRace.step (BulkRace.run p) (.bulk a rooms except order))
  refine ⟨n, fun m hm => ⟨begins, ?_, fun b r x o h => ?_⟩⟩
  · obtain ⟨d, rfl⟩ := Nat.exists_eq_add_of_le hm
    have := Returns.bulk_stays (firstOf (fun i => σ (n + i)) d) _
      (fun a b c d h => by obtain ⟨i, hi⟩ := Returns.mem_firstOf h; exact one _ a b c d hi) hn
    rw [← List.foldl_append, ← Acks.firstOf_add] at this
    simpa [BulkRace.run] using this
  · obtain ⟨i, hi⟩ := Returns.mem_firstOf h
    exact one i b r x o hi

/-- **C107**, partial as `C107_selected_partial` and `C107_joined_partial`: a socket that is in the namespace and in one of the rooms
selected all the time until the call comes to it, and not excepted, is in all the rooms it is to join in the end, in both tables, if it is not
being disconnected, nobody takes it out of the room, and the room is not deleted. -/
theorem C107_joined_in_the_end_partial (p : List BulkRace.Ev) (rs rooms except order : List Nat) (begins : (BulkRace.run p).idle = true)
    (σ : Nat → BulkRace.Ev) (one : ∀ i b r x o, σ i ≠ .bulk b r x o) (fair : AgainAndAgain .adv σ) (id r g : Nat) (hr : r ∈ rooms) (hg : g ∈ rs)
    (selected : ∀ n, id ∉ cameTo p (.join rs) rooms except order (firstOf σ n) →
      let s := BulkRace.run (p ++ .bulk (.join rs) rooms except order :: firstOf σ n)
      InRoom s.cast.tab id r ∧ s.cast.reg id = true ∧ ∀ x ∈ except, ¬ NearRoom s.cast.tab id x)
    (stays : ∀ n, let s := BulkRace.run (p ++ .bulk (.join rs) rooms except order :: firstOf σ n)
      s.shut id = false ∧ (∀ j, (s.cast.tab.th j).1 = id → mayLeave g (s.cast.tab.th j).2 = false) ∧
      s.cast.tab.deleted.count g = (BulkRace.run p).cast.tab.deleted.count g) :
    ∃ n, ∀ m, n ≤ m →
      InRoom (BulkRace.run (p ++ .bulk (.join rs) rooms except order :: firstOf σ m)).cast.tab id g ∧
      HasRoom (BulkRace.run (p ++ .bulk (.join rs) rooms except order :: firstOf σ m)).cast.tab id g := by
  obtain ⟨n, hn⟩ := bulk_whole p (.join rs) rooms except order begins σ one fair
  refine ⟨n, fun m hm => C107_joined_partial p rs rooms except order _ (hn m hm) id
    (C107_selected_partial p (.join rs) rooms except order _ (hn m hm) id r hr fun q₁ q₂ e => ?_) g hg fun q₁ q₂ e => ?_⟩
  · rw [Returns.prefix_firstOf e]
    exact selected _
  · rw [Returns.prefix_firstOf e]
    exact stays _

/-- The hypotheses are met: sockets of room 7 that are not in room 8 join rooms 8 and 9, while socket 1 joins room 6 and socket 2
disconnects. -/
example :
    let σ := Returns.thenOn Demo.bulkQ .adv
    (BulkRace.run Demo.bulkP).idle = true ∧ (∀ i b r x o, σ i ≠ .bulk b r x o) ∧ AgainAndAgain .adv σ ∧
    (∀ n, 1 ∉ cameTo Demo.bulkP (.join [8, 9]) [7] [8] [] (firstOf σ n) →
      let s := BulkRace.run (Demo.bulkP ++ .bulk (.join [8, 9]) [7] [8] [] :: firstOf σ n)
      InRoom s.cast.tab 1 7 ∧ s.cast.reg 1 = true ∧ ∀ x ∈ [8], ¬ NearRoom s.cast.tab 1 x) ∧
    ∀ n, let s := BulkRace.run (Demo.bulkP ++ .bulk (.join [8, 9]) [7] [8] [] :: firstOf σ n)
      s.shut 1 = false ∧ (∀ j, (s.cast.tab.th j).1 = 1 → mayLeave 8 (s.cast.tab.th j).2 = false) ∧
      s.cast.tab.deleted.count 8 = (BulkRace.run Demo.bulkP).cast.tab.deleted.count 8 := by
  obtain ⟨w, u, v, _⟩ := demo_bulkJoin
  refine ⟨w.begins, fun i b r x o h => ?_, Returns.thenOn_fair _ _, fun n => ?_, fun n => ?_⟩
  · rcases Returns.thenOn_mem h with h | h
    · cases h
    · exact w.one b r x o h
  · rw [cameTo, bulkRun_eq]
    exact Returns.thenOn_always BulkRace.step _ _ .adv (Returns.bulk_rest _ (by rw [← bulkRun_eq]; exact w.ends))
      (fun s => 1 ∉ s.cast.sent → InRoom s.cast.tab 1 7 ∧ s.cast.reg 1 = true ∧ ∀ x ∈ [8], ¬ NearRoom s.cast.tab 1 x)
      (fun a b e => by rw [← bulkRun_eq]; exact u a b e) n
  · rw [bulkRun_eq]
    exact Returns.thenOn_always BulkRace.step _ _ .adv (Returns.bulk_rest _ (by rw [← bulkRun_eq]; exact w.ends))
      (fun s => s.shut 1 = false ∧ (∀ j, (s.cast.tab.th j).1 = 1 → mayLeave 8 (s.cast.tab.th j).2 = false) ∧
        s.cast.tab.deleted.count 8 = (BulkRace.run Demo.bulkP).cast.tab.deleted.count 8)
      (fun a b e => by rw [← bulkRun_eq]; exact v a b e) n

/-- **C107**, partial as `C107_selected_partial`: a socket that is in the namespace and in one of the rooms selected all the time until the
call comes to it, and not excepted, is in none of the rooms it is to leave in the end, in both tables, if no call makes it join. -/
theorem C107_left_in_the_end_partial (p : List BulkRace.Ev) (rs rooms except order : List Nat) (begins : (BulkRace.run p).idle = true)
    (σ : Nat → BulkRace.Ev) (one : ∀ i b r x o, σ i ≠ .bulk b r x o) (fair : AgainAndAgain .adv σ) (id r g : Nat) (hr : r ∈ rooms) (hg : g ∈ rs)
    (selected : ∀ n, id ∉ cameTo p (.leave rs) rooms except order (firstOf σ n) →
      let s := BulkRace.run (p ++ .bulk (.leave rs) rooms except order :: firstOf σ n)
      InRoom s.cast.tab id r ∧ s.cast.reg id = true ∧ ∀ x ∈ except, ¬ NearRoom s.cast.tab id x)
    (stays : ∀ n, let s := BulkRace.run (p ++ .bulk (.leave rs) rooms except order :: firstOf σ n)
      ∀ j, (s.cast.tab.th j).1 = id → g ∉ joining (s.cast.tab.th j).2) :
    ∃ n, ∀ m, n ≤ m →
      ¬ InRoom (BulkRace.run (p ++ .bulk (.leave rs) rooms except order :: firstOf σ m)).cast.tab id g ∧
      ¬ HasRoom (BulkRace.run (p ++ .bulk (.leave rs) rooms except order :: firstOf σ m)).cast.tab id g := by
  obtain ⟨n, hn⟩ := bulk_whole p (.leave rs) rooms except order begins σ one fair
  refine ⟨n, fun m hm => C107_left p rs rooms except order _ (hn m hm) id
    (C107_selected_partial p (.leave rs) rooms except order _ (hn m hm) id r hr fun q₁ q₂ e => ?_) g hg fun q₁ q₂ e => ?_⟩
  · rw [Returns.prefix_firstOf e]
    exact selected _
  · rw [Returns.prefix_firstOf e]
    exact stays _

/-- The hypotheses are met: the sockets of room 7 leave rooms 7 and 9, while socket 1 joins room 6 and socket 2 leaves room 7. -/
example :
    let σ := Returns.thenOn Demo.outBulk .adv
    (BulkRace.run Demo.bulkP).idle = true ∧ (∀ i b r x o, σ i ≠ .bulk b r x o) ∧ AgainAndAgain .adv σ ∧
    (∀ n, 1 ∉ cameTo Demo.bulkP (.leave [7, 9]) [7] [] [] (firstOf σ n) →
      let s := BulkRace.run (Demo.bulkP ++ .bulk (.leave [7, 9]) [7] [] [] :: firstOf σ n)
      InRoom s.cast.tab 1 7 ∧ s.cast.reg 1 = true ∧ ∀ x ∈ ([] : List Nat), ¬ NearRoom s.cast.tab 1 x) ∧
    ∀ n, let s := BulkRace.run (Demo.bulkP ++ .bulk (.leave [7, 9]) [7] [] [] :: firstOf σ n)
      ∀ j, (s.cast.tab.th j).1 = 1 → 7 ∉ joining (s.cast.tab.th j).2 := by
  obtain ⟨w, _, v, _⟩ := demo_bulkLeave
  refine ⟨w.begins, fun i b r x o h => ?_, Returns.thenOn_fair _ _, fun n => ?_, fun n => ?_⟩
  · rcases Returns.thenOn_mem h with h | h
    · cases h
    · exact w.one b r x o h
  · have u : During Demo.bulkP (.leave [7, 9]) [7] [] [] Demo.outBulk fun s => 1 ∉ s.cast.sent →
        InRoom s.cast.tab 1 7 ∧ s.cast.reg 1 = true ∧ ∀ x ∈ ([] : List Nat), ¬ NearRoom s.cast.tab 1 x :=
      during_of _ _ _ _ _ _ _ fun n hn hns => ⟨by revert n; decide, by revert n; decide, by simp⟩
    rw [cameTo, bulkRun_eq]
    exact Returns.thenOn_always BulkRace.step _ _ .adv (Returns.bulk_rest _ (by rw [← bulkRun_eq]; exact w.ends))
      (fun s => 1 ∉ s.cast.sent → InRoom s.cast.tab 1 7 ∧ s.cast.reg 1 = true ∧ ∀ x ∈ ([] : List Nat), ¬ NearRoom s.cast.tab 1 x)
      (fun a b e => by rw [← bulkRun_eq]; exact u a b e) n
  · rw [bulkRun_eq]
    exact Returns.thenOn_always BulkRace.step _ _ .adv (Returns.bulk_rest _ (by rw [← bulkRun_eq]; exact w.ends))
      (fun s => ∀ j, (s.cast.tab.th j).1 = 1 → 7 ∉ joining (s.cast.tab.th j).2)
      (fun a b e => by rw [← bulkRun_eq]; exact v a b e) n

end Verif.Props
