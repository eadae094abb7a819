import Verif.Proof.DataRace

/-! # C113: several goroutines may use the library at the same time -/

namespace Verif.Props
open Verif Verif.Spec Verif.DataRace

/-- **C113, the part that holds.**  Whatever calls any number of goroutines make: if no two goroutines make calls one of which changes
what the other changes or needs (`Disturb`), then there is no data race, whatever the schedule.  So emissions, operators, joins and
requests may be made from anywhere as long as nobody sets modifiers on the same socket or settings on the server meanwhile. -/
theorem C113_race_free_partial (progs : List (List Call))
    (apart : ∀ (i j : Nat) (p q : List Call), i ≠ j → progs[i]? = some p → progs[j]? = some q → ∀ a ∈ p, ∀ b ∈ q, ¬ Disturb a b)
    (sched : List Nat) : ¬ Race (DataRace.run progs sched) := by
  rintro ⟨i, j, gi, gj, c, wi, wj, hne, hi, hj, ai, aj, hw⟩
  obtain ⟨p, hp, a, ha, xa⟩ := access_call progs sched i gi c wi hi ai
  obtain ⟨q, hq, b, hb, xb⟩ := access_call progs sched j gj c wj hj aj
  refine apart i j p q hne hp hq a ha b hb ⟨shared c, ?_⟩
  cases wi with
  | true =>
    refine Or.inl ⟨changes_of a _ xa, ?_⟩
    cases wj with
    | true => exact Or.inl (changes_of b _ xb)
    | false => exact Or.inr (needs_of b _ xb)
  | false =>
    cases wj with
    | true => exact Or.inr ⟨needs_of a _ xa, changes_of b _ xb⟩
    | false => simp at hw

/-- Any number of goroutines emit through one socket and make operators of it, while clients connect and leave, and another goroutine sets
modifiers on a socket of its own. -/
example (n : Nat) (sched : List Nat) :
    ¬ Race (DataRace.run ([.modify 1 .volatile, .emit 1 true] :: List.replicate n [.emit 0 true, .derive_ 0, .useOp 3, .through 0, .of, .connection, .close [0, 1]]) sched) := by
  apply C113_race_free_partial
  intro i j p q hne hp hq a ha b hb ⟨x, hx⟩
  have key : ∀ (i : Nat) (p : List Call), ([.modify 1 .volatile, .emit 1 true] :: List.replicate n [.emit 0 true, .derive_ 0, .useOp 3, .through 0, .of, .connection, .close [0, 1]])[i]? = some p →
      (i = 0 ∧ p = [.modify 1 .volatile, .emit 1 true]) ∨ (i ≠ 0 ∧ p = [.emit 0 true, .derive_ 0, .useOp 3, .through 0, .of, .connection, .close [0, 1]]) := by
    intro i p h
    cases i with
    | zero => left; simp at h; exact ⟨rfl, h.symm⟩
    | succ i => right; simp [List.getElem?_replicate] at h; exact ⟨by omega, h.2.symm⟩
  rcases key i p hp with ⟨rfl, rfl⟩ | ⟨_, rfl⟩ <;> rcases key j q hq with ⟨rfl, rfl⟩ | ⟨_, rfl⟩
  · exact hne rfl
  all_goals
    simp only [List.mem_cons, List.not_mem_nil, or_false] at ha hb
    rcases x with ⟨s, f⟩ | x
    · rcases ha with rfl | rfl | rfl | rfl | rfl | rfl | rfl <;> rcases hb with rfl | rfl | rfl | rfl | rfl | rfl | rfl <;>
        simp [Changes, Needs] at hx <;> omega
    · cases x <;> rcases ha with rfl | rfl | rfl | rfl | rfl | rfl | rfl <;> rcases hb with rfl | rfl | rfl | rfl | rfl | rfl | rfl <;>
        simp [Changes, Needs] at hx

/-- **C113**: and this is all that holds.  If two goroutines make calls one of which changes what the other changes or needs, then there is
a schedule with a data race, whatever else the goroutines and the others do. -/
theorem C113_otherwise_fails (progs : List (List Call)) (i j : Nat) (p q : List Call) (hne : i ≠ j) (hp : progs[i]? = some p)
    (hq : progs[j]? = some q) (a b : Call) (ha : a ∈ p) (hb : b ∈ q) (hd : Disturb a b) : ∃ sched, Race (DataRace.run progs sched) := by
  obtain ⟨x, ⟨h1, h2 | h2⟩ | ⟨h1, h2⟩⟩ := hd
  · exact race_of progs i j hne p q hp hq a b ha hb x true true (by simpa [Touches] using h1) (by simpa [Touches] using h2) (Or.inl rfl)
  · exact race_of progs i j hne p q hp hq a b ha hb x true false (by simpa [Touches] using h1) (by simpa [Touches] using h2) (Or.inl rfl)
  · exact race_of progs i j hne p q hp hq a b ha hb x false true (by simpa [Touches] using h1) (by simpa [Touches] using h2) (Or.inr rfl)

example : Disturb (.modify 0 .volatile) (.emit 0 false) := ⟨.modifier 0 .volatile, Or.inl ⟨⟨rfl, rfl⟩, Or.inr rfl⟩⟩

/-- **C113 fails** for `socket.Volatile().Emit(…)` and `socket.Emit(…)` in two goroutines. -/
theorem C113_modifier_fails : ∃ sched, Race (DataRace.run [[.modify 0 .volatile, .emit 0 false], [.emit 0 false]] sched) :=
  C113_otherwise_fails _ 0 1 _ _ (by decide) rfl rfl (.modify 0 .volatile) (.emit 0 false) (by simp) (by simp)
    ⟨.modifier 0 .volatile, Or.inl ⟨⟨rfl, rfl⟩, Or.inr rfl⟩⟩

/-- **C113 fails** for a program with a single goroutine: it broadcasts with an acknowledgement, and a client has answered before the call
has stored the number of servers to wait for.  (The schedule: the operator is read and the packets are sent, then the answer arrives.) -/
theorem C113_answer_fails : Race (DataRace.run [[.ask 0 0], [.answer 0]] [0, 0]) :=
  ⟨0, 1, ⟨[.wr (.count 0), .rd (.count 0)], 0⟩, ⟨[.rd (.count 0)], 0⟩, .at (.count 0), true, false, by decide, by decide, by decide, by decide, by decide, Or.inl rfl⟩

/-- **C113 fails** for the constructor: the server is already attached, and a file is asked for, when the handler of the option `cors` is
stored.  (The schedule: the server is attached, then the request arrives.) -/
theorem C113_cors_fails : Race (DataRace.run [[.attach, .finish], [.file]] (List.replicate 8 0 ++ [1])) :=
  ⟨0, 1, ⟨[.wr .cors], 0⟩, ⟨[.rd .cors], 0⟩, .at .cors, true, false, by decide, by decide, by decide, by decide, by decide, Or.inl rfl⟩

/-- **C113 fails** for `SetConnectTimeout` and `SetAdapter` on a server that clients connect to. -/
theorem C113_settings_fails :
    (∃ sched, Race (DataRace.run [[.setConnectTimeout], [.connection]] sched)) ∧
    (∃ sched, Race (DataRace.run [[.setAdapter [0]], [.through 0]] sched)) :=
  ⟨C113_otherwise_fails _ 0 1 _ _ (by decide) rfl rfl .setConnectTimeout .connection (by simp) (by simp)
      ⟨.other .connectTimeout, Or.inl ⟨trivial, Or.inr trivial⟩⟩,
    C113_otherwise_fails _ 0 1 _ _ (by decide) rfl rfl (.setAdapter [0]) (.through 0) (by simp) (by simp)
      ⟨.other (.adapterOf 0), Or.inl ⟨by simp [Changes], Or.inr rfl⟩⟩⟩

end Verif.Props
