import Verif.Proof.Returns

/-! # C115: calls return whatever the others do -/

namespace Verif.Props
open Verif Verif.Spec

/-- **C115**, rooms: a goroutine that joins or leaves rooms, or takes a socket that is disconnected out of all of them, gets to the end of its
call, whatever calls the other goroutines make at the same time, if only it is given steps again and again. -/
theorem C115_rooms (h : List RoomRace.Ev) (k : Nat) (σ : Nat → RoomRace.Ev) (fair : AgainAndAgain (.adv k) σ) :
    ∃ n, ((RoomRace.run (h ++ firstOf σ n)).th k).2 = .done := by
  obtain ⟨n, hn⟩ := Returns.room_ends σ k fair (RoomRace.run h)
  exact ⟨n, by simpa [RoomRace.run] using hn⟩

/-- Goroutine 1 leaves all rooms while goroutine 2 joins others, in turn. -/
example :
    let h : List RoomRace.Ev := [.call 2 7 (.join [1, 2, 3]), .adv 2, .adv 2, .call 1 7 .leaveAll]
    let σ : Nat → RoomRace.Ev := fun n => if n % 2 = 0 then .adv 2 else .adv 1
    AgainAndAgain (.adv 1) σ ∧ ((RoomRace.run h).th 1).2 = .a0 :=
  ⟨fun n => ⟨2 * n + 1, by omega, by simp⟩, by decide⟩

/-- **C115**, broadcasts: a broadcast, and the other calls with the same loop, as `FetchSockets`, gets to its end, whatever sockets come, go,
join and leave meanwhile. -/
theorem C115_broadcast (h : List CastRace.Ev) (σ : Nat → CastRace.Ev) (fair : AgainAndAgain .adv σ) :
    ∃ n, (CastRace.run (h ++ firstOf σ n)).pc = .idle := by
  obtain ⟨n, hn⟩ := Returns.cast_ends σ fair (CastRace.run h)
  exact ⟨n, by simpa [CastRace.run] using hn⟩

/-- New sockets join the room, without end, while the broadcast to it goes on. -/
example :
    let σ : Nat → CastRace.Ev := fun n => if n % 3 = 0 then .room (.call 1 n (.join [5])) else if n % 3 = 1 then .room (.adv 1) else .adv
    AgainAndAgain .adv σ ∧ (CastRace.run [.connect 1, .cast [5, 6] [7] []]).pc = .x [7] [5, 6] [] :=
  ⟨fun n => ⟨3 * n + 2, by omega, by
    have : (3 * n + 2) % 3 = 2 := by omega
    simp [this]⟩, by decide⟩

/-- **C115**, bulk calls: so does a `SocketsJoin` or `SocketsLeave`, with all the calls that it makes. -/
theorem C115_bulk (h : List BulkRace.Ev) (σ : Nat → BulkRace.Ev) (fair : AgainAndAgain .adv σ) :
    ∃ n, (BulkRace.run (h ++ firstOf σ n)).idle = true := by
  obtain ⟨n, hn⟩ := Returns.bulk_ends σ fair (BulkRace.run h)
  exact ⟨n, by simpa [BulkRace.run] using hn⟩

/-- Everybody in room 5 joins room 5 and room 6 while sockets are disconnected and come back. -/
example :
    let σ : Nat → BulkRace.Ev := fun n => if n % 3 = 0 then .disconnect 1 else if n % 3 = 1 then .connect 1 else .adv
    AgainAndAgain .adv σ ∧ (BulkRace.run [.connect 1, .bulk (.join [5, 6]) [5] [] []]).idle = false :=
  ⟨fun n => ⟨3 * n + 2, by omega, by
    have : (3 * n + 2) % 3 = 2 := by omega
    simp [this]⟩, by decide⟩

/-- **C115**, sessions: saving a session takes two steps of the goroutine that does it, asking for one three, and a clean-up two for each session
and one more, at most, whatever the others do. -/
theorem C115_sessions (max : Nat) (p : List SessRace.Ev) (e : SessRace.Ev) (begins : sessBegins e) (q : List SessRace.Ev)
    (steps : sessSteps e ≤ q.count (.adv (SessRace.run max p).tasks.length)) :
    ∃ a, (SessRace.run max (p ++ e :: q)).tasks[(SessRace.run max p).tasks.length]? = some a ∧ sessReturned a := by
  have hrun : SessRace.run max (p ++ e :: q) = q.foldl (SessRace.step max) (SessRace.step max (SessRace.run max p) e) := by
    simp [SessRace.run]
  obtain ⟨b, hb, hl⟩ : ∃ b, (SessRace.step max (SessRace.run max p) e).tasks[(SessRace.run max p).tasks.length]? = some b ∧
      Returns.sessLeft b = sessSteps e := by
    cases e with
    | persist pid n => exact ⟨.save pid n, by simp [SessRace.step], rfl⟩
    | restore pid => exact ⟨.look pid, by simp [SessRace.step], rfl⟩
    | timer o => exact ⟨.clean o, by simp [SessRace.step], rfl⟩
    | tick d => cases begins
    | adv k => cases begins
  obtain ⟨a, ha, h0⟩ := Returns.sess_ends max _ _ b hb q (by rw [hl]; exact steps)
  refine ⟨a, by rw [hrun]; exact ha, ?_⟩
  cases a with
  | visit n l => cases l with
    | nil => trivial
    | cons w l => simp [Returns.sessLeft] at h0
  | _ => first | trivial | simp [Returns.sessLeft] at h0

example :
    let p : List SessRace.Ev := [.persist 7 1, .adv 0, .adv 0, .tick 11]
    let q : List SessRace.Ev := [.adv 1, .restore 7, .adv 2, .adv 1, .adv 2, .adv 1, .adv 2, .adv 1, .persist 7 2, .adv 1]
    sessBegins (.timer [7, 8]) ∧ sessSteps (.timer [7, 8]) ≤ q.count (.adv (SessRace.run 10 p).tasks.length) := by
  exact ⟨trivial, by decide⟩

/-- **C115**, the cluster: a message of another server is recorded, and the server removed if it says that it closes, after three steps of the
goroutine that handles it; a clean-up takes two for each server and one more. -/
theorem C115_cluster (T : Nat) (p q : List NodeRace.Ev) :
    (∀ u close, 3 ≤ q.count (.onMsg (NodeRace.run T p).msgs.length) →
      ∃ m, (NodeRace.run T (p ++ .msg u close :: q)).msgs[(NodeRace.run T p).msgs.length]? = some m ∧ m.pc = .done) ∧
    (∀ order, 2 * order.length + 1 ≤ q.count (.onClean (NodeRace.run T p).cleans.length) →
      ∃ n, (NodeRace.run T (p ++ .clean order :: q)).cleans[(NodeRace.run T p).cleans.length]? = some (.visit n [])) := by
  constructor
  · intro u c steps
    obtain ⟨m, hm, h⟩ := Returns.msg_ends T (NodeRace.step T (NodeRace.run T p) (.msg u c)) (NodeRace.run T p).msgs.length { uid := u, close := c }
      (by simp [NodeRace.step]) q steps
    exact ⟨m, by simpa [NodeRace.run] using hm, h⟩
  · intro order steps
    obtain ⟨n, hn⟩ := Returns.clean_ends T (NodeRace.step T (NodeRace.run T p) (.clean order)) (NodeRace.run T p).cleans.length (.start order)
      (by simp [NodeRace.step]) q steps
    exact ⟨n, by simpa [NodeRace.run] using hn⟩

example :
    let p : List NodeRace.Ev := [.msg 7 false, .onMsg 0, .onMsg 0, .tick 11]
    let q : List NodeRace.Ev := [.onMsg 1, .onMsg 0, .onMsg 1, .tick 3, .onMsg 1]
    3 ≤ q.count (.onMsg (NodeRace.run 10 p).msgs.length) ∧
      (NodeRace.run 10 (p ++ .msg 7 true :: q)).msgs[1]? = some { uid := 7, close := true, pc := .done } := by decide

end Verif.Props
