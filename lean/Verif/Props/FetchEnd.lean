import Verif.Proof.CastEnd
import Verif.Props.FetchRace
import Verif.Props.PollRace

/-! # C118 and C119: `FetchSockets` and broadcasts with acknowledgement reach the sockets they select in the end -/

namespace Verif.Props
open Verif Verif.Spec Verif.RoomRace

theorem fetch_rest (s : FetchRace.St) (h : s.pc = .idle) : FetchRace.step s .adv = s := by
  cases s; simp only at h; subst h; rfl

theorem fetch_stays (q : List FetchRace.Ev) (s : FetchRace.St) (one : ∀ a b c, .fetch a b c ∉ q) (h : s.pc = .idle) :
    (q.foldl FetchRace.step s).pc = .idle := by
  induction q generalizing s with
  | nil => exact h
  | cons e q ih =>
    refine ih _ (fun a b c hm => one a b c (List.mem_cons_of_mem _ hm)) ?_
    cases e with
    | fetch a b c => exact absurd (List.mem_cons_self ..) (one a b c)
    | adv => rw [fetch_rest s h]; exact h
    | _ => exact h

theorem fetchRun_eq (p : List FetchRace.Ev) (r x o : List Nat) (q : List FetchRace.Ev) :
    FetchRace.run (p ++ .fetch r x o :: q) = q.foldl FetchRace.step (FetchRace.run (p ++ [.fetch r x o])) := by simp [FetchRace.run]

/-- The call returns in the end. -/
theorem fetch_whole (p : List FetchRace.Ev) (rooms except order : List Nat) (begins : (FetchRace.run p).pc = .idle)
    (σ : Nat → FetchRace.Ev) (one : ∀ i r x o, σ i ≠ .fetch r x o) (fair : AgainAndAgain .adv σ) :
    ∃ n, ∀ m, n ≤ m → WholeFetch p rooms except order (firstOf σ m) := by
  obtain ⟨n, hn⟩ := C118_returns (p ++ [.fetch rooms except order]) σ fair
  refine ⟨n, fun m hm => ⟨begins, ?_, fun r x o h => ?_⟩⟩
  · obtain ⟨d, rfl⟩ := Nat.exists_eq_add_of_le hm
    rw [fetchRun_eq, Acks.firstOf_add, List.foldl_append]
    refine fetch_stays _ _ (fun a b c h => by obtain ⟨i, hi⟩ := Returns.mem_firstOf h; exact one _ a b c hi) ?_
    rw [← fetchRun_eq]; simpa using hn
  · obtain ⟨i, hi⟩ := Returns.mem_firstOf h
    exact one i r x o hi

/-- **C118**, partial as `C118_selected_partial`: under every schedule that goes on with the call, in the end it has returned, and its result
has a socket that until its turn is in the namespace and in one of the rooms selected all the time, and not excepted, just once, and shows
every room that the socket has all the time. -/
theorem C118_returned_in_the_end_partial (p : List FetchRace.Ev) (rooms except order : List Nat) (begins : (FetchRace.run p).pc = .idle)
    (σ : Nat → FetchRace.Ev) (one : ∀ i r x o, σ i ≠ .fetch r x o) (fair : AgainAndAgain .adv σ) (id r : Nat) (hr : r ∈ rooms)
    (selected : ∀ n, let s := fetched p rooms except order (firstOf σ n)
      id ∉ s.cast.sent → InRoom s.cast.tab id r ∧ s.cast.reg id = true ∧ ∀ x ∈ except, ¬ NearRoom s.cast.tab id x) :
    ∃ n, ∀ m, n ≤ m → (fetched p rooms except order (firstOf σ m)).pc = .idle ∧
      (fetchedIds p rooms except order (firstOf σ m)).count id = 1 ∧
      ∀ g, (∀ i, HasRoom (fetched p rooms except order (firstOf σ i)).cast.tab id g) →
        ∃ rs, (id, rs) ∈ (fetched p rooms except order (firstOf σ m)).result ∧ g ∈ rs := by
  obtain ⟨n, hn⟩ := fetch_whole p rooms except order begins σ one fair
  refine ⟨n, fun m hm => ?_⟩
  have w := hn m hm
  have hin := C118_selected_partial p rooms except order _ w id r hr fun q₁ q₂ e => by
    rw [Returns.prefix_firstOf e]; exact selected _
  refine ⟨w.ends, ?_, fun g hg => ?_⟩
  · have h1 := List.nodup_iff_count.1 (C118_once p rooms except order _ w) id
    have h2 := List.count_pos_iff.2 hin
    omega
  · obtain ⟨⟨i, rs⟩, hm', rfl⟩ := List.mem_map.1 hin
    exact ⟨rs, hm', C118_kept p rooms except order _ w i g (fun q₁ q₂ e => by rw [Returns.prefix_firstOf e]; exact hg _) rs hm'⟩

/-- The hypotheses are met: socket 1 is in room 7 all the time, while others come and go. -/
example :
    let σ := Returns.thenOn Demo.fetchQ .adv
    (FetchRace.run Demo.fetchP).pc = .idle ∧ (∀ i r x o, σ i ≠ .fetch r x o) ∧ AgainAndAgain .adv σ ∧
    (∀ n, let s := fetched Demo.fetchP [7] [] [] (firstOf σ n)
      1 ∉ s.cast.sent → InRoom s.cast.tab 1 7 ∧ s.cast.reg 1 = true ∧ ∀ x ∈ ([] : List Nat), ¬ NearRoom s.cast.tab 1 x) ∧
    ∀ n, HasRoom (fetched Demo.fetchP [7] [] [] (firstOf σ n)).cast.tab 1 7 := by
  obtain ⟨w, u, v, _⟩ := demo_fetch
  refine ⟨w.begins, fun i r x o h => ?_, Returns.thenOn_fair _ _, fun n => ?_, fun n => ?_⟩
  · rcases Returns.thenOn_mem h with h | h
    · cases h
    · exact w.one r x o h
  · rw [fetched, fetchRun_eq]
    exact Returns.thenOn_always FetchRace.step _ _ .adv (fetch_rest _ (by rw [← fetchRun_eq]; exact w.ends))
      (fun s => 1 ∉ s.cast.sent → InRoom s.cast.tab 1 7 ∧ s.cast.reg 1 = true ∧ ∀ x ∈ ([] : List Nat), ¬ NearRoom s.cast.tab 1 x)
      (fun a b e => by rw [← fetchRun_eq]; exact u a b e) n
  · rw [fetched, fetchRun_eq]
    exact Returns.thenOn_always FetchRace.step _ _ .adv (fetch_rest _ (by rw [← fetchRun_eq]; exact w.ends))
      (fun s => HasRoom s.cast.tab 1 7) (fun a b e => by rw [← fetchRun_eq]; exact v a b e) n

theorem poll_rest (s : PollRace.St) (h : s.pc = .idle) : PollRace.step s .adv = s := by
  cases s; simp only at h; subst h; rfl

theorem poll_stays (q : List PollRace.Ev) (s : PollRace.St) (one : ∀ a b c, .emit a b c ∉ q) (h : s.pc = .idle) :
    (q.foldl PollRace.step s).pc = .idle := by
  induction q generalizing s with
  | nil => exact h
  | cons e q ih =>
    refine ih _ (fun a b c hm => one a b c (List.mem_cons_of_mem _ hm)) ?_
    cases e with
    | emit a b c => exact absurd (List.mem_cons_self ..) (one a b c)
    | adv => rw [poll_rest s h]; exact h
    | answer id args => simp only [PollRace.step, PollRace.other]; split <;> exact h
    | _ => exact h

theorem pollRun_eq (p : List PollRace.Ev) (r x o : List Nat) (q : List PollRace.Ev) :
    PollRace.run (p ++ .emit r x o :: q) = q.foldl PollRace.step (PollRace.run (p ++ [.emit r x o])) := by simp [PollRace.run]

/-- The broadcast is over in the end. -/
theorem poll_whole (p : List PollRace.Ev) (rooms except order : List Nat) (begins : (PollRace.run p).pc = .idle)
    (σ : Nat → PollRace.Ev) (one : ∀ i r x o, σ i ≠ .emit r x o) (fair : AgainAndAgain .adv σ) :
    ∃ n, ∀ m, n ≤ m → WholePoll p rooms except order (firstOf σ m) := by
  obtain ⟨n, hn⟩ := C119_returns (p ++ [.emit rooms except order]) σ fair
  refine ⟨n, fun m hm => ⟨begins, ?_, fun r x o h => ?_⟩⟩
  · obtain ⟨d, rfl⟩ := Nat.exists_eq_add_of_le hm
    rw [pollRun_eq, Acks.firstOf_add, List.foldl_append]
    refine poll_stays _ _ (fun a b c h => by obtain ⟨i, hi⟩ := Returns.mem_firstOf h; exact one _ a b c hi) ?_
    rw [← pollRun_eq]; simpa using hn
  · obtain ⟨i, hi⟩ := Returns.mem_firstOf h
    exact one i r x o hi

/-- **C119**, partial as `C119_selected_partial`: under every schedule that goes on with the broadcast, whatever others do and whenever clients
answer, in the end it has been sent, just once, to a socket that until its turn is in the namespace and in one of the rooms selected all the
time, and not excepted. -/
theorem C119_reached_in_the_end_partial (p : List PollRace.Ev) (rooms except order : List Nat) (begins : (PollRace.run p).pc = .idle)
    (σ : Nat → PollRace.Ev) (one : ∀ i r x o, σ i ≠ .emit r x o) (fair : AgainAndAgain .adv σ) (id r : Nat) (hr : r ∈ rooms)
    (selected : ∀ n, let s := polled p rooms except order (firstOf σ n)
      id ∉ s.cast.sent → InRoom s.cast.tab id r ∧ s.cast.reg id = true ∧ ∀ x ∈ except, ¬ NearRoom s.cast.tab id x) :
    ∃ n, ∀ m, n ≤ m → (polled p rooms except order (firstOf σ m)).pc = .idle ∧
      (polled p rooms except order (firstOf σ m)).written.count id = 1 := by
  obtain ⟨n, hn⟩ := poll_whole p rooms except order begins σ one fair
  refine ⟨n, fun m hm => ?_⟩
  have w := hn m hm
  have hin := C119_selected_partial p rooms except order _ w id r hr fun q₁ q₂ e => by
    rw [Returns.prefix_firstOf e]; exact selected _
  have h1 := List.nodup_iff_count.1 (C119_once p rooms except order _ w) id
  have h2 := List.count_pos_iff.2 hin
  exact ⟨w.ends, by omega⟩

/-- The hypotheses are met: socket 1 is in room 7 all the time, while others come and go and answer. -/
example :
    let σ := Returns.thenOn Demo.pollQ .adv
    (PollRace.run Demo.pollP).pc = .idle ∧ (∀ i r x o, σ i ≠ .emit r x o) ∧ AgainAndAgain .adv σ ∧
    ∀ n, let s := polled Demo.pollP [7] [] [] (firstOf σ n)
      1 ∉ s.cast.sent → InRoom s.cast.tab 1 7 ∧ s.cast.reg 1 = true ∧ ∀ x ∈ ([] : List Nat), ¬ NearRoom s.cast.tab 1 x := by
  obtain ⟨w, u, _⟩ := demo_poll
  refine ⟨w.begins, fun i r x o h => ?_, Returns.thenOn_fair _ _, fun n => ?_⟩
  · rcases Returns.thenOn_mem h with h | h
    · cases h
    · exact w.one r x o h
  · rw [polled, pollRun_eq]
    exact Returns.thenOn_always PollRace.step _ _ .adv (poll_rest _ (by rw [← pollRun_eq]; exact w.ends))
      (fun s => 1 ∉ s.cast.sent → InRoom s.cast.tab 1 7 ∧ s.cast.reg 1 = true ∧ ∀ x ∈ ([] : List Nat), ¬ NearRoom s.cast.tab 1 x)
      (fun a b e => by rw [← pollRun_eq]; exact u a b e) n

end Verif.Props
