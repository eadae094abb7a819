import Verif.Proof.FetchRace
import Verif.Props.CastRace

/-! # C118: `FetchSockets` while other things happen -/

set_option maxRecDepth 4000

namespace Verif.Props
open Verif Verif.Spec Verif.FetchRace

theorem fetch_made {p : List FetchRace.Ev} {rooms except order : List Nat} {q : List FetchRace.Ev}
    (w : WholeFetch p rooms except order q) :
    fetchedIds p rooms except order q = sentTo (trace {} p) rooms except order (trace (FetchRace.run (p ++ [.fetch rooms except order])) q) := by
  have key := FetchRace.while_ind (P := fun _ => True) (rooms := rooms) (except := except) (order := order) w.begins w.one (fun _ _ _ => trivial) (fun _ s => FetchRace.Made s) rfl
    fun _ _ e _ _ _ he _ _ h => FetchRace.made_step e he h
  unfold FetchRace.Made at key
  rw [show (fetched p rooms except order q).pc = .idle from w.ends] at key
  unfold fetchedIds sentTo
  rw [key, ← FetchRace.whole_at w.begins]
  rfl

/-- Part of C118.  Whatever happens meanwhile, no socket is returned twice. -/
theorem C118_once (p : List FetchRace.Ev) (rooms except order : List Nat) (q : List FetchRace.Ev) (w : WholeFetch p rooms except order q) :
    (fetchedIds p rooms except order q).Nodup := by
  rw [fetch_made w]; exact C74_once _ _ _ _ _ (FetchRace.whole_of w)

theorem fetch_until {p : List FetchRace.Ev} {rooms except order : List Nat} {q : List FetchRace.Ev}
    (w : WholeFetch p rooms except order q) (id : Nat) {P : RoomRace.St → (Nat → Bool) → Prop}
    (h : UntilFetched p rooms except order q id fun s => P s.cast.tab s.cast.reg) :
    UntilReached (trace {} p) rooms except order (trace (FetchRace.run (p ++ [.fetch rooms except order])) q) id P := by
  intro t₁ t₂ ht
  obtain ⟨q₁, q₂, e1, e2⟩ := FetchRace.trace_prefix q _ t₁ t₂ ht
  have := h q₁ q₂ e1
  simp only [fetched, FetchRace.whole_at w.begins, e2] at this
  exact this

theorem fetch_meanwhile {p : List FetchRace.Ev} {rooms except order : List Nat} {q : List FetchRace.Ev}
    (w : WholeFetch p rooms except order q) {P : RoomRace.St → (Nat → Bool) → Prop}
    (h : WhileFetching p rooms except order q fun s => P s.cast.tab s.cast.reg) :
    Meanwhile (trace {} p) rooms except order (trace (FetchRace.run (p ++ [.fetch rooms except order])) q) P := by
  intro t₁ t₂ ht
  obtain ⟨q₁, q₂, e1, e2⟩ := FetchRace.trace_prefix q _ t₁ t₂ ht
  have := h q₁ q₂ e1
  simp only [fetched, FetchRace.whole_at w.begins, e2] at this
  exact this

/-- Part of C118.  Whatever happens meanwhile, a socket is returned that, until the loop comes to it, is in the namespace and in one of the
rooms selected all the time, and at no time in an excepted room or about to join one. -/
theorem C118_selected_partial (p : List FetchRace.Ev) (rooms except order : List Nat) (q : List FetchRace.Ev)
    (w : WholeFetch p rooms except order q) (id r : Nat) (hr : r ∈ rooms)
    (h : UntilFetched p rooms except order q id fun s =>
      InRoom s.cast.tab id r ∧ s.cast.reg id = true ∧ ∀ x ∈ except, ¬ NearRoom s.cast.tab id x) :
    id ∈ fetchedIds p rooms except order q := by
  rw [fetch_made w]
  have := C74_reached_partial _ rooms except order _ (FetchRace.whole_of w) id r hr
    (fetch_until w id (P := fun s reg => InRoom s id r ∧ reg id = true ∧ ∀ x ∈ except, ¬ NearRoom s id x) h)
  exact List.count_pos_iff.1 (by rw [this]; exact Nat.one_pos)

/-- Part of C118.  The same for a call for everybody. -/
theorem C118_everybody_partial (p : List FetchRace.Ev) (except order : List Nat) (q : List FetchRace.Ev)
    (w : WholeFetch p [] except order q) (id : Nat)
    (h : UntilFetched p [] except order q id fun s =>
      (s.cast.tab.sids id).isSome = true ∧ s.cast.reg id = true ∧ ∀ x ∈ except, ¬ NearRoom s.cast.tab id x) :
    id ∈ fetchedIds p [] except order q := by
  rw [fetch_made w]
  have := C74_all_partial _ except order _ (FetchRace.whole_of w) id
    (fetch_until w id (P := fun s reg => (s.sids id).isSome = true ∧ reg id = true ∧ ∀ x ∈ except, ¬ NearRoom s id x) h)
  exact List.count_pos_iff.1 (by rw [this]; exact Nat.one_pos)

/-- Part of C118.  Whatever happens meanwhile, a socket is not returned that at no time is in one of the rooms selected or about to join
one; nor one that is in an excepted room all the time; nor one that is not in the namespace at any time; nor, by a call for everybody, one
that has no entry in the adapter at any time. -/
theorem C118_absent_partial (p : List FetchRace.Ev) (rooms except order : List Nat) (q : List FetchRace.Ev)
    (w : WholeFetch p rooms except order q) (id : Nat)
    (h : (rooms ≠ [] ∧ WhileFetching p rooms except order q fun s => ∀ r ∈ rooms, ¬ NearRoom s.cast.tab id r) ∨
      (∃ x ∈ except, WhileFetching p rooms except order q fun s => InRoom s.cast.tab id x) ∨
      (WhileFetching p rooms except order q fun s => s.cast.reg id = false) ∨
      (rooms = [] ∧ WhileFetching p rooms except order q fun s => s.cast.tab.sids id = none)) :
    id ∉ fetchedIds p rooms except order q := by
  rw [fetch_made w]
  rcases h with ⟨hr, h⟩ | ⟨x, hx, h⟩ | h | ⟨hr, h⟩
  · exact C74_elsewhere_partial _ rooms except order _ (FetchRace.whole_of w) hr id
      (fetch_meanwhile w (P := fun s _ => ∀ r ∈ rooms, ¬ NearRoom s id r) h)
  · exact C74_excepted_partial _ rooms except order _ (FetchRace.whole_of w) id x hx (fetch_meanwhile w (P := fun s _ => InRoom s id x) h)
  · exact C74_absent _ rooms except order _ (FetchRace.whole_of w) id (fetch_meanwhile w (P := fun _ reg => reg id = false) h)
  · subst hr
    exact C74_unknown _ except order _ (FetchRace.whole_of w) id (fetch_meanwhile w (P := fun s _ => (s.sids id).isSome = false)
      (fun q₁ q₂ e => Option.isSome_eq_false_iff.2 (Option.isNone_iff_eq_none.2 (h q₁ q₂ e))))

/-- Part of C118.  Whatever happens meanwhile, a room that the socket has all the time is among its rooms in the result. -/
theorem C118_kept (p : List FetchRace.Ev) (rooms except order : List Nat) (q : List FetchRace.Ev)
    (w : WholeFetch p rooms except order q) (id g : Nat) (h : WhileFetching p rooms except order q fun s => HasRoom s.cast.tab id g)
    (rs : List Nat) (hm : (id, rs) ∈ (fetched p rooms except order q).result) : g ∈ rs :=
  (FetchRace.while_ind w.begins w.one h (fun _ s => FetchRace.Still id s ∧ ∀ rs, (id, rs) ∈ s.result → g ∈ rs)
    ⟨fun _ _ h => (by cases h), fun _ h => (by cases h)⟩ fun _ _ e _ _ _ he h1 h2 hf => FetchRace.kept_step id g e he h1 h2 hf).2 rs hm

/-- Part of C118.  Whatever happens meanwhile, a room that the socket has at no time, and is not about to join, is not. -/
theorem C118_foreign (p : List FetchRace.Ev) (rooms except order : List Nat) (q : List FetchRace.Ev)
    (w : WholeFetch p rooms except order q) (id g : Nat)
    (h : WhileFetching p rooms except order q fun s =>
      ¬ HasRoom s.cast.tab id g ∧ ∀ k, (s.cast.tab.th k).1 = id → g ∉ joining (s.cast.tab.th k).2)
    (rs : List Nat) (hm : (id, rs) ∈ (fetched p rooms except order q).result) : g ∉ rs :=
  (FetchRace.while_ind w.begins w.one h (fun _ s => FetchRace.Foreign id g s)
    ⟨fun _ _ h => (by cases h), fun _ h => (by cases h)⟩
    fun _ _ e _ wf o he h1 _ hf => FetchRace.foreign_step wf o id g e he h1.1 h1.2 hf).2 rs hm

theorem hadRooms_later {p : List FetchRace.Ev} {rooms except order : List Nat} {q : List FetchRace.Ev} {id : Nat} {rs : List Nat}
    (h : HadRooms p rooms except order q id rs) (e : FetchRace.Ev) : HadRooms p rooms except order (q ++ [e]) id rs := by
  obtain ⟨q₁, q₂, e1, e2⟩ := h
  exact ⟨q₁, q₂ ++ [e], by rw [e1, List.append_assoc], e2⟩

/-- Part of C118.  If nobody takes a socket out of all its rooms meanwhile, the rooms in the result are just those the socket has at one
moment of the call. -/
theorem C118_rooms_partial (p : List FetchRace.Ev) (rooms except order : List Nat) (q : List FetchRace.Ev)
    (w : WholeFetch p rooms except order q) (id : Nat)
    (h : WhileFetching p rooms except order q fun s => ∀ k, (s.cast.tab.th k).1 = id → leavingAll (s.cast.tab.th k).2 = false)
    (rs : List Nat) (hm : (id, rs) ∈ (fetched p rooms except order q).result) : HadRooms p rooms except order q id rs := by
  refine (FetchRace.while_ind w.begins w.one h
    (fun q' s => FetchRace.Still id s ∧ ∀ rs, (id, rs) ∈ s.result → HadRooms p rooms except order q' id rs)
    ⟨fun _ _ h => (by cases h), fun _ h => (by cases h)⟩ ?_).2 rs hm
  intro q₁ q₂ e _ _ _ he h1 _ hf
  refine ⟨FetchRace.still_step id e he (.inl h1) hf.1, fun rs hm => ?_⟩
  have old : (id, rs) ∈ (fetched p rooms except order q₁).result → HadRooms p rooms except order (q₁ ++ [e]) id rs :=
    fun hm => hadRooms_later (hf.2 rs hm) e
  cases FetchRace.kind _ e he with
  | other _ h2 => rw [h2] at hm; exact old hm
  | loop _ _ h2 => rw [h2] at hm; exact old hm
  | over _ _ h2 => rw [h2] at hm; exact old hm
  | ret _ h1 => rw [h1] at hm; exact old hm
  | load i y l h0 h1 h2 => rw [h2] at hm; exact old hm
  | none i l h0 h1 h2 =>
    rw [h2] at hm
    simp only [List.mem_append, List.mem_singleton, Prod.mk.injEq] at hm
    rcases hm with hm | ⟨rfl, rfl⟩
    · exact old hm
    · refine ⟨q₁, [e], rfl, fun g => ⟨fun hg => (by cases hg), ?_⟩⟩
      rintro ⟨x, hx, _⟩
      rw [h1] at hx; cases hx
  | copy i y l h0 h2 =>
    rw [h2] at hm
    simp only [List.mem_append, List.mem_singleton, Prod.mk.injEq] at hm
    rcases hm with hm | ⟨rfl, rfl⟩
    · exact old hm
    · have hx := hf.1 y l h0
      refine ⟨q₁, [e], rfl, fun g => ⟨fun hg => ⟨y, hx, hg⟩, ?_⟩⟩
      rintro ⟨x, hx', hg⟩
      rw [hx] at hx'; cases hx'; exact hg

theorem adv_trace (q : List FetchRace.Ev) (s : FetchRace.St) (hq : ∀ e ∈ q, e = .adv) : ∀ e ∈ trace s q, e = .adv := by
  induction q generalizing s with
  | nil => simp [trace]
  | cons e q ih =>
    intro x hx
    rw [trace, List.mem_append] at hx
    rcases hx with hx | hx
    · rw [hq e (by simp)] at hx
      simp only [does] at hx
      split at hx <;> simpa using hx
    · exact ih _ (fun e he => hq e (by simp [he])) x hx

/-- Part of C118.  When nothing else happens meanwhile and no call of the adapter is half way, exactly the sockets that are selected are
returned, each once and with its rooms. -/
theorem C118_alone (p : List FetchRace.Ev) (rooms except order : List Nat) (q : List FetchRace.Ev) (w : WholeFetch p rooms except order q)
    (hq : ∀ e ∈ q, e = .adv) (hquiet : Quiet (FetchRace.run p).cast.tab) :
    (fetchedIds p rooms except order q).Nodup ∧
    (∀ id, id ∈ fetchedIds p rooms except order q ↔ (FetchRace.run p).cast.reg id = true ∧
      (if rooms = [] then ((FetchRace.run p).cast.tab.sids id).isSome = true else ∃ r ∈ rooms, InRoom (FetchRace.run p).cast.tab id r) ∧
      ∀ x ∈ except, ¬ InRoom (FetchRace.run p).cast.tab id x) ∧
    ∀ id rs, (id, rs) ∈ (fetched p rooms except order q).result → ∀ g, g ∈ rs ↔ HasRoom (FetchRace.run p).cast.tab id g := by
  have same : ∀ q₁ q₂, q = q₁ ++ q₂ → (fetched p rooms except order q₁).cast.tab = (FetchRace.run p).cast.tab := by
    intro q₁ q₂ e
    unfold fetched
    rw [FetchRace.whole_at w.begins, FetchRace.run_cast p]
    exact (CastRaceLoop.adv_tables _ _ _ _ _ (adv_trace q₁ _ fun e' he' => hq e' (by rw [e]; exact List.mem_append_left _ he'))).1
  refine ⟨C118_once p rooms except order q w, fun id => ?_, fun id rs hm g => ?_⟩
  · rw [fetch_made w, FetchRace.run_cast p]
    exact (C74_alone _ _ _ _ _ (FetchRace.whole_of w) (adv_trace q _ hq) (by rw [← FetchRace.run_cast p]; exact hquiet) id).1
  · obtain ⟨q₁, q₂, e1, e2⟩ := C118_rooms_partial p rooms except order q w id
      (fun q₁ q₂ e k _ => by rw [same q₁ q₂ e, hquiet k]; rfl) rs hm
    rw [e2, same q₁ q₂ e1]

/-- Part of C118.  Whatever other goroutines do, the call returns. -/
theorem C118_returns (h : List FetchRace.Ev) (σ : Nat → FetchRace.Ev) (fair : AgainAndAgain .adv σ) :
    ∃ n, (FetchRace.run (h ++ firstOf σ n)).pc = .idle := by
  obtain ⟨n, hn⟩ := FetchRace.fetch_ends σ fair (FetchRace.run h)
  exact ⟨n, by simpa [FetchRace.run] using hn⟩

/-- A statement about all moments can be checked moment by moment. -/
theorem whileFetching_of (p : List FetchRace.Ev) (rooms except order : List Nat) (q : List FetchRace.Ev) (P : FetchRace.St → Prop)
    (h : ∀ n, n < q.length + 1 → P (FetchRace.run (p ++ .fetch rooms except order :: q.take n))) : WhileFetching p rooms except order q P := by
  intro q₁ q₂ e
  have := h q₁.length (by rw [e]; simp; omega)
  rwa [e, List.take_left] at this

theorem fetchBelow_th (n : Nat) (h : List FetchRace.Ev) (hb : CastRaceLoop.below n (trace {} h) = true) (k : Nat) (hk : n ≤ k) :
    ((FetchRace.run h).cast.tab.th k).2 = .done := by
  rw [FetchRace.run_cast]; exact CastRaceLoop.below_run n _ hb k hk

namespace Demo
/-- Sockets 1 and 2 are in the namespace and in room 7; 3 is in the namespace and in room 6. -/
def fetchP : List FetchRace.Ev := [.connect 1, .connect 2, .connect 3, .room (.call 1 1 (.join [7]))] ++
  List.replicate 6 (.room (.adv 1)) ++ [.room (.call 2 2 (.join [7]))] ++ List.replicate 6 (.room (.adv 2)) ++
  [.room (.call 3 3 (.join [6]))] ++ List.replicate 6 (.room (.adv 3))

/-- While the call is under way, socket 1 joins room 9 and socket 2 leaves room 7. -/
def fetchQ : List FetchRace.Ev := List.replicate 7 .adv ++ [.room (.call 1 1 (.join [9])), .room (.call 2 2 (.leave 7))] ++
  List.replicate 6 (.room (.adv 1)) ++ List.replicate 6 (.room (.adv 2)) ++ List.replicate 6 .adv
end Demo

/-- The hypotheses of `C118_selected_partial`, `C118_kept`, `C118_foreign`, `C118_rooms_partial` and `C118_absent_partial` are met. -/
theorem demo_fetch : WholeFetch Demo.fetchP [7] [] [] Demo.fetchQ ∧
    (UntilFetched Demo.fetchP [7] [] [] Demo.fetchQ 1 fun s =>
      InRoom s.cast.tab 1 7 ∧ s.cast.reg 1 = true ∧ ∀ x ∈ ([] : List Nat), ¬ NearRoom s.cast.tab 1 x) ∧
    (WhileFetching Demo.fetchP [7] [] [] Demo.fetchQ fun s => HasRoom s.cast.tab 1 7) ∧
    (WhileFetching Demo.fetchP [7] [] [] Demo.fetchQ fun s =>
      ¬ HasRoom s.cast.tab 1 6 ∧ ∀ k, (s.cast.tab.th k).1 = 1 → 6 ∉ joining (s.cast.tab.th k).2) ∧
    (WhileFetching Demo.fetchP [7] [] [] Demo.fetchQ fun s => ∀ k, (s.cast.tab.th k).1 = 1 → leavingAll (s.cast.tab.th k).2 = false) ∧
    (WhileFetching Demo.fetchP [7] [] [] Demo.fetchQ fun s => ∀ r ∈ [7], ¬ NearRoom s.cast.tab 3 r) ∧
    (fetched Demo.fetchP [7] [] [] Demo.fetchQ).result = [(2, []), (1, [9, 7])] := by
  have hb : ∀ n, n < Demo.fetchQ.length + 1 →
      CastRaceLoop.below 4 (trace {} (Demo.fetchP ++ .fetch [7] [] [] :: Demo.fetchQ.take n)) = true := by
    decide
  refine ⟨⟨by decide, by decide, by simp [Demo.fetchQ]⟩, whileFetching_of _ _ _ _ _ _ fun n hn _ => ⟨?_, ?_, by simp⟩,
    whileFetching_of _ _ _ _ _ _ fun n hn => ?_, whileFetching_of _ _ _ _ _ _ fun n hn => ⟨?_, fun k hk => ?_⟩,
    whileFetching_of _ _ _ _ _ _ fun n hn k hk => ?_, whileFetching_of _ _ _ _ _ _ fun n hn r hr => ?_, by decide⟩
  · revert n; decide
  · revert n; decide
  · revert n; decide
  · revert n; decide
  · by_cases h3 : 4 ≤ k
    · rw [fetchBelow_th 4 _ (hb n hn) k h3]; simp [joining]
    · have key : ∀ n, n < Demo.fetchQ.length + 1 → ∀ k, k < 4 →
        ((FetchRace.run (Demo.fetchP ++ .fetch [7] [] [] :: Demo.fetchQ.take n)).cast.tab.th k).1 = 1 →
        6 ∉ joining ((FetchRace.run (Demo.fetchP ++ .fetch [7] [] [] :: Demo.fetchQ.take n)).cast.tab.th k).2 := by decide
      exact key n hn k (by omega) hk
  · by_cases h3 : 4 ≤ k
    · rw [fetchBelow_th 4 _ (hb n hn) k h3]; rfl
    · have key : ∀ n, n < Demo.fetchQ.length + 1 → ∀ k, k < 4 →
        ((FetchRace.run (Demo.fetchP ++ .fetch [7] [] [] :: Demo.fetchQ.take n)).cast.tab.th k).1 = 1 →
        leavingAll ((FetchRace.run (Demo.fetchP ++ .fetch [7] [] [] :: Demo.fetchQ.take n)).cast.tab.th k).2 = false := by decide
      exact key n hn k (by omega) hk
  · simp at hr
    subst hr
    rintro (h | ⟨k, hk1, hk2⟩)
    · revert n; decide
    · by_cases h3 : 4 ≤ k
      · rw [fetchBelow_th 4 _ (hb n hn) k h3] at hk2; cases hk2
      · have key : ∀ n, n < Demo.fetchQ.length + 1 → ∀ k, k < 4 →
          7 ∉ joining ((FetchRace.run (Demo.fetchP ++ .fetch [7] [] [] :: Demo.fetchQ.take n)).cast.tab.th k).2 := by decide
        exact key n hn k (by omega) hk2

example := demo_fetch

namespace Demo
/-- Nothing but the call. -/
def fetchAlone : List FetchRace.Ev := List.replicate 30 .adv
end Demo

/-- Those of `C118_everybody_partial` and `C118_alone`, and of `C118_absent_partial` in its other ways. -/
example : WholeFetch Demo.fetchP [] [6] [2, 1] Demo.fetchAlone ∧
    (UntilFetched Demo.fetchP [] [] [2, 1] Demo.fetchAlone 1 fun s =>
      (s.cast.tab.sids 1).isSome = true ∧ s.cast.reg 1 = true ∧ ∀ x ∈ ([] : List Nat), ¬ NearRoom s.cast.tab 1 x) ∧
    (∀ e ∈ Demo.fetchAlone, e = .adv) ∧ Quiet (FetchRace.run Demo.fetchP).cast.tab ∧
    (fetched Demo.fetchP [] [6] [2, 1] Demo.fetchAlone).result = [(2, [7]), (1, [7])] ∧
    (WhileFetching Demo.fetchP [] [6] [2, 1] Demo.fetchAlone fun s => InRoom s.cast.tab 3 6) ∧
    (WhileFetching (Demo.fetchP ++ [.disconnect 2]) [7] [] [] Demo.fetchAlone fun s => s.cast.reg 2 = false) ∧
    (WhileFetching (.connect 4 :: Demo.fetchP) [] [] [] Demo.fetchAlone fun s => s.cast.tab.sids 4 = none) := by
  refine ⟨⟨by decide, by decide, by simp [Demo.fetchAlone]⟩, whileFetching_of _ _ _ _ _ _ fun n hn _ => ⟨?_, ?_, by simp⟩,
    by simp [Demo.fetchAlone], fun k => ?_, by decide, whileFetching_of _ _ _ _ _ _ (by decide), whileFetching_of _ _ _ _ _ _ (by decide),
    whileFetching_of _ _ _ _ _ _ (by decide)⟩
  · revert n; decide
  · revert n; decide
  · by_cases h3 : 4 ≤ k
    · exact fetchBelow_th 4 _ (by decide) k h3
    · have key : ∀ k, k < 4 → ((FetchRace.run Demo.fetchP).cast.tab.th k).2 = .done := by decide
      exact key k (by omega)

/-- A call that has been made while other goroutines do things returns: the schedule of `C118_returns` may be this one. -/
example : AgainAndAgain FetchRace.Ev.adv fun n => if n % 2 = 0 then .room (.adv 1) else .adv :=
  fun n => ⟨2 * n + 1, by omega, by simp⟩

namespace Demo
/-- Socket 1 is in room 7; goroutine 1 is about to make it join room 9. -/
def fetchTornP : List FetchRace.Ev := [.connect 1, .room (.call 1 1 (.join [7]))] ++ List.replicate 6 (.room (.adv 1)) ++
  [.room (.call 1 1 (.join [9])), .room (.adv 1)]

/-- The set of rooms is loaded; another goroutine takes the socket out of all rooms; goroutine 1 adds room 9 to the set; the set is copied. -/
def fetchTornQ : List FetchRace.Ev := List.replicate 7 .adv ++ [.room (.call 2 1 .leaveAll)] ++ List.replicate 8 (.room (.adv 2)) ++
  [.room (.adv 1)] ++ List.replicate 3 .adv
end Demo

/-- If another goroutine takes the socket out of all rooms, the rooms in the result may be rooms the socket had at no moment together. -/
theorem C118_rooms_fails :
    ¬ ∀ (p : List FetchRace.Ev) (rooms except order : List Nat) (q : List FetchRace.Ev) (id : Nat) (rs : List Nat),
      WholeFetch p rooms except order q → (id, rs) ∈ (fetched p rooms except order q).result → HadRooms p rooms except order q id rs := by
  intro hall
  obtain ⟨q₁, q₂, e, h⟩ := hall Demo.fetchTornP [7] [] [] Demo.fetchTornQ 1 [9, 7] ⟨by decide, by decide, by simp [Demo.fetchTornQ]⟩ (by decide)
  have key : WhileFetching Demo.fetchTornP [7] [] [] Demo.fetchTornQ fun s => ¬ (HasRoom s.cast.tab 1 9 ∧ HasRoom s.cast.tab 1 7) :=
    whileFetching_of _ _ _ _ _ _ (by decide)
  exact key q₁ q₂ e ⟨(h 9).1 (by simp), (h 7).1 (by simp)⟩

end Verif.Props
