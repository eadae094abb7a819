import Verif.Spec.CloseLoop
import Verif.Proof.RoomCalls

namespace Verif.CloseLoop
open Verif Verif.Spec Verif.World

theorem run_snoc (h : List Ev) (e : Ev) : run (h ++ [e]) = step (run h) e := by simp [run]

/-- The calls that have found the socket connected, and are not through with it. -/
def late (id : Nat) : LPC → Bool
  | .disconnecting i | .remove i | .forbid i | .unflag i | .disconnect i => decide (i = id)
  | _ => false

structure Inv (s : St) (id : Nat) : Prop where
  here : (s.sk id).conn = .flag → (s.sk id).inNsp = true
  early : (s.sk id).conn ≠ .done → (s.sk id).connected = false ∧ id ∉ s.log ∧ ∀ c ∈ s.calls, late id c.2 = false
  there : (s.sk id).conn = .done → (s.sk id).connected = false → (s.sk id).inNsp = false ∧ (s.sk id).canJoin = false
  forbid : ∀ c ∈ s.calls, c.2 = .forbid id → (s.sk id).inNsp = false
  unflag : ∀ c ∈ s.calls, c.2 = .unflag id → (s.sk id).inNsp = false ∧ (s.sk id).canJoin = false
  disc : ∀ c ∈ s.calls, c.2 = .disconnect id → (s.sk id).connected = false
  log : id ∈ s.log → (s.sk id).connected = false
  out : (s.sk id).conn = .done → (s.sk id).inNsp = false →
    (∃ c ∈ s.calls, c.2 = .forbid id ∨ c.2 = .unflag id ∨ c.2 = .disconnect id) ∨ ((s.sk id).connected = false ∧ id ∈ s.log)

theorem not_late {id : Nat} {pc : LPC} (h : late id pc = false) :
    pc ≠ .disconnecting id ∧ pc ≠ .remove id ∧ pc ≠ .forbid id ∧ pc ≠ .unflag id ∧ pc ≠ .disconnect id := by
  cases pc <;> simp_all [late]

theorem mem_set' {α} {l : List α} {k : Nat} {x y : α} (h : y ∈ l.set k x) : y = x ∨ y ∈ l := by
  rcases List.mem_or_eq_of_mem_set h with h | h
  · exact .inr h
  · exact .inl h

theorem mem_set_self {α} {l : List α} {k : Nat} {x y : α} (h : l[k]? = some y) : x ∈ l.set k x := by
  obtain ⟨hk, _⟩ := List.getElem?_eq_some_iff.1 h
  exact List.mem_set hk x

theorem mem_set_other {α} {l : List α} {k : Nat} {x y z : α} (h : l[k]? = some y) (hz : z ∈ l) (hne : z ≠ y) : z ∈ l.set k x := by
  obtain ⟨i, hi, rfl⟩ := List.getElem_of_mem hz
  have hik : k ≠ i := by
    rintro rfl
    rw [List.getElem?_eq_getElem hi] at h
    exact hne (Option.some.inj h)
  rw [List.mem_iff_getElem]
  exact ⟨i, by simpa using hi, by rw [List.getElem_set_ne hik]⟩

theorem inv_step (s : St) (e : Ev) (id : Nat) (I : Inv s id) : Inv (step s e) id := by
  obtain ⟨h0, h1, h2, h3, h4, h5, h6, h7⟩ := I
  cases e with
  | connect i =>
    simp only [step]
    split
    · rename_i hc
      by_cases hi : i = id
      · subst hi
        obtain ⟨a, b, c⟩ := h1 (by simp [hc])
        constructor <;> simp only [upd_same]
        · simp
        · exact fun _ => ⟨a, b, c⟩
        · simp
        · exact h3
        · exact h4
        · exact h5
        · exact h6
        · simp
      · have hn : id ≠ i := fun h => hi h.symm
        constructor <;> simp only [upd_ne _ _ hn] <;> assumption
    · exact ⟨h0, h1, h2, h3, h4, h5, h6, h7⟩
  | conn i =>
    simp only [step]
    by_cases hi : i = id
    · subst hi
      simp only [connect]
      cases hc : (s.sk i).conn with
      | idle | done =>
        have : upd s.sk i (s.sk i) = s.sk := by funext j; by_cases h : j = i <;> simp [upd, h]
        simp only [this]; exact ⟨h0, h1, h2, h3, h4, h5, h6, h7⟩
      | store =>
        obtain ⟨a, b, c⟩ := h1 (by simp [hc])
        constructor <;> simp only [upd_same]
        · simp
        · exact fun _ => ⟨a, b, c⟩
        · simp
        · intro x hx he; exact absurd he (not_late (c x hx)).2.2.1
        · intro x hx he; exact absurd he (not_late (c x hx)).2.2.2.1
        · exact h5
        · exact h6
        · simp
      | flag =>
        obtain ⟨a, b, c⟩ := h1 (by simp [hc])
        constructor <;> simp only [upd_same]
        · simp
        · simp
        · simp
        · exact h3
        · exact h4
        · intro x hx he; exact absurd he (not_late (c x hx)).2.2.2.2
        · exact fun h => absurd h b
        · simp [h0 hc]
    · have hn : id ≠ i := fun h => hi h.symm
      constructor <;> simp only [upd_ne _ _ hn] <;> assumption
  | close ids =>
    constructor <;> simp only [step, List.mem_append, List.mem_singleton]
    · exact h0
    · intro h; obtain ⟨a, b, c⟩ := h1 h
      exact ⟨a, b, fun x hx => by rcases hx with hx | rfl; exact c x hx; rfl⟩
    · exact h2
    · rintro c (hc | rfl) he; exact h3 c hc he; cases he
    · rintro c (hc | rfl) he; exact h4 c hc he; cases he
    · rintro c (hc | rfl) he; exact h5 c hc he; cases he
    · exact h6
    · intro a b; rcases h7 a b with ⟨c, hc, h⟩ | h
      · exact .inl ⟨c, .inl hc, h⟩
      · exact .inr h
  | adv k =>
    simp only [step, advance]
    cases hk : s.calls[k]? with
    | none => exact ⟨h0, h1, h2, h3, h4, h5, h6, h7⟩
    | some c0 =>
      obtain ⟨todo, pc⟩ := c0
      have hm : (todo, pc) ∈ s.calls := List.mem_of_getElem? hk
      have A := fun x y => @mem_set' _ s.calls k x y
      have B := fun x => @mem_set_self _ s.calls k x _ hk
      have C := fun x z => @mem_set_other _ s.calls k x _ z hk
      have D := fun h c hc => not_late ((h1 h).2.2 c hc)
      simp only
      cases pc with
      | next =>
        cases todo with
        | nil => simp only [act]; constructor <;> grind [late]
        | cons i ids =>
          simp only [act]
          split <;> (constructor <;> grind [late])
      | check i =>
        simp only [act]
        split <;> (constructor <;> grind [late])
      | disconnecting i =>
        simp only [act]
        by_cases hi : i = id
        · subst hi
          constructor <;> (try simp only [upd_same]) <;> grind [late]
        · have hn : id ≠ i := fun h => hi h.symm
          constructor <;> (try simp only [upd_ne _ _ hn]) <;> grind [late]
      | remove i =>
        simp only [act]
        by_cases hi : i = id
        · subst hi
          constructor <;> (try simp only [upd_same]) <;> grind [late]
        · have hn : id ≠ i := fun h => hi h.symm
          constructor <;> (try simp only [upd_ne _ _ hn]) <;> grind [late]
      | forbid i =>
        simp only [act]
        by_cases hi : i = id
        · subst hi
          constructor <;> (try simp only [upd_same]) <;> grind [late]
        · have hn : id ≠ i := fun h => hi h.symm
          constructor <;> (try simp only [upd_ne _ _ hn]) <;> grind [late]
      | unflag i =>
        simp only [act]
        by_cases hi : i = id
        · subst hi
          constructor <;> (try simp only [upd_same]) <;> grind [late]
        · have hn : id ≠ i := fun h => hi h.symm
          constructor <;> (try simp only [upd_ne _ _ hn]) <;> grind [late]
      | disconnect i =>
        simp only [act]
        by_cases hi : i = id
        · subst hi
          constructor <;> (try simp only [upd_same]) <;> grind [late]
        · have hn : id ≠ i := fun h => hi h.symm
          constructor <;> (try simp only [upd_ne _ _ hn]) <;> grind [late]

theorem inv_init (id : Nat) : Inv {} id := by constructor <;> simp

theorem inv_run (h : List Ev) (id : Nat) : Inv (run h) id := by
  induction h using snocRec with
  | nil => exact inv_init id
  | append_singleton h e ih => rw [run_snoc]; exact inv_step _ _ _ ih

theorem sk_done (s : St) (e : Ev) (id : Nat) (h : (s.sk id).conn = .done) :
    ((step s e).sk id).conn = .done ∧ ((s.sk id).inNsp = false → ((step s e).sk id).inNsp = false) := by
  cases e with
  | connect i =>
    simp only [step]
    split
    · rename_i hc
      have : id ≠ i := by rintro rfl; rw [h] at hc; cases hc
      simp [upd_ne _ _ this, h]
    · exact ⟨h, fun h => h⟩
  | conn i =>
    simp only [step]
    by_cases hi : id = i
    · subst hi; simp [upd_same, connect, h]
    · simp [upd_ne _ _ hi, h]
  | close ids => exact ⟨h, fun h => h⟩
  | adv k =>
    simp only [step, advance]
    split
    · rename_i todo pc _
      cases pc with
      | next => cases todo <;> exact ⟨h, fun h => h⟩
      | check i | disconnecting i | disconnect i => exact ⟨h, fun h => h⟩
      | remove i | forbid i | unflag i =>
        simp only [act]
        by_cases hi : id = i
        · subst hi; simp [upd_same, h]
        · simp [upd_ne _ _ hi, h]
    · exact ⟨h, fun h => h⟩

/-- A call that has still to come to the socket, or is closing it, or the socket is out. -/
def Track (s : St) (k id : Nat) : Prop :=
  (s.sk id).conn = .done ∧ ∃ todo pc, s.calls[k]? = some (todo, pc) ∧
    ((s.sk id).inNsp = false ∨ id ∈ todo ∨ pc = .check id ∨ pc = .disconnecting id ∨ pc = .remove id)

theorem calls_other (s : St) (e : Ev) (k : Nat) (c) (hk : s.calls[k]? = some c) (he : e ≠ .adv k) :
    (step s e).calls[k]? = some c := by
  obtain ⟨hl, _⟩ := List.getElem?_eq_some_iff.1 hk
  cases e with
  | connect i => simp only [step]; split <;> exact hk
  | conn i => exact hk
  | close ids => simp only [step]; rw [List.getElem?_append_left hl]; exact hk
  | adv j =>
    have hj : j ≠ k := fun h => he (by rw [h])
    simp only [step, advance]
    split
    · simp only [List.getElem?_set_ne hj]; exact hk
    · exact hk

theorem calls_adv (s : St) (k : Nat) (todo pc) (hk : s.calls[k]? = some (todo, pc)) :
    (step s (.adv k)).calls[k]? = some (act s todo pc).2 := by
  obtain ⟨hl, _⟩ := List.getElem?_eq_some_iff.1 hk
  simp only [step, advance, hk]
  rw [List.getElem?_set_self hl]

theorem track_step (s : St) (e : Ev) (k id : Nat) (I : Inv s id) (T : Track s k id) : Track (step s e) k id := by
  obtain ⟨hd, todo, pc, hk, h⟩ := T
  obtain ⟨hd', ho⟩ := sk_done s e id hd
  refine ⟨hd', ?_⟩
  by_cases he : e = .adv k
  · subst he
    refine ⟨(act s todo pc).2.1, (act s todo pc).2.2, calls_adv s k todo pc hk, ?_⟩
    rcases h with h | h
    · exact .inl (ho h)
    · cases pc with
      | next =>
        cases todo with
        | nil => simp at h
        | cons i ids =>
          rcases h with h | h | h | h
          · rcases List.mem_cons.1 h with rfl | h
            · by_cases hn : (s.sk id).inNsp = true
              · right; right; left; simp [act, hn]
              · exact .inl (ho (by simpa using hn))
            · exact .inr (.inl h)
          all_goals cases h
      | check i =>
        rcases h with h | h | h | h
        · exact .inr (.inl h)
        · cases h
          by_cases hn : (s.sk id).connected = true
          · right; right; right; left; simp [act, hn]
          · exact .inl (ho (I.there hd (by simpa using hn)).1)
        all_goals cases h
      | disconnecting i =>
        rcases h with h | h | h | h
        · exact .inr (.inl h)
        · cases h
        · cases h; right; right; right; right; rfl
        · cases h
      | remove i =>
        rcases h with h | h | h | h
        · exact .inr (.inl h)
        · cases h
        · cases h
        · cases h; left; simp [step, advance, hk, act, upd_same]
      | forbid i | unflag i | disconnect i =>
        rcases h with h | h | h | h
        · exact .inr (.inl h)
        all_goals cases h
  · refine ⟨todo, pc, calls_other s e k _ hk he, ?_⟩
    rcases h with h | h
    · exact .inl (ho h)
    · exact .inr h

theorem track_run (p : List Ev) (ids : List Nat) (q : List Ev) (id : Nat) (hc : ((run p).sk id).connected = true) (hi : id ∈ ids) :
    Track (afterClose p ids q) (callNo p) id := by
  induction q using snocRec with
  | nil =>
    have hd : ((run p).sk id).conn = .done := by
      by_cases h : ((run p).sk id).conn = .done
      · exact h
      · have := ((inv_run p id).early h).1; rw [hc] at this; cases this
    simp only [afterClose, run_snoc, callNo]
    exact ⟨hd, ids, .next, by simp [step], .inr (.inl hi)⟩
  | append_singleton q e ih =>
    have : afterClose p ids (q ++ [e]) = step (afterClose p ids q) e := by
      simp [afterClose, run]
    rw [this]
    exact track_step _ e _ id (inv_run _ id) ih

/-- The steps a call has still to make, at most. -/
def left (c : List Nat × LPC) : Nat :=
  7 * c.1.length + match c.2 with
  | .next => 0
  | .check _ => 6
  | .disconnecting _ => 5
  | .remove _ => 4
  | .forbid _ => 3
  | .unflag _ => 2
  | .disconnect _ => 1

theorem left_act (s : St) (todo pc) : left (act s todo pc).2 ≤ left (todo, pc) - 1 := by
  cases pc with
  | next =>
    cases todo with
    | nil => simp [act, left]
    | cons i ids => by_cases h : (s.sk i).inNsp = true <;> simp [act, left, h] <;> omega
  | check i => by_cases h : (s.sk i).connected = true <;> simp [act, left, h]
  | disconnecting i | remove i | forbid i | unflag i | disconnect i => simp [act, left]

theorem left_zero (c : List Nat × LPC) (h : left c = 0) : c = ([], .next) := by
  obtain ⟨l, pc⟩ := c
  cases l <;> cases pc <;> simp_all [left]

theorem left_run (p : List Ev) (ids : List Nat) (q : List Ev) :
    ∃ c, (afterClose p ids q).calls[callNo p]? = some c ∧ left c ≤ 7 * ids.length - q.count (.adv (callNo p)) := by
  induction q using snocRec with
  | nil => exact ⟨(ids, .next), by simp [afterClose, run_snoc, callNo, step], by simp [left]⟩
  | append_singleton q e ih =>
    obtain ⟨c, hc, hl⟩ := ih
    have h : afterClose p ids (q ++ [e]) = step (afterClose p ids q) e := by simp [afterClose, run]
    rw [h]
    by_cases he : e = .adv (callNo p)
    · subst he
      refine ⟨_, calls_adv _ _ c.1 c.2 hc, ?_⟩
      have : left _ ≤ left c - 1 := left_act (afterClose p ids q) c.1 c.2
      simp [List.count_append]; omega
    · refine ⟨c, calls_other _ e _ c hc he, ?_⟩
      have : List.count (.adv (callNo p)) [e] = 0 := by simp [he]
      rw [List.count_append, this]; exact hl

/-- What holds of a socket that no call lists. -/
structure Spared (s : St) (id : Nat) : Prop where
  free : ∀ c ∈ s.calls, id ∉ c.1 ∧ atWork c.2 ≠ some id
  join : (s.sk id).canJoin = true
  log : id ∉ s.log
  done : (s.sk id).conn = .done → (s.sk id).connected = true ∧ (s.sk id).inNsp = true
  flag : (s.sk id).conn = .flag → (s.sk id).inNsp = true

theorem spared_step (s : St) (e : Ev) (id : Nat) (I : Spared s id) (he : ∀ ids, e = .close ids → id ∉ ids) : Spared (step s e) id := by
  obtain ⟨h1, h2, h3, h4, h5⟩ := I
  cases e with
  | connect i =>
    simp only [step]
    split
    · by_cases hi : id = i
      · subst hi; constructor <;> simp_all [upd_same]
        exact h1
      · constructor <;> simp only [upd_ne _ _ hi] <;> assumption
    · exact ⟨h1, h2, h3, h4, h5⟩
  | conn i =>
    simp only [step]
    by_cases hi : id = i
    · subst hi
      cases hc : (s.sk id).conn <;> constructor <;> simp only [upd_same, connect, hc] <;> grind
    · constructor <;> simp only [upd_ne _ _ hi] <;> assumption
  | close ids =>
    refine ⟨?_, h2, h3, h4, h5⟩
    simp only [step, List.mem_append, List.mem_singleton]
    rintro c (hc | rfl)
    · exact h1 c hc
    · exact ⟨he _ rfl, by simp [atWork]⟩
  | adv k =>
    simp only [step, advance]
    cases hk : s.calls[k]? with
    | none => exact ⟨h1, h2, h3, h4, h5⟩
    | some c0 =>
      obtain ⟨todo, pc⟩ := c0
      have hm := h1 _ (List.mem_of_getElem? hk)
      have A := fun x y => @mem_set' _ s.calls k x y
      simp only
      cases pc with
      | next =>
        cases todo with
        | nil => simp only [act]; constructor <;> grind [atWork]
        | cons i ids => simp only [act]; split <;> (constructor <;> grind [atWork])
      | check i => simp only [act]; split <;> (constructor <;> grind [atWork])
      | disconnecting i | remove i | forbid i | unflag i | disconnect i =>
        have hi : id ≠ i := by rintro rfl; exact hm.2 rfl
        simp only [act]
        constructor <;> (try simp only [upd_ne _ _ hi]) <;> grind [atWork]

theorem spared_run (h : List Ev) (id : Nat) (hn : ∀ ids, .close ids ∈ h → id ∉ ids) : Spared (run h) id := by
  induction h using snocRec with
  | nil => constructor <;> simp [run]
  | append_singleton h e ih =>
    rw [run_snoc]
    exact spared_step _ _ _ (ih fun ids hi => hn ids (by simp [hi])) fun ids hi => hn ids (by simp [hi])

end Verif.CloseLoop
