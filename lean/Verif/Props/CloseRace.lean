import Verif.Spec.CloseRace
import Verif.Lib.ListExtra

/-! # C49: a socket is disconnected at most once -/

namespace Verif.Props
open Verif Verif.Spec Verif.CloseRace

theorem close_snoc (rooms : List Nat) (h : List CloseRace.Ev) (e : CloseRace.Ev) :
    CloseRace.run rooms (h ++ [e]) = CloseRace.step (CloseRace.run rooms h) e := by simp [CloseRace.run]

/-- What the log says while one call is under way at `pc`. -/
def progress (rooms : List Nat) (b : Bool) (s : CloseRace.St) : PC → Prop
  | .check => (s.connected = true ∧ s.rooms = rooms ∧ s.log = []) ∨ (s.connected = false ∧ disconnects s = 1 ∧ disconnectings s = 1 ∧ (savedRooms s = [] ∨ savedRooms s = [rooms]))
  | .disconnecting => s.connected = true ∧ s.rooms = rooms ∧ s.log = []
  | .persist => s.connected = true ∧ s.rooms = rooms ∧ disconnects s = 0 ∧ disconnectings s = 1 ∧ savedRooms s = []
  | .cleanup => s.connected = true ∧ s.rooms = rooms ∧ disconnects s = 0 ∧ disconnectings s = 1 ∧ (savedRooms s = if b then [rooms] else [])
  | .flag => s.connected = true ∧ disconnects s = 0 ∧ disconnectings s = 1 ∧ (savedRooms s = if b then [rooms] else [])
  | .disconnect => s.connected = false ∧ disconnects s = 0 ∧ disconnectings s = 1 ∧ (savedRooms s = if b then [rooms] else [])
  | .done => (s.connected = false ∧ disconnects s = 1 ∧ disconnectings s = 1 ∧ (savedRooms s = [] ∨ savedRooms s = [rooms]))

theorem progress_act (rooms : List Nat) (b : Bool) (s : CloseRace.St) (k : Nat) (pc : PC) (h : progress rooms b s pc) (l : List (Bool × PC)) :
    progress rooms b { (act s k b pc).1 with ths := l } (act s k b pc).2 := by
  cases pc with
  | check =>
    rcases h with ⟨h1, h2, h3⟩ | ⟨h1, h2⟩
    · have e : act s k b .check = (s, .disconnecting) := by simp [act, h1]
      rw [e]; exact ⟨h1, h2, h3⟩
    · have e : act s k b .check = (s, .done) := by simp [act, h1]
      rw [e]; exact ⟨h1, h2⟩
  | disconnecting =>
    obtain ⟨h1, h2, h3⟩ := h
    simp [act, progress, disconnects, disconnectings, savedRooms, h1, h2, h3, List.filter, isDisconnect, isDisconnecting]
  | persist =>
    obtain ⟨h1, h2, h3, h4, h5⟩ := h
    cases b
    · exact ⟨h1, h2, h3, h4, h5⟩
    · refine ⟨h1, h2, ?_, ?_, ?_⟩
      · simpa [act, disconnects, isDisconnect] using h3
      · simpa [act, disconnectings, isDisconnecting] using h4
      · simp only [savedRooms] at h5 ⊢; simp [act, h5, h2]
  | cleanup =>
    obtain ⟨h1, h2, h3, h4, h5⟩ := h
    exact ⟨h1, h3, h4, h5⟩
  | flag =>
    obtain ⟨h1, h3, h4, h5⟩ := h
    exact ⟨rfl, h3, h4, h5⟩
  | disconnect =>
    obtain ⟨h1, h3, h4, h5⟩ := h
    refine ⟨h1, ?_, ?_, ?_⟩
    · simp only [disconnects] at h3 ⊢; simp [act, h3, List.filter, isDisconnect, isDisconnecting]
    · simp only [disconnectings] at h4 ⊢; simp [act, h4, List.filter, isDisconnect, isDisconnecting]
    · have : savedRooms { (act s k b .disconnect).1 with ths := l } = savedRooms s := by simp [savedRooms, act]
      rw [this, h5]; cases b <;> simp
  | done => exact h

/-- Either nobody is closing, or exactly one call is under way. -/
def OneCloser (rooms : List Nat) (s : CloseRace.St) : Prop :=
  (NoCloser s ∧ ((s.connected = true ∧ s.rooms = rooms ∧ s.log = [] ∧ s.ths = []) ∨ (progress rooms true s .done))) ∨
  ∃ (k : Nat) (b : Bool) (pc : PC), s.ths[k]? = some (b, pc) ∧ pc ≠ .done ∧ (∀ (j : Nat) (t : Bool × PC), j ≠ k → s.ths[j]? = some t → t.2 = .done) ∧ progress rooms b s pc

theorem oneCloser_run (rooms : List Nat) (h : List CloseRace.Ev) (ho : CloseOneByOne rooms h) : OneCloser rooms (CloseRace.run rooms h) := by
  induction h using snocRec with
  | nil => exact .inl ⟨fun t h => by simp [CloseRace.run] at h, .inl ⟨rfl, rfl, rfl, rfl⟩⟩
  | append_singleton h e ih =>
    have i := ih (fun p b t e' => ho p b (t ++ [e]) (by rw [e']; simp))
    rw [close_snoc]
    cases e with
    | close b =>
      have hn := ho h b [] rfl
      generalize CloseRace.run rooms h = s at *
      refine .inr ⟨s.ths.length, b, .check, by simp [CloseRace.step], by simp, ?_, ?_⟩
      · intro j t hj hjt
        simp only [CloseRace.step] at hjt
        rw [List.getElem?_append] at hjt
        split at hjt
        · exact hn t (List.mem_of_getElem? hjt)
        · rename_i hlt
          have := List.getElem?_eq_some_iff.mp hjt
          obtain ⟨hl, _⟩ := this
          simp at hl; omega
      · have hst : progress rooms b s .check := by
          rcases i with ⟨_, h | h⟩ | ⟨k, b', pc, h1, h2, _, _⟩
          · exact .inl ⟨h.1, h.2.1, h.2.2.1⟩
          · exact .inr h
          · exact absurd (hn _ (List.mem_of_getElem? h1)) h2
        exact hst
    | adv k =>
      generalize CloseRace.run rooms h = s at *
      simp only [CloseRace.step, advance]
      split
      · rename_i b pc hk
        have hlt : k < s.ths.length := (List.getElem?_eq_some_iff.mp hk).1
        have doneCase : pc = .done → OneCloser rooms { (act s k b pc).1 with ths := s.ths.set k (b, (act s k b pc).2) } := by
          rintro rfl
          have : s.ths.set k (b, PC.done) = s.ths := by
            apply List.ext_getElem?
            intro j
            by_cases e : k = j
            · subst e; rw [List.getElem?_set_self hlt, hk]
            · rw [List.getElem?_set_ne e]
          simp only [act, this]; exact i
        by_cases hpc : pc = .done
        · exact doneCase hpc
        rcases i with ⟨hn, _⟩ | ⟨k', b', pc', h1, h2, h3, h4⟩
        · exact absurd (hn _ (List.mem_of_getElem? hk)) hpc
        · have hkk : k = k' := by
            by_cases e : k = k'
            · exact e
            · exact absurd (h3 k _ e hk) hpc
          subst hkk
          rw [hk] at h1; cases h1
          have hp := progress_act rooms b s k pc h4 (s.ths.set k (b, (act s k b pc).2))
          by_cases hd : (act s k b pc).2 = .done
          · refine .inl ⟨?_, .inr ?_⟩
            · intro t ht
              obtain ⟨j, hj, hjt⟩ := List.mem_iff_getElem.mp ht
              have hj2 : (s.ths.set k (b, (act s k b pc).2))[j]? = some t := List.getElem?_eq_some_iff.mpr ⟨hj, hjt⟩
              by_cases e : k = j
              · subst e; rw [List.getElem?_set_self hlt] at hj2; cases hj2; exact hd
              · rw [List.getElem?_set_ne e] at hj2; exact h3 j t (fun x => e x.symm) hj2
            · rw [hd] at hp ⊢; exact hp
          · refine .inr ⟨k, b, _, List.getElem?_set_self hlt, hd, ?_, hp⟩
            intro j t hj hjt
            have hjt : (s.ths.set k (b, (act s k b pc).2))[j]? = some t := hjt
            rw [List.getElem?_set_ne (fun x => hj x.symm)] at hjt
            exact h3 j t hj hjt
      · exact i

theorem progress_bounds {rooms : List Nat} {b : Bool} {s : CloseRace.St} {pc : PC} (h : progress rooms b s pc) :
    disconnects s ≤ 1 ∧ disconnectings s ≤ 1 ∧ (savedRooms s = [] ∨ savedRooms s = [rooms]) := by
  have nil : s.log = [] → disconnects s ≤ 1 ∧ disconnectings s ≤ 1 ∧ (savedRooms s = [] ∨ savedRooms s = [rooms]) := by
    intro e; simp [disconnects, disconnectings, savedRooms, e]
  cases pc with
  | check =>
    rcases h with ⟨_, _, h⟩ | ⟨_, h1, h2, h3⟩
    · exact nil h
    · exact ⟨by omega, by omega, h3⟩
  | disconnecting => exact nil h.2.2
  | persist => obtain ⟨_, _, h1, h2, h3⟩ := h; exact ⟨by omega, by omega, .inl h3⟩
  | cleanup => obtain ⟨_, _, h1, h2, h3⟩ := h; exact ⟨by omega, by omega, by cases b <;> simp at h3 <;> simp [h3]⟩
  | flag => obtain ⟨_, h1, h2, h3⟩ := h; exact ⟨by omega, by omega, by cases b <;> simp at h3 <;> simp [h3]⟩
  | disconnect => obtain ⟨_, h1, h2, h3⟩ := h; exact ⟨by omega, by omega, by cases b <;> simp at h3 <;> simp [h3]⟩
  | done => obtain ⟨_, h1, h2, h3⟩ := h; exact ⟨by omega, by omega, h3⟩

/-- **C49, partial**: if a socket is only closed while nobody else is closing it, `disconnecting` and `disconnect` are emitted at most
once, however often it is closed, the session is saved at most once and then with all its rooms; and once a close has returned, the
socket is disconnected and both events have been emitted. -/
theorem C49_partial (rooms : List Nat) (h : List CloseRace.Ev) (ho : CloseOneByOne rooms h) :
    disconnects (CloseRace.run rooms h) ≤ 1 ∧ disconnectings (CloseRace.run rooms h) ≤ 1 ∧
    (savedRooms (CloseRace.run rooms h) = [] ∨ savedRooms (CloseRace.run rooms h) = [rooms]) ∧
    (NoCloser (CloseRace.run rooms h) → (∃ b, CloseRace.Ev.close b ∈ h) →
      (CloseRace.run rooms h).connected = false ∧ disconnects (CloseRace.run rooms h) = 1 ∧ disconnectings (CloseRace.run rooms h) = 1) := by
  have i := oneCloser_run rooms h ho
  have len : ∀ h : List CloseRace.Ev, (∃ b, CloseRace.Ev.close b ∈ h) → (CloseRace.run rooms h).ths ≠ [] := by
    intro h
    induction h using snocRec with
    | nil => rintro ⟨b, hb⟩; cases hb
    | append_singleton h e ih =>
      rintro ⟨b, hb⟩
      rw [close_snoc]
      cases e with
      | close b' => simp [CloseRace.step]
      | adv k =>
        have := ih ⟨b, by simpa using hb⟩
        simp only [CloseRace.step, advance]
        split
        · intro e; apply this
          have := congrArg List.length e
          simp at this
          exact this
        · exact this
  have hlen := len h
  clear len
  generalize CloseRace.run rooms h = s at *
  rcases i with ⟨hn, h1 | h1⟩ | ⟨k, b, pc, h1, h2, _, h4⟩
  · refine ⟨by simp [disconnects, h1.2.2.1], by simp [disconnectings, h1.2.2.1], .inl (by simp [savedRooms, h1.2.2.1]), fun _ he => ?_⟩
    exact absurd h1.2.2.2 (hlen he)
  · have := progress_bounds h1
    exact ⟨this.1, this.2.1, this.2.2, fun _ _ => ⟨h1.1, h1.2.1, h1.2.2.1⟩⟩
  · have := progress_bounds h4
    exact ⟨this.1, this.2.1, this.2.2, fun hn => absurd (hn _ (List.mem_of_getElem? h1)) h2⟩

/-! ## Any interleaving -/

/-- What holds of any number of concurrent calls. -/
structure AnyCloser (s : CloseRace.St) : Prop where
  open' : s.connected = true → ∀ (k : Nat) (t : Bool × PC), s.ths[k]? = some t → t.2 ≠ .done ∧ t.2 ≠ .disconnect
  closed : s.connected = false → 1 ≤ disconnects s ∨ ∃ (k : Nat) (b : Bool), s.ths[k]? = some (b, .disconnect)
  once : ∀ (k : Nat) (t : Bool × PC), s.ths[k]? = some t → (t.2 = .done → s.log.count (.disconnect k) ≤ 1) ∧ (t.2 ≠ .done → s.log.count (.disconnect k) = 0)
  known : ∀ k, Out.disconnect k ∈ s.log → k < s.ths.length

theorem disconnects_append (c : Bool) (r : List Nat) (l : List (Bool × PC)) (a b : List Out) :
    disconnects { connected := c, rooms := r, ths := l, log := a ++ b } =
      disconnects { connected := c, rooms := r, ths := l, log := a } + (b.filter isDisconnect).length := by
  simp [disconnects]

theorem anyCloser_step {s : CloseRace.St} (i : AnyCloser s) (e : CloseRace.Ev) : AnyCloser (CloseRace.step s e) := by
  cases e with
  | close b =>
    simp only [CloseRace.step]
    have hget : ∀ (k : Nat) (t : Bool × PC), (s.ths ++ [(b, PC.check)])[k]? = some t → s.ths[k]? = some t ∨ (k = s.ths.length ∧ t = (b, .check)) := by
      intro k t h
      rw [List.getElem?_append] at h
      split at h
      · exact .inl h
      · rename_i hlt
        right
        have hl := (List.getElem?_eq_some_iff.mp h).1
        have : k - s.ths.length = 0 := by simp at hl; omega
        rw [this] at h
        simp at h
        exact ⟨by omega, h.symm⟩
    refine ⟨?_, ?_, ?_, ?_⟩
    · intro hc k t h
      rcases hget k t h with h | ⟨_, rfl⟩
      · exact i.open' hc k t h
      · simp
    · intro hc
      rcases i.closed hc with h | ⟨k, b', h⟩
      · exact .inl h
      · refine .inr ⟨k, b', ?_⟩
        have hl := (List.getElem?_eq_some_iff.mp h).1
        show (s.ths ++ [(b, PC.check)])[k]? = _
        rw [List.getElem?_append_left hl]; exact h
    · intro k t h
      rcases hget k t h with h | ⟨rfl, rfl⟩
      · exact i.once k t h
      · have : s.log.count (.disconnect s.ths.length) = 0 := List.count_eq_zero.mpr fun hm => absurd (i.known _ hm) (by omega)
        exact ⟨by simp, fun _ => this⟩
    · intro k hk
      have := i.known k hk
      simp; omega
  | adv k =>
    simp only [CloseRace.step, advance]
    split
    · rename_i b pc hk
      have hlt : k < s.ths.length := (List.getElem?_eq_some_iff.mp hk).1
      have hget : ∀ (pc' : PC) (j : Nat) (t : Bool × PC), (s.ths.set k (b, pc'))[j]? = some t → (j ≠ k ∧ s.ths[j]? = some t) ∨ (j = k ∧ t = (b, pc')) := by
        intro pc' j t h
        by_cases e : k = j
        · subst e; rw [List.getElem?_set_self hlt] at h; exact .inr ⟨rfl, (Option.some.inj h).symm⟩
        · rw [List.getElem?_set_ne e] at h; exact .inl ⟨fun x => e x.symm, h⟩
      have hset : ∀ (pc' : PC), (s.ths.set k (b, pc'))[k]? = some (b, pc') := fun _ => List.getElem?_set_self hlt
      have hoth : ∀ (pc' : PC) (j : Nat), j ≠ k → (s.ths.set k (b, pc'))[j]? = s.ths[j]? := fun _ _ h => List.getElem?_set_ne (fun x => h x.symm)
      have ho := i.once k _ hk
      -- a step that neither logs a `disconnect` nor changes the flag
      have quiet : ∀ (r : List Nat) (l : List Out) (pc' : PC), pc ≠ .disconnect → pc ≠ .done → pc' ≠ .disconnect → (pc' = .done → s.connected = false) →
          (∀ x, Out.disconnect x ∉ l) → AnyCloser { connected := s.connected, rooms := r, ths := s.ths.set k (b, pc'), log := s.log ++ l } := by
        intro r l pc' h1 h2 h3 h4 h5
        have hcnt : ∀ j, (s.log ++ l).count (.disconnect j) = s.log.count (.disconnect j) := by
          intro j; rw [List.count_append, List.count_eq_zero.mpr (h5 j)]; rfl
        refine ⟨?_, ?_, ?_, ?_⟩
        · intro hc j t h
          rcases hget _ _ _ h with ⟨_, h⟩ | ⟨_, rfl⟩
          · exact i.open' hc j t h
          · refine ⟨fun x => ?_, h3⟩
            have hc : s.connected = true := hc
            rw [h4 x] at hc; exact absurd hc (by simp)
        · intro hc
          rcases i.closed hc with h | ⟨j, b', h⟩
          · left; rw [disconnects_append]; exact Nat.le_trans h (Nat.le_add_right _ _)
          · by_cases e : j = k
            · subst e; rw [hk] at h; cases h; exact absurd rfl h1
            · exact .inr ⟨j, b', (hoth pc' j e).trans h⟩
        · intro j t h
          simp only [hcnt]
          rcases hget _ _ _ h with ⟨_, h⟩ | ⟨rfl, rfl⟩
          · exact i.once j t h
          · have := ho.2 h2
            exact ⟨fun _ => by omega, fun _ => this⟩
        · intro j hj
          rcases List.mem_append.mp hj with hj | hj
          · simpa using i.known j hj
          · exact absurd hj (h5 j)
      cases pc with
      | check =>
        by_cases hc : s.connected = true
        · have := quiet s.rooms [] .disconnecting (by simp) (by simp) (by simp) (by simp) (by simp)
          simpa [act, hc] using this
        · have hc' : s.connected = false := by simpa using hc
          have := quiet s.rooms [] .done (by simp) (by simp) (by simp) (fun _ => hc') (by simp)
          simpa [act, hc'] using this
      | disconnecting => exact quiet s.rooms [.disconnecting k] .persist (by simp) (by simp) (by simp) (by simp) (by simp)
      | persist =>
        cases b with
        | true => exact quiet s.rooms [.saved s.rooms] .cleanup (by simp) (by simp) (by simp) (by simp) (by simp)
        | false => simpa [act] using quiet s.rooms [] .cleanup (by simp) (by simp) (by simp) (by simp) (by simp)
      | cleanup => simpa [act] using quiet [] [] .flag (by simp) (by simp) (by simp) (by simp) (by simp)
      | flag =>
        simp only [act]
        refine ⟨by simp, fun _ => .inr ⟨k, b, hset _⟩, ?_, ?_⟩
        · intro j t h
          rcases hget _ _ _ h with ⟨_, h⟩ | ⟨rfl, rfl⟩
          · exact i.once j t h
          · exact ⟨by simp, fun _ => ho.2 (by simp)⟩
        · intro j hj; simpa using i.known j hj
      | disconnect =>
        have hc : s.connected = false := by
          cases h : s.connected with
          | false => rfl
          | true => exact absurd rfl (i.open' h k _ hk).2
        simp only [act]
        refine ⟨?_, ?_, ?_, ?_⟩
        · intro h; have h : s.connected = true := h; rw [hc] at h; cases h
        · intro _; left; rw [disconnects_append]; simp [List.filter, isDisconnect]
        · intro j t h
          rcases hget _ _ _ h with ⟨hj, h⟩ | ⟨rfl, rfl⟩
          · have : (s.log ++ [Out.disconnect k]).count (.disconnect j) = s.log.count (.disconnect j) := by
              simp [List.count_append, List.count_singleton]; exact fun x => hj x.symm
            simp only [this]; exact i.once j t h
          · have := ho.2 (by simp)
            refine ⟨fun _ => ?_, fun h => absurd rfl h⟩
            rw [List.count_append]; simp; omega
        · intro j hj
          rcases List.mem_append.mp hj with hj | hj
          · simpa using i.known j hj
          · simp only [List.mem_singleton] at hj; cases hj; simpa using hlt
      | done =>
        have : s.ths.set k (b, PC.done) = s.ths := by
          apply List.ext_getElem?
          intro j
          by_cases e : k = j
          · subst e; rw [List.getElem?_set_self hlt, hk]
          · rw [List.getElem?_set_ne e]
        simp only [act, this]; exact i
    · exact i

theorem anyCloser_run (rooms : List Nat) (h : List CloseRace.Ev) : AnyCloser (CloseRace.run rooms h) := by
  induction h using snocRec with
  | nil => exact ⟨fun _ k t h => by simp [CloseRace.run] at h, fun h => by simp [CloseRace.run] at h, fun k t h => by simp [CloseRace.run] at h, fun k h => by simp [CloseRace.run] at h⟩
  | append_singleton h e ih => rw [close_snoc]; exact anyCloser_step ih e

/-- **C49, what holds under every interleaving**: each call emits `disconnect` at most once; a call that came back left the socket
disconnected; and when all calls came back and there was one, `disconnect` was emitted at least once. -/
theorem C49_every_partial (rooms : List Nat) (h : List CloseRace.Ev) :
    (∀ k, (CloseRace.run rooms h).log.count (.disconnect k) ≤ 1) ∧
    (∀ (k : Nat) (b : Bool), (CloseRace.run rooms h).ths[k]? = some (b, .done) → (CloseRace.run rooms h).connected = false) ∧
    ((CloseRace.run rooms h).ths ≠ [] → NoCloser (CloseRace.run rooms h) → 1 ≤ disconnects (CloseRace.run rooms h)) := by
  have i := anyCloser_run rooms h
  generalize CloseRace.run rooms h = s at *
  have off : ∀ (k : Nat) (b : Bool), s.ths[k]? = some (b, .done) → s.connected = false := by
    intro k b hk
    cases hc : s.connected with
    | false => rfl
    | true => exact absurd rfl (i.open' hc k _ hk).1
  refine ⟨?_, off, ?_⟩
  · intro k
    by_cases hk : k < s.ths.length
    · have h := i.once k _ (List.getElem?_eq_getElem hk)
      by_cases e : (s.ths[k]).2 = .done
      · exact h.1 e
      · have := h.2 e; omega
    · have : s.log.count (.disconnect k) = 0 := List.count_eq_zero.mpr fun hm => hk (i.known k hm)
      omega
  · intro hne hno
    have hlen : 0 < s.ths.length := List.length_pos_iff.mpr hne
    have h0 := List.getElem?_eq_getElem hlen
    have hd : s.ths[0].2 = .done := hno _ (List.getElem_mem hlen)
    have hc : s.connected = false := off 0 s.ths[0].1 (by rw [h0, ← hd])
    rcases i.closed hc with h | ⟨k, b, h⟩
    · exact h
    · have := hno _ (List.mem_of_getElem? h); cases this

/-- A closed socket emits nothing more, whoever closes it again. -/
theorem C49_later (rooms : List Nat) (h : List CloseRace.Ev) (h0 : NoCloser (CloseRace.run rooms h)) (hc : (CloseRace.run rooms h).ths ≠ [])
    (h' : List CloseRace.Ev) : (CloseRace.run rooms (h ++ h')).log = (CloseRace.run rooms h).log := by
  have i := anyCloser_run rooms h
  have hoff : (CloseRace.run rooms h).connected = false := by
    have hlen := List.length_pos_iff.mpr hc
    have hd := h0 _ (List.getElem_mem hlen)
    cases e : (CloseRace.run rooms h).connected with
    | false => rfl
    | true => exact absurd hd (i.open' e 0 _ (List.getElem?_eq_getElem hlen)).1
  have key : (CloseRace.run rooms (h ++ h')).log = (CloseRace.run rooms h).log ∧ (CloseRace.run rooms (h ++ h')).connected = false ∧
      ∀ t ∈ (CloseRace.run rooms (h ++ h')).ths, t.2 = .done ∨ t.2 = .check := by
    induction h' using snocRec with
    | nil => simp only [List.append_nil]; exact ⟨trivial, hoff, fun t ht => .inl (h0 t ht)⟩
    | append_singleton h' e ih =>
      rw [← List.append_assoc, close_snoc]
      generalize CloseRace.run rooms (h ++ h') = s at *
      obtain ⟨i1, i2, i3⟩ := ih
      cases e with
      | close b =>
        refine ⟨i1, i2, fun t ht => ?_⟩
        rcases List.mem_append.mp ht with ht | ht
        · exact i3 t ht
        · right; rw [List.mem_singleton.mp ht]
      | adv k =>
        simp only [CloseRace.step, advance]
        split
        · rename_i b pc hk
          have ha : act s k b pc = (s, .done) := by
            rcases i3 _ (List.mem_of_getElem? hk) with h | h
            · cases h; rfl
            · cases h; simp [act, i2]
          rw [ha]
          refine ⟨i1, i2, fun t ht => ?_⟩
          rcases List.mem_or_eq_of_mem_set ht with ht | ht
          · exact i3 t ht
          · left; rw [ht]
        · exact ⟨i1, i2, i3⟩
  exact key.1

/-! ## What fails -/

/-- Two calls pass the check before either has set the flag. -/
def Demo.twoClosers : List CloseRace.Ev :=
  [.close false, .close true, .adv 0, .adv 1, .adv 0, .adv 0, .adv 0, .adv 0, .adv 0, .adv 1, .adv 1, .adv 1, .adv 1, .adv 1]

/-- **C49 is false**: when the disconnect packet of the client and the close of its connection are handled by two goroutines,
`disconnect` may be emitted twice. -/
theorem C49_fail : ¬ ∀ (rooms : List Nat) (h : List CloseRace.Ev), disconnects (CloseRace.run rooms h) ≤ 1 := by
  intro h; exact absurd (h [1, 2] Demo.twoClosers) (by decide)

/-- And the session the second call saves has lost its rooms. -/
theorem C49_session_fail : ¬ ∀ (rooms : List Nat) (h : List CloseRace.Ev), ∀ l ∈ savedRooms (CloseRace.run rooms h), l = rooms := by
  intro h; exact absurd (h [1, 2] Demo.twoClosers) (by decide)

/-- **A `disconnecting` handler that disconnects its socket never comes back**: however deep the calls are followed, the handler is
called once more and the first call has not returned. -/
theorem C49_handler_fail (n : Nat) : closeWithin n true = (n, false) := by
  induction n with
  | zero => rfl
  | succ n ih => simp [closeWithin, ih]

/-- On a socket that is disconnected already such a call comes back at once, without calling the handler. -/
example (n : Nat) : closeWithin (n + 1) false = (0, true) := rfl

/-- The hypothesis of `C49_partial` is met by closing twice in a row. -/
def Demo.closeTwice : List CloseRace.Ev := [.close true, .adv 0, .adv 0, .adv 0, .adv 0, .adv 0, .adv 0, .close false, .adv 1, .adv 1]

example : NoCloser (CloseRace.run [1, 2] Demo.closeTwice) ∧ disconnects (CloseRace.run [1, 2] Demo.closeTwice) = 1 ∧
    savedRooms (CloseRace.run [1, 2] Demo.closeTwice) = [[1, 2]] := by decide

example : CloseOneByOne [1, 2] Demo.closeTwice := by
  intro p b t h
  unfold Demo.closeTwice at h
  match p, h with
  | [], _ => decide
  | [_, _, _, _, _, _, _], h => simp at h; obtain ⟨rfl, rfl, rfl, rfl, rfl, rfl, rfl, _⟩ := h; decide
  | [_], h => simp at h
  | [_, _], h => simp at h
  | [_, _, _], h => simp at h
  | [_, _, _, _], h => simp at h
  | [_, _, _, _, _], h => simp at h
  | [_, _, _, _, _, _], h => simp at h
  | [_, _, _, _, _, _, _, _], h => simp at h
  | [_, _, _, _, _, _, _, _, _], h => simp at h
  | _ :: _ :: _ :: _ :: _ :: _ :: _ :: _ :: _ :: _ :: r, h => simp at h

example : (CloseRace.run [1] Demo.twoClosers).ths ≠ [] ∧ NoCloser (CloseRace.run [1] Demo.twoClosers) := by decide

end Verif.Props
