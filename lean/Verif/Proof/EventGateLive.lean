import Verif.Proof.EventGate
import Verif.Proof.Returns

/-! # Nothing gets stuck between the middlewares (C54) -/

namespace Verif.EventGate
open Verif Verif.Spec

/-- What must follow from what has happened. -/
structure Fwd (s : St) : Prop where
  none : ∀ e, s.evs[e]? = some [] → ∃ g ∈ s.gos, g.e = e ∧ g.ok = true
  first : ∀ e m ms, s.evs[e]? = some (m :: ms) → Obs.enter e 0 m ∈ s.log
  onward : ∀ e i fns m, Obs.next e i true ∈ s.log → s.evs[e]? = some fns → fns[i + 1]? = some m → Obs.enter e (i + 1) m ∈ s.log
  last : ∀ e i fns, Obs.next e i true ∈ s.log → s.evs[e]? = some fns → fns[i + 1]? = Option.none → ∃ g ∈ s.gos, g.e = e ∧ g.ok = true
  stop : ∀ e i, Obs.next e i false ∈ s.log → ∃ g ∈ s.gos, g.e = e ∧ g.ok = false
  done : ∀ g ∈ s.gos, g.phase = .finished → g.ok = true → Obs.handler g.e ∈ s.log ∨ Obs.dropped g.e ∈ s.log ∧ Obs.disconnect ∈ s.log
  err : ∀ g ∈ s.gos, g.phase = .finished → g.ok = false → Obs.error g.e ∈ s.log
  off : s.connected = false → Obs.disconnect ∈ s.log
  nxt : ∀ e i ok, Obs.next e i ok ∈ s.log → e < s.evs.length

theorem getElem?_snoc_cases {α : Type} {l : List α} {x y : α} {i : Nat} (h : (l ++ [x])[i]? = some y) :
    l[i]? = some y ∨ i = l.length ∧ y = x := by
  rw [List.getElem?_append] at h
  split at h
  · exact .inl h
  · rw [List.getElem?_singleton] at h
    split at h
    · exact .inr ⟨by omega, by simpa using h.symm⟩
    · cases h

theorem fwd_recv {s : St} (F : Fwd s) : Fwd (recv s) := by
  unfold recv
  have new (e i : Nat) (ok : Bool) (h : Obs.next e i ok ∈ s.log) : e ≠ s.evs.length := by
    have := F.nxt e i ok h; omega
  simp only
  split
  · rename_i hf
    constructor
    · intro e h
      rcases getElem?_snoc_cases h with h | ⟨h, _⟩
      · obtain ⟨g, h1, h2⟩ := F.none e h
        exact ⟨g, by simp [h1], h2⟩
      · exact ⟨_, List.mem_append_right _ (List.mem_singleton.2 rfl), h.symm, rfl⟩
    · intro e m ms h
      rcases getElem?_snoc_cases h with h | ⟨_, h⟩
      · exact F.first e m ms h
      · rw [hf] at h; cases h
    · intro e i fns m h h1 h2
      rcases getElem?_snoc_cases h1 with h1 | ⟨h1, _⟩
      · exact F.onward e i fns m h h1 h2
      · exact absurd h1 (new e i true h)
    · intro e i fns h h1 h2
      rcases getElem?_snoc_cases h1 with h1 | ⟨h1, _⟩
      · obtain ⟨g, h3, h4⟩ := F.last e i fns h h1 h2
        exact ⟨g, by simp [h3], h4⟩
      · exact absurd h1 (new e i true h)
    · intro e i h
      obtain ⟨g, h3, h4⟩ := F.stop e i h
      exact ⟨g, by simp [h3], h4⟩
    · intro g hg hp
      rcases List.mem_append.1 hg with hg | hg
      · exact F.done g hg hp
      · rw [List.mem_singleton.1 hg] at hp; cases hp
    · intro g hg hp
      rcases List.mem_append.1 hg with hg | hg
      · exact F.err g hg hp
      · rw [List.mem_singleton.1 hg] at hp; cases hp
    · exact F.off
    · intro e i ok h
      have := F.nxt e i ok h
      simp; omega
  · rename_i m0 ms0 hf
    constructor
    · intro e h
      rcases getElem?_snoc_cases h with h | ⟨_, h⟩
      · exact F.none e h
      · rw [hf] at h; cases h
    · intro e m ms h
      rcases getElem?_snoc_cases h with h | ⟨h1, h⟩
      · exact List.mem_append_left _ (F.first e m ms h)
      · rw [hf] at h; cases h; subst h1; simp
    · intro e i fns m h h1 h2
      have h : Obs.next e i true ∈ s.log := by simpa using h
      rcases getElem?_snoc_cases h1 with h1 | ⟨h1, _⟩
      · exact List.mem_append_left _ (F.onward e i fns m h h1 h2)
      · exact absurd h1 (new e i true h)
    · intro e i fns h h1 h2
      have h : Obs.next e i true ∈ s.log := by simpa using h
      rcases getElem?_snoc_cases h1 with h1 | ⟨h1, _⟩
      · exact F.last e i fns h h1 h2
      · exact absurd h1 (new e i true h)
    · intro e i h
      exact F.stop e i (by simpa using h)
    · intro g hg hp ho
      rcases F.done g hg hp ho with h | h
      · exact .inl (by simp [h])
      · exact .inr (by simp [h])
    · intro g hg hp ho
      simp [F.err g hg hp ho]
    · intro h; simp [F.off h]
    · intro e i ok h
      have := F.nxt e i ok (by simpa using h)
      simp; omega

theorem fwd_next {s : St} (F : Fwd s) (e i : Nat) (ok : Bool) : Fwd (next s e i ok) := by
  unfold next
  split
  · exact F
  rename_i fns hfns
  split
  · exact F
  rename_i m hm
  split
  · unfold goOn
    have he : e < s.evs.length := (List.getElem?_eq_some_iff.1 hfns).1
    split
    · rename_i hok
      split
      · rename_i hlast
        constructor
        · intro e' h
          obtain ⟨g, h1, h2⟩ := F.none e' h
          exact ⟨g, by simp [h1], h2⟩
        · intro e' m' ms h
          simp [F.first e' m' ms h]
        · intro e' i' fns' m' h h1 h2
          simp only [List.mem_append, List.mem_singleton, Obs.next.injEq, and_true] at h
          rcases h with h | ⟨rfl, rfl⟩
          · simp [F.onward e' i' fns' m' h h1 h2]
          · rw [hfns] at h1; cases h1; rw [hlast] at h2; cases h2
        · intro e' i' fns' h h1 h2
          simp only [List.mem_append, List.mem_singleton, Obs.next.injEq, and_true] at h
          rcases h with h | ⟨rfl, rfl⟩
          · obtain ⟨g, h3, h4⟩ := F.last e' i' fns' h h1 h2
            exact ⟨g, by simp [h3], h4⟩
          · exact ⟨_, List.mem_append_right _ (List.mem_singleton.2 rfl), rfl, rfl⟩
        · intro e' i' h
          obtain ⟨g, h3, h4⟩ := F.stop e' i' (by simpa using h)
          exact ⟨g, by simp [h3], h4⟩
        · intro g hg hp ho
          rcases List.mem_append.1 hg with hg | hg
          · rcases F.done g hg hp ho with h | h
            · exact .inl (by simp [h])
            · exact .inr (by simp [h])
          · rw [List.mem_singleton.1 hg] at hp; cases hp
        · intro g hg hp ho
          rcases List.mem_append.1 hg with hg | hg
          · simp [F.err g hg hp ho]
          · rw [List.mem_singleton.1 hg] at hp; cases hp
        · intro h; simp [F.off h]
        · intro e' i' ok' h
          simp only [List.mem_append, List.mem_singleton, Obs.next.injEq] at h
          rcases h with h | ⟨rfl, _⟩
          · exact F.nxt e' i' ok' h
          · exact he
      · rename_i m1 hon
        constructor
        · exact F.none
        · intro e' m' ms h
          simp [F.first e' m' ms h]
        · intro e' i' fns' m' h h1 h2
          simp only [List.mem_append, List.mem_cons, Obs.next.injEq, and_true, reduceCtorEq, List.not_mem_nil, or_false] at h
          rcases h with h | ⟨rfl, rfl⟩
          · simp [F.onward e' i' fns' m' h h1 h2]
          · rw [hfns] at h1; cases h1; rw [hon] at h2; cases h2; simp
        · intro e' i' fns' h h1 h2
          simp only [List.mem_append, List.mem_cons, Obs.next.injEq, and_true, reduceCtorEq, List.not_mem_nil, or_false] at h
          rcases h with h | ⟨rfl, rfl⟩
          · exact F.last e' i' fns' h h1 h2
          · rw [hfns] at h1; cases h1; rw [hon] at h2; cases h2
        · intro e' i' h
          exact F.stop e' i' (by simpa using h)
        · intro g hg hp ho
          rcases F.done g hg hp ho with h | h
          · exact .inl (by simp [h])
          · exact .inr (by simp [h])
        · intro g hg hp ho
          simp [F.err g hg hp ho]
        · intro h; simp [F.off h]
        · intro e' i' ok' h
          simp only [List.mem_append, List.mem_cons, Obs.next.injEq, reduceCtorEq, List.not_mem_nil, or_false] at h
          rcases h with h | ⟨rfl, _⟩
          · exact F.nxt e' i' ok' h
          · exact he
    · constructor
      · intro e' h
        obtain ⟨g, h1, h2⟩ := F.none e' h
        exact ⟨g, by simp [h1], h2⟩
      · intro e' m' ms h
        simp [F.first e' m' ms h]
      · intro e' i' fns' m' h h1 h2
        simp [F.onward e' i' fns' m' (by simpa using h) h1 h2]
      · intro e' i' fns' h h1 h2
        obtain ⟨g, h3, h4⟩ := F.last e' i' fns' (by simpa using h) h1 h2
        exact ⟨g, by simp [h3], h4⟩
      · intro e' i' h
        simp only [List.mem_append, List.mem_singleton, Obs.next.injEq, and_true] at h
        rcases h with h | ⟨rfl, rfl⟩
        · obtain ⟨g, h3, h4⟩ := F.stop e' i' h
          exact ⟨g, by simp [h3], h4⟩
        · exact ⟨_, List.mem_append_right _ (List.mem_singleton.2 rfl), rfl, rfl⟩
      · intro g hg hp ho
        rcases List.mem_append.1 hg with hg | hg
        · rcases F.done g hg hp ho with h | h
          · exact .inl (by simp [h])
          · exact .inr (by simp [h])
        · rw [List.mem_singleton.1 hg] at hp; cases hp
      · intro g hg hp ho
        rcases List.mem_append.1 hg with hg | hg
        · simp [F.err g hg hp ho]
        · rw [List.mem_singleton.1 hg] at hp; cases hp
      · intro h; simp [F.off h]
      · intro e' i' ok' h
        simp only [List.mem_append, List.mem_singleton, Obs.next.injEq] at h
        rcases h with h | ⟨rfl, _⟩
        · exact F.nxt e' i' ok' h
        · exact he
  · exact F

/-- A goroutine has gone on. -/
theorem fwd_set {s : St} (F : Fwd s) {k : Nat} {g : Go} (hk : s.gos[k]? = some g) (ph : Phase) (d : List Obs)
    (hd : ∀ e i ok, Obs.next e i ok ∉ d)
    (h1 : ph = .finished → g.ok = true → Obs.handler g.e ∈ s.log ++ d ∨ Obs.dropped g.e ∈ s.log ++ d ∧ Obs.disconnect ∈ s.log ++ d)
    (h2 : ph = .finished → g.ok = false → Obs.error g.e ∈ s.log ++ d) :
    Fwd { s with gos := s.gos.set k { g with phase := ph }, log := s.log ++ d } := by
  have old (e i ok) (h : Obs.next e i ok ∈ s.log ++ d) : Obs.next e i ok ∈ s.log :=
    (List.mem_append.1 h).resolve_right (hd e i ok)
  have keep (e : Nat) (ok : Bool) (h : ∃ g ∈ s.gos, g.e = e ∧ g.ok = ok) :
      ∃ g' ∈ s.gos.set k { g with phase := ph }, g'.e = e ∧ g'.ok = ok := by
    obtain ⟨x, hx, h3⟩ := h
    obtain ⟨j, hj⟩ := List.getElem?_of_mem hx
    by_cases hjk : j = k
    · subst hjk
      rw [hk] at hj; cases hj
      refine ⟨{ g with phase := ph }, List.mem_of_getElem? (i := j) (by rw [List.getElem?_set_self (List.getElem?_eq_some_iff.1 hk).1]), h3⟩
    · exact ⟨x, List.mem_of_getElem? (i := j) (by rw [List.getElem?_set_ne (Ne.symm hjk)]; exact hj), h3⟩
  constructor
  · intro e h; exact keep e true (F.none e h)
  · intro e m ms h; simp [F.first e m ms h]
  · intro e i fns m h h1 h2; simp [F.onward e i fns m (old _ _ _ h) h1 h2]
  · intro e i fns h h1 h2; exact keep e true (F.last e i fns (old _ _ _ h) h1 h2)
  · intro e i h; exact keep e false (F.stop e i (old _ _ _ h))
  · intro x hx hp ho
    rcases List.mem_or_eq_of_mem_set hx with hx | rfl
    · rcases F.done x hx hp ho with h | h
      · exact .inl (by simp [h])
      · exact .inr (by simp [h])
    · exact h1 hp ho
  · intro x hx hp ho
    rcases List.mem_or_eq_of_mem_set hx with hx | rfl
    · simp [F.err x hx hp ho]
    · exact h2 hp ho
  · intro h; simp [F.off h]
  · intro e i ok h; exact F.nxt e i ok (old _ _ _ h)

theorem fwd_adv {s : St} (I : Inv s) (F : Fwd s) (k : Nat) : Fwd (adv s k) := by
  unfold adv
  split
  · exact F
  rename_i g hk
  split
  · exact F
  · rename_i hp
    obtain ⟨_, _, _, h⟩ := I.gos g (List.mem_of_getElem? hk)
    exact fwd_set F hk .finished [.handler g.e] (by simp) (by simp) (fun _ ho => by rw [h hp] at ho; cases ho)
  · split
    · rename_i ho
      split
      · have := fwd_set F hk .passed [] (by simp) (by simp) (by simp)
        simpa using this
      · rename_i hc
        exact fwd_set F hk .finished [.dropped g.e] (by simp) (by simp [F.off (by simpa using hc)]) (by simp [ho])
    · rename_i ho
      exact fwd_set F hk .finished [.error g.e] (by simp) (fun _ h => absurd h ho) (by simp)

theorem fwd_close {s : St} (F : Fwd s) : Fwd (close s) := by
  unfold close
  split
  · constructor
    · exact F.none
    · intro e m ms h; simp [F.first e m ms h]
    · intro e i fns m h h1 h2; simp [F.onward e i fns m (by simpa using h) h1 h2]
    · intro e i fns h h1 h2; exact F.last e i fns (by simpa using h) h1 h2
    · intro e i h; exact F.stop e i (by simpa using h)
    · intro g hg hp ho
      rcases F.done g hg hp ho with h | h
      · exact .inl (by simp [h])
      · exact .inr (by simp [h])
    · intro g hg hp ho; simp [F.err g hg hp ho]
    · intro _; simp
    · intro e i ok h; exact F.nxt e i ok (by simpa using h)
  · exact F

theorem fwd_run (h : List Ev) : Fwd (run h) := by
  induction h using snocRec with
  | nil => constructor <;> simp [run]
  | append_singleton h e ih =>
    rw [run_snoc]
    cases e with
    | use m => exact ⟨ih.none, ih.first, ih.onward, ih.last, ih.stop, ih.done, ih.err, ih.off, ih.nxt⟩
    | recv => exact fwd_recv ih
    | next e i ok => exact fwd_next ih e i ok
    | adv k => exact fwd_adv (inv_run h) ih k
    | close => exact fwd_close ih

theorem arrived_append (a b : List Ev) : eventsArrived (a ++ b) = eventsArrived a + eventsArrived b := by
  induction a with
  | nil => simp [eventsArrived]
  | cons e a ih => cases e <;> simp [eventsArrived, ih]; omega

theorem evs_arrived (h : List Ev) : (run h).evs.length = eventsArrived h := by
  induction h using snocRec with
  | nil => rfl
  | append_singleton h e ih =>
    rw [run_snoc, arrived_append]
    cases e with
    | use m => simpa [step, eventsArrived] using ih
    | recv => simp only [step, recv, eventsArrived]; split <;> simp [ih]
    | next e i ok =>
      simp only [step, next, goOn, eventsArrived]
      repeat' split
      all_goals simpa using ih
    | adv k =>
      simp only [step, adv, eventsArrived]
      repeat' split
      all_goals simpa using ih
    | close =>
      simp only [step, close, eventsArrived]
      split <;> simpa using ih

/-- The steps a goroutine has still to take. -/
def toGo : Phase → Nat
  | .start => 2
  | .passed => 1
  | .finished => 0

theorem go_step (s : St) (ev : Ev) (k : Nat) (g : Go) (hk : s.gos[k]? = some g) :
    ∃ g', (step s ev).gos[k]? = some g' ∧ g'.e = g.e ∧ g'.ok = g.ok ∧ toGo g'.phase ≤ toGo g.phase ∧
      (ev = .adv k → g.phase ≠ .finished → toGo g'.phase < toGo g.phase) := by
  have same (h : (step s ev).gos = s.gos) (hne : ev ≠ .adv k ∨ g.phase = .finished) : ∃ g', (step s ev).gos[k]? = some g' ∧ g'.e = g.e ∧ g'.ok = g.ok ∧
      toGo g'.phase ≤ toGo g.phase ∧ (ev = .adv k → g.phase ≠ .finished → toGo g'.phase < toGo g.phase) :=
    ⟨g, by rw [h]; exact hk, rfl, rfl, Nat.le_refl _, fun h1 h2 => by rcases hne with hne | hne <;> contradiction⟩
  have snoc (x : Go) (h : (step s ev).gos = s.gos ++ [x]) (hne : ev ≠ .adv k) : ∃ g', (step s ev).gos[k]? = some g' ∧ g'.e = g.e ∧
      g'.ok = g.ok ∧ toGo g'.phase ≤ toGo g.phase ∧ (ev = .adv k → g.phase ≠ .finished → toGo g'.phase < toGo g.phase) :=
    ⟨g, by rw [h]; exact getElem?_snoc_of hk, rfl, rfl, Nat.le_refl _, fun h1 => absurd h1 hne⟩
  cases ev with
  | use m => exact same rfl (.inl (by simp))
  | recv =>
    by_cases hf : s.fns = []
    · exact snoc { e := s.evs.length, ok := true } (by simp only [step, recv, hf]) (by simp)
    · obtain ⟨m, ms, hf⟩ := List.exists_cons_of_ne_nil hf
      exact same (by simp only [step, recv, hf]) (.inl (by simp))
  | close => exact same (by simp only [step, close]; split <;> rfl) (.inl (by simp))
  | next e i ok =>
    have : (step s (.next e i ok)).gos = s.gos ∨ ∃ x, (step s (.next e i ok)).gos = s.gos ++ [x] := by
      simp only [step, next, goOn]
      repeat' split
      all_goals first | exact .inl rfl | exact .inr ⟨_, rfl⟩
    rcases this with h | ⟨x, h⟩
    · exact same h (.inl (by simp))
    · exact snoc x h (by simp)
  | adv j =>
    by_cases hjk : j = k
    · subst hjk
      have hl := (List.getElem?_eq_some_iff.1 hk).1
      simp only [step, adv, hk]
      obtain ⟨e, ok, ph⟩ := g
      cases ph with
      | finished => exact ⟨_, hk, rfl, rfl, Nat.le_refl _, fun _ h => absurd rfl h⟩
      | passed => exact ⟨_, List.getElem?_set_self hl, rfl, rfl, by simp [toGo], fun _ _ => by simp [toGo]⟩
      | start =>
        cases ok with
        | false => exact ⟨_, List.getElem?_set_self hl, rfl, rfl, by simp [toGo], fun _ _ => by simp [toGo]⟩
        | true =>
          simp only [if_true]
          split
          · exact ⟨_, List.getElem?_set_self hl, rfl, rfl, by simp [toGo], fun _ _ => by simp [toGo]⟩
          · exact ⟨_, List.getElem?_set_self hl, rfl, rfl, by simp [toGo], fun _ _ => by simp [toGo]⟩
    · have : (step s (.adv j)).gos[k]? = s.gos[k]? := by
        simp only [step, adv]
        split
        · rfl
        · rename_i x hx
          repeat' split
          all_goals first | rfl | exact List.getElem?_set_ne hjk
      exact ⟨g, by rw [this]; exact hk, rfl, rfl, Nat.le_refl _, fun h => by cases h; exact absurd rfl hjk⟩

theorem go_later (t : List Ev) (k : Nat) : ∀ (s : St) (g : Go), s.gos[k]? = some g →
    ∃ g', (t.foldl step s).gos[k]? = some g' ∧ g'.e = g.e ∧ g'.ok = g.ok ∧ toGo g'.phase ≤ toGo g.phase := by
  induction t with
  | nil => intro s g hk; exact ⟨g, hk, rfl, rfl, Nat.le_refl _⟩
  | cons ev t ih =>
    intro s g hk
    obtain ⟨g1, h1, h2, h3, h4, _⟩ := go_step s ev k g hk
    obtain ⟨g2, k1, k2, k3, k4⟩ := ih _ g1 h1
    exact ⟨g2, k1, k2.trans h2, k3.trans h3, Nat.le_trans k4 h4⟩

theorem firstOf_add (σ : Nat → Ev) (n d : Nat) : ∃ t, firstOf σ (n + d) = firstOf σ n ++ t := by
  induction d with
  | zero => exact ⟨[], by simp⟩
  | succ d ih =>
    obtain ⟨t, ht⟩ := ih
    exact ⟨t ++ [σ (n + d)], by rw [← Nat.add_assoc, Returns.firstOf_succ, ht, List.append_assoc]⟩

/-- A goroutine that is never forgotten comes to its end. -/
theorem go_ends (h : List Ev) (σ : Nat → Ev) (k : Nat) (fair : AgainAndAgain (.adv k) σ) : ∀ (d n : Nat) (g : Go),
    (run (h ++ firstOf σ n)).gos[k]? = some g → toGo g.phase ≤ d →
    ∃ m g', (run (h ++ firstOf σ m)).gos[k]? = some g' ∧ g'.e = g.e ∧ g'.ok = g.ok ∧ g'.phase = .finished := by
  intro d
  induction d with
  | zero =>
    intro n g hk hd
    refine ⟨n, g, hk, rfl, rfl, ?_⟩
    cases hp : g.phase <;> simp_all [toGo]
  | succ d ih =>
    intro n g hk hd
    obtain ⟨m, hm, hσ⟩ := fair n
    obtain ⟨j, rfl⟩ : ∃ j, m = n + j := ⟨m - n, by omega⟩
    obtain ⟨t, ht⟩ := firstOf_add σ n j
    obtain ⟨g1, h1, h2, h3, h4⟩ := go_later t k _ g hk
    have hrun : t.foldl step (run (h ++ firstOf σ n)) = run (h ++ firstOf σ (n + j)) := by rw [ht]; simp [run]
    rw [hrun] at h1
    by_cases hf : g1.phase = .finished
    · exact ⟨n + j, g1, h1, h2, h3, hf⟩
    · obtain ⟨g2, k1, k2, k3, _, k5⟩ := go_step _ (σ (n + j)) k g1 h1
      have hlt := k5 hσ hf
      have : step (run (h ++ firstOf σ (n + j))) (σ (n + j)) = run (h ++ firstOf σ (n + j + 1)) := by
        rw [Returns.firstOf_succ, ← List.append_assoc, run_snoc]
      rw [this] at k1
      obtain ⟨m', g', e1, e2, e3, e4⟩ := ih (n + j + 1) g2 k1 (by omega)
      exact ⟨m', g', e1, e2.trans (k2.trans h2), e3.trans (k3.trans h3), e4⟩

end Verif.EventGate
