import Verif.Model.Fetch
import Verif.Lib.ListExtra
import Verif.Proof.World
import Verif.Proof.Once

namespace Verif.Fetch
open Verif Verif.World Verif.Delivery

variable {me n : Nat} {o : Option Opts}

/-- The request has been stored. -/
def Late : Main → Prop
  | .publish | .finished => True
  | _ => False

/-- Before `MissingUids.Delete`. -/
def Way.early : Way → Prop
  | .none | .under | .back _ | .load _ | .push _ | .delete _ => True
  | _ => False

/-- `l` is or has been among the responses (or came too late). -/
def Way.past (l : List Sid) : Way → Prop
  | .delete x | .check x | .resolve x | .erase x | .done x => x = l
  | _ => False

/-- `l` was answered. -/
def Way.carries (l : List Sid) : Way → Prop
  | .none | .under => False
  | .back x | .load x | .push x => x = l
  | w => w.past l

/-- Facts about every reachable state. -/
structure Inv (me n : Nat) (s : St) : Prop where
  stored : ¬ Late s.main → s.stored = false
  rems : ¬ Late s.main → ∀ u pc, (u, pc) ∈ s.rems → pc = .load ∨ pc = .forget ∨ pc = .done
  ways : s.main ≠ .finished → ∀ j, s.ways j = .none
  self : s.ways me = .none
  bound : ∀ j, s.ways j ≠ .none → j < n
  nilW : ∀ j l, s.ways j = .resolve l → s.missing = []
  nilR : ∀ u, (u, .resolve) ∈ s.rems → s.missing = []
  put : ∀ j l, (s.ways j = .delete l ∨ s.ways j = .check l ∨ s.ways j = .resolve l ∨ s.ways j = .erase l) →
    ∀ x ∈ l, x ∈ s.responses

theorem inv_main {s : St} (h : Inv me n s) (ok : Bool) : Inv me n (main me n o s ok s.main) := by
  have h0 := h
  obtain ⟨h1, h2, h3, h4, hB, h5, h6, h7⟩ := h
  cases hm : s.main with
  | idle => exact h0
  | finished => exact h0
  | returned => exact h0
  | count here =>
    simp only [main]
    split
    · exact ⟨fun _ => h1 (by simp [hm, Late]), fun _ => h2 (by simp [hm, Late]), fun _ => h3 (by simp [hm]), h4, hB, h5, h6, h7⟩
    · exact ⟨fun _ => h1 (by simp [hm, Late]), fun _ => h2 (by simp [hm, Late]), fun _ => h3 (by simp [hm]), h4, hB, h5, h6, h7⟩
  | keys here =>
    exact ⟨fun _ => h1 (by simp [hm, Late]), fun _ => h2 (by simp [hm, Late]), fun _ => h3 (by simp [hm]), h4, hB, h5, h6, h7⟩
  | store here asked =>
    replace h2 := h2 (by simp [hm, Late])
    replace h3 := h3 (by simp [hm])
    refine ⟨by simp [main, Late], by simp [main, Late], fun _ => h3, h4, hB, ?_, ?_, ?_⟩
    · intro j l h; rw [show (main me n o s ok (.store here asked)).ways = s.ways from rfl, h3] at h; cases h
    · intro u h; simpa using h2 u _ h
    · intro j l h; rw [show (main me n o s ok (.store here asked)).ways = s.ways from rfl, h3] at h; simp at h
  | publish =>
    refine ⟨by simp [main, Late], by simp [main, Late], by simp [main], by simp [main, h4], ?_, ?_, h6, ?_⟩
    · intro j h; simp only [main] at h; split at h
      · rename_i hc; exact hc.2.1
      · exact hB j h
    · intro j l h; simp only [main] at h; split at h
      · cases h
      · exact h5 j l h
    · intro j l h; simp only [main] at h; split at h
      · simp at h
      · exact h7 j l h

theorem inv_way {s : St} (h : Inv me n s) (j : Nat) : Inv me n (way o s j (s.ways j)) := by
  by_cases hw : s.ways j = .none
  · rw [hw]; exact h
  have hf : s.main = .finished := Classical.byContradiction fun hc => hw (h.ways hc j)
  have hme : me ≠ j := by rintro rfl; exact hw h.self
  obtain ⟨h1, h2, h3, h4, hB, h5, h6, h7⟩ := h
  have key : ∀ (s' : St) (w : Way), s'.main = s.main → s'.rems = s.rems → s'.ways = upd s.ways j w →
      (∀ l, w = .resolve l → s'.missing = []) → (∀ x, x ∈ s.responses → x ∈ s'.responses) →
      (s.missing = [] → s'.missing = []) →
      (∀ l, (w = .delete l ∨ w = .check l ∨ w = .resolve l ∨ w = .erase l) → ∀ x ∈ l, x ∈ s'.responses) →
      Inv me n s' := by
    intro s' w e1 e2 e3 e4 e5 e6 e7
    refine ⟨by simp [e1, hf, Late], by simp [e1, hf, Late], by simp [e1, hf], by rw [e3, upd_ne _ _ hme]; exact h4, ?_, ?_, ?_, ?_⟩
    · intro j' hh; rw [e3, upd_apply] at hh; split at hh
      · rename_i hj; subst hj; exact hB _ hw
      · exact hB j' hh
    · intro j' l hh
      rw [e3, upd_apply] at hh
      split at hh
      · exact e4 l hh
      · exact e6 (h5 j' l hh)
    · intro u hh; rw [e2] at hh; exact e6 (h6 u hh)
    · intro j' l hh x hx
      rw [e3, upd_apply] at hh
      split at hh
      · exact e7 l hh x hx
      · exact e5 x (h7 j' l hh x hx)
  cases hj : s.ways j with
  | none => exact absurd hj hw
  | under => exact key _ _ rfl rfl rfl (by simp) (fun _ h => h) id (by simp)
  | back l => exact key _ _ rfl rfl rfl (by simp) (fun _ h => h) id (by simp)
  | load l =>
    refine key _ _ rfl rfl rfl (by split <;> simp) (fun _ h => h) id (by split <;> simp)
  | push l =>
    exact key _ _ rfl rfl rfl (by simp) (fun _ h => List.mem_append_left _ h) id (by
      intro l' h x hx; simp at h; subst h; exact List.mem_append_right _ hx)
  | delete l =>
    refine key _ (.check l) rfl rfl rfl (by simp) (fun _ h => h) ?_ ?_
    · intro hh; show LSet.del s.missing j = []; rw [hh]; rfl
    · intro l' h x hx; simp at h; subst h; exact h7 j l (.inl hj) x hx
  | check l =>
    refine key _ _ rfl rfl rfl ?_ (fun _ h => h) id ?_
    · intro l' hh; split at hh
      · rename_i h0; exact List.length_eq_zero_iff.1 h0
      · cases hh
    · intro l' hh x hx
      split at hh
      · simp at hh; subst hh; exact h7 j l (.inr (.inl hj)) x hx
      · simp at hh
  | resolve l =>
    refine key _ (.erase l) rfl rfl rfl (by simp) (fun _ h => h) id ?_
    intro l' h x hx; simp at h; subst h; exact h7 j l (.inr (.inr (.inl hj))) x hx
  | erase l => exact key _ _ rfl rfl rfl (by simp) (fun _ h => h) id (by simp)
  | done l => simp only [way]; exact ⟨h1, h2, h3, h4, hB, h5, h6, h7⟩

theorem inv_rem {s : St} (h : Inv me n s) (k u : Nat) (pc : Rem) (hk : s.rems[k]? = some (u, pc)) :
    Inv me n (rem s k u pc) := by
  have hm := List.mem_of_getElem? hk
  obtain ⟨h1, h2, h3, h4, hB, h5, h6, h7⟩ := h
  have key : ∀ (s' : St) (pc' : Rem), s'.main = s.main → s'.ways = s.ways → s'.responses = s.responses →
      s'.rems = s.rems.set k (u, pc') → (s.stored = false → s'.stored = false) → (s.missing = [] → s'.missing = []) →
      (pc' = .resolve → s'.missing = []) → (¬ Late s.main → pc' = .load ∨ pc' = .forget ∨ pc' = .done) → Inv me n s' := by
    intro s' pc' e1 e2 e3 e4 e5 e6 e7 e8
    refine ⟨?_, ?_, by rw [e1, e2]; exact h3, by rw [e2]; exact h4, by rw [e2]; exact hB, ?_, ?_, by rw [e2, e3]; exact h7⟩
    · rw [e1]; exact fun h => e5 (h1 h)
    · rw [e1]; intro hl u' p hp
      rw [e4] at hp
      rcases mem_of_set hp with hp | hp
      · exact h2 hl u' p hp
      · cases hp; exact e8 hl
    · intro j l hh; rw [e2] at hh; exact e6 (h5 j l hh)
    · intro u' hh; rw [e4] at hh
      rcases mem_of_set hh with hh | hh
      · exact e6 (h6 u' hh)
      · cases hh; exact e7 rfl
  cases pc with
  | load =>
    refine key _ _ rfl rfl rfl rfl id id (by split <;> simp) ?_
    intro hl; rw [h1 hl]; simp
  | delete =>
    refine key _ .check rfl rfl rfl rfl id ?_ (by simp) ?_
    · intro hh; show LSet.del s.missing u = []; rw [hh]; rfl
    · intro hl; simpa using h2 hl u _ hm
  | check =>
    refine key _ _ rfl rfl rfl rfl id id ?_ ?_
    · intro hh; split at hh
      · rename_i h0; exact List.length_eq_zero_iff.1 h0
      · cases hh
    · intro hl; simpa using h2 hl u _ hm
  | resolve =>
    refine key _ .erase rfl rfl rfl rfl id id (by simp) ?_
    intro hl; simpa using h2 hl u _ hm
  | erase => exact key _ .forget rfl rfl rfl rfl (fun _ => rfl) id (by simp) (by simp)
  | forget => exact key _ .done rfl rfl rfl rfl id id (by simp) (by simp)
  | done => exact ⟨h1, h2, h3, h4, hB, h5, h6, h7⟩

theorem inv_step {s : St} (h : Inv me n s) (e : Ev) : Inv me n (step me n o s e) := by
  cases e with
  | change j x => exact ⟨h.stored, h.rems, h.ways, h.self, h.bound, h.nilW, h.nilR, h.put⟩
  | learn u =>
    simp only [step]
    split
    · exact h
    · exact ⟨h.stored, h.rems, h.ways, h.self, h.bound, h.nilW, h.nilR, h.put⟩
  | forget u =>
    refine ⟨h.stored, ?_, h.ways, h.self, h.bound, h.nilW, ?_, h.put⟩
    · intro hl u' p hp
      simp only [step, List.mem_append, List.mem_singleton] at hp
      rcases hp with hp | hp
      · exact h.rems hl u' p hp
      · cases hp; simp
    · intro u' hp
      simp only [step, List.mem_append, List.mem_singleton] at hp
      rcases hp with hp | hp
      · exact h.nilR u' hp
      · cases hp
  | fetch =>
    simp only [step]
    split
    · rename_i hm
      exact ⟨fun _ => h.stored (by simp [hm, Late]), fun _ => h.rems (by simp [hm, Late]), fun _ => h.ways (by simp [hm]),
        h.self, h.bound, h.nilW, h.nilR, h.put⟩
    · exact h
  | main ok => exact inv_main h ok
  | way j => exact inv_way h j
  | rem k =>
    simp only [step]
    split
    · rename_i u pc hk; exact inv_rem h k u pc hk
    · exact h
  | tick =>
    have key : Inv me n (tick s s.timer) := by
      cases ht : s.timer <;> simp only [tick]
      · exact ⟨h.stored, h.rems, h.ways, h.self, h.bound, h.nilW, h.nilR, h.put⟩
      · exact ⟨h.stored, h.rems, h.ways, h.self, h.bound, h.nilW, h.nilR, h.put⟩
      · exact ⟨h.stored, h.rems, h.ways, h.self, h.bound, h.nilW, h.nilR, h.put⟩
      · exact ⟨fun _ => rfl, h.rems, h.ways, h.self, h.bound, h.nilW, h.nilR, h.put⟩
      · exact h
    simp only [step]
    split <;> first | exact key | exact h

theorem run_snoc (init : Nat → Nsp) (h : List Ev) (e : Ev) :
    run me n o init (h ++ [e]) = step me n o (run me n o init h) e := by simp [run]

theorem inv_run (init : Nat → Nsp) (h : List Ev) : Inv me n (run me n o init h) := by
  induction h using snocRec with
  | nil => exact ⟨by simp [run], by simp [run], by simp [run], by simp [run], by simp [run], by simp [run], by simp [run], by simp [run]⟩
  | append_singleton h e ih => rw [run_snoc]; exact inv_step ih e

/-! ## Where the responses come from -/

/-- `A j l`: `l` is what server `j` answers; `B l`: what is found on the server that asks. -/
structure Src (A : Nat → List Sid → Prop) (B : List Sid → Prop) (s : St) : Prop where
  ways : ∀ j l, (s.ways j).carries l → A j l
  here : ∀ l, (s.main = .count l ∨ s.main = .keys l ∨ ∃ a, s.main = .store l a) → B l
  responses : Late s.main → ∃ l, B l ∧ (∀ x ∈ l, x ∈ s.responses) ∧
    ∀ x ∈ s.responses, x ∈ l ∨ ∃ j l', (s.ways j).past l' ∧ x ∈ l'

theorem Src.mono {A A' : Nat → List Sid → Prop} {B B' : List Sid → Prop} {s : St} (h : Src A B s)
    (ha : ∀ j l, A j l → A' j l) (hb : ∀ l, B l → B' l) : Src A' B' s :=
  ⟨fun j l hh => ha j l (h.ways j l hh), fun l hh => hb l (h.here l hh), fun hl =>
    (h.responses hl).elim fun l hh => ⟨l, hb l hh.1, hh.2⟩⟩

theorem carries_of_past {w : Way} {l : List Sid} (h : w.past l) : w.carries l := by
  cases w <;> simp_all [Way.past, Way.carries]

theorem src_step {A : Nat → List Sid → Prop} {B : List Sid → Prop} {s : St} (hi : Inv me n s) (h : Src A B s) (e : Ev)
    (ha : ∀ j, s.main = .finished → A j (found (remoteOpts o) (s.nsps j)))
    (hb : B (found (localOpts o) (s.nsps me))) : Src A B (step me n o s e) := by
  have same : ∀ s' : St, s'.ways = s.ways → s'.main = s.main → s'.responses = s.responses → Src A B s' := by
    intro s' e1 e2 e3
    exact ⟨by rw [e1]; exact h.ways, by rw [e2]; exact h.here, by rw [e1, e2, e3]; exact h.responses⟩
  cases e with
  | change j x => exact same _ rfl rfl rfl
  | learn u => simp only [step]; split <;> exact same _ rfl rfl rfl
  | forget u => exact same _ rfl rfl rfl
  | fetch =>
    simp only [step]
    split
    · rename_i hm
      refine ⟨h.ways, ?_, by simp [Late]⟩
      intro l hl; simp at hl; subst hl; exact hb
    · exact h
  | main ok =>
    simp only [step]
    cases hm : s.main with
    | idle => exact h
    | finished => exact h
    | returned => exact h
    | count here =>
      simp only [main]
      split
      · exact ⟨h.ways, by simp, by simp [Late]⟩
      · exact ⟨h.ways, by intro l hl; simp at hl; subst hl; exact h.here _ (.inl hm), by simp [Late]⟩
    | keys here =>
      exact ⟨h.ways, by intro l hl; simp [main] at hl; subst hl; exact h.here _ (.inr (.inl hm)), by simp [Late, main]⟩
    | store here asked =>
      refine ⟨h.ways, by simp [main], ?_⟩
      intro _
      exact ⟨here, h.here _ (.inr (.inr ⟨_, hm⟩)), fun _ h => h, fun x hx => .inl hx⟩
    | publish =>
      have hw := hi.ways (by simp [hm])
      obtain ⟨l, h1, h2, h3⟩ := h.responses (by simp [hm, Late])
      refine ⟨?_, by simp [main], ?_⟩
      · intro j l hl
        simp only [main] at hl
        split at hl
        · simp [Way.carries] at hl
        · exact h.ways j l hl
      · intro _
        refine ⟨l, h1, h2, ?_⟩
        intro x hx
        rcases h3 x hx with h3 | ⟨j, l', h3, _⟩
        · exact .inl h3
        · rw [hw] at h3; simp [Way.past] at h3
  | way j =>
    simp only [step]
    by_cases hw : s.ways j = .none
    · rw [hw]; exact h
    have hf : s.main = .finished := Classical.byContradiction fun hc => hw (hi.ways hc j)
    obtain ⟨l0, h1, h2, h3⟩ := h.responses (by simp [hf, Late])
    have key : ∀ (s' : St) (w : Way), s'.main = s.main → s'.ways = upd s.ways j w → (∀ l, w.carries l → A j l) →
        (∀ l, (s.ways j).past l → w.past l) →
        (s'.responses = s.responses ∨ ∃ l, w.past l ∧ s'.responses = s.responses ++ l) → Src A B s' := by
      intro s' w e1 e2 e3 e4 e5
      have h3' : ∀ x ∈ s.responses, x ∈ l0 ∨ ∃ j' l', (s'.ways j').past l' ∧ x ∈ l' := by
        intro x hx
        rcases h3 x hx with h3 | ⟨j', l', h3, hx⟩
        · exact .inl h3
        · refine .inr ⟨j', l', ?_, hx⟩
          rw [e2, upd_apply]
          split
          · rename_i hj; subst hj; exact e4 l' h3
          · exact h3
      refine ⟨?_, by rw [e1]; exact h.here, ?_⟩
      · intro j' l hl
        rw [e2, upd_apply] at hl
        split at hl
        · rename_i hj; subst hj; exact e3 l hl
        · exact h.ways j' l hl
      · intro _
        rcases e5 with e5 | ⟨l, e5, e6⟩
        · rw [e5]; exact ⟨l0, h1, h2, h3'⟩
        · rw [e6]
          refine ⟨l0, h1, fun x hx => List.mem_append_left _ (h2 x hx), ?_⟩
          intro x hx
          rcases List.mem_append.1 hx with hx | hx
          · exact h3' x hx
          · exact .inr ⟨j, l, by rw [e2, upd_same]; exact e5, hx⟩
    have hc := h.ways j
    cases hj : s.ways j with
    | none => exact absurd hj hw
    | under =>
      refine key _ _ rfl rfl ?_ (by simp [hj, Way.past]) (.inl rfl)
      intro l hl; simp [Way.carries] at hl; subst hl; exact ha j hf
    | back l =>
      exact key _ (.load l) rfl rfl
        (by intro l hl; simp [Way.carries] at hl; subst hl; exact hc _ (by simp [hj, Way.carries]))
        (by simp [hj, Way.past]) (.inl rfl)
    | load l =>
      refine key _ _ rfl rfl ?_ (by simp [hj, Way.past]) (.inl rfl)
      intro l' hl
      apply hc; rw [hj]
      split at hl <;> simpa [Way.carries, Way.past] using hl
    | push l =>
      exact key _ (.delete l) rfl rfl
        (by intro l hl; simp [Way.carries, Way.past] at hl; subst hl; exact hc _ (by simp [hj, Way.carries]))
        (by simp [hj, Way.past]) (.inr ⟨l, by simp [Way.past], rfl⟩)
    | delete l =>
      exact key _ (.check l) rfl rfl
        (by intro l hl; simp [Way.carries, Way.past] at hl; subst hl; exact hc _ (by simp [hj, Way.carries, Way.past]))
        (by simp [hj, Way.past]) (.inl rfl)
    | check l =>
      refine key _ _ rfl rfl ?_ ?_ (.inl rfl)
      · intro l' hl
        apply hc; rw [hj]
        split at hl <;> simpa [Way.carries, Way.past] using hl
      · intro l' hl; rw [hj] at hl
        split <;> simpa [Way.past] using hl
    | resolve l =>
      exact key _ (.erase l) rfl rfl
        (by intro l hl; simp [Way.carries, Way.past] at hl; subst hl; exact hc _ (by simp [hj, Way.carries, Way.past]))
        (by simp [hj, Way.past]) (.inl rfl)
    | erase l =>
      exact key _ (.done l) rfl rfl
        (by intro l hl; simp [Way.carries, Way.past] at hl; subst hl; exact hc _ (by simp [hj, Way.carries, Way.past]))
        (by simp [hj, Way.past]) (.inl rfl)
    | done l => exact h
  | rem k =>
    simp only [step]
    split
    · rename_i u pc hk
      cases pc <;> exact same _ rfl rfl rfl
    · exact h
  | tick =>
    have key : Src A B (tick s s.timer) := by cases s.timer <;> exact same _ rfl rfl rfl
    simp only [step]
    split <;> first | exact key | exact h

/-- The server that asks has called `FetchSockets`. -/
theorem fetch_mem (init : Nat → Nsp) (h : List Ev) (hm : (run me n o init h).main ≠ .idle) : Ev.fetch ∈ h := by
  induction h using snocRec with
  | nil => simp [run] at hm
  | append_singleton h e ih =>
    by_cases hi : (run me n o init h).main = .idle
    · rw [run_snoc] at hm
      cases e with
      | fetch => simp
      | change j x => exact absurd hi hm
      | learn u => simp only [step] at hm; split at hm <;> exact absurd hi hm
      | forget u => exact absurd hi hm
      | main ok => simp only [step, hi, main] at hm; exact absurd rfl hm
      | way j =>
        have hw := (inv_run (me := me) (n := n) (o := o) init h).ways (by simp [hi]) j
        simp only [step, hw, way, hi] at hm; exact absurd rfl hm
      | rem k =>
        simp only [step] at hm
        split at hm
        · rename_i u pc hk
          cases pc <;> exact absurd hi hm
        · exact absurd hi hm
      | tick => simp only [step, hi] at hm; exact absurd rfl hm
    · exact List.mem_append_left _ (ih hi)

/-- `l` is what a server would have answered at some moment after the call. -/
def At (me n : Nat) (o : Option Opts) (init : Nat → Nsp) (h : List Ev) (opts : Option Opts) (j : Nat) (l : List Sid) : Prop :=
  ∃ p q, h = p ++ q ∧ Ev.fetch ∈ p ∧ l = found opts ((run me n o init p).nsps j)

theorem src_run (init : Nat → Nsp) (h : List Ev) :
    Src (At me n o init h (remoteOpts o)) (At me n o init h (localOpts o) me) (run me n o init h) := by
  induction h using snocRec with
  | nil => exact ⟨by simp [run, Way.carries], by simp [run], by simp [run, Late]⟩
  | append_singleton h e ih =>
    have mono : ∀ opts j l, At me n o init h opts j l → At me n o init (h ++ [e]) opts j l := by
      rintro opts j l ⟨p, q, rfl, h1, h2⟩
      exact ⟨p, q ++ [e], by simp, h1, h2⟩
    by_cases hm : (run me n o init h).main = .idle ∧ e = .fetch
    · obtain ⟨hm, rfl⟩ := hm
      have ih' := ih.mono (mono _) (mono _ _)
      have e1 : run me n o init (h ++ [.fetch]) =
          { run me n o init h with main := .count (found (localOpts o) ((run me n o init h).nsps me)) } := by
        rw [run_snoc]; simp [step, hm]
      refine ⟨?_, ?_, ?_⟩
      · rw [e1]; exact ih'.ways
      · intro l hl
        rw [e1] at hl
        simp at hl; subst hl
        exact ⟨h ++ [.fetch], [], by simp, by simp, by rw [e1]⟩
      · rw [e1]; simp [Late]
    · rw [run_snoc]
      by_cases hf : Ev.fetch ∈ h
      · refine src_step (inv_run init h) (ih.mono (mono _) (mono _ _)) e ?_ ?_
        · exact fun j _ => ⟨h, [e], rfl, hf, rfl⟩
        · exact ⟨h, [e], rfl, hf, rfl⟩
      · have hidle : (run me n o init h).main = .idle := Classical.byContradiction fun hc => hf (fetch_mem init h hc)
        have hne : e ≠ .fetch := fun he => hm ⟨hidle, he⟩
        have hw := (inv_run (me := me) (n := n) (o := o) init h).ways (by simp [hidle])
        have e1 : (step me n o (run me n o init h) e).main = .idle ∧ (step me n o (run me n o init h) e).ways = (run me n o init h).ways := by
          cases e with
          | fetch => exact absurd rfl hne
          | change j x => exact ⟨hidle, rfl⟩
          | learn u => simp only [step]; split <;> exact ⟨hidle, rfl⟩
          | forget u => exact ⟨hidle, rfl⟩
          | main ok => simp only [step, hidle, main]; exact ⟨trivial, trivial⟩
          | way j => simp only [step, hw, way]; exact ⟨hidle, trivial⟩
          | rem k =>
            simp only [step]
            split
            · rename_i u pc hk
              cases pc <;> exact ⟨hidle, rfl⟩
            · exact ⟨hidle, rfl⟩
          | tick => simp only [step, hidle]; exact ⟨trivial, trivial⟩
        refine ⟨?_, by simp [e1.1], by simp [e1.1, Late]⟩
        intro j l hl
        rw [e1.2, hw] at hl; simp [Way.carries] at hl

/-! ## When the callback is called -/

/-- Somebody is about to call the callback. -/
def Resolving (s : St) : Prop := (∃ j l, s.ways j = .resolve l) ∨ ∃ u, (u, Rem.resolve) ∈ s.rems

theorem call_cases {s : St} {e : Ev} {l : List Sid} (h : (step me n o s e).calls = s.calls ++ [some l]) :
    (s.main = .count l ∧ (Cluster.onlyLocal o ∨ s.known.length = 0)) ∨ (l = s.responses ∧ Resolving s) := by
  have no : ∀ {x : List (Option (List Sid))}, s.calls = s.calls ++ [some l] → False := by
    intro _ h; simpa using congrArg List.length h
  cases e with
  | change j x => exact (no (x := []) h).elim
  | learn u => simp only [step] at h; split at h <;> exact (no (x := []) h).elim
  | forget u => exact (no (x := []) h).elim
  | fetch => simp only [step] at h; split at h <;> exact (no (x := []) h).elim
  | main ok =>
    simp only [step] at h
    cases hm : s.main <;> rw [hm] at h <;> simp only [main] at h
    case count here =>
      split at h
      · rename_i hc; simp at h; subst h; exact .inl ⟨rfl, hc⟩
      · exact (no (x := []) h).elim
    all_goals exact (no (x := []) h).elim
  | way j =>
    simp only [step] at h
    cases hj : s.ways j <;> rw [hj] at h <;> simp only [way, resolve] at h
    case resolve l' => simp at h; exact .inr ⟨h.symm, .inl ⟨j, l', hj⟩⟩
    all_goals exact (no (x := []) h).elim
  | rem k =>
    simp only [step] at h
    split at h
    · rename_i u pc hk
      cases pc <;> simp only [rem, resolve] at h
      case resolve => simp at h; exact .inr ⟨h.symm, .inr ⟨u, List.mem_of_getElem? hk⟩⟩
      all_goals exact (no (x := []) h).elim
    · exact (no (x := []) h).elim
  | tick =>
    simp only [step] at h
    split at h
    · cases ht : s.timer <;> rw [ht] at h <;> simp [tick] at h
    · cases ht : s.timer <;> rw [ht] at h <;> simp [tick] at h
    · cases ht : s.timer <;> rw [ht] at h <;> simp [tick] at h
    · exact (no (x := []) h).elim

theorem resolving_late {s : St} (hi : Inv me n s) (h : Resolving s) : Late s.main ∧ s.missing = [] := by
  rcases h with ⟨j, l, h⟩ | ⟨u, h⟩
  · refine ⟨?_, hi.nilW j l h⟩
    have : s.main = .finished := Classical.byContradiction fun hc => by rw [hi.ways hc j] at h; cases h
    simp [this, Late]
  · refine ⟨Classical.byContradiction fun hc => ?_, hi.nilR u h⟩
    simpa using hi.rems hc u _ h

/-! ## A server that is known and not removed -/

/-- Server `u` is waited for, or its answer is among the responses. -/
structure Kept (u : Nat) (s : St) : Prop where
  rems : ∀ pc, (u, pc) ∈ s.rems → pc = .done
  known : u ∈ s.known
  asked : ∀ l a, s.main = .store l a → u ∈ a
  got : Late s.main → u ∈ s.missing ∨ ∃ l, (s.ways u).carries l ∧ ∀ x ∈ l, x ∈ s.responses
  stays : s.main ≠ .returned

theorem kept_step {s : St} (hi : Inv me n s) {u : Nat} (h : Kept u s) (hl : Cluster.onlyLocal o = false) (e : Ev)
    (he : e ≠ .forget u) : Kept u (step me n o s e) := by
  have hne : s.known ≠ [] := fun hc => by have := h.known; rw [hc] at this; cases this
  have same : ∀ s' : St, s'.rems = s.rems → s'.known = s.known → s'.main = s.main → s'.missing = s.missing →
      s'.ways = s.ways → s'.responses = s.responses → Kept u s' := by
    intro s' e1 e2 e3 e4 e5 e6
    exact ⟨by rw [e1]; exact h.rems, by rw [e2]; exact h.known, by rw [e3]; exact h.asked,
      by rw [e3, e4, e5, e6]; exact h.got, by rw [e3]; exact h.stays⟩
  cases e with
  | change j x => exact same _ rfl rfl rfl rfl rfl rfl
  | learn v =>
    simp only [step]
    split
    · exact h
    · exact ⟨h.rems, by simp [LSet.mem_add, h.known], h.asked, h.got, h.stays⟩
  | forget v =>
    refine ⟨?_, h.known, h.asked, h.got, h.stays⟩
    intro pc hp
    simp only [step, List.mem_append, List.mem_singleton] at hp
    rcases hp with hp | hp
    · exact h.rems pc hp
    · cases hp; exact absurd rfl he
  | fetch =>
    simp only [step]
    split
    · exact ⟨h.rems, h.known, by simp, by simp [Late], by simp⟩
    · exact h
  | main ok =>
    simp only [step]
    cases hm : s.main with
    | idle => exact h
    | finished => exact h
    | returned => exact h
    | count here =>
      simp only [main]
      rw [if_neg (by simp [hl, hne])]
      exact ⟨h.rems, h.known, by simp, by simp [Late], by simp⟩
    | keys here => exact ⟨h.rems, h.known, by simp [main]; exact h.known, by simp [main, Late], by simp [main]⟩
    | store here asked =>
      exact ⟨h.rems, h.known, by simp [main], fun _ => .inl (h.asked _ _ hm), by simp [main]⟩
    | publish =>
      have hw := hi.ways (by simp [hm])
      refine ⟨h.rems, h.known, by simp [main], fun _ => ?_, by simp [main]⟩
      rcases h.got (by simp [hm, Late]) with hg | ⟨l, hg, _⟩
      · exact .inl hg
      · rw [hw] at hg; simp [Way.carries] at hg
  | way j =>
    simp only [step]
    by_cases hw : s.ways j = .none
    · rw [hw]; exact h
    have hf : s.main = .finished := Classical.byContradiction fun hc => hw (hi.ways hc j)
    have hg := h.got (by simp [hf, Late])
    have key : ∀ (s' : St) (w : Way), s'.rems = s.rems → s'.known = s.known → s'.main = s.main → s'.ways = upd s.ways j w →
        (∀ x ∈ s.responses, x ∈ s'.responses) → (∀ l, (s.ways j).carries l → w.carries l) →
        (u ∈ s.missing → u ∈ s'.missing ∨ (u = j ∧ ∃ l, w.carries l ∧ ∀ x ∈ l, x ∈ s'.responses)) → Kept u s' := by
      intro s' w e1 e2 e3 e4 e5 e6 e7
      refine ⟨by rw [e1]; exact h.rems, by rw [e2]; exact h.known, by rw [e3]; exact h.asked, fun _ => ?_, by rw [e3]; exact h.stays⟩
      rw [e4, upd_apply]
      rcases hg with hg | ⟨l, hg, hx⟩
      · rcases e7 hg with e8 | ⟨rfl, e8⟩
        · exact .inl e8
        · exact .inr (by simpa using e8)
      · refine .inr ⟨l, ?_, fun x hh => e5 x (hx x hh)⟩
        split
        · rename_i hj; subst hj; exact e6 l hg
        · exact hg
    cases hj : s.ways j with
    | none => exact absurd hj hw
    | under => exact key _ _ rfl rfl rfl rfl (fun _ h => h) (by simp [hj, Way.carries]) .inl
    | back l => exact key _ (.load l) rfl rfl rfl rfl (fun _ h => h) (by simp [hj, Way.carries]) .inl
    | load l =>
      refine key _ _ rfl rfl rfl rfl (fun _ h => h) ?_ .inl
      intro l' hl'; rw [hj] at hl'; split <;> simpa [Way.carries, Way.past] using hl'
    | push l =>
      exact key _ (.delete l) rfl rfl rfl rfl (fun _ h => List.mem_append_left _ h) (by simp [hj, Way.carries, Way.past]) .inl
    | delete l =>
      refine key _ (.check l) rfl rfl rfl rfl (fun _ h => h) (by simp [hj, Way.carries, Way.past]) ?_
      intro hu
      by_cases huj : u = j
      · exact .inr ⟨huj, l, by simp [Way.carries, Way.past], hi.put j l (.inl hj)⟩
      · exact .inl (by simp only [way, LSet.mem_del]; exact ⟨huj, hu⟩)
    | check l =>
      refine key _ _ rfl rfl rfl rfl (fun _ h => h) ?_ .inl
      intro l' hl'; rw [hj] at hl'; split <;> simpa [Way.carries, Way.past] using hl'
    | resolve l =>
      exact key _ (.erase l) rfl rfl rfl rfl (fun _ h => h) (by simp [hj, Way.carries, Way.past]) .inl
    | erase l =>
      exact key _ (.done l) rfl rfl rfl rfl (fun _ h => h) (by simp [hj, Way.carries, Way.past]) .inl
    | done l => exact h
  | rem k =>
    simp only [step]
    split
    · rename_i v pc hk
      by_cases huv : v = u
      · subst huv
        have hd := h.rems pc (List.mem_of_getElem? hk)
        subst hd; exact h
      · have hr : ∀ pc', ∀ p, (u, p) ∈ s.rems.set k (v, pc') → p = .done := by
          intro pc' p hp
          rcases mem_of_set hp with hp | hp
          · exact h.rems p hp
          · cases hp; exact absurd rfl huv
        cases pc with
        | delete =>
          refine ⟨hr _, h.known, h.asked, ?_, h.stays⟩
          intro hlate
          rcases h.got hlate with hg | hg
          · exact .inl (by simp only [rem, LSet.mem_del]; exact ⟨fun h => huv h.symm, hg⟩)
          · exact .inr hg
        | forget => exact ⟨hr _, by simp only [rem, LSet.mem_del]; exact ⟨fun h => huv h.symm, h.known⟩, h.asked, h.got, h.stays⟩
        | done => exact h
        | load => exact ⟨hr _, h.known, h.asked, h.got, h.stays⟩
        | check => exact ⟨hr _, h.known, h.asked, h.got, h.stays⟩
        | resolve => exact ⟨hr _, h.known, h.asked, h.got, h.stays⟩
        | erase => exact ⟨hr _, h.known, h.asked, h.got, h.stays⟩
    · exact h
  | tick =>
    have key : Kept u (tick s s.timer) := by cases s.timer <;> exact same _ rfl rfl rfl rfl rfl rfl
    simp only [step]
    split <;> first | exact key | exact h

theorem kept_run (init : Nat → Nsp) (a b : List Ev) (u : Nat) (hu : u ≠ me) (ha : Ev.fetch ∉ a)
    (hr : ∀ pc, (u, pc) ∈ (run me n o init a).rems → pc = .done) (hb : Ev.forget u ∉ b) (hl : Cluster.onlyLocal o = false) :
    Kept u (run me n o init (a ++ Ev.learn u :: b)) := by
  have hidle : (run me n o init a).main = .idle := Classical.byContradiction fun hc => ha (fetch_mem init a hc)
  induction b using snocRec with
  | nil =>
    rw [run_snoc]
    simp only [step, hu, if_false]
    exact ⟨hr, by simp [LSet.mem_add], by simp [hidle], by simp [hidle, Late], by simp [hidle]⟩
  | append_singleton b e ih =>
    rw [show a ++ Ev.learn u :: (b ++ [e]) = (a ++ Ev.learn u :: b) ++ [e] by simp, run_snoc]
    exact kept_step (inv_run init _) (ih fun hc => hb (by simp [hc])) hl e (fun hc => hb (by simp [hc]))

/-! ## No socket twice -/

theorem nodup_step {A : Nat → List Sid → Prop} {B : List Sid → Prop} {s : St} (hi : Inv me n s) (h : Src A B s)
    (na : ∀ j l, A j l → l.Nodup) (nb : ∀ l, B l → l.Nodup) (da : ∀ i j l l' x, A i l → A j l' → x ∈ l → x ∈ l' → i = j)
    (db : ∀ j l l' x, A j l → B l' → x ∈ l → x ∈ l' → j = me) (nd : Late s.main → s.responses.Nodup) (e : Ev) :
    Late (step me n o s e).main → (step me n o s e).responses.Nodup := by
  cases e with
  | change j x => exact nd
  | learn u => simp only [step]; split <;> exact nd
  | forget u => exact nd
  | fetch =>
    simp only [step]
    split
    · simp [Late]
    · exact nd
  | main ok =>
    simp only [step]
    cases hm : s.main with
    | count here => simp only [main]; split <;> simp [Late]
    | keys here => simp [main, Late]
    | store here asked => intro _; exact nb _ (h.here _ (.inr (.inr ⟨_, hm⟩)))
    | publish => intro _; exact nd (by simp [hm, Late])
    | idle => simp [main, hm, Late]
    | finished => intro _; exact nd (by simp [hm, Late])
    | returned => simp [main, hm, Late]
  | way j =>
    simp only [step]
    by_cases hw : s.ways j = .none
    · rw [hw]; exact nd
    have hf : s.main = .finished := Classical.byContradiction fun hc => hw (hi.ways hc j)
    have hlate : Late s.main := by simp [hf, Late]
    have nd' := nd hlate
    have hme : j ≠ me := by rintro rfl; exact hw hi.self
    cases hj : s.ways j with
    | push l =>
      intro _
      have hA : A j l := h.ways j l (by simp [hj, Way.carries])
      obtain ⟨l0, h1, _, h3⟩ := h.responses hlate
      show (s.responses ++ l).Nodup
      rw [List.nodup_append]
      refine ⟨nd', na j l hA, ?_⟩
      intro x hx y hy hxy
      subst hxy
      rcases h3 x hx with h3 | ⟨j', l', h3, hx'⟩
      · exact hme (db j l l0 x hA h1 hy h3)
      · have := da j' j l' l x (h.ways j' l' (carries_of_past h3)) hA hx' hy
        subst this
        rw [hj] at h3; simp [Way.past] at h3
    | none => exact absurd hj hw
    | under => intro _; exact nd'
    | back l => intro _; exact nd'
    | load l => intro _; exact nd'
    | delete l => intro _; exact nd'
    | check l => intro _; exact nd'
    | resolve l => intro _; exact nd'
    | erase l => intro _; exact nd'
    | done l => intro _; exact nd'
  | rem k =>
    simp only [step]
    split
    · rename_i u pc hk
      cases pc <;> exact nd
    · exact nd
  | tick =>
    have key : Late (tick s s.timer).main → (tick s s.timer).responses.Nodup := by cases s.timer <;> exact nd
    simp only [step]
    split <;> first | exact key | exact nd

theorem nodup_run (init : Nat → Nsp) (h : List Ev) (A : Nat → List Sid → Prop) (B : List Sid → Prop)
    (hA : ∀ j l, At me n o init h (remoteOpts o) j l → A j l) (hB : ∀ l, At me n o init h (localOpts o) me l → B l)
    (na : ∀ j l, A j l → l.Nodup) (nb : ∀ l, B l → l.Nodup) (da : ∀ i j l l' x, A i l → A j l' → x ∈ l → x ∈ l' → i = j)
    (db : ∀ j l l' x, A j l → B l' → x ∈ l → x ∈ l' → j = me) :
    Late (run me n o init h).main → (run me n o init h).responses.Nodup := by
  induction h using snocRec with
  | nil => simp [run, Late]
  | append_singleton h e ih =>
    have mono : ∀ opts j l, At me n o init h opts j l → At me n o init (h ++ [e]) opts j l := by
      rintro opts j l ⟨p, q, rfl, h1, h2⟩
      exact ⟨p, q ++ [e], by simp, h1, h2⟩
    rw [run_snoc]
    exact nodup_step (inv_run init h)
      ((src_run init h).mono (fun j l hh => hA j l (mono _ _ _ hh)) (fun l hh => hB l (mono _ _ _ hh))) na nb da db
      (ih (fun j l hh => hA j l (mono _ _ _ hh)) (fun l hh => hB l (mono _ _ _ hh))) e

/-! ## The callback is called -/

/-- Somebody is about to look whether anybody is missing, or has seen that nobody is. -/
def Pending (s : St) : Prop :=
  (∃ j l, s.ways j = .check l ∨ s.ways j = .resolve l) ∨
    ∃ (k : Nat) (u : Nat), s.rems[k]? = some (u, Rem.check) ∨ s.rems[k]? = some (u, Rem.resolve)

/-- As long as the callback has not been called. -/
structure Live (me n : Nat) (s : St) : Prop where
  known : ∀ u ∈ s.known, u < n ∧ u ≠ me
  asked : ∀ l a, s.main = .store l a → ∀ u ∈ a, u < n ∧ u ≠ me
  missing : Late s.main → ∀ u ∈ s.missing, u < n ∧ u ≠ me
  other : (∀ l, s.main ≠ .count l) → s.main ≠ .idle → ∃ u, u < n ∧ u ≠ me
  sent : s.main = .finished → ∀ j, j < n → j ≠ me → s.ways j ≠ .none
  stays : s.main ≠ .returned
  stored : Late s.main → s.stored = true
  ways : ∀ j l, s.ways j ≠ .erase l
  rems : ∀ u, (u, Rem.erase) ∉ s.rems
  timer : s.timer ≠ .erase
  out : ∀ j, (s.ways j).early ∨ j ∉ s.missing
  notice : Late s.main → s.missing ≠ [] ∨ Pending s ∨ ∀ j, (s.ways j).early

theorem calls_mono (s : St) (e : Ev) : ∃ l, (step me n o s e).calls = s.calls ++ l := by
  cases e with
  | change j x => exact ⟨[], by simp [step]⟩
  | learn u => exact ⟨[], by simp only [step]; split <;> simp⟩
  | forget u => exact ⟨[], by simp [step]⟩
  | fetch => exact ⟨[], by simp only [step]; split <;> simp⟩
  | main ok =>
    simp only [step]
    cases s.main <;> simp only [main]
    case count => split
                  · exact ⟨_, rfl⟩
                  · exact ⟨[], by simp⟩
    all_goals exact ⟨[], by simp⟩
  | way j =>
    simp only [step]
    cases s.ways j <;> simp only [way, resolve] <;> first | exact ⟨_, rfl⟩ | exact ⟨[], by simp⟩
  | rem k =>
    simp only [step]
    split
    · rename_i u pc hk
      cases pc <;> simp only [rem, resolve] <;> first | exact ⟨_, rfl⟩ | exact ⟨[], by simp⟩
    · exact ⟨[], by simp⟩
  | tick =>
    have key : ∃ l, (tick s s.timer).calls = s.calls ++ l := by
      cases s.timer <;> simp only [tick] <;> first | exact ⟨_, rfl⟩ | exact ⟨[], by simp⟩
    simp only [step]
    split <;> first | exact key | exact ⟨[], by simp⟩

theorem live_step {s : St} (hi : Inv me n s) (h : Live me n s) (e : Ev) (hn : (step me n o s e).calls = [])
    (hl : ∀ u, e = .learn u → u < n) (hm : e ≠ .main false) : Live me n (step me n o s e) := by
  have pend : ∀ (k u : Nat) (pc pc' : Rem), s.rems[k]? = some (u, pc) → pc ≠ .check → pc ≠ .resolve → ∀ s' : St,
      s'.ways = s.ways → s'.rems = s.rems.set k (u, pc') → Pending s → Pending s' := by
    rintro k u pc pc' hk h1 h2 s' e1 e2 (⟨j, l, hp⟩ | ⟨k', u', hp⟩)
    · exact .inl ⟨j, l, by rw [e1]; exact hp⟩
    · refine .inr ⟨k', u', ?_⟩
      have hne : k' ≠ k := by
        rintro rfl
        rcases hp with hp | hp <;> rw [hk] at hp <;> cases hp
        · exact h1 rfl
        · exact h2 rfl
      rw [e2]
      exact hp.imp (fun h => Once.set_other h hne) (fun h => Once.set_other h hne)
  cases e with
  | change j x => exact ⟨h.known, h.asked, h.missing, h.other, h.sent, h.stays, h.stored, h.ways, h.rems, h.timer, h.out, h.notice⟩
  | learn u =>
    simp only [step]
    split
    · exact h
    · rename_i hu
      refine ⟨?_, h.asked, h.missing, h.other, h.sent, h.stays, h.stored, h.ways, h.rems, h.timer, h.out, h.notice⟩
      intro v hv
      rcases (LSet.mem_add _ _ _).1 hv with hv | hv
      · subst hv; exact ⟨hl _ rfl, hu⟩
      · exact h.known v hv
  | forget u =>
    refine ⟨h.known, h.asked, h.missing, h.other, h.sent, h.stays, h.stored, h.ways, ?_, h.timer, h.out, ?_⟩
    · intro v hv
      simp only [step, List.mem_append, List.mem_singleton] at hv
      rcases hv with hv | hv
      · exact h.rems v hv
      · cases hv
    · intro hlate
      rcases h.notice hlate with h1 | (h1 | ⟨k, u', hp⟩) | h1
      · exact .inl h1
      · exact .inr (.inl (.inl h1))
      · exact .inr (.inl (.inr ⟨k, u', hp.imp Once.app_left Once.app_left⟩))
      · exact .inr (.inr h1)
  | fetch =>
    simp only [step]
    split
    · exact ⟨h.known, by simp, by simp [Late], by simp, by simp, by simp, by simp [Late], h.ways, h.rems, h.timer, h.out, by simp [Late]⟩
    · exact h
  | main ok =>
    simp only [step] at hn ⊢
    cases hs : s.main with
    | idle => exact h
    | finished => exact h
    | returned => exact h
    | count here =>
      rw [hs] at hn
      simp only [main] at hn ⊢
      split at hn
      · simp at hn
      · rename_i hc
        rw [if_neg hc]
        refine ⟨h.known, by simp, by simp [Late], ?_, by simp, by simp, by simp [Late], h.ways, h.rems, h.timer, h.out, by simp [Late]⟩
        intro _ _
        have : s.known ≠ [] := fun h => hc (.inr (by simp [h]))
        obtain ⟨u, t, ht⟩ := List.exists_cons_of_ne_nil this
        exact ⟨u, h.known u (by simp [ht])⟩
    | keys here =>
      have ho := h.other (by simp [hs]) (by simp [hs])
      exact ⟨h.known, by rintro l a ha; simp [main] at ha; rw [← ha.2]; exact h.known, by simp [main, Late], fun _ _ => ho, by simp [main],
        by simp [main], by simp [main, Late], h.ways, h.rems, h.timer, h.out, by simp [main, Late]⟩
    | store here asked =>
      have ho := h.other (by simp [hs]) (by simp [hs])
      have hw := hi.ways (by simp [hs])
      exact ⟨h.known, by simp [main], fun _ => h.asked _ _ hs, fun _ _ => ho, by simp [main], by simp [main], fun _ => rfl, h.ways, h.rems,
        h.timer, fun j => .inl (by show (s.ways j).early; rw [hw]; trivial),
        fun _ => .inr (.inr fun j => by show (s.ways j).early; rw [hw]; trivial)⟩
    | publish =>
      have ho := h.other (by simp [hs]) (by simp [hs])
      have hw := hi.ways (by simp [hs])
      have hok : ok = true := by cases ok; exact absurd rfl hm; rfl
      subst hok
      have he : ∀ j, ((main me n o s true .publish).ways j).early := by
        intro j; simp only [main]; split
        · trivial
        · rw [hw]; trivial
      refine ⟨h.known, by simp [main], fun _ => h.missing (by simp [hs, Late]), fun _ _ => ho, ?_, by simp [main],
        fun _ => h.stored (by simp [hs, Late]), ?_, h.rems, h.timer, fun j => .inl (he j), fun _ => .inr (.inr he)⟩
      · intro _ j h1 h2; simp [main, h1, h2]
      · intro j l hj
        have := he j
        rw [hj] at this; exact this
  | way j =>
    simp only [step] at hn ⊢
    by_cases hw : s.ways j = .none
    · rw [hw]; exact h
    have hf : s.main = .finished := Classical.byContradiction fun hc => hw (hi.ways hc j)
    have hlate : Late s.main := by simp [hf, Late]
    have hno := h.notice hlate
    have key : ∀ (s' : St) (w : Way), s'.known = s.known → s'.main = s.main → s'.stored = s.stored → s'.rems = s.rems →
        s'.timer = s.timer → s'.ways = upd s.ways j w → w ≠ .none → (∀ l, w ≠ .erase l) →
        (∀ u, u ∈ s'.missing → u ∈ s.missing) → (w.early ∨ j ∉ s'.missing) →
        (s'.missing ≠ [] ∨ Pending s' ∨ ∀ j, (s'.ways j).early) → Live me n s' := by
      intro s' w e1 e2 e3 e4 e5 e6 e7 e8 e9 e10 e11
      refine ⟨by rw [e1]; exact h.known, by rw [e2]; exact h.asked, by rw [e2]; exact fun hl u hu => h.missing hl u (e9 u hu),
        by rw [e2]; exact h.other, ?_, by rw [e2]; exact h.stays, by rw [e2, e3]; exact h.stored, ?_, by rw [e4]; exact h.rems,
        by rw [e5]; exact h.timer, ?_, fun _ => e11⟩
      · intro hm' j' h1 h2
        rw [e6, upd_apply]
        split
        · exact e7
        · rw [e2] at hm'; exact h.sent hm' j' h1 h2
      · intro j' l
        rw [e6, upd_apply]
        split
        · exact e8 l
        · exact h.ways j' l
      · intro j'
        rw [e6, upd_apply]
        split
        · rename_i hj; subst hj; exact e10
        · exact (h.out j').imp id fun hh hc => hh (e9 j' hc)
    have keep : ∀ (s' : St) (w : Way), s'.ways = upd s.ways j w → s'.rems = s.rems → s'.missing = s.missing → w.early →
        (s.ways j).early → s'.missing ≠ [] ∨ Pending s' ∨ ∀ j, (s'.ways j).early := by
      intro s' w e1 e2 e3 e4 e5
      rcases hno with h1 | (⟨j', l, h1⟩ | h1) | h1
      · exact .inl (by rw [e3]; exact h1)
      · refine .inr (.inl (.inl ⟨j', l, ?_⟩))
        have : j' ≠ j := by
          rintro rfl
          rcases h1 with h1 | h1 <;> rw [h1] at e5 <;> exact e5
        rw [e1, upd_ne _ _ this]; exact h1
      · exact .inr (.inl (.inr (by rw [e2]; exact h1)))
      · refine .inr (.inr fun j' => ?_)
        rw [e1, upd_apply]
        split
        · exact e4
        · exact h1 j'
    cases hj : s.ways j with
    | none => exact absurd hj hw
    | under =>
      exact key _ _ rfl rfl rfl rfl rfl rfl (by simp) (by simp) (fun _ h => h) (.inl trivial)
        (keep _ _ rfl rfl rfl trivial (by rw [hj]; trivial))
    | back l =>
      exact key _ (.load l) rfl rfl rfl rfl rfl rfl (by simp) (by simp) (fun _ h => h) (.inl trivial)
        (keep _ (.load l) rfl rfl rfl trivial (by rw [hj]; trivial))
    | load l =>
      have hst := h.stored hlate
      simp only [way, hst, if_true]
      exact key _ (.push l) rfl rfl hst.symm rfl rfl rfl (by simp) (by simp) (fun _ h => h) (.inl trivial)
        (keep _ (.push l) rfl rfl rfl trivial (by rw [hj]; trivial))
    | push l =>
      exact key _ (.delete l) rfl rfl rfl rfl rfl rfl (by simp) (by simp) (fun _ h => h) (.inl trivial)
        (keep _ (.delete l) rfl rfl rfl trivial (by rw [hj]; trivial))
    | delete l =>
      exact key _ (.check l) rfl rfl rfl rfl rfl rfl (by simp) (by simp)
        (fun u hu => ((LSet.mem_del _ _ _).1 hu).2) (.inr (by simp [way, LSet.mem_del]))
        (.inr (.inl (.inl ⟨j, l, .inl (by simp [way])⟩)))
    | check l =>
      have ho : j ∉ s.missing := by
        rcases h.out j with ho | ho
        · rw [hj] at ho; exact ho.elim
        · exact ho
      simp only [way]
      by_cases h0 : s.missing.length = 0
      · simp only [h0, if_true]
        exact key _ (.resolve l) rfl rfl rfl rfl rfl rfl (by simp) (by simp) (fun _ h => h) (.inr ho)
          (.inr (.inl (.inl ⟨j, l, .inr (by simp)⟩)))
      · simp only [h0, if_false]
        exact key _ (.done l) rfl rfl rfl rfl rfl rfl (by simp) (by simp) (fun _ h => h) (.inr ho)
          (.inl fun hc => h0 (by simp only at hc; simp [hc]))
    | resolve l => rw [hj] at hn; simp [way, resolve] at hn
    | erase l => exact absurd hj (h.ways j l)
    | done l => exact h
  | rem k =>
    simp only [step] at hn ⊢
    split
    · rename_i u pc hk
      rw [hk] at hn
      simp only at hn
      have hr : ∀ pc', pc' ≠ Rem.erase → ∀ v, (v, Rem.erase) ∉ s.rems.set k (u, pc') := by
        intro pc' hp v hv
        rcases mem_of_set hv with hv | hv
        · exact h.rems v hv
        · cases hv; exact hp rfl
      have plain : ∀ (pc' : Rem) (s' : St), pc ≠ .check → pc ≠ .resolve → pc' ≠ .erase →
          (∀ v ∈ s'.known, v ∈ s.known) → s'.main = s.main → s'.stored = s.stored → s'.timer = s.timer → s'.ways = s.ways →
          s'.missing = s.missing → s'.rems = s.rems.set k (u, pc') → Live me n s' := by
        intro pc' s' h1 h2 h3 e1 e2 e3 e4 e5 e6 e7
        refine ⟨fun v hv => h.known v (e1 v hv), by rw [e2]; exact h.asked, by rw [e2, e6]; exact h.missing, by rw [e2]; exact h.other,
          by rw [e2, e5]; exact h.sent, by rw [e2]; exact h.stays, by rw [e2, e3]; exact h.stored, by rw [e5]; exact h.ways,
          by rw [e7]; exact hr pc' h3, by rw [e4]; exact h.timer, by rw [e5, e6]; exact h.out, ?_⟩
        rw [e2]
        intro hlate
        rcases h.notice hlate with hh | hh | hh
        · exact .inl (by rw [e6]; exact hh)
        · exact .inr (.inl (pend k u pc pc' hk h1 h2 s' e5 e7 hh))
        · exact .inr (.inr (by rw [e5]; exact hh))
      cases pc with
      | load => exact plain _ _ (by simp) (by simp) (by split <;> simp) (fun _ h => h) rfl rfl rfl rfl rfl rfl
      | forget => exact plain .done _ (by simp) (by simp) (by simp) (fun v hv => ((LSet.mem_del _ _ _).1 hv).2) rfl rfl rfl rfl rfl rfl
      | done => exact h
      | erase => exact absurd (List.mem_of_getElem? hk) (h.rems u)
      | resolve => simp [rem, resolve] at hn
      | delete =>
        refine ⟨h.known, h.asked, fun hl v hv => h.missing hl v ((LSet.mem_del _ _ _).1 hv).2, h.other, h.sent, h.stays, h.stored, h.ways,
          hr .check (by simp), h.timer, fun j => (h.out j).imp id fun hh hc => hh ((LSet.mem_del _ _ _).1 hc).2,
          fun _ => .inr (.inl (.inr ⟨k, u, .inl (Once.set_self hk)⟩))⟩
      | check =>
        simp only [rem]
        by_cases h0 : s.missing.length = 0
        · simp only [h0, if_true]
          exact ⟨h.known, h.asked, h.missing, h.other, h.sent, h.stays, h.stored, h.ways, hr .resolve (by simp), h.timer, h.out,
            fun _ => .inr (.inl (.inr ⟨k, u, .inr (Once.set_self hk)⟩))⟩
        · simp only [h0, if_false]
          exact ⟨h.known, h.asked, h.missing, h.other, h.sent, h.stays, h.stored, h.ways, hr .forget (by simp), h.timer, h.out,
            fun _ => .inl fun hc => h0 (by simp only at hc; simp [hc])⟩
    · exact h
  | tick =>
    have key : (tick s s.timer).calls = [] → Live me n (tick s s.timer) := by
      intro hc
      cases ht : s.timer with
      | idle => exact ⟨h.known, h.asked, h.missing, h.other, h.sent, h.stays, h.stored, h.ways, h.rems, by simp [tick], h.out, h.notice⟩
      | load => exact ⟨h.known, h.asked, h.missing, h.other, h.sent, h.stays, h.stored, h.ways, h.rems, by simp only [tick]; split <;> simp, h.out, h.notice⟩
      | call => rw [ht] at hc; simp [tick] at hc
      | erase => exact absurd ht h.timer
      | over => exact h
    simp only [step] at hn ⊢
    split at hn <;> first | exact key hn | exact h

theorem live_run (init : Nat → Nsp) (h : List Ev) (hl : ∀ u, Ev.learn u ∈ h → u < n) (hm : Ev.main false ∉ h) :
    (run me n o init h).calls ≠ [] ∨ Live me n (run me n o init h) := by
  induction h using snocRec with
  | nil =>
    right
    exact ⟨by simp [run], by simp [run], by simp [run, Late], by simp [run], by simp [run], by simp [run], by simp [run, Late],
      by simp [run], by simp [run], by simp [run], fun j => .inl (by simp [run, Way.early]), by simp [run, Late]⟩
  | append_singleton h e ih =>
    rw [run_snoc]
    by_cases hc : (step me n o (run me n o init h) e).calls = []
    · rcases ih (fun u hu => hl u (by simp [hu])) (fun hh => hm (by simp [hh])) with ih | ih
      · obtain ⟨l, hl⟩ := calls_mono (me := me) (n := n) (o := o) (run me n o init h) e
        rw [hl] at hc
        exact absurd (List.append_eq_nil_iff.1 hc).1 ih
      · exact .inr (live_step (inv_run init h) ih e hc (fun u hu => hl u (by simp [hu])) (fun hh => hm (by simp [hh])))
    · exact .inl hc

/-- Without the timer there is no error. -/
theorem no_error (init : Nat → Nsp) (h : List Ev) (ht : Ev.tick ∉ h) : none ∉ (run me n o init h).calls := by
  induction h using snocRec with
  | nil => simp [run]
  | append_singleton h e ih =>
    have ih := ih fun hc => ht (by simp [hc])
    rw [run_snoc]
    cases e with
    | change j x => exact ih
    | learn u => simp only [step]; split <;> exact ih
    | forget u => exact ih
    | fetch => simp only [step]; split <;> exact ih
    | main ok =>
      simp only [step]
      cases (run me n o init h).main <;> simp only [main]
      case count => split
                    · simpa using ih
                    · exact ih
      all_goals exact ih
    | way j => simp only [step]; cases (run me n o init h).ways j <;> simp only [way, resolve] <;> simpa using ih
    | rem k =>
      simp only [step]
      split
      · rename_i u pc hk
        cases pc <;> simp only [rem, resolve] <;> simpa using ih
      · exact ih
    | tick => exact absurd (by simp) ht

/-- The timer has not fired. -/
theorem timer_idle (init : Nat → Nsp) (h : List Ev) (ht : Ev.tick ∉ h) :
    (run me n o init h).timer = .idle ∨ (run me n o init h).timer = .over := by
  have hr (t : Tm) (ht : t = .idle ∨ t = .over) : (if t = .idle then Tm.over else t) = .idle ∨ (if t = .idle then Tm.over else t) = .over := by
    rcases ht with rfl | rfl <;> simp
  induction h using snocRec with
  | nil => exact .inl rfl
  | append_singleton h e ih =>
    have ih := ih fun hc => ht (by simp [hc])
    rw [run_snoc]
    cases e with
    | change j x => exact ih
    | learn u => simp only [step]; split <;> exact ih
    | forget u => exact ih
    | fetch => simp only [step]; split <;> exact ih
    | main ok =>
      simp only [step]
      cases (run me n o init h).main <;> simp only [main]
      case count => split <;> exact ih
      all_goals exact ih
    | way j => simp only [step]; cases (run me n o init h).ways j <;> simp only [way, resolve] <;> first | exact ih | exact hr _ ih
    | rem k =>
      simp only [step]
      split
      · rename_i u pc hk
        cases pc <;> simp only [rem, resolve] <;> first | exact ih | exact hr _ ih
      · exact ih
    | tick => exact absurd (by simp) ht

/-- No error will be reported any more. -/
def Settled (s : St) : Prop := none ∉ s.calls ∧ (s.timer = .over ∨ s.main = .returned)

theorem settled_step {s : St} (h : Settled s) (e : Ev) : Settled (step me n o s e) := by
  obtain ⟨h1, h2⟩ := h
  have hr : (if s.timer = .idle then Tm.over else s.timer) = .over ∨ s.main = .returned := by
    rcases h2 with h2 | h2
    · rw [h2]; simp
    · exact .inr h2
  cases e with
  | change j x => exact ⟨h1, h2⟩
  | learn u => simp only [step]; split <;> exact ⟨h1, h2⟩
  | forget u => exact ⟨h1, h2⟩
  | fetch =>
    simp only [step]; split
    · rename_i hm
      refine ⟨h1, ?_⟩
      rcases h2 with h2 | h2
      · exact .inl h2
      · rw [h2] at hm; cases hm
    · exact ⟨h1, h2⟩
  | main ok =>
    simp only [step]
    rcases h2 with h2 | h2
    · cases s.main <;> simp only [main]
      case count => split
                    · exact ⟨by simpa using h1, .inr rfl⟩
                    · exact ⟨h1, .inl h2⟩
      all_goals exact ⟨h1, .inl h2⟩
    · rw [h2]; exact ⟨h1, .inr h2⟩
  | way j =>
    simp only [step]; cases s.ways j <;> simp only [way, resolve] <;> first | exact ⟨h1, h2⟩ | exact ⟨by simpa using h1, hr⟩
  | rem k =>
    simp only [step]
    split
    · rename_i u pc hk
      cases pc <;> simp only [rem, resolve] <;> first | exact ⟨h1, h2⟩ | exact ⟨by simpa using h1, hr⟩
    · exact ⟨h1, h2⟩
  | tick =>
    simp only [step]
    rcases h2 with h2 | h2
    · split <;> first | exact ⟨h1, .inl h2⟩ | (rw [h2]; exact ⟨h1, .inl h2⟩)
    · rw [h2]; exact ⟨h1, .inr h2⟩

theorem settled_call {s : St} (h1 : none ∉ s.calls) (h2 : s.timer = .idle ∨ s.timer = .over) {e : Ev} {l : List Sid}
    (h : (step me n o s e).calls = s.calls ++ [some l]) : Settled (step me n o s e) := by
  have no : ∀ {x : List (Option (List Sid))}, s.calls = s.calls ++ [some l] → False := by
    intro _ h; simpa using congrArg List.length h
  refine ⟨by rw [h]; simpa using h1, ?_⟩
  have hr : (if s.timer = .idle then Tm.over else s.timer) = .over := by rcases h2 with h2 | h2 <;> rw [h2] <;> simp
  cases e with
  | change j x => exact (no (x := []) h).elim
  | learn u => simp only [step] at h; split at h <;> exact (no (x := []) h).elim
  | forget u => exact (no (x := []) h).elim
  | fetch => simp only [step] at h; split at h <;> exact (no (x := []) h).elim
  | main ok =>
    simp only [step] at h ⊢
    cases hm : s.main <;> rw [hm] at h <;> simp only [main] at h ⊢
    case count here =>
      split at h
      · rename_i hc; rw [if_pos hc]; exact .inr rfl
      · exact (no (x := []) h).elim
    all_goals exact (no (x := []) h).elim
  | way j =>
    simp only [step] at h ⊢
    cases hj : s.ways j <;> rw [hj] at h <;> simp only [way, resolve] at h ⊢
    case resolve l' => exact .inl hr
    all_goals exact (no (x := []) h).elim
  | rem k =>
    simp only [step] at h ⊢
    split at h
    · rename_i u pc hk
      cases pc <;> simp only [rem, resolve] at h ⊢
      case resolve => exact .inl hr
      all_goals exact (no (x := []) h).elim
    · exact (no (x := []) h).elim
  | tick =>
    simp only [step] at h
    split at h
    all_goals first
      | exact (no (x := []) h).elim
      | (cases ht : s.timer <;> rw [ht] at h <;> simp only [tick] at h <;>
          first | exact (no (x := []) h).elim | simp at h)

/-! ## The callback is not called again -/

/-- Someone who has called the callback is about to erase the request. -/
def Erasing (s : St) : Prop := (∃ j l, s.ways j = .erase l) ∨ (∃ u, (u, Rem.erase) ∈ s.rems) ∨ s.timer = .erase

structure Fin (s : St) : Prop where
  errs : (s.calls.filter (·.isNone)).length ≤ if s.timer = .erase ∨ s.timer = .over then 1 else 0
  gone : s.calls ≠ [] → s.stored = false ∨ Erasing s
  early : ¬ Late s.main → s.main ≠ .returned → s.calls = []
  timer : ¬ Late s.main → s.timer ≠ .call ∧ s.timer ≠ .erase

theorem fin_resolve {s s' : St} (h : Fin s) (hl : Late s.main) (e1 : s'.calls = s.calls ++ [some s.responses])
    (e2 : s'.timer = if s.timer = .idle then .over else s.timer) (e3 : s'.main = s.main) (he : Erasing s') : Fin s' := by
  refine ⟨?_, fun _ => .inr he, fun hn => absurd (e3 ▸ hl) hn, fun hn => absurd (e3 ▸ hl) hn⟩
  have h1 := h.errs
  rw [e1, e2, List.filter_append, List.length_append]
  have h2 : [some s.responses].filter (·.isNone) = [] := rfl
  rw [h2]
  generalize (s.calls.filter (·.isNone)).length = x at h1 ⊢
  cases ht : s.timer <;> simp_all <;> omega

theorem fin_same {s s' : St} (h : Fin s) (e1 : s'.calls = s.calls) (e2 : s'.timer = s.timer)
    (e3 : s'.main = s.main ∨ (Late s'.main ↔ Late s.main) ∧ s.main ≠ .returned) (he : s.stored = false ∨ Erasing s → s'.stored = false ∨ Erasing s') : Fin s' := by
  refine ⟨by rw [e1, e2]; exact h.errs, fun hc => he (h.gone (e1 ▸ hc)), ?_, ?_⟩
  · intro hn hr; rw [e1]
    rcases e3 with e3 | ⟨e3, e4⟩
    · rw [e3] at hn hr; exact h.early hn hr
    · rw [e3] at hn; exact h.early hn e4
  · rw [e2]; intro hn
    rcases e3 with e3 | ⟨e3, e4⟩
    · rw [e3] at hn; exact h.timer hn
    · rw [e3] at hn; exact h.timer hn

theorem fin_step {s : St} (hi : Inv me n s) (h : Fin s) (e : Ev) : Fin (step me n o s e) := by
  cases e with
  | change j x => exact fin_same h rfl rfl (.inl rfl) id
  | learn u => 
    simp only [step]; split
    · exact h
    · exact fin_same h rfl rfl (.inl rfl) id
  | forget u =>
    refine fin_same h rfl rfl (.inl rfl) ?_
    rintro (h1 | h1 | ⟨u', h1⟩ | h1)
    · exact .inl h1
    · exact .inr (.inl h1)
    · exact .inr (.inr (.inl ⟨u', by simp only [step]; simp [h1]⟩))
    · exact .inr (.inr (.inr h1))
  | fetch =>
    simp only [step]; split
    · rename_i hm
      exact fin_same h rfl rfl (.inr ⟨by simp [Late, hm], by simp [hm]⟩) id
    · exact h
  | main ok =>
    simp only [step]
    cases hm : s.main with
    | idle => exact h
    | finished => exact h
    | returned => exact h
    | keys here => exact fin_same h rfl rfl (.inr ⟨by simp [main, Late, hm], by simp [hm]⟩) id
    | count here =>
      simp only [main]; split
      · have h0 := h.early (by simp [hm, Late]) (by simp [hm])
        refine ⟨?_, fun _ => .inl (hi.stored (by simp [hm, Late])), by simp, fun _ => h.timer (by simp [hm, Late])⟩
        simp [h0]
      · exact fin_same h rfl rfl (.inr ⟨by simp [Late, hm], by simp [hm]⟩) id
    | store here asked =>
      have h0 := h.early (by simp [hm, Late]) (by simp [hm])
      exact ⟨h.errs, fun hc => absurd h0 hc, by simp [main, Late], by simp [main, Late]⟩
    | publish =>
      refine fin_same h rfl rfl (.inr ⟨by simp [main, Late, hm], by simp [hm]⟩) ?_
      rintro (h1 | ⟨j, l, h1⟩ | h1 | h1)
      · exact .inl h1
      · rw [hi.ways (by simp [hm]) j] at h1; cases h1
      · exact .inr (.inr (.inl h1))
      · exact .inr (.inr (.inr h1))
  | way j =>
    simp only [step]
    by_cases hw : s.ways j = .none
    · rw [hw]; exact h
    have hf : s.main = .finished := Classical.byContradiction fun hc => hw (hi.ways hc j)
    have keep : ∀ (s' : St) (w : Way), s'.calls = s.calls → s'.timer = s.timer → s'.main = s.main → s'.rems = s.rems → s'.stored = s.stored →
        s'.ways = upd s.ways j w → (∀ l, s.ways j ≠ .erase l) → Fin s' := by
      intro s' w e1 e2 e3 e4 e5 e6 hne
      refine fin_same h e1 e2 (.inl e3) ?_
      rintro (h1 | ⟨i, l, h1⟩ | h1 | h1)
      · exact .inl (e5 ▸ h1)
      · refine .inr (.inl ⟨i, l, ?_⟩)
        rw [e6, upd_ne _ _ (by rintro rfl; exact hne l h1)]; exact h1
      · exact .inr (.inr (.inl (e4 ▸ h1)))
      · exact .inr (.inr (.inr (e2 ▸ h1)))
    cases hj : s.ways j with
    | none => exact absurd hj hw
    | resolve l =>
      refine fin_resolve h (by simp [hf, Late]) rfl rfl rfl (.inl ⟨j, l, ?_⟩)
      simp [way, upd_apply]
    | erase l => exact fin_same h rfl rfl (.inl rfl) fun _ => .inl rfl
    | done l => exact h
    | under => exact keep _ _ rfl rfl rfl rfl rfl rfl (by simp [hj])
    | back l => exact keep _ _ rfl rfl rfl rfl rfl rfl (by simp [hj])
    | load l => exact keep _ _ rfl rfl rfl rfl rfl rfl (by simp [hj])
    | push l => exact keep _ _ rfl rfl rfl rfl rfl rfl (by simp [hj])
    | delete l => exact keep _ _ rfl rfl rfl rfl rfl rfl (by simp [hj])
    | check l => exact keep _ _ rfl rfl rfl rfl rfl rfl (by simp [hj])
  | rem k =>
    simp only [step]
    split
    · rename_i u pc hk
      have hmem := List.mem_of_getElem? hk
      have late : pc ≠ .load → pc ≠ .forget → pc ≠ .done → Late s.main := by
        intro a b c
        exact Classical.byContradiction fun hn => by rcases hi.rems hn u pc hmem with h | h | h <;> contradiction
      have keep : ∀ (s' : St) (p : Rem), s'.calls = s.calls → s'.timer = s.timer → s'.main = s.main → s'.ways = s.ways → s'.stored = s.stored →
          s'.rems = s.rems.set k (u, p) → pc ≠ .erase → Fin s' := by
        intro s' p e1 e2 e3 e4 e5 e6 hne
        refine fin_same h e1 e2 (.inl e3) ?_
        rintro (h1 | ⟨i, l, h1⟩ | ⟨v, h1⟩ | h1)
        · exact .inl (e5 ▸ h1)
        · exact .inr (.inl ⟨i, l, e4 ▸ h1⟩)
        · refine .inr (.inr (.inl ⟨v, ?_⟩))
          obtain ⟨i, hi'⟩ := List.getElem?_of_mem h1
          rw [e6]
          refine List.mem_of_getElem? (Once.set_other hi' ?_)
          rintro rfl
          rw [hk] at hi'; cases hi'; exact hne rfl
        · exact .inr (.inr (.inr (e2 ▸ h1)))
      cases pc with
      | resolve =>
        refine fin_resolve h (late (by simp) (by simp) (by simp)) rfl rfl rfl (.inr (.inl ⟨u, ?_⟩))
        exact List.mem_of_getElem? (Once.set_self hk)
      | erase => exact fin_same h rfl rfl (.inl rfl) fun _ => .inl rfl
      | done => exact h
      | load => exact keep _ _ rfl rfl rfl rfl rfl rfl (by simp)
      | delete => exact keep _ _ rfl rfl rfl rfl rfl rfl (by simp)
      | check => exact keep _ _ rfl rfl rfl rfl rfl rfl (by simp)
      | forget => exact keep _ _ rfl rfl rfl rfl rfl rfl (by simp)
    · exact h
  | tick =>
    have key : Fin (tick s s.timer) := by
      have h1 := h.errs
      cases ht : s.timer <;> simp only [tick]
      · refine ⟨by simpa [ht] using h1, fun hc => ?_, h.early, fun _ => by simp⟩
        rcases h.gone hc with h2 | h2 | h2 | h2
        · exact .inl h2
        · exact .inr (.inl h2)
        · exact .inr (.inr (.inl h2))
        · rw [ht] at h2; cases h2
      · refine ⟨?_, fun hc => ?_, h.early, fun hn => ?_⟩
        · rw [ht] at h1; simp at h1 ⊢
          have : List.filter (fun x : Option (List Sid) => x.isNone) s.calls = [] := by simpa using h1
          simp [this]
        · rcases h.gone hc with h2 | h2 | h2 | h2
          · exact .inl h2
          · exact .inr (.inl h2)
          · exact .inr (.inr (.inl h2))
          · rw [ht] at h2; cases h2
        · rw [hi.stored hn]; simp
      · have hl : Late s.main := Classical.byContradiction fun hn => (h.timer hn).1 ht
        refine ⟨?_, fun _ => .inr (.inr (.inr rfl)), fun hn => absurd hl hn, fun hn => absurd hl hn⟩
        rw [ht] at h1; simp at h1
        have : List.filter (fun x : Option (List Sid) => x.isNone) s.calls = [] := by simpa using h1
        simp [this]
      · exact ⟨by simpa [ht] using h1, fun _ => .inl rfl, h.early, fun _ => by simp⟩
      · exact h
    simp only [step]
    split <;> first | exact key | exact h

theorem fin_run (init : Nat → Nsp) (h : List Ev) : Fin (run me n o init h) := by
  induction h using snocRec with
  | nil => exact ⟨by simp [run], by simp [run], by simp [run], by simp [run]⟩
  | append_singleton h e ih => rw [run_snoc]; exact fin_step (inv_run init h) ih e

/-- The request is gone and nobody is working on it. -/
structure Still (s : St) : Prop where
  main : s.main = .finished ∨ s.main = .returned
  stored : s.stored = false
  ways : ∀ j, s.ways j = .none ∨ s.ways j = .under ∨ (∃ l, s.ways j = .back l) ∨ (∃ l, s.ways j = .load l) ∨ ∃ l, s.ways j = .done l
  rems : ∀ u pc, (u, pc) ∈ s.rems → pc = .load ∨ pc = .forget ∨ pc = .done
  timer : s.timer = .idle ∨ s.timer = .load ∨ s.timer = .over

theorem still_step {s : St} (h : Still s) (e : Ev) : Still (step me n o s e) ∧ (step me n o s e).calls = s.calls := by
  cases e with
  | change j x => exact ⟨⟨h.main, h.stored, h.ways, h.rems, h.timer⟩, rfl⟩
  | learn u =>
    simp only [step]; split
    · exact ⟨h, rfl⟩
    · exact ⟨⟨h.main, h.stored, h.ways, h.rems, h.timer⟩, rfl⟩
  | forget u =>
    refine ⟨⟨h.main, h.stored, h.ways, ?_, h.timer⟩, rfl⟩
    intro v pc hm
    simp only [step, List.mem_append, List.mem_singleton] at hm
    rcases hm with hm | hm
    · exact h.rems v pc hm
    · cases hm; simp
  | fetch => simp only [step]; rw [if_neg (by rcases h.main with h | h <;> simp [h])]; exact ⟨h, rfl⟩
  | main ok => simp only [step]; rcases h.main with hm | hm <;> rw [hm] <;> exact ⟨h, rfl⟩
  | way j =>
    have keep : ∀ w : Way, (w = .none ∨ w = .under ∨ (∃ l, w = .back l) ∨ (∃ l, w = .load l) ∨ ∃ l, w = .done l) →
        Still { s with ways := upd s.ways j w } := by
      intro w hw
      refine ⟨h.main, h.stored, ?_, h.rems, h.timer⟩
      intro i; simp only [upd_apply]; split
      · exact hw
      · exact h.ways i
    simp only [step]
    rcases h.ways j with hw | hw | ⟨l, hw⟩ | ⟨l, hw⟩ | ⟨l, hw⟩ <;> rw [hw]
    · exact ⟨h, rfl⟩
    · exact ⟨keep _ (by simp), rfl⟩
    · exact ⟨keep _ (by simp), rfl⟩
    · simp only [way, h.stored]; exact ⟨by simpa [h.stored] using keep (.done l) (by simp), trivial⟩
    · exact ⟨h, rfl⟩
  | rem k =>
    simp only [step]
    split
    · rename_i u pc hk
      have keep : ∀ (s' : St) (p : Rem), s'.calls = s.calls → s'.timer = s.timer → s'.main = s.main → s'.ways = s.ways → s'.stored = s.stored →
          s'.rems = s.rems.set k (u, p) → (p = .load ∨ p = .forget ∨ p = .done) → Still s' ∧ s'.calls = s.calls := by
        intro s' p e1 e2 e3 e4 e5 e6 hp
        refine ⟨⟨e3 ▸ h.main, e5 ▸ h.stored, e4 ▸ h.ways, ?_, e2 ▸ h.timer⟩, e1⟩
        intro v q hm
        rw [e6] at hm
        rcases mem_of_set hm with hm | hm
        · exact h.rems v q hm
        · cases hm; exact hp
      rcases h.rems u pc (List.mem_of_getElem? hk) with rfl | rfl | rfl
      · exact keep _ _ rfl rfl rfl rfl rfl rfl (by simp [h.stored])
      · exact keep _ _ rfl rfl rfl rfl rfl rfl (by simp)
      · exact ⟨h, rfl⟩
    · exact ⟨h, rfl⟩
  | tick =>
    have key : Still (tick s s.timer) ∧ (tick s s.timer).calls = s.calls := by
      rcases h.timer with ht | ht | ht <;> rw [ht] <;> simp only [tick]
      · exact ⟨⟨h.main, h.stored, h.ways, h.rems, .inr (.inl rfl)⟩, trivial⟩
      · exact ⟨⟨h.main, h.stored, h.ways, h.rems, by simp [h.stored]⟩, trivial⟩
      · exact ⟨h, trivial⟩
    simp only [step]
    split <;> first | exact key | exact ⟨h, rfl⟩

theorem still_run (init : Nat → Nsp) (h t : List Ev) (hs : Still (run me n o init h)) :
    Still (run me n o init (h ++ t)) ∧ (run me n o init (h ++ t)).calls = (run me n o init h).calls := by
  induction t using snocRec with
  | nil => simpa using hs
  | append_singleton t e ih =>
    rw [← List.append_assoc, run_snoc]
    have := still_step (me := me) (n := n) (o := o) ih.1 e
    exact ⟨this.1, this.2.trans ih.2⟩

end Verif.Fetch
