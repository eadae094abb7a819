import Verif.Proof.Acks
import Verif.Proof.AcksInTime
import Verif.Spec.AcksLive

/-! # Whose answers a callback is called with, and that it is called -/

namespace Verif.Acks
open Verif Verif.Spec

theorem crun_snoc (h : List Ev) (e : Ev) : crun (h ++ [e]) = cstep (crun h) e := by simp [crun]

theorem mem_of_mem_set {α} {l : List α} {k : Nat} {x y : α} (h : y ∈ l.set k x) : y ∈ l ∨ y = x := by
  rcases List.mem_or_eq_of_mem_set h with h | h
  · exact .inl h
  · exact .inr h

/-! ## Only its own answers -/

/-- What a goroutine knows of the callback. -/
def GOk (cb id : Nat) (timed : Bool) (h : List Ev) : Thread → Prop
  | .emitter i c tm _ => c = cb → i = id ∧ tm = timed
  | .handler i a _ e => .recv i a ∈ h ∧ ∀ e', e = some e' → e'.cb = cb → i = id
  | .timer _ c _ => c = cb → timed = true ∧ .fire id ∈ h

structure Gen (cb id : Nat) (timed : Bool) (h : List Ev) (s : CSt) : Prop where
  acks : ∀ i e, s.acks.get? i = some e → e.cb = cb → i = id
  tims : ∀ i, s.timers.get? i = some cb → i = id ∧ timed = true
  threads : ∀ t ∈ s.threads, GOk cb id timed h t
  ok : ∀ args, (cb, .ok args) ∈ s.log → .recv id args ∈ h
  out : (cb, .timeout) ∈ s.log → timed = true ∧ .fire id ∈ h

theorem gok_mono {cb id : Nat} {timed : Bool} {h : List Ev} {t : Thread} (e : Ev) (g : GOk cb id timed h t) : GOk cb id timed (h ++ [e]) t := by
  cases t with
  | emitter i c tm pc => exact g
  | handler i a pc o => exact ⟨List.mem_append_left _ g.1, g.2⟩
  | timer i c pc => exact fun hc => ⟨(g hc).1, List.mem_append_left _ (g hc).2⟩

theorem gen_mono {cb id : Nat} {timed : Bool} {h : List Ev} {s : CSt} (g : Gen cb id timed h s) (e : Ev) : Gen cb id timed (h ++ [e]) s :=
  ⟨g.acks, g.tims, fun t ht => gok_mono e (g.threads t ht), fun a ha => List.mem_append_left _ (g.ok a ha),
    fun ho => ⟨(g.out ho).1, List.mem_append_left _ (g.out ho).2⟩⟩

theorem gen_put {cb id : Nat} {timed : Bool} {h : List Ev} {s : CSt} (g : Gen cb id timed h s) {l : List Thread}
    (hl : ∀ t ∈ l, t ∈ s.threads ∨ GOk cb id timed h t) : Gen cb id timed h { s with threads := l } :=
  ⟨g.acks, g.tims, fun t ht => (hl t ht).elim (g.threads t) (fun x => x), g.ok, g.out⟩

/-- One step of a goroutine. -/
theorem gen_adv {cb id : Nat} {timed : Bool} {h : List Ev} {s : CSt} (g : Gen cb id timed h s) {t : Thread} (ht : GOk cb id timed h t) :
    Gen cb id timed h (advThread s t).1 ∧ GOk cb id timed h (advThread s t).2 := by
  have era : ∀ i, Gen cb id timed h { s with acks := s.acks.erase i } := fun i =>
    ⟨fun j e hj => by rw [FMap.get?_erase] at hj; split at hj
                      · cases hj
                      · exact g.acks j e hj, g.tims, g.threads, g.ok, g.out⟩
  have ert : ∀ i, Gen cb id timed h { s with timers := s.timers.erase i } := fun i =>
    ⟨g.acks, fun j hj => by rw [FMap.get?_erase] at hj; split at hj
                            · cases hj
                            · exact g.tims j hj, g.threads, g.ok, g.out⟩
  cases t with
  | emitter i c tm pc =>
    rcases pc with _ | _ | pc
    · refine ⟨?_, ht⟩
      cases tm with
      | false => exact g
      | true =>
        refine ⟨g.acks, fun j hj => ?_, g.threads, g.ok, g.out⟩
        simp only [advThread, if_true, FMap.get?_insert] at hj
        split at hj
        · rename_i e; subst e; cases hj; exact ⟨(ht rfl).1, (ht rfl).2.symm⟩
        · exact g.tims j hj
    · refine ⟨⟨fun j e hj hc => ?_, g.tims, g.threads, g.ok, g.out⟩, ht⟩
      simp only [advThread, FMap.get?_insert] at hj
      split at hj
      · rename_i e; subst e; cases hj; exact (ht hc).1
      · exact g.acks j e hj hc
    · exact ⟨g, ht⟩
  | handler i a pc o =>
    rcases pc with _ | _ | _ | _ | pc
    · cases hg : s.acks.get? i with
      | none => cases o <;> (simp only [advThread, hg]; exact ⟨g, ht.1, fun _ h => by cases h⟩)
      | some e => cases o <;> (simp only [advThread, hg]; exact ⟨g, ht.1, fun _ h hc => by cases h; exact g.acks i _ hg hc⟩)
    · cases o with
      | none => exact ⟨g, ht⟩
      | some e =>
        simp only [advThread]
        refine ⟨?_, ht⟩
        cases e.timer with
        | none => exact g
        | some t => exact ert t
    · cases o with
      | none => exact ⟨g, ht⟩
      | some e =>
        refine ⟨⟨g.acks, g.tims, g.threads, fun args ha => ?_, fun ho => ?_⟩, ht⟩
        · simp only [advThread, List.mem_append, List.mem_singleton, Prod.mk.injEq, Res.ok.injEq] at ha
          rcases ha with ha | ⟨h1, h2⟩
          · exact g.ok args ha
          · have := ht.2 e rfl h1.symm; subst this; rw [h2]; exact ht.1
        · simp only [advThread, List.mem_append, List.mem_singleton, Prod.mk.injEq] at ho
          rcases ho with ho | ⟨_, h2⟩
          · exact g.out ho
          · cases h2
    · cases o <;> exact ⟨era i, ht⟩
    · cases o <;> exact ⟨g, ht⟩
  | timer i c pc =>
    rcases pc with _ | _ | pc
    · exact ⟨era i, ht⟩
    · refine ⟨⟨g.acks, g.tims, g.threads, fun args ha => ?_, fun ho => ?_⟩, ht⟩
      · simp only [advThread, List.mem_append, List.mem_singleton, Prod.mk.injEq] at ha
        rcases ha with ha | ⟨_, h2⟩
        · exact g.ok args ha
        · cases h2
      · simp only [advThread, List.mem_append, List.mem_singleton, Prod.mk.injEq] at ho
        rcases ho with ho | ⟨h1, _⟩
        · exact g.out ho
        · exact ht h1.symm
    · exact ⟨g, ht⟩

theorem advThread_threads (s : CSt) (t : Thread) : (advThread s t).1.threads = s.threads := by
  cases t with
  | emitter i c tm pc => rcases pc with _ | _ | pc <;> simp only [advThread] <;> (try split) <;> rfl
  | handler i a pc o =>
    rcases pc with _ | _ | _ | _ | pc
    · simp only [advThread]; split <;> rfl
    · cases o with
      | none => rfl
      | some e => simp only [advThread]; cases e.timer <;> rfl
    · cases o <;> rfl
    · cases o <;> rfl
    · cases o <;> rfl
  | timer i c pc => rcases pc with _ | _ | pc <;> rfl

theorem gen_step {cb id : Nat} {timed : Bool} {h : List Ev} {s : CSt} (g : Gen cb id timed h s) (e : Ev)
    (he : ∀ tm, e = .emit cb tm → s.ids + 1 = id ∧ tm = timed) : Gen cb id timed (h ++ [e]) (cstep s e) := by
  have g' := gen_mono g e
  cases e with
  | emit c tm =>
    refine ⟨g'.acks, g'.tims, fun t ht => ?_, g'.ok, g'.out⟩
    simp only [cstep, List.mem_append, List.mem_singleton] at ht
    rcases ht with ht | rfl
    · exact g'.threads t ht
    · intro hc; exact he tm (by rw [hc])
  | recv i a =>
    refine gen_put g' fun t ht => ?_
    rw [List.mem_append, List.mem_singleton] at ht
    rcases ht with ht | rfl
    · exact .inl ht
    · exact .inr ⟨by simp, fun _ h => by cases h⟩
  | fire i =>
    simp only [cstep]
    cases hg : s.timers.get? i with
    | none => exact g'
    | some c =>
      refine ⟨g'.acks, fun j hj => ?_, fun t ht => ?_, g'.ok, g'.out⟩
      · rw [FMap.get?_erase] at hj
        split at hj
        · cases hj
        · exact g.tims j hj
      · simp only [List.mem_append, List.mem_singleton] at ht
        rcases ht with ht | rfl
        · exact g'.threads t ht
        · intro hc
          subst hc
          have := g.tims i hg
          exact ⟨this.2, by simp [this.1]⟩
  | adv k =>
    simp only [cstep]
    cases hk : s.threads[k]? with
    | none => exact g'
    | some t =>
      have hm : t ∈ s.threads := List.mem_of_getElem? hk
      obtain ⟨a1, a2⟩ := gen_adv g' (g'.threads t hm)
      refine gen_put a1 fun u hu => ?_
      rcases mem_of_mem_set hu with hu | rfl
      · rw [advThread_threads]; exact .inl hu
      · exact .inr a2

theorem gen_run {cb : Nat} {timed : Bool} (pre : List Ev) (hp : ∀ e ∈ pre, passes cb e = false) (post : List Ev)
    (hq : ∀ e ∈ post, passes cb e = false) : Gen cb (emitId pre) timed (pre ++ .emit cb timed :: post) (crun (pre ++ .emit cb timed :: post)) := by
  have hn : ∀ e, passes cb e = false → ∀ tm, e ≠ .emit cb tm := fun e he tm h => by rw [h] at he; simp [passes] at he
  have base : ∀ h : List Ev, (∀ e ∈ h, passes cb e = false) → Gen cb (emitId pre) timed h (crun h) := by
    intro h hh
    induction h using snocRec with
    | nil => constructor <;> simp [crun]
    | append_singleton h e ih =>
      rw [crun_snoc]
      exact gen_step (ih fun e' he' => hh e' (by simp [he'])) e (fun tm h => absurd h (hn e (hh e (by simp)) tm))
  have ids : (crun pre).ids + 1 = emitId pre := by rw [crun, cids]; simp [emitId]
  induction post using snocRec with
  | nil =>
    have := gen_step (base pre hp) (.emit cb timed) (fun tm h => ⟨ids, by cases h; rfl⟩)
    rw [← crun_snoc] at this
    exact this
  | append_singleton post e ih =>
    have e1 : pre ++ .emit cb timed :: (post ++ [e]) = (pre ++ .emit cb timed :: post) ++ [e] := by simp
    rw [e1, crun_snoc]
    exact gen_step (ih fun e' he' => hq e' (by simp [he'])) e (fun tm h => absurd h (hn e (hq e (by simp)) tm))

/-! ## An answer is not lost -/

/-- Has the callback been called? -/
def Called (cb : Nat) (s : CSt) : Prop := callsOf cb s.log ≠ []

/-- What a goroutine that deals with this id does with the callback. -/
def LOk (cb id n : Nat) (called : Prop) : Thread → Prop
  | .emitter i c _ _ => i ≤ n ∧ (i = id → c = cb)
  | .handler i _ pc e => (∀ e', e = some e' → (∀ t, e'.timer = some t → t = i) ∧ (i = id → e'.cb = cb)) ∧
      (e = none → pc = 0 ∨ pc = 4) ∧ (i = id → 3 ≤ pc → e ≠ none → called)
  | .timer i c pc => i = id → c = cb ∧ (2 ≤ pc → called)

/-- The timer of the emission has run out. -/
def Ran (id : Nat) (s : CSt) : Prop := ∃ c pc, 1 ≤ pc ∧ Thread.timer id c pc ∈ s.threads

/-- The callback of the emission is stored, or somebody has taken it; likewise its timer. -/
structure Live (cb id : Nat) (s : CSt) : Prop where
  acks : ∀ i e, s.acks.get? i = some e → (∀ t, e.timer = some t → t = i) ∧ (i = id → e.cb = cb)
  tims : ∀ c, s.timers.get? id = some c → c = cb
  threads : ∀ t ∈ s.threads, LOk cb id s.ids (Called cb s) t
  kept : (∃ c tm pc, 2 ≤ pc ∧ Thread.emitter id c tm pc ∈ s.threads) → s.acks.get? id ≠ none ∨ Called cb s ∨ Ran id s
  timed : (∃ c pc, 1 ≤ pc ∧ Thread.emitter id c true pc ∈ s.threads) → s.timers.get? id ≠ none ∨ (∃ c pc, Thread.timer id c pc ∈ s.threads) ∨
    ∃ a pc e, 2 ≤ pc ∧ Thread.handler id a pc (some e) ∈ s.threads

theorem called_mono {cb : Nat} {s s' : CSt} (h : ∃ l, s'.log = s.log ++ l) : Called cb s → Called cb s' := by
  obtain ⟨l, h⟩ := h
  unfold Called
  rw [h, callsOf_append]
  intro hc h0
  exact hc (List.append_eq_nil_iff.1 h0).1

theorem adv_log (s : CSt) (t : Thread) : (∃ l, (advThread s t).1.log = s.log ++ l) ∧ (advThread s t).1.ids = s.ids := by
  cases t with
  | emitter i c tm pc => rcases pc with _ | _ | pc <;> simp only [advThread] <;> (try split) <;> exact ⟨⟨[], by simp⟩, by simp⟩
  | handler i a pc o =>
    rcases pc with _ | _ | _ | _ | pc
    · simp only [advThread]; split <;> exact ⟨⟨[], by simp⟩, rfl⟩
    · cases o with
      | none => exact ⟨⟨[], by simp [advThread]⟩, rfl⟩
      | some e => simp only [advThread]; cases e.timer <;> exact ⟨⟨[], by simp⟩, rfl⟩
    · cases o with
      | none => exact ⟨⟨[], by simp [advThread]⟩, rfl⟩
      | some e => exact ⟨⟨_, rfl⟩, rfl⟩
    · cases o <;> exact ⟨⟨[], by simp [advThread]⟩, rfl⟩
    · cases o <;> exact ⟨⟨[], by simp [advThread]⟩, rfl⟩
  | timer i c pc =>
    rcases pc with _ | _ | pc
    · exact ⟨⟨[], by simp [advThread]⟩, rfl⟩
    · exact ⟨⟨_, rfl⟩, rfl⟩
    · exact ⟨⟨[], by simp [advThread]⟩, rfl⟩

theorem lok_mono {cb id n n' : Nat} {c c' : Prop} (hn : n ≤ n') (hc : c → c') {t : Thread} (h : LOk cb id n c t) : LOk cb id n' c' t := by
  cases t with
  | emitter i x tm pc => exact ⟨Nat.le_trans h.1 hn, h.2⟩
  | handler i a pc o => exact ⟨h.1, h.2.1, fun h1 h2 h3 => hc (h.2.2 h1 h2 h3)⟩
  | timer i x pc => exact fun hi => ⟨(h hi).1, fun h2 => hc ((h hi).2 h2)⟩

/-- What one step of a goroutine does to the tables. -/
theorem adv_tables {cb id : Nat} {s : CSt} (l : Live cb id s) {t : Thread} (ht : LOk cb id s.ids (Called cb s) t) :
    (∀ i e, (advThread s t).1.acks.get? i = some e → (∀ t, e.timer = some t → t = i) ∧ (i = id → e.cb = cb)) ∧
    (∀ c, (advThread s t).1.timers.get? id = some c → c = cb) ∧
    LOk cb id s.ids (Called cb (advThread s t).1) (advThread s t).2 ∧
    (s.acks.get? id ≠ none → (advThread s t).1.acks.get? id ≠ none ∨ Called cb (advThread s t).1 ∨ ∃ c, (advThread s t).2 = .timer id c 1) ∧
    (s.timers.get? id ≠ none → (advThread s t).1.timers.get? id ≠ none ∨ ∃ a e, (advThread s t).2 = .handler id a 2 (some e)) := by
  have era : ∀ i j e, (s.acks.erase i).get? j = some e → s.acks.get? j = some e := by
    intro i j e h; rw [FMap.get?_erase] at h; split at h
    · cases h
    · exact h
  have ert : ∀ i j c, (s.timers.erase i).get? j = some c → s.timers.get? j = some c := by
    intro i j e h; rw [FMap.get?_erase] at h; split at h
    · cases h
    · exact h
  have logged : ∀ c r, c = cb → Called cb { s with log := s.log ++ [(c, r)] } := by
    intro c r hc
    unfold Called
    rw [callsOf_append]
    intro h
    have := (List.append_eq_nil_iff.1 h).2
    simp [callsOf, hc] at this
  cases t with
  | emitter i c tm pc =>
    rcases pc with _ | _ | pc
    · cases tm with
      | false => exact ⟨l.acks, l.tims, ht, fun h => .inl h, fun h => .inl h⟩
      | true =>
        refine ⟨l.acks, fun x hx => ?_, ht, fun h => .inl h, fun h => .inl ?_⟩
        · simp only [advThread, if_true, FMap.get?_insert] at hx
          split at hx
          · rename_i e; cases hx; exact ht.2 e
          · exact l.tims x hx
        · simp only [advThread, if_true, FMap.get?_insert]
          split
          · simp
          · exact h
    · refine ⟨fun j e hj => ?_, l.tims, ht, fun h => .inl ?_, fun h => .inl h⟩
      · simp only [advThread, FMap.get?_insert] at hj
        split at hj
        · rename_i e'; subst e'; cases hj
          refine ⟨fun t h => ?_, ht.2⟩
          dsimp only at h
          split at h
          · exact (Option.some.inj h).symm
          · cases h
        · exact l.acks j e hj
      · simp only [advThread, FMap.get?_insert]
        split
        · simp
        · exact h
    · exact ⟨l.acks, l.tims, ht, fun h => .inl h, fun h => .inl h⟩
  | handler i a pc o =>
    rcases pc with _ | _ | _ | _ | pc
    · cases hg : s.acks.get? i with
      | none =>
        have : advThread s (.handler i a 0 o) = (s, .handler i a 4 none) := by cases o <;> simp only [advThread, hg]
        rw [this]
        exact ⟨l.acks, l.tims, ⟨fun _ h => (by cases h), fun _ => .inr rfl, fun _ _ h => absurd rfl h⟩, fun h => .inl h, fun h => .inl h⟩
      | some e =>
        have : advThread s (.handler i a 0 o) = (s, .handler i a 1 (some e)) := by cases o <;> simp only [advThread, hg]
        rw [this]
        exact ⟨l.acks, l.tims, ⟨fun _ h => by cases h; exact l.acks i _ hg, fun h => (by cases h), fun _ h => by omega⟩, fun h => .inl h,
          fun h => .inl h⟩
    · cases o with
      | none => exact ⟨l.acks, l.tims, ht, fun h => .inl h, fun h => .inl h⟩
      | some e =>
        have hk : LOk cb id s.ids (Called cb s) (.handler i a 2 (some e)) := ⟨ht.1, fun h => (by cases h), fun _ h => by omega⟩
        cases hT : e.timer with
        | none =>
          have : advThread s (.handler i a (0 + 1) (some e)) = (s, .handler i a 2 (some e)) := by simp only [advThread, hT]
          rw [this]
          exact ⟨l.acks, l.tims, hk, fun h => .inl h, fun h => .inl h⟩
        | some u =>
          have : advThread s (.handler i a (0 + 1) (some e)) = ({ s with timers := s.timers.erase u }, .handler i a 2 (some e)) := by
            simp only [advThread, hT]
          rw [this]
          refine ⟨l.acks, fun c hc => l.tims c (ert _ _ _ hc), hk, fun h => .inl h, fun h => ?_⟩
          have hu := (ht.1 e rfl).1 u hT
          by_cases hi : i = id
          · exact .inr ⟨a, e, by rw [hi]⟩
          · refine .inl ?_
            dsimp only
            rw [FMap.get?_erase, if_neg (by rw [hu]; exact hi)]
            exact h
    · cases o with
      | none => exact ⟨l.acks, l.tims, ht, fun h => .inl h, fun h => .inl h⟩
      | some e =>
        exact ⟨l.acks, l.tims, ⟨ht.1, fun h => (by cases h), fun hi _ _ => logged _ _ ((ht.1 e rfl).2 hi)⟩, fun h => .inl h, fun h => .inl h⟩
    · have : advThread s (.handler i a (0 + 1 + 1 + 1) o) = ({ s with acks := s.acks.erase i }, .handler i a 4 o) := by cases o <;> rfl
      rw [this]
      have ho : o ≠ none := fun h => by rcases ht.2.1 h with h | h <;> omega
      refine ⟨fun j e hj => l.acks j e (era _ _ _ hj), l.tims, ⟨ht.1, fun h => absurd h ho, fun hi _ h => ht.2.2 hi (by omega) h⟩, fun h => ?_,
        fun h => .inl h⟩
      by_cases hi : i = id
      · exact .inr (.inl (ht.2.2 hi (by omega) ho))
      · refine .inl ?_
        dsimp only
        rw [FMap.get?_erase, if_neg hi]
        exact h
    · have : advThread s (.handler i a (pc + 1 + 1 + 1 + 1) o) = (s, .handler i a (pc + 1 + 1 + 1 + 1) o) := by cases o <;> rfl
      rw [this]
      exact ⟨l.acks, l.tims, ht, fun h => .inl h, fun h => .inl h⟩
  | timer i c pc =>
    rcases pc with _ | _ | pc
    · refine ⟨fun j e hj => l.acks j e (era _ _ _ hj), l.tims, fun hi => ⟨(ht hi).1, fun h => by omega⟩, fun h => ?_, fun h => .inl h⟩
      by_cases hi : i = id
      · exact .inr (.inr ⟨c, by rw [hi]; rfl⟩)
      · refine .inl ?_
        simp only [advThread]
        rw [FMap.get?_erase, if_neg hi]
        exact h
    · exact ⟨l.acks, l.tims, fun hi => ⟨(ht hi).1, fun _ => logged _ _ (ht hi).1⟩, fun h => .inl h, fun h => .inl h⟩
    · exact ⟨l.acks, l.tims, ht, fun h => .inl h, fun h => .inl h⟩

theorem adv_emitter (s : CSt) (i c : Nat) (tm : Bool) (pc : Nat) :
    ∃ pc', (advThread s (.emitter i c tm pc)).2 = .emitter i c tm pc' ∧ (2 ≤ pc → pc' = pc) ∧ pc ≤ pc' ∧
      (2 ≤ pc' → 2 ≤ pc ∨ (advThread s (.emitter i c tm pc)).1.acks.get? i ≠ none) ∧
      (1 ≤ pc' → tm = true → 1 ≤ pc ∨ (advThread s (.emitter i c tm pc)).1.timers.get? i ≠ none) := by
  rcases pc with _ | _ | pc
  · refine ⟨1, rfl, by omega, by omega, by omega, fun _ h => .inr ?_⟩
    subst h; simp [advThread]
  · refine ⟨2, rfl, by omega, by omega, fun _ => .inr ?_, fun _ _ => .inl (by omega)⟩
    simp [advThread]
  · exact ⟨pc + 2, rfl, by omega, by omega, fun h => .inl h, fun h _ => .inl (by omega)⟩

theorem adv_timer (s : CSt) (i c pc : Nat) : ∃ pc', (advThread s (.timer i c pc)).2 = .timer i c pc' ∧ pc ≤ pc' := by
  rcases pc with _ | _ | pc
  · exact ⟨1, rfl, by omega⟩
  · exact ⟨2, rfl, by omega⟩
  · exact ⟨pc + 2, rfl, by omega⟩

theorem adv_handler (s : CSt) (i : Nat) (a : List Val) (pc : Nat) (o : Option Entry) :
    ∃ pc' o', (advThread s (.handler i a pc o)).2 = .handler i a pc' o' ∧ (2 ≤ pc → 2 ≤ pc' ∧ o' = o) ∧
      (o' = none → pc' = 4 → (pc = 4 ∧ o = none) ∨ s.acks.get? i = none ∨ (pc = 3 ∧ o = none)) := by
  rcases pc with _ | _ | _ | _ | pc
  · cases hg : s.acks.get? i with
    | none => exact ⟨4, none, by cases o <;> simp only [advThread, hg], by omega, fun _ _ => .inr (.inl rfl)⟩
    | some e => exact ⟨1, some e, by cases o <;> simp only [advThread, hg], by omega, fun h => by cases h⟩
  · cases o with
    | none => exact ⟨1, none, rfl, by omega, fun _ h => by omega⟩
    | some e => exact ⟨2, some e, rfl, by omega, fun h => by cases h⟩
  · cases o with
    | none => exact ⟨2, none, rfl, fun _ => ⟨by omega, rfl⟩, fun _ h => by omega⟩
    | some e => exact ⟨3, some e, rfl, fun _ => ⟨by omega, rfl⟩, fun h => by cases h⟩
  · exact ⟨4, o, by cases o <;> rfl, fun _ => ⟨by omega, rfl⟩, fun h _ => .inr (.inr ⟨rfl, h⟩)⟩
  · exact ⟨pc + 4, o, by cases o <;> rfl, fun _ => ⟨by omega, rfl⟩, fun h h' => .inl ⟨by omega, h⟩⟩

/-- A goroutine that makes a step stays what it is. -/
theorem exists_set {l : List Thread} {k : Nat} {t t' : Thread} (hk : l[k]? = some t) (Q : Thread → Prop) (hQ : Q t → Q t')
    (h : ∃ u ∈ l, Q u) : ∃ u ∈ l.set k t', Q u := by
  obtain ⟨u, hu, q⟩ := h
  obtain ⟨j, hj⟩ := List.getElem?_of_mem hu
  by_cases e : j = k
  · subst e
    rw [hk] at hj; cases hj
    exact ⟨t', List.mem_of_getElem? (i := j) (by rw [List.getElem?_set_self (List.getElem?_eq_some_iff.1 hk).1]), hQ q⟩
  · exact ⟨u, List.mem_of_getElem? (i := j) (by rw [List.getElem?_set_ne (fun h => e h.symm)]; exact hj), q⟩

theorem mem_set_self {l : List Thread} {k : Nat} {t : Thread} (t' : Thread) (hk : l[k]? = some t) : t' ∈ l.set k t' :=
  List.mem_of_getElem? (i := k) (List.getElem?_set_self (List.getElem?_eq_some_iff.1 hk).1)

/-- The timer has fired, or a handler has stopped it. -/
def Spent (id : Nat) (s : CSt) : Prop := (∃ c pc, Thread.timer id c pc ∈ s.threads) ∨ ∃ a pc e, 2 ≤ pc ∧ Thread.handler id a pc (some e) ∈ s.threads

theorem ran_set {id : Nat} {s s' : CSt} {k : Nat} {t : Thread} (hk : s.threads[k]? = some t)
    (hs : s'.threads = s.threads.set k (advThread s t).2) (h : Ran id s) : Ran id s' := by
  obtain ⟨c, pc, h1, h2⟩ := h
  obtain ⟨u, hu, c', pc', rfl, h3⟩ := exists_set (t' := (advThread s t).2) hk (fun u => ∃ c pc, u = .timer id c pc ∧ 1 ≤ pc)
    (by rintro ⟨c, pc, rfl, h⟩; obtain ⟨p, e, hp⟩ := adv_timer s id c pc; exact ⟨c, p, e, by omega⟩) ⟨_, h2, c, pc, rfl, h1⟩
  exact ⟨c', pc', h3, hs ▸ hu⟩

theorem spent_set {id : Nat} {s s' : CSt} {k : Nat} {t : Thread} (hk : s.threads[k]? = some t)
    (hs : s'.threads = s.threads.set k (advThread s t).2) (h : Spent id s) : Spent id s' := by
  rcases h with ⟨c, pc, h⟩ | ⟨a, pc, e, h1, h2⟩
  · obtain ⟨u, hu, c', pc', rfl⟩ := exists_set (t' := (advThread s t).2) hk (fun u => ∃ c pc, u = .timer id c pc)
      (by rintro ⟨c, pc, rfl⟩; obtain ⟨p, e, hp⟩ := adv_timer s id c pc; exact ⟨c, p, e⟩) ⟨_, h, c, pc, rfl⟩
    exact .inl ⟨c', pc', hs ▸ hu⟩
  · obtain ⟨u, hu, a', pc', e', rfl, h3⟩ := exists_set (t' := (advThread s t).2) hk (fun u => ∃ a pc e, u = .handler id a pc (some e) ∧ 2 ≤ pc)
      (by rintro ⟨a, pc, e, rfl, h⟩
          obtain ⟨p, o, e1, e2, _⟩ := adv_handler s id a pc (some e)
          obtain ⟨e3, e4⟩ := e2 h
          exact ⟨a, p, e, by rw [e1, e4], e3⟩) ⟨_, h2, a, pc, e, rfl, h1⟩
    exact .inr ⟨a', pc', e', h3, hs ▸ hu⟩

theorem live_step {cb id : Nat} {s : CSt} (l : Live cb id s) (e : Ev) (he : ∀ c tm, e = .emit c tm → s.ids + 1 = id → c = cb) : Live cb id (cstep s e) := by
  cases e with
  | emit c tm =>
    refine ⟨l.acks, l.tims, fun t ht => ?_, ?_, ?_⟩
    · simp only [cstep, List.mem_append, List.mem_singleton] at ht
      rcases ht with ht | rfl
      · exact lok_mono (Nat.le_succ _) (fun h => h) (l.threads t ht)
      · exact ⟨Nat.le_refl _, he c tm rfl⟩
    · rintro ⟨c', tm', pc, h1, h2⟩
      simp only [cstep, List.mem_append, List.mem_singleton] at h2
      rcases h2 with h2 | h2
      · rcases l.kept ⟨c', tm', pc, h1, h2⟩ with h | h | ⟨x, y, h3, h4⟩
        · exact .inl h
        · exact .inr (.inl h)
        · exact .inr (.inr ⟨x, y, h3, List.mem_append_left _ h4⟩)
      · cases h2; omega
    · rintro ⟨c', pc, h1, h2⟩
      simp only [cstep, List.mem_append, List.mem_singleton] at h2
      rcases h2 with h2 | h2
      · rcases l.timed ⟨c', pc, h1, h2⟩ with h | ⟨x, y, h4⟩ | ⟨x, y, z, h3, h4⟩
        · exact .inl h
        · exact .inr (.inl ⟨x, y, List.mem_append_left _ h4⟩)
        · exact .inr (.inr ⟨x, y, z, h3, List.mem_append_left _ h4⟩)
      · cases h2; omega
  | recv i a =>
    refine ⟨l.acks, l.tims, fun t ht => ?_, ?_, ?_⟩
    · simp only [cstep, List.mem_append, List.mem_singleton] at ht
      rcases ht with ht | rfl
      · exact l.threads t ht
      · exact ⟨fun _ h => (by cases h), fun _ => .inl rfl, fun _ h => by omega⟩
    · rintro ⟨c', tm', pc, h1, h2⟩
      simp only [cstep, List.mem_append, List.mem_singleton] at h2
      rcases h2 with h2 | h2
      · rcases l.kept ⟨c', tm', pc, h1, h2⟩ with h | h | ⟨x, y, h3, h4⟩
        · exact .inl h
        · exact .inr (.inl h)
        · exact .inr (.inr ⟨x, y, h3, List.mem_append_left _ h4⟩)
      · cases h2
    · rintro ⟨c', pc, h1, h2⟩
      simp only [cstep, List.mem_append, List.mem_singleton] at h2
      rcases h2 with h2 | h2
      · rcases l.timed ⟨c', pc, h1, h2⟩ with h | ⟨x, y, h4⟩ | ⟨x, y, z, h3, h4⟩
        · exact .inl h
        · exact .inr (.inl ⟨x, y, List.mem_append_left _ h4⟩)
        · exact .inr (.inr ⟨x, y, z, h3, List.mem_append_left _ h4⟩)
      · cases h2
  | fire i =>
    simp only [cstep]
    cases hg : s.timers.get? i with
    | none => exact l
    | some c =>
      refine ⟨l.acks, fun x hx => ?_, fun t ht => ?_, ?_, ?_⟩
      · rw [FMap.get?_erase] at hx
        split at hx
        · cases hx
        · exact l.tims x hx
      · simp only [List.mem_append, List.mem_singleton] at ht
        rcases ht with ht | rfl
        · exact l.threads t ht
        · intro hi; subst hi; exact ⟨l.tims c hg, fun h => by omega⟩
      · rintro ⟨c', tm', pc, h1, h2⟩
        simp only [List.mem_append, List.mem_singleton] at h2
        rcases h2 with h2 | h2
        · rcases l.kept ⟨c', tm', pc, h1, h2⟩ with h | h | ⟨x, y, h3, h4⟩
          · exact .inl h
          · exact .inr (.inl h)
          · exact .inr (.inr ⟨x, y, h3, List.mem_append_left _ h4⟩)
        · cases h2
      · rintro ⟨c', pc, h1, h2⟩
        simp only [List.mem_append, List.mem_singleton] at h2
        rcases h2 with h2 | h2
        · rcases l.timed ⟨c', pc, h1, h2⟩ with h | ⟨x, y, h4⟩ | ⟨x, y, z, h3, h4⟩
          · by_cases hi : i = id
            · exact .inr (.inl ⟨c, 0, by rw [hi]; simp⟩)
            · refine .inl ?_
              dsimp only
              rw [FMap.get?_erase, if_neg hi]; exact h
          · exact .inr (.inl ⟨x, y, List.mem_append_left _ h4⟩)
          · exact .inr (.inr ⟨x, y, z, h3, List.mem_append_left _ h4⟩)
        · cases h2
  | adv k =>
    simp only [cstep]
    cases hk : s.threads[k]? with
    | none => exact l
    | some t =>
      have hm : t ∈ s.threads := List.mem_of_getElem? hk
      obtain ⟨a1, a2, a3, a4, a5⟩ := adv_tables l (l.threads t hm)
      obtain ⟨b1, b2⟩ := adv_log s t
      have hc : Called cb s → Called cb (advThread s t).1 := called_mono b1
      refine ⟨a1, a2, fun u hu => ?_, ?_, ?_⟩
      · dsimp only
        rw [b2]
        rcases mem_of_mem_set hu with hu | rfl
        · exact lok_mono (Nat.le_refl _) hc (l.threads u hu)
        · exact a3
      · rintro ⟨c', tm', pc, h1, h2⟩
        have fin : (s.acks.get? id ≠ none ∨ Called cb s ∨ Ran id s) → (advThread s t).1.acks.get? id ≠ none ∨ Called cb (advThread s t).1 ∨
            Ran id { (advThread s t).1 with threads := s.threads.set k (advThread s t).2 } := by
          rintro (h | h | h)
          · rcases a4 h with h | h | ⟨c, h⟩
            · exact .inl h
            · exact .inr (.inl h)
            · exact .inr (.inr ⟨c, 1, Nat.le_refl _, by rw [← h]; exact mem_set_self _ hk⟩)
          · exact .inr (.inl (hc h))
          · exact .inr (.inr (ran_set hk rfl h))
        rcases mem_of_mem_set h2 with h2 | h2
        · exact fin (l.kept ⟨c', tm', pc, h1, h2⟩)
        · cases t with
          | emitter i c tm p =>
            obtain ⟨p', e1, _, _, e4, _⟩ := adv_emitter s i c tm p
            rw [e1] at h2; cases h2
            rcases e4 h1 with h | h
            · exact fin (l.kept ⟨_, _, p, h, hm⟩)
            · exact .inl h
          | handler i a p o => obtain ⟨p', o', e1, _⟩ := adv_handler s i a p o; rw [e1] at h2; cases h2
          | timer i c p => obtain ⟨p', e1, _⟩ := adv_timer s i c p; rw [e1] at h2; cases h2
      · rintro ⟨c', pc, h1, h2⟩
        have fin : (s.timers.get? id ≠ none ∨ Spent id s) → (advThread s t).1.timers.get? id ≠ none ∨
            Spent id { (advThread s t).1 with threads := s.threads.set k (advThread s t).2 } := by
          rintro (h | h)
          · rcases a5 h with h | ⟨a, e, h⟩
            · exact .inl h
            · exact .inr (.inr ⟨a, 2, e, Nat.le_refl _, by rw [← h]; exact mem_set_self _ hk⟩)
          · exact .inr (spent_set hk rfl h)
        rcases mem_of_mem_set h2 with h2 | h2
        · exact fin (l.timed ⟨c', pc, h1, h2⟩)
        · cases t with
          | emitter i c tm p =>
            obtain ⟨p', e1, _, _, _, e5⟩ := adv_emitter s i c tm p
            rw [e1] at h2; cases h2
            rcases e5 h1 rfl with h | h
            · exact fin (l.timed ⟨_, p, h, hm⟩)
            · exact .inl h
          | handler i a p o => obtain ⟨p', o', e1, _⟩ := adv_handler s i a p o; rw [e1] at h2; cases h2
          | timer i c p => obtain ⟨p', e1, _⟩ := adv_timer s i c p; rw [e1] at h2; cases h2

theorem live_run (cb : Nat) (timed : Bool) (pre post : List Ev) : Live cb (emitId pre) (crun (pre ++ .emit cb timed :: post)) := by
  have ids : ∀ h : List Ev, (crun h).ids = h.countP isEmit := fun h => by rw [crun, cids]; simp
  have base : ∀ h : List Ev, h.countP isEmit < emitId pre → Live cb (emitId pre) (crun h) := by
    intro h hh
    induction h using snocRec with
    | nil => constructor <;> simp [crun]
    | append_singleton h e ih =>
      rw [List.countP_append] at hh
      rw [crun_snoc]
      refine live_step (ih (by omega)) e fun c tm he hi => ?_
      rw [ids] at hi
      subst he
      simp [isEmit] at hh
      omega
  induction post using snocRec with
  | nil =>
    rw [crun_snoc]
    refine live_step (base pre (by simp [emitId])) _ fun c tm he _ => by cases he; rfl
  | append_singleton post e ih =>
    have e1 : pre ++ .emit cb timed :: (post ++ [e]) = (pre ++ .emit cb timed :: post) ++ [e] := by simp
    rw [e1, crun_snoc]
    refine live_step ih e fun c tm he hi => ?_
    rw [ids] at hi
    simp [emitId, isEmit, List.countP_cons] at hi

/-- The handler of an answer that came after the emission had returned. -/
def Handles (cb id k : Nat) (s : CSt) : Prop :=
  ∃ a pc o, s.threads[k]? = some (.handler id a pc o) ∧ (pc = 4 → o = none → Called cb s ∨ Ran id s)

theorem emitted_step {id cb : Nat} {timed : Bool} {s : CSt} (e : Ev) (h : EmitReturned s id cb timed) : EmitReturned (cstep s e) id cb timed := by
  unfold EmitReturned at *
  cases e with
  | emit c tm => exact List.mem_append_left _ h
  | recv i a => exact List.mem_append_left _ h
  | fire i => simp only [cstep]; split
              · exact List.mem_append_left _ h
              · exact h
  | adv k =>
    simp only [cstep]
    cases hk : s.threads[k]? with
    | none => exact h
    | some t =>
      obtain ⟨u, hu, rfl⟩ := exists_set (t' := (advThread s t).2) hk (fun u => u = .emitter id cb timed 2) (by rintro rfl; rfl) ⟨_, h, rfl⟩
      exact hu

theorem ran_step {id : Nat} {s : CSt} (e : Ev) (h : Ran id s) : Ran id (cstep s e) := by
  obtain ⟨c, pc, h1, h2⟩ := h
  cases e with
  | emit c' tm => exact ⟨c, pc, h1, List.mem_append_left _ h2⟩
  | recv i a => exact ⟨c, pc, h1, List.mem_append_left _ h2⟩
  | fire i => simp only [cstep]; split
              · exact ⟨c, pc, h1, List.mem_append_left _ h2⟩
              · exact ⟨c, pc, h1, h2⟩
  | adv k =>
    simp only [cstep]
    cases hk : s.threads[k]? with
    | none => exact ⟨c, pc, h1, h2⟩
    | some t => exact ran_set hk rfl ⟨c, pc, h1, h2⟩

theorem spent_step {id : Nat} {s : CSt} (e : Ev) (h : Spent id s) : Spent id (cstep s e) := by
  have grow : ∀ (s' : CSt) l, s'.threads = s.threads ++ l → Spent id s' := by
    intro s' l e
    rcases h with ⟨c, pc, h⟩ | ⟨a, pc, o, h1, h2⟩
    · exact .inl ⟨c, pc, by rw [e]; exact List.mem_append_left _ h⟩
    · exact .inr ⟨a, pc, o, h1, by rw [e]; exact List.mem_append_left _ h2⟩
  cases e with
  | emit c' tm => exact grow _ _ rfl
  | recv i a => exact grow _ _ rfl
  | fire i => simp only [cstep]; split
              · exact grow _ _ rfl
              · exact h
  | adv k =>
    simp only [cstep]
    cases hk : s.threads[k]? with
    | none => exact h
    | some t => exact spent_set hk rfl h

theorem called_step {cb : Nat} {s : CSt} (e : Ev) (h : Called cb s) : Called cb (cstep s e) := by
  cases e with
  | emit c' tm => exact h
  | recv i a => exact h
  | fire i => simp only [cstep]; split <;> exact h
  | adv k =>
    simp only [cstep]
    split
    · rename_i t hk
      have : Called cb (advThread s t).1 := called_mono (adv_log s t).1 h
      exact this
    · exact h

theorem handles_step {cb id k : Nat} {timed : Bool} {s : CSt} (l : Live cb id s) (r : EmitReturned s id cb timed) (e : Ev)
    (h : Handles cb id k s) : Handles cb id k (cstep s e) := by
  obtain ⟨a, pc, o, h1, h2⟩ := h
  have keep : (pc = 4 → o = none → Called cb s ∨ Ran id s) → pc = 4 → o = none → Called cb (cstep s e) ∨ Ran id (cstep s e) :=
    fun h x y => (h x y).imp (called_step e) (ran_step e)
  have grow : ∀ l, (cstep s e).threads = s.threads ++ l → Handles cb id k (cstep s e) := fun l hl =>
    ⟨a, pc, o, by rw [hl, List.getElem?_append_left (List.getElem?_eq_some_iff.1 h1).1]; exact h1, keep h2⟩
  cases e with
  | emit c' tm => exact grow _ rfl
  | recv i a => exact grow _ rfl
  | fire i =>
    cases hg : s.timers.get? i with
    | none => exact ⟨a, pc, o, by simp only [cstep, hg]; exact h1, keep h2⟩
    | some c => exact grow [.timer i c 0] (by simp only [cstep, hg])
  | adv j =>
    cases hj : s.threads[j]? with
    | none => exact ⟨a, pc, o, by simp only [cstep, hj]; exact h1, keep h2⟩
    | some t =>
      by_cases e' : j = k
      · subst e'
        rw [h1] at hj; cases hj
        obtain ⟨pc', o', e1, _, e3⟩ := adv_handler s id a pc o
        refine ⟨a, pc', o', ?_, fun x y => ?_⟩
        · simp only [cstep, h1, e1]
          exact List.getElem?_set_self (List.getElem?_eq_some_iff.1 h1).1
        · rcases e3 y x with ⟨p1, p2⟩ | p | ⟨p1, p2⟩
          · exact keep h2 p1 p2
          · rcases l.kept ⟨cb, timed, 2, Nat.le_refl _, r⟩ with q | q | q
            · exact absurd p q
            · exact .inl (called_step _ q)
            · exact .inr (ran_step _ q)
          · have := (l.threads _ (List.mem_of_getElem? h1)).2.1 p2
            omega
      · refine ⟨a, pc, o, ?_, keep h2⟩
        simp only [cstep, hj]
        rw [List.getElem?_set_ne e']; exact h1

theorem idle_ran {cb id : Nat} {s : CSt} (l : Live cb id s) (hi : AcksIdle s) (h : Ran id s) : Called cb s := by
  obtain ⟨c, pc, _, h2⟩ := h
  have : pc = 2 := hi _ h2
  exact (l.threads _ h2 rfl).2 (by omega)

theorem idle_spent {cb id : Nat} {s : CSt} (l : Live cb id s) (hi : AcksIdle s) (h : Spent id s) : Called cb s := by
  rcases h with ⟨c, pc, h⟩ | ⟨a, pc, e, h1, h2⟩
  · have : pc = 2 := hi _ h
    exact (l.threads _ h rfl).2 (by omega)
  · have : pc = 4 := hi _ h2
    exact (l.threads _ h2).2.2 rfl (by omega) (by simp)

theorem answered_called (cb : Nat) (timed : Bool) (args : List Val) (pre mid post : List Ev)
    (r : EmitReturned (crun (pre ++ .emit cb timed :: mid)) (emitId pre) cb timed)
    (hi : AcksIdle (crun (pre ++ .emit cb timed :: (mid ++ .recv (emitId pre) args :: post)))) :
    Called cb (crun (pre ++ .emit cb timed :: (mid ++ .recv (emitId pre) args :: post))) := by
  have key : ∀ post, EmitReturned (crun (pre ++ .emit cb timed :: (mid ++ .recv (emitId pre) args :: post))) (emitId pre) cb timed ∧
      Handles cb (emitId pre) (crun (pre ++ .emit cb timed :: mid)).threads.length
        (crun (pre ++ .emit cb timed :: (mid ++ .recv (emitId pre) args :: post))) := by
    intro post
    induction post using snocRec with
    | nil =>
      have e1 : pre ++ .emit cb timed :: (mid ++ [.recv (emitId pre) args]) = (pre ++ .emit cb timed :: mid) ++ [.recv (emitId pre) args] := by simp
      rw [e1, crun_snoc]
      exact ⟨emitted_step _ r, args, 0, none, by simp [cstep], fun h => by omega⟩
    | append_singleton post e ih =>
      have e1 : pre ++ .emit cb timed :: (mid ++ .recv (emitId pre) args :: (post ++ [e])) =
        (pre ++ .emit cb timed :: (mid ++ .recv (emitId pre) args :: post)) ++ [e] := by simp
      rw [e1, crun_snoc]
      exact ⟨emitted_step _ ih.1, handles_step (live_run cb timed pre _) ih.1 e ih.2⟩
  obtain ⟨_, a, pc, o, h1, h2⟩ := key post
  have l := live_run cb timed pre (mid ++ .recv (emitId pre) args :: post)
  have hm := List.mem_of_getElem? h1
  have hpc : pc = 4 := hi _ hm
  by_cases ho : o = none
  · rcases h2 hpc ho with h | h
    · exact h
    · exact idle_ran l hi h
  · exact (l.threads _ hm).2.2 rfl (by omega) ho

theorem expired_called (cb : Nat) (pre mid post : List Ev)
    (r : EmitReturned (crun (pre ++ .emit cb true :: mid)) (emitId pre) cb true)
    (hi : AcksIdle (crun (pre ++ .emit cb true :: (mid ++ .fire (emitId pre) :: post)))) :
    Called cb (crun (pre ++ .emit cb true :: (mid ++ .fire (emitId pre) :: post))) := by
  have key : ∀ post, Spent (emitId pre) (crun (pre ++ .emit cb true :: (mid ++ .fire (emitId pre) :: post))) := by
    intro post
    induction post using snocRec with
    | nil =>
      have e1 : pre ++ .emit cb true :: (mid ++ [.fire (emitId pre)]) = (pre ++ .emit cb true :: mid) ++ [.fire (emitId pre)] := by simp
      rw [e1, crun_snoc]
      have l := live_run cb true pre mid
      cases hg : (crun (pre ++ .emit cb true :: mid)).timers.get? (emitId pre) with
      | some c => exact .inl ⟨c, 0, by simp [cstep, hg]⟩
      | none =>
        rcases l.timed ⟨cb, 2, by omega, r⟩ with h | h
        · exact absurd hg h
        · exact spent_step _ h
    | append_singleton post e ih =>
      have e1 : pre ++ .emit cb true :: (mid ++ .fire (emitId pre) :: (post ++ [e])) =
        (pre ++ .emit cb true :: (mid ++ .fire (emitId pre) :: post)) ++ [e] := by simp
      rw [e1, crun_snoc]
      exact spent_step e ih
  exact idle_spent (live_run cb true pre _) hi (key post)

end Verif.Acks
