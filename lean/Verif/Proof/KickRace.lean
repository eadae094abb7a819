import Verif.Spec.KickRace
import Verif.Proof.BulkRace
import Verif.Proof.Returns

namespace Verif.KickRace
open Verif Verif.Spec Verif.World

theorem run_snoc (h : List Ev) (e : Ev) : run (h ++ [e]) = step (run h) e := by simp [run]

theorem step_cast (s : St) (e : Ev) : (step s e).cast = (does s e).foldl CastRace.step s.cast := rfl

theorem foldl_cast (h : List Ev) (s : St) : (h.foldl step s).cast = (trace s h).foldl CastRace.step s.cast := by
  induction h generalizing s with
  | nil => rfl
  | cons e h ih => rw [List.foldl_cons, ih, trace, List.foldl_append, step_cast]

theorem trace_append (h l : List Ev) (s : St) : trace s (h ++ l) = trace s h ++ trace (h.foldl step s) l := by
  induction h generalizing s with
  | nil => rfl
  | cons e h ih => simp only [List.cons_append, trace, ih, List.foldl_cons, List.append_assoc]

theorem run_cast (h : List Ev) : (run h).cast = CastRace.run (trace {} h) := foldl_cast h {}

theorem wf_own (h : List Ev) : RoomRace.WF (run h).cast.tab ∧ RoomRace.Own (run h).cast.tab := by
  rw [run_cast, BulkRace.cast_tab]; exact RoomRace.wf_own _

theorem does_le (s : St) (e : Ev) : does s e = [] ∨ ∃ x, does s e = [x] := by
  cases e <;> simp only [does] <;> (try split) <;> (try split) <;> simp

/-- Every moment of the history of the tables is one of the whole history. -/
theorem trace_prefix (q : List Ev) (s : St) (t₁ t₂ : List CastRace.Ev) (h : trace s q = t₁ ++ t₂) :
    ∃ q₁ q₂, q = q₁ ++ q₂ ∧ trace s q₁ = t₁ := by
  induction q generalizing s t₁ with
  | nil =>
    have : t₁ = [] := by
      have h' : ([] : List CastRace.Ev) = t₁ ++ t₂ := h
      exact (List.append_eq_nil_iff.1 h'.symm).1
    exact ⟨[], [], rfl, by rw [this]; rfl⟩
  | cons e q ih =>
    cases t₁ with
    | nil => exact ⟨[], e :: q, rfl, rfl⟩
    | cons x t =>
      simp only [trace] at h
      rcases does_le s e with hd | ⟨y, hd⟩
      · rw [hd, List.nil_append] at h
        obtain ⟨q₁, q₂, e1, e2⟩ := ih (step s e) (x :: t) h
        exact ⟨e :: q₁, q₂, by rw [e1]; rfl, by rw [trace, hd, e2]; rfl⟩
      · rw [hd] at h
        simp only [List.cons_append, List.nil_append, List.cons.injEq] at h
        obtain ⟨q₁, q₂, e1, e2⟩ := ih (step s e) t h.2
        exact ⟨e :: q₁, q₂, by rw [e1]; rfl, by rw [trace, hd, e2, h.1]; rfl⟩

theorem does_nocast (s : St) (e : Ev) (he : ∀ r x o, e ≠ .kick r x o) (a b c : List Nat) : .cast a b c ∉ does s e := by
  cases e with
  | kick r x o => exact absurd rfl (he r x o)
  | _ => simp only [does] <;> (try split) <;> (try split) <;> simp

theorem trace_nocast (q : List Ev) (s : St) (h : ∀ r x o, .kick r x o ∉ q) (a b c : List Nat) : .cast a b c ∉ trace s q := by
  induction q generalizing s with
  | nil => simp [trace]
  | cons e q ih =>
    simp only [trace, List.mem_append, not_or]
    exact ⟨does_nocast s e (fun r x o he => h r x o (by simp [he])) a b c,
      ih _ fun r x o hm => h r x o (by simp [hm])⟩

theorem idle_iff (s : St) : s.idle = true ↔ s.cast.pc = .idle ∧ s.pc = none ∧ (s.cast.tab.th 0).2 = .done := by
  simp [St.idle, and_assoc]

theorem whole_at {p : List Ev} {rooms except order : List Nat} (hb : (run p).idle = true) (q : List Ev) :
    (run (p ++ .kick rooms except order :: q)).cast =
      CastRace.run (trace {} p ++ .cast rooms except order :: trace (run (p ++ [.kick rooms except order])) q) := by
  rw [run_cast, trace_append, trace]
  have hd : does (p.foldl step {}) (.kick rooms except order) = [.cast rooms except order] := by
    show does (run p) _ = _
    simp [does, hb]
  rw [hd, run_snoc]
  rfl

/-- The call as a broadcast of `Model/CastRace`. -/
theorem whole_of {p : List Ev} {rooms except order : List Nat} {q : List Ev} (w : WholeKick p rooms except order q) :
    Whole (trace {} p) rooms except order (trace (run (p ++ [.kick rooms except order])) q) := by
  refine ⟨?_, ?_, fun x y z => trace_nocast q _ w.one x y z⟩
  · rw [← run_cast]; exact ((idle_iff _).1 w.begins).1
  · rw [← whole_at w.begins]; exact ((idle_iff _).1 w.ends).1

/-- Induction over the time of the call. -/
theorem while_ind {p : List Ev} {rooms except order : List Nat} {q : List Ev} (ho : ∀ r x o, .kick r x o ∉ q)
    {P : St → Prop} (hP : WhileKicking p rooms except order q P) (I : St → Prop)
    (h0 : I (step (run p) (.kick rooms except order)))
    (hs : ∀ s e, RoomRace.WF s.cast.tab → RoomRace.Own s.cast.tab → (∀ r x o, e ≠ .kick r x o) → P s → P (step s e) → I s → I (step s e)) :
    I (run (p ++ .kick rooms except order :: q)) := by
  induction q using snocRec with
  | nil => rw [run_snoc]; exact h0
  | append_singleton q e ih =>
    have e1 : p ++ .kick rooms except order :: (q ++ [e]) = (p ++ .kick rooms except order :: q) ++ [e] := by simp
    have ih := ih (fun r x o h => ho r x o (by simp [h]))
      (fun q₁ q₂ h => hP q₁ (q₂ ++ [e]) (by rw [h, List.append_assoc]))
    have hP1 := hP q [e] rfl
    have hP2 := hP (q ++ [e]) [] (by simp)
    simp only [kicked] at hP1 hP2
    rw [e1] at hP2 ⊢
    rw [run_snoc] at hP2 ⊢
    obtain ⟨wf, o⟩ := wf_own (p ++ .kick rooms except order :: q)
    exact hs _ e wf o (fun r x o h => ho r x o (by simp [h])) hP1 hP2 ih

theorem kick_start {s : St} (h : s.idle = true) (rooms except order : List Nat) :
    step s (.kick rooms except order) =
      { s with cast := { s.cast with pc := .x except rooms [], order := order, sent := [] }, log := [] } := by
  simp [step, does, other, h, CastRace.step, ((idle_iff s).1 h).1]

/-- What one event does, seen from the call. -/
inductive Kind (s : St) (e : Ev) : Prop
  /-- not the call, or a step of the adapter that the call waits for -/
  | other (h1 : (step s e).pc = s.pc) (h2 : (step s e).log = s.log) (h4 : (step s e).cast.sent = s.cast.sent)
      (h5 : (step s e).cast.tab = s.cast.tab ∨ ∃ x, (step s e).cast.tab = RoomRace.step s.cast.tab x ∧ ∀ k i c, x = .call k i c → k ≠ 0)
  /-- something is done for the socket -/
  | work (id : Nat) (st : Step) (h0 : (s.cast.tab.th 0).2 = .done) (h1 : s.pc = some (id, st))
      (h2 : step s e = { work s id st with cast := (does s .adv).foldl CastRace.step s.cast })
      (h3 : does s .adv = match st with | .leave => [.room (.call 0 id .leaveAll)] | .remove => [.disconnect id] | _ => [])
  /-- the next socket -/
  | next (id : Nat) (h0 : (s.cast.tab.th 0).2 = .done) (h1 : s.pc = none) (h2 : step s e = { s with cast := CastRace.step s.cast .adv, pc := some (id, .first) })
      (h4 : (step s e).cast.sent = s.cast.sent ++ [id]) (h5 : (step s e).cast.tab = s.cast.tab) (h6 : (step s e).cast.reg = s.cast.reg)

theorem kind (s : St) (e : Ev) (he : ∀ r x o, e ≠ .kick r x o) : Kind s e := by
  cases e with
  | room x =>
    by_cases h : BulkRace.who x = 0
    · have hd : does s (.room x) = [] := by simp [does, h]
      have hc := step_cast s (.room x)
      rw [hd] at hc
      exact .other rfl rfl (by rw [hc]; rfl) (.inl (by rw [hc]; rfl))
    · have hd : does s (.room x) = [.room x] := by simp [does, h]
      have hc := step_cast s (.room x)
      rw [hd] at hc
      refine .other rfl rfl (by rw [hc]; rfl) (.inr ⟨x, by rw [hc]; rfl, ?_⟩)
      intro k i c e hk; subst e; subst hk; exact h rfl
  | store i =>
    by_cases h : s.phase i = .new
    · exact .other (by simp [step, other, h]) (by simp [step, other, h]) (by simp [step, does, h, CastRace.step])
        (.inl (by simp [step, does, h, CastRace.step]))
    · exact .other (by simp [step, other, h]) (by simp [step, other, h]) (by simp [step, does, h])
        (.inl (by simp [step, does, h]))
  | flag i =>
    by_cases h : s.phase i = .stored
    · exact .other (by simp [step, other, h]) (by simp [step, other, h]) rfl (.inl rfl)
    · exact .other (by simp [step, other, h]) (by simp [step, other, h]) rfl (.inl rfl)
  | remove i => exact .other rfl rfl rfl (.inl rfl)
  | forbid i => exact .other rfl rfl rfl (.inl rfl)
  | unflag i => exact .other rfl rfl rfl (.inl rfl)
  | kick r x o => exact absurd rfl (he r x o)
  | adv =>
    by_cases h0 : (s.cast.tab.th 0).2 = .done
    · cases hp : s.pc with
      | some v =>
        obtain ⟨id, st⟩ := v
        refine .work id st h0 hp (by simp [step, other, h0, hp]) ?_
        cases st <;> simp [does, h0, hp]
      | none =>
        have hd : does s .adv = [.adv] := by simp [does, h0, hp]
        have htab := CastRace.act_tab s.cast s.cast.pc
        rcases CastRace.sent_step s.cast .adv (by simp) with h | ⟨_, id, h⟩
        · have hr : BulkRace.reached s.cast (CastRace.step s.cast .adv) = none := by simp [BulkRace.reached, h]
          have hs : step s .adv = { s with cast := CastRace.step s.cast .adv } := by
            simp [step, hd, other, h0, hp, hr]
          exact .other (by rw [hs]) (by rw [hs]) (by rw [hs]; exact h) (.inl (by rw [hs]; exact htab.1))
        · have hr : BulkRace.reached s.cast (CastRace.step s.cast .adv) = some id := by simp [BulkRace.reached, h]
          have hs : step s .adv = { s with cast := CastRace.step s.cast .adv, pc := some (id, .first) } := by
            simp [step, hd, other, h0, hp, hr]
          exact .next id h0 hp hs (by rw [hs]; exact h) (by rw [hs]; exact htab.1) (by rw [hs]; exact htab.2.1)
    · have hd : does s .adv = [.room (.adv 0)] := by simp [does, h0]
      have hs : step s .adv = { s with cast := CastRace.step s.cast (.room (.adv 0)) } := by simp [step, other, h0, hd]
      exact .other (by rw [hs]) (by rw [hs]) (by rw [hs]; rfl) (.inr ⟨.adv 0, by rw [hs]; rfl, by simp⟩)

/-! ### The flags -/

/-- What is true for good. -/
structure Flags (s t : St) (id : Nat) : Prop where
  fin : s.phase id = .finished → t.phase id = .finished
  conn : s.phase id = .finished → s.connected id = false → t.connected id = false
  reg : s.phase id = .finished → s.cast.reg id = false → t.cast.reg id = false
  join : s.canJoin id = false → t.canJoin id = false

theorem work_flags (s : St) (i : Nat) (st : Step) (id : Nat) : (work s i st).phase = s.phase ∧
    (s.connected id = false → (work s i st).connected id = false) ∧ (s.canJoin id = false → (work s i st).canJoin id = false) := by
  cases st <;> refine ⟨rfl, fun h => ?_, fun h => ?_⟩ <;> first | exact h | (simp only [work, upd_apply]; split <;> first | rfl | exact h)

theorem flags (s : St) (e : Ev) (id : Nat) : Flags s (step s e) id := by
  have hreg : ∀ l : List CastRace.Ev, .connect id ∉ l → s.cast.reg id = false → (l.foldl CastRace.step s.cast).reg id = false := by
    intro l
    generalize s.cast = c
    induction l generalizing c with
    | nil => exact fun _ h => h
    | cons x l ih =>
      intro hl h
      refine ih _ (fun hm => hl (by simp [hm])) ?_
      cases x with
      | room e => exact h
      | connect j =>
        have : id ≠ j := fun e => hl (by simp [e])
        simp only [CastRace.step, upd_ne _ _ this]; exact h
      | disconnect j => simp only [CastRace.step, upd_apply]; split <;> first | rfl | exact h
      | cast a b c => simp only [CastRace.step]; split <;> exact h
      | adv => rw [show (CastRace.step c .adv).reg = c.reg from (CastRace.act_tab c c.pc).2.1]; exact h
  have hno : s.phase id = .finished → .connect id ∉ does s e := by
    intro hf
    cases e with
    | store j =>
      simp only [does]
      split
      · next h => intro hm; simp at hm; subst hm; rw [h] at hf; cases hf
      · simp
    | _ => simp only [does] <;> (try split) <;> (try split) <;> simp
  refine ⟨fun h => ?_, fun hf h => ?_, fun hf h => hreg _ (hno hf) h, fun h => ?_⟩
  · cases e with
    | store j =>
      simp only [step, other]; split
      · next hn => simp only [upd_apply]; split <;> first | (next e => subst e; rw [hn] at h; cases h) | exact h
      · exact h
    | flag j =>
      simp only [step, other]; split
      · simp only [upd_apply]; split <;> first | rfl | exact h
      · exact h
    | kick => simp only [step, other]; split <;> exact h
    | adv =>
      simp only [step, other]; split
      · exact h
      · split
        · rw [(work_flags s _ _ id).1]; exact h
        · exact h
    | _ => exact h
  · cases e with
    | store j => simp only [step, other]; split <;> exact h
    | flag j =>
      simp only [step, other]; split
      · next hn => simp only [upd_apply]; split <;> first | (next e => subst e; rw [hn] at hf; cases hf) | exact h
      · exact h
    | unflag j => simp only [step, other, upd_apply]; split <;> first | rfl | exact h
    | kick => simp only [step, other]; split <;> exact h
    | adv =>
      simp only [step, other]; split
      · exact h
      · split
        · exact (work_flags s _ _ id).2.1 h
        · exact h
    | _ => exact h
  · cases e with
    | store j => simp only [step, other]; split <;> exact h
    | flag j => simp only [step, other]; split <;> exact h
    | forbid j => simp only [step, other, upd_apply]; split <;> first | rfl | exact h
    | kick => simp only [step, other]; split <;> exact h
    | adv =>
      simp only [step, other]; split
      · exact h
      · split
        · exact (work_flags s _ _ id).2.2 h
        · exact h
    | _ => exact h

theorem finished_run (h : List Ev) (id : Nat) : (run h).connected id = true → (run h).phase id = .finished := by
  induction h using snocRec with
  | nil => intro h; cases h
  | append_singleton h e ih =>
    rw [run_snoc]
    generalize run h = s at ih
    intro hc
    by_cases hs : s.connected id = true
    · exact (flags s e id).fin (ih hs)
    · cases e with
      | flag j =>
        simp only [step, other] at hc ⊢
        split at hc
        · next hp =>
          rw [if_pos hp]
          simp only [upd_apply] at hc ⊢
          split at hc
          · next e => rw [if_pos e]
          · exact absurd hc hs
        · exact absurd hc hs
      | unflag j => simp only [step, other, upd_apply] at hc; split at hc <;> first | (cases hc) | exact absurd hc hs
      | store j => simp only [step, other] at hc; split at hc <;> exact absurd hc hs
      | kick => simp only [step, other] at hc; split at hc <;> exact absurd hc hs
      | adv =>
        simp only [step, other] at hc; split at hc
        · exact absurd hc hs
        · split at hc
          · next i st _ =>
            have := (work_flags s i st id).2.1 (by simpa using hs)
            rw [this] at hc; cases hc
          · exact absurd hc hs
      | _ => exact absurd hc hs

/-! ### What is done to a socket -/

theorem doneTo_append (id : Nat) (l m : List Obs) : doneTo id (l ++ m) = doneTo id l ++ doneTo id m := List.filter_append ..

/-- What has been done to the socket before each step. -/
def pre (id : Nat) : Step → List Obs
  | .first | .packet => []
  | .check | .disconnecting => [.packet id]
  | .leave | .remove | .forbid | .unflag | .event => [.packet id, .disconnecting id]

/-- What has been done to the socket in the end. -/
def Final (id : Nat) (l : List Obs) : Prop := l = [] ∨ l = [.packet id] ∨ l = [.packet id, .disconnecting id, .disconnect id]

structure Told (id : Nat) (s : St) : Prop where
  once : CastRaceLoop.Once s.cast
  at' : ∀ i st, s.pc = some (i, st) → i ∈ s.cast.sent
  before : id ∉ s.cast.sent → doneTo id s.log = []
  now : ∀ st, s.pc = some (id, st) → doneTo id s.log = pre id st
  after : (∀ st, s.pc ≠ some (id, st)) → Final id (doneTo id s.log)

theorem once_kick {s : St} (e : Ev) (he : ∀ r x o, e ≠ .kick r x o) (h : CastRaceLoop.Once s.cast) : CastRaceLoop.Once (step s e).cast := by
  rw [step_cast]; exact BulkRace.once_foldl _ (does_nocast s e he) h

/-- What a step of `Disconnect` records. -/
def said (i : Nat) : Step → List Obs
  | .packet => [.packet i]
  | .disconnecting => [.disconnecting i]
  | .event => [.disconnect i]
  | _ => []

theorem work_log (s : St) (i : Nat) (st : Step) : (work s i st).log = s.log ++ said i st := by
  cases st <;> simp [work, said]

theorem doneTo_said_ne {i id : Nat} (h : i ≠ id) (st : Step) : doneTo id (said i st) = [] := by
  cases st <;> simp [said, doneTo, h]

/-- The step after this one. -/
theorem work_pc (s : St) (i : Nat) (st : Step) : (work s i st).pc = none ∨ ∃ st', (work s i st).pc = some (i, st') := by
  cases st <;> simp only [work] <;> (try split) <;> simp

theorem work_pre (s : St) (id : Nat) (st : Step) :
    (∀ st', (work s id st).pc = some (id, st') → pre id st ++ doneTo id (said id st) = pre id st') ∧
    ((work s id st).pc = none → Final id (pre id st ++ doneTo id (said id st))) := by
  cases st <;> simp only [work] <;> (try split) <;> simp [pre, said, doneTo, Final]

theorem work_sent (s : St) (i : Nat) (st : Step) (c : CastRace.St)
    (h3 : does s .adv = match (st : Step) with | .leave => [.room (.call 0 i .leaveAll)] | .remove => [.disconnect i] | _ => []) :
    ((does s .adv).foldl CastRace.step c).sent = c.sent := by
  rw [h3]; cases st <;> rfl

theorem told_step {s : St} {id : Nat} (e : Ev) (he : ∀ r x o, e ≠ .kick r x o) (h : Told id s) : Told id (step s e) := by
  have ho := once_kick e he h.once
  cases kind s e he with
  | other h1 h2 h4 h5 => exact ⟨ho, by rw [h1, h4]; exact h.at', by rw [h2, h4]; exact h.before, by rw [h1, h2]; exact h.now, by rw [h1, h2]; exact h.after⟩
  | work i st h0 h1 h2 h3 =>
    have hsent : (step s e).cast.sent = s.cast.sent := by rw [h2]; exact work_sent s i st _ h3
    have hpc : (step s e).pc = (work s i st).pc := by rw [h2]
    have hlog : (step s e).log = s.log ++ said i st := by rw [h2, ← work_log]
    have hin := h.at' i st h1
    refine ⟨ho, ?_, ?_, ?_, ?_⟩
    · rw [hsent, hpc]
      intro j st' hj
      rcases work_pc s i st with hw | ⟨st'', hw⟩
      · rw [hw] at hj; cases hj
      · rw [hw] at hj; cases hj; exact hin
    · rw [hsent, hlog]
      intro hn
      have hi : i ≠ id := fun e => hn (e ▸ hin)
      rw [doneTo_append, doneTo_said_ne hi, h.before hn]; rfl
    · rw [hpc, hlog]
      intro st' hj
      by_cases hi : i = id
      · subst hi
        rw [doneTo_append, h.now st h1]; exact (work_pre s i st).1 st' hj
      · rcases work_pc s i st with hw | ⟨st'', hw⟩
        · rw [hw] at hj; cases hj
        · rw [hw] at hj; cases hj; exact absurd rfl hi
    · rw [hpc, hlog]
      intro hj
      by_cases hi : i = id
      · subst hi
        rw [doneTo_append, h.now st h1]
        rcases work_pc s i st with hw | ⟨st'', hw⟩
        · exact (work_pre s i st).2 hw
        · exact absurd hw (hj st'')
      · rw [doneTo_append, doneTo_said_ne hi, List.append_nil]
        exact h.after fun st' hj' => by rw [h1] at hj'; cases hj'; exact hi rfl
  | next i h0 h1 h2 h4 h5 h6 =>
    have hni : i ∉ s.cast.sent := by
      have := BulkRace.once_nodup ho
      rw [h4, List.nodup_append] at this
      exact fun hm => this.2.2 i hm i (by simp) rfl
    have hpc : (step s e).pc = some (i, .first) := by rw [h2]
    have hlog : (step s e).log = s.log := by rw [h2]
    refine ⟨ho, ?_, ?_, ?_, ?_⟩
    · rw [hpc, h4]; intro j st hj; cases hj; simp
    · rw [h4, hlog]; exact fun hn => h.before fun hm => hn (by simp [hm])
    · rw [hpc, hlog]; intro st hj; cases hj; exact h.before hni
    · rw [hlog]; intro _; exact h.after fun st hj => by rw [h1] at hj; cases hj

theorem told_run {p : List Ev} {rooms except order : List Nat} (hb : (run p).idle = true) (q : List Ev) (ho : ∀ r x o, .kick r x o ∉ q)
    (id : Nat) : Told id (run (p ++ .kick rooms except order :: q)) := by
  refine while_ind (P := fun _ => True) ho (fun _ _ _ => trivial) (Told id) ?_ fun s e _ _ he _ _ h => told_step e he h
  have hp := ((idle_iff _).1 hb).2.1
  rw [kick_start hb]
  refine ⟨?_, ?_, fun _ => rfl, ?_, fun _ => .inl rfl⟩
  · simp [CastRaceLoop.Once]
  · intro i st h; simp only [hp] at h; cases h
  · intro st h; simp only [hp] at h; cases h

/-! ### What becomes of a socket -/

/-- How far `Disconnect` is. -/
def Stage (s : St) (id : Nat) : Step → Prop
  | .first | .packet | .check | .disconnecting | .leave | .remove => True
  | .forbid => s.cast.reg id = false
  | .unflag => s.cast.reg id = false ∧ s.canJoin id = false
  | .event => Kicked s id

structure Fate (id : Nat) (s : St) : Prop where
  told : Told id s
  fin : s.phase id = .finished
  now : ∀ st, s.pc = some (id, st) → Stage s id st
  done : id ∈ s.cast.sent → (∀ st, s.pc ≠ some (id, st)) → doneTo id s.log = [.packet id, .disconnecting id, .disconnect id] ∧ Kicked s id

theorem Stage.mono {s t : St} {id : Nat} (f : Flags s t id) (hf : s.phase id = .finished) {st : Step} (h : Stage s id st) : Stage t id st := by
  cases st with
  | forbid => exact f.reg hf h
  | unflag => exact ⟨f.reg hf h.1, f.join h.2⟩
  | event => exact ⟨f.reg hf h.away, f.conn hf h.flag, f.join h.shut⟩
  | _ => trivial

theorem mem_doneTo {id : Nat} {l : List Obs} : .disconnecting id ∈ l ↔ .disconnecting id ∈ doneTo id l := by simp [doneTo]

theorem fate_step {s : St} {id : Nat} (e : Ev) (he : ∀ r x o, e ≠ .kick r x o) (hc : .disconnecting id ∉ s.log → s.connected id = true)
    (h : Fate id s) : Fate id (step s e) := by
  have f := flags s e id
  refine ⟨told_step e he h.told, f.fin h.fin, ?_, ?_⟩
  · cases kind s e he with
    | other h1 h2 h4 h5 => rw [h1]; exact fun st hst => (h.now st hst).mono f h.fin
    | work i st h0 h1 h2 h3 =>
      intro st' hst
      have hpc : (step s e).pc = (work s i st).pc := by rw [h2]
      rw [hpc] at hst
      have hi : i = id := by
        rcases work_pc s i st with hw | ⟨st'', hw⟩
        · rw [hw] at hst; cases hst
        · rw [hw] at hst; cases hst; rfl
      subst hi
      have hS := h.now st h1
      cases st with
      | first => simp only [work] at hst; split at hst <;> cases hst; trivial
      | packet => simp only [work] at hst; cases hst; trivial
      | check => simp only [work] at hst; split at hst <;> cases hst; trivial
      | disconnecting => simp only [work] at hst; cases hst; trivial
      | leave => simp only [work] at hst; cases hst; trivial
      | remove =>
        simp only [work] at hst; cases hst
        show (step s e).cast.reg i = false
        rw [h2, h3]; simp [CastRace.step]
      | forbid =>
        simp only [work] at hst; cases hst
        exact ⟨f.reg h.fin hS, by rw [h2]; simp [work]⟩
      | unflag =>
        simp only [work] at hst; cases hst
        exact ⟨f.reg h.fin hS.1, by rw [h2]; simp [work], f.join hS.2⟩
      | event => simp only [work] at hst; cases hst
    | next i h0 h1 h2 h4 h5 h6 =>
      intro st hst
      rw [h2] at hst; cases hst; trivial
  · cases kind s e he with
    | other h1 h2 h4 h5 =>
      rw [h1, h2, h4]
      intro hm hn
      obtain ⟨h6, h7⟩ := h.done hm hn
      exact ⟨h6, f.reg h.fin h7.away, f.conn h.fin h7.flag, f.join h7.shut⟩
    | work i st h0 h1 h2 h3 =>
      have hsent : (step s e).cast.sent = s.cast.sent := by rw [h2]; exact work_sent s i st _ h3
      have hpc : (step s e).pc = (work s i st).pc := by rw [h2]
      have hlog : (step s e).log = s.log ++ said i st := by rw [h2, ← work_log]
      rw [hsent, hpc, hlog]
      intro hm hn
      by_cases hi : i = id
      · subst hi
        have hT := h.told.now st h1
        have hcon : st = .first ∨ st = .check → s.connected i = true := by
          intro hs
          refine hc fun hm => ?_
          rw [mem_doneTo, hT] at hm
          rcases hs with rfl | rfl <;> simp [pre] at hm
        cases st with
        | first => exact absurd (by simp [work, hcon (.inl rfl)]) (hn .packet)
        | check => exact absurd (by simp [work, hcon (.inr rfl)]) (hn .disconnecting)
        | event =>
          have hS := h.now _ h1
          exact ⟨by rw [doneTo_append, hT]; simp [pre, said, doneTo], f.reg h.fin hS.away, f.conn h.fin hS.flag, f.join hS.shut⟩
        | packet => exact absurd rfl (hn .check)
        | disconnecting => exact absurd rfl (hn .leave)
        | leave => exact absurd rfl (hn .remove)
        | remove => exact absurd rfl (hn .forbid)
        | forbid => exact absurd rfl (hn .unflag)
        | unflag => exact absurd rfl (hn .event)
      · obtain ⟨h6, h7⟩ := h.done hm fun st' hj' => by rw [h1] at hj'; cases hj'; exact hi rfl
        rw [doneTo_append, doneTo_said_ne hi, List.append_nil]
        exact ⟨h6, f.reg h.fin h7.away, f.conn h.fin h7.flag, f.join h7.shut⟩
    | next i h0 h1 h2 h4 h5 h6 =>
      intro hm hn
      have hpc : (step s e).pc = some (i, .first) := by rw [h2]
      have hi : i ≠ id := fun e => hn .first (by rw [hpc, e])
      rw [h4] at hm
      have hm' : id ∈ s.cast.sent := by simp at hm; exact hm.resolve_right fun e => hi e.symm
      obtain ⟨h6, h7⟩ := h.done hm' fun st hj => by rw [h1] at hj; cases hj
      exact ⟨by rw [show (step s e).log = s.log by rw [h2]]; exact h6, f.reg h.fin h7.away, f.conn h.fin h7.flag, f.join h7.shut⟩

/-! ### A socket somebody else disconnects -/

/-- The call has not announced that it disconnects the socket; if `b`, it has done nothing to it. -/
structure Apart (b : Bool) (id : Nat) (s : St) : Prop where
  told : Told id s
  now : ∀ st, s.pc = some (id, st) → st = .first ∨ (b = false ∧ (st = .packet ∨ st = .check))
  log : doneTo id s.log = [] ∨ (b = false ∧ doneTo id s.log = [.packet id])

theorem apart_step {s : St} {b : Bool} {id : Nat} (e : Ev) (he : ∀ r x o, e ≠ .kick r x o)
    (hc : (b = true ∨ .packet id ∈ s.log) → s.connected id = false) (h : Apart b id s) : Apart b id (step s e) := by
  have ht := told_step e he h.told
  cases kind s e he with
  | other h1 h2 h4 h5 => exact ⟨ht, by rw [h1]; exact h.now, by rw [h2]; exact h.log⟩
  | next i h0 h1 h2 h4 h5 h6 =>
    refine ⟨ht, ?_, by rw [show (step s e).log = s.log by rw [h2]]; exact h.log⟩
    intro st hst
    rw [h2] at hst; cases hst; exact .inl rfl
  | work i st h0 h1 h2 h3 =>
    have hpc : (step s e).pc = (work s i st).pc := by rw [h2]
    have hlog : (step s e).log = s.log ++ said i st := by rw [h2, ← work_log]
    by_cases hi : i = id
    · subst hi
      have hT := h.told.now st h1
      rcases h.now st h1 with rfl | ⟨hb, rfl | rfl⟩
      · refine ⟨ht, ?_, by rw [hlog]; simpa [said] using h.log⟩
        rw [hpc]
        intro st' hst
        simp only [work] at hst
        split at hst
        · next hcon =>
          cases hst
          cases b with
          | true => rw [hc (.inl rfl)] at hcon; cases hcon
          | false => exact .inr ⟨rfl, .inl rfl⟩
        · cases hst
      · refine ⟨ht, ?_, .inr ⟨hb, ?_⟩⟩
        · rw [hpc]; intro st' hst; simp only [work] at hst; cases hst; exact .inr ⟨hb, .inr rfl⟩
        · rw [hlog, doneTo_append, hT]; simp [pre, said, doneTo]
      · have hm : .packet i ∈ s.log := by
          have : .packet i ∈ doneTo i s.log := by rw [hT]; simp [pre]
          simpa [doneTo] using this
        refine ⟨ht, ?_, by rw [hlog]; simpa [said] using h.log⟩
        rw [hpc]
        intro st' hst
        simp [work, hc (.inr hm)] at hst
    · refine ⟨ht, ?_, by rw [hlog, doneTo_append, doneTo_said_ne hi, List.append_nil]; exact h.log⟩
      rw [hpc]
      intro st' hst
      rcases work_pc s i st with hw | ⟨st'', hw⟩
      · rw [hw] at hst; cases hst
      · rw [hw] at hst; cases hst; exact absurd rfl hi

theorem apart_run {p : List Ev} {rooms except order : List Nat} (hb : (run p).idle = true) (q : List Ev) (ho : ∀ r x o, .kick r x o ∉ q)
    (b : Bool) (id : Nat) (h : WhileKicking p rooms except order q fun s => (b = true ∨ .packet id ∈ s.log) → s.connected id = false) :
    Apart b id (run (p ++ .kick rooms except order :: q)) := by
  refine while_ind ho h (Apart b id) ?_ fun s e _ _ he h1 _ hf => apart_step e he h1 hf
  have ht := told_run (rooms := rooms) (except := except) (order := order) hb [] (by simp) id
  have hp := ((idle_iff _).1 hb).2.1
  rw [run_snoc] at ht
  refine ⟨ht, ?_, ?_⟩
  · rw [kick_start hb]; intro st h; simp only [hp] at h; cases h
  · rw [kick_start hb]; exact .inl rfl

/-! ### The rooms of a socket -/

/-- A call that leaves all rooms. -/
def isAll : RoomRace.PC → Bool
  | .a0 | .a1 _ | .a2 _ | .e2 .. | .e3 .. | .e4 .. | .e5 .. | .done => true
  | _ => false

theorem isAll_act (s : RoomRace.St) (i : Nat) (pc : RoomRace.PC) (h : isAll pc = true) : isAll (RoomRace.act s i pc).2 = true := by
  cases pc <;> first | cases h | skip
  case a2 l => cases l <;> rfl
  all_goals simp only [RoomRace.act] <;> (try split) <;> rfl

theorem isAll_joining {pc : RoomRace.PC} (h : isAll pc = true) : joining pc = [] := by
  cases pc <;> first | rfl | cases h

/-- In the tables, the socket is in the room only if the room is among its rooms. -/
def Sync (s : RoomRace.St) (id g : Nat) : Prop := InRoom s id g → HasRoom s id g

structure Clear (id g : Nat) (s : St) : Prop where
  zero : (s.cast.tab.th 0).2 ≠ .done → isAll (s.cast.tab.th 0).2 = true ∧ s.pc = some ((s.cast.tab.th 0).1, .remove)
  rest : (Sync s.cast.tab id g ∧ (.disconnecting id ∉ s.log ∨ s.pc = some (id, .leave)) ∧ s.pc ≠ some (id, .remove)) ∨
    RoomRace.Clearing s.cast.tab 0 id g

theorem sync_step {s : RoomRace.St} (wf : RoomRace.WF s) (o : RoomRace.Own s) (x : RoomRace.Ev) {id g : Nat}
    (hd : ∀ j, (s.th j).1 = id → (s.th j).2 = .done) (h : Sync s id g) : Sync (RoomRace.step s x) id g := by
  cases x with
  | call j i c =>
    simp only [RoomRace.step]; split
    · exact h
    · exact h
  | adv j =>
    obtain ⟨so, ro⟩ := RoomRace.owns wf o j
    intro hI
    have nj : ¬ ((s.th j).1 = id ∧ g ∈ joining (s.th j).2) := fun hh => by
      have h3 := hh.2
      rw [hd j hh.1] at h3; cases h3
    have nl : ¬ ((s.th j).1 = id ∧ mayLeave g (s.th j).2 = true) := fun hh => by
      have h3 := hh.2
      rw [hd j hh.1] at h3; cases h3
    exact (RoomRace.act_has_old wf _ _ so (h ((RoomRace.act_in_new wf _ _ ro hI).resolve_right nj))).resolve_right nl

theorem th_zero (s : RoomRace.St) (x : RoomRace.Ev) (hx : ∀ k i c, x = .call k i c → k ≠ 0) :
    (RoomRace.step s x).th 0 = s.th 0 ∨ (RoomRace.step s x).th 0 = ((s.th 0).1, (RoomRace.act s (s.th 0).1 (s.th 0).2).2) := by
  cases x with
  | call k i c =>
    left
    simp only [RoomRace.step]; split
    · exact upd_ne _ _ (fun e => hx k i c rfl e.symm)
    · rfl
  | adv k =>
    by_cases hk : k = 0
    · subst hk; exact .inr (RoomRace.advance_th s 0)
    · exact .inl (RoomRace.advance_th_ne s fun e => hk e.symm)

theorem clear_step {s : St} (wf : RoomRace.WF s.cast.tab) (o : RoomRace.Own s.cast.tab) {id g : Nat} (e : Ev)
    (he : ∀ r x o, e ≠ .kick r x o) (hd : ∀ j, j ≠ 0 → (s.cast.tab.th j).1 = id → (s.cast.tab.th j).2 = .done)
    (h : Clear id g s) : Clear id g (step s e) := by
  have hz : joining (s.cast.tab.th 0).2 = [] := by
    by_cases h0 : (s.cast.tab.th 0).2 = .done
    · rw [h0]; rfl
    · exact isAll_joining (h.zero h0).1
  have hl : ∀ j, (s.cast.tab.th j).1 = id → (j ≠ 0 → (s.cast.tab.th j).2 = .done) ∧ g ∉ joining (s.cast.tab.th j).2 := by
    intro j hj
    refine ⟨fun hn => hd j hn hj, ?_⟩
    by_cases h0 : j = 0
    · subst h0; rw [hz]; simp
    · rw [hd j h0 hj]; simp [joining]
  have hq : s.pc ≠ some (id, .remove) → ∀ j, (s.cast.tab.th j).1 = id → (s.cast.tab.th j).2 = .done := by
    intro hp j hj
    by_cases h0 : j = 0
    · subst h0
      refine Classical.byContradiction fun hn => hp ?_
      rw [(h.zero hn).2, hj]
    · exact hd j h0 hj
  cases kind s e he with
  | other h1 h2 h4 h5 =>
    rcases h5 with h5 | ⟨x, h5, hx⟩
    · exact ⟨by rw [h1, h5]; exact h.zero, by rw [h1, h2, h5]; exact h.rest⟩
    · refine ⟨?_, ?_⟩
      · rw [h1, h5]
        rcases th_zero s.cast.tab x hx with ht | ht
        · rw [ht]; exact h.zero
        · rw [ht]
          intro hn
          have h0 : (s.cast.tab.th 0).2 ≠ .done := fun h0 => hn (by rw [h0]; rfl)
          exact ⟨isAll_act _ _ _ (h.zero h0).1, (h.zero h0).2⟩
      · rw [h1, h2, h5]
        rcases h.rest with ⟨h6, h7, h8⟩ | h6
        · exact .inl ⟨sync_step wf o x (hq h8) h6, h7, h8⟩
        · exact .inr (RoomRace.clearing_step wf o x hl h6)
  | work i st h0 h1 h2 h3 =>
    have hlog : (step s e).log = s.log ++ said i st := by rw [h2, ← work_log]
    by_cases hst : st = .leave
    · subst hst
      have htab : (step s e).cast.tab = RoomRace.step s.cast.tab (.call 0 i .leaveAll) := by rw [h2, h3]; rfl
      have hth : (step s e).cast.tab.th 0 = (i, .a0) := by rw [htab]; simp [RoomRace.step, h0, RoomRace.Call.start]
      have hpc : (step s e).pc = some (i, .remove) := by rw [h2]; rfl
      refine ⟨fun _ => by rw [hth, hpc]; exact ⟨rfl, rfl⟩, ?_⟩
      rcases h.rest with ⟨h6, h7, h8⟩ | h6
      · have hsy : Sync (step s e).cast.tab id g := by rw [htab]; exact sync_step wf o _ (hq h8) h6
        by_cases hi : i = id
        · subst hi
          exact .inr (.inl (by rw [hth]; exact ⟨rfl, hsy⟩))
        · refine .inl ⟨hsy, .inl ?_, by rw [hpc]; intro hh; cases hh; exact hi rfl⟩
          rw [hlog]
          have := h7.resolve_right (by rw [h1]; intro hh; cases hh; exact hi rfl)
          simpa [said] using this
      · exact .inr (by rw [htab]; exact RoomRace.clearing_step wf o _ hl h6)
    · have htab : (step s e).cast.tab = s.cast.tab := by
        rw [h2, h3]; cases st <;> first | rfl | exact absurd rfl hst
      refine ⟨fun hn => by rw [htab, h0] at hn; exact absurd rfl hn, ?_⟩
      rw [htab]
      refine h.rest.imp (fun ⟨h6, h7, h8⟩ => ⟨h6, ?_, ?_⟩) fun x => x
      · have h9 : .disconnecting id ∉ s.log := h7.resolve_right (by rw [h1]; intro hh; cases hh; exact hst rfl)
        by_cases hs : st = .disconnecting ∧ i = id
        · obtain ⟨rfl, rfl⟩ := hs; exact .inr (by rw [h2]; rfl)
        · left
          rw [hlog]
          cases st <;> simp [said, h9]
          exact fun e => hs ⟨rfl, e.symm⟩
      · rw [h2]
        cases st <;> simp only [work] <;> (try split) <;> simp
        exact absurd rfl hst
  | next i h0 h1 h2 h4 h5 h6 =>
    have hlog : (step s e).log = s.log := by rw [h2]
    have hpc : (step s e).pc = some (i, .first) := by rw [h2]
    refine ⟨fun hn => by rw [h5, h0] at hn; exact absurd rfl hn, ?_⟩
    rw [h5, hlog, hpc]
    refine h.rest.imp (fun ⟨h6, h7, h8⟩ => ⟨h6, .inl (h7.resolve_right (by rw [h1]; simp)), by simp⟩) fun x => x

/-! ### The call returns -/

/-- The steps of `Disconnect` that are left. -/
def stepsLeft : Option (Nat × Step) → Nat
  | none => 0
  | some (_, .first) => 9
  | some (_, .packet) => 8
  | some (_, .check) => 7
  | some (_, .disconnecting) => 6
  | some (_, .leave) => 5
  | some (_, .remove) => 4
  | some (_, .forbid) => 3
  | some (_, .unflag) => 2
  | some (_, .event) => 1

/-- What the call has still to do. -/
def kickLeft (s : St) : (Nat × Nat) × Nat × Nat × Nat := (Returns.castLeft s.cast.pc, stepsLeft s.pc, Returns.roomLeft (s.cast.tab.th 0).2)

theorem work_less (s : St) (i : Nat) (st : Step) : stepsLeft (work s i st).pc < stepsLeft (some (i, st)) := by
  cases st <;> simp only [work] <;> (try split) <;> simp [stepsLeft]

theorem kick_ends (σ : Nat → Ev) (fair : AgainAndAgain .adv σ) (s : St) : ∃ n, ((firstOf σ n).foldl step s).idle = true := by
  refine Returns.ends step (fun s => s.idle = true) .adv kickLeft Returns.Lex5 Returns.lex5_wf ?_ ?_ σ fair s
  · intro s h
    right
    by_cases h0 : (s.cast.tab.th 0).2 = .done
    · cases hp : s.pc with
      | none =>
        have hpc : s.cast.pc ≠ .idle := fun hpc => h ((idle_iff s).2 ⟨hpc, hp, h0⟩)
        have hc : (step s .adv).cast = CastRace.step s.cast .adv := by simp [step, does, h0, hp]
        unfold kickLeft
        rw [hc]
        exact Prod.Lex.left _ _ (Returns.cast_dec s.cast s.cast.pc hpc)
      | some v =>
        obtain ⟨i, st⟩ := v
        have hpc : (step s .adv).pc = (work s i st).pc := by simp [step, other, h0, hp]
        have hc : (step s .adv).cast.pc = s.cast.pc := by
          cases st <;> simp [step, does, h0, hp, CastRace.step]
        unfold kickLeft
        rw [hc, hpc, hp]
        exact Prod.Lex.right _ (Prod.Lex.left _ _ (work_less s i st))
    · have hs : step s .adv = { s with cast := CastRace.step s.cast (.room (.adv 0)) } := by simp [step, other, h0, does]
      unfold kickLeft
      rw [hs]
      refine Prod.Lex.right _ (Prod.Lex.right _ ?_)
      simp only [CastRace.step]
      rw [Returns.adv_self]; exact Returns.room_dec _ _ _ h0
  · intro s e he h
    right
    cases e with
    | adv => exact absurd rfl he
    | kick r x o => simp [step, does, other, h]
    | room x =>
      unfold kickLeft
      simp only [step, does, other]
      by_cases hw : BulkRace.who x = 0
      · simp [hw]
      · simp only [hw, if_false, List.foldl, CastRace.step]
        rw [Returns.th_other _ x 0 hw]
    | store i => unfold kickLeft; simp only [step, does, other]; split <;> simp [CastRace.step]
    | flag i => unfold kickLeft; simp only [step, does, other]; split <;> simp
    | _ => rfl

end Verif.KickRace
