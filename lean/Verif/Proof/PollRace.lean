import Verif.Spec.PollRace
import Verif.Proof.BulkRace
import Verif.Proof.Returns
import Verif.Proof.CollectorConc
import Verif.Proof.CastRaceLoop

namespace Verif.PollRace
open Verif Verif.Spec Verif.World

theorem run_snoc (h : List Ev) (e : Ev) : run (h ++ [e]) = step (run h) e := by simp [run]

theorem step_cast (s : St) (e : Ev) : (step s e).cast = (does s e).foldl CastRace.step s.cast := rfl

theorem foldl_cast (h : List Ev) (s : St) : (h.foldl step s).cast = (trace s h).foldl CastRace.step s.cast := by
  induction h generalizing s with
  | nil => rfl
  | cons e h ih => rw [List.foldl_cons, ih, trace, List.foldl_append, step_cast]

theorem trace_append (h l : List Ev) (s : St) : trace s (h ++ l) = trace s h ++ trace (h.foldl step s) l := by
  induction h generalizing s with
  | nil => rfl
  | cons e h ih => simp only [List.cons_append, trace, ih, List.foldl_cons, List.append_assoc]

theorem run_cast (h : List Ev) : (run h).cast = CastRace.run (trace {} h) := foldl_cast h {}

theorem wf_own (h : List Ev) : RoomRace.WF (run h).cast.tab ∧ RoomRace.Own (run h).cast.tab := by
  rw [run_cast, BulkRace.cast_tab]; exact RoomRace.wf_own _

theorem does_le (s : St) (e : Ev) : does s e = [] ∨ ∃ x, does s e = [x] := by
  cases e <;> simp only [does] <;> (try split) <;> simp

/-- Every moment of the history of the tables is one of the whole history. -/
theorem trace_prefix (q : List Ev) (s : St) (t₁ t₂ : List CastRace.Ev) (h : trace s q = t₁ ++ t₂) :
    ∃ q₁ q₂, q = q₁ ++ q₂ ∧ trace s q₁ = t₁ := by
  induction q generalizing s t₁ with
  | nil =>
    have : t₁ = [] := by
      have h' : ([] : List CastRace.Ev) = t₁ ++ t₂ := h
      exact (List.append_eq_nil_iff.1 h'.symm).1
    exact ⟨[], [], rfl, by rw [this]; rfl⟩
  | cons e q ih =>
    cases t₁ with
    | nil => exact ⟨[], e :: q, rfl, rfl⟩
    | cons x t =>
      simp only [trace] at h
      rcases does_le s e with hd | ⟨y, hd⟩
      · rw [hd, List.nil_append] at h
        obtain ⟨q₁, q₂, e1, e2⟩ := ih (step s e) (x :: t) h
        exact ⟨e :: q₁, q₂, by rw [e1]; rfl, by rw [trace, hd, e2]; rfl⟩
      · rw [hd] at h
        simp only [List.cons_append, List.nil_append, List.cons.injEq] at h
        obtain ⟨q₁, q₂, e1, e2⟩ := ih (step s e) t h.2
        exact ⟨e :: q₁, q₂, by rw [e1]; rfl, by rw [trace, hd, e2, h.1]; rfl⟩

theorem does_nocast (s : St) (e : Ev) (he : ∀ r x o, e ≠ .emit r x o) (a b c : List Nat) : .cast a b c ∉ does s e := by
  cases e with
  | emit r x o => exact absurd rfl (he r x o)
  | _ => simp only [does] <;> (try split) <;> simp

theorem trace_nocast (q : List Ev) (s : St) (h : ∀ r x o, .emit r x o ∉ q) (a b c : List Nat) : .cast a b c ∉ trace s q := by
  induction q generalizing s with
  | nil => simp [trace]
  | cons e q ih =>
    simp only [trace, List.mem_append, not_or]
    exact ⟨does_nocast s e (fun r x o he => h r x o (by simp [he])) a b c,
      ih _ fun r x o hm => h r x o (by simp [hm])⟩

theorem cast_other_pc (c : CastRace.St) (e : CastRace.Ev) (h1 : e ≠ .adv) (h2 : ∀ r x o, e ≠ .cast r x o) :
    (CastRace.step c e).pc = c.pc ∧ (CastRace.step c e).sent = c.sent := by
  cases e with
  | adv => exact absurd rfl h1
  | cast r x o => exact absurd rfl (h2 r x o)
  | _ => exact ⟨rfl, rfl⟩

/-- What one event does, seen from the call. -/
inductive Kind (s : St) (e : Ev) : Prop
  /-- not a step of the call -/
  | other (h : ∃ c, step s e = { s with cast := c } ∧ c.sent = s.cast.sent ∧ c.pc = s.cast.pc)
  /-- the loop -/
  | loop (h0 : s.pc = .loop) (h : ∃ c, step s e = { s with cast := c } ∧ c.sent = s.cast.sent)
  /-- the loop comes to a socket -/
  | next (id : Nat) (h0 : s.pc = .loop) (h : ∃ c, step s e = { s with cast := c, pc := .store id } ∧ c.sent = s.cast.sent ++ [id])
  /-- its end -/
  | over (h0 : s.pc = .loop) (h : ∃ c, step s e = { s with cast := c, pc := .report } ∧ c.sent = s.cast.sent)
  | store (id : Nat) (h0 : s.pc = .store id)
      (h : step s e = { s with pc := .write id, acks := upd s.acks id true, stored := s.stored ++ [id] })
  | write (id : Nat) (h0 : s.pc = .write id) (h : step s e = { s with pc := .loop, written := s.written ++ [id] })
  | report (h0 : s.pc = .report) (h : step s e = { s with pc := .read, hist := s.hist ++ [.start (.count s.stored.length)] })
  | read (h0 : s.pc = .read) (h : step s e = { s with pc := .idle, hist := s.hist ++ [.start (.servers 1)] })
  | answer (id : Nat) (args : List Val) (h0 : s.acks id = true) (he : e = .answer id args)
      (h : step s e =
        { s with acks := upd s.acks id false, heard := s.heard ++ [(id, args)], hist := s.hist ++ [.start (.answer args)] })
  /-- the timer, or a goroutine in the callbacks of the operator -/
  | inside (x : Collector.CEv) (hx : (x = .start .fire ∧ e = .fire) ∨ ∃ k, x = .adv k) (h : step s e = { s with hist := s.hist ++ [x] })

theorem kind (s : St) (e : Ev) (he : ∀ r x o, e ≠ .emit r x o) : Kind s e := by
  cases e with
  | emit r x o => exact absurd rfl (he r x o)
  | room x => exact .other ⟨_, rfl, rfl, rfl⟩
  | connect i => exact .other ⟨_, rfl, rfl, rfl⟩
  | disconnect i => exact .other ⟨_, rfl, rfl, rfl⟩
  | fire => exact .inside (.start .fire) (.inl ⟨rfl, rfl⟩) rfl
  | coll k => exact .inside (.adv k) (.inr ⟨k, rfl⟩) rfl
  | answer id args =>
    cases ha : s.acks id with
    | false => exact .other ⟨s.cast, by simp [step, does, other, ha], rfl, rfl⟩
    | true => exact .answer id args ha rfl (by simp [step, does, other, ha])
  | adv =>
    cases hp : s.pc with
    | idle => exact .other ⟨s.cast, by simp [step, does, other, hp], rfl, rfl⟩
    | loop =>
      rcases CastRace.sent_step s.cast .adv (by simp) with h | ⟨_, id, h⟩
      · have hr : BulkRace.reached s.cast (CastRace.step s.cast .adv) = none := by simp [BulkRace.reached, h]
        by_cases hc : (CastRace.step s.cast .adv).pc = .idle
        · exact .over hp ⟨CastRace.step s.cast .adv, by simp [step, does, other, hp, hr, hc], h⟩
        · exact .loop hp ⟨CastRace.step s.cast .adv, by simp [step, does, other, hp, hr, hc], h⟩
      · have hr : BulkRace.reached s.cast (CastRace.step s.cast .adv) = some id := by simp [BulkRace.reached, h]
        exact .next id hp ⟨CastRace.step s.cast .adv, by simp [step, does, other, hp, hr], h⟩
    | store id => exact .store id hp (by simp [step, does, other, hp])
    | write id => exact .write id hp (by simp [step, does, other, hp])
    | report => exact .report hp (by simp [step, does, other, hp])
    | read => exact .read hp (by simp [step, does, other, hp])

/-- When the loop of the call is over, it is. -/
def InStep (s : St) : Prop := (s.pc = .idle ∨ s.pc = .report ∨ s.pc = .read) → s.cast.pc = .idle

theorem inStep_step {s : St} (e : Ev) (h : InStep s) : InStep (step s e) := by
  by_cases he : ∃ r x o, e = .emit r x o
  · obtain ⟨r, x, o, rfl⟩ := he
    by_cases hp : s.pc = .idle
    · intro h'; simp [step, other, hp] at h'
    · have : step s (.emit r x o) = s := by simp [step, other, does, hp]
      rw [this]; exact h
  · have he : ∀ r x o, e ≠ .emit r x o := fun r x o h => he ⟨r, x, o, h⟩
    by_cases hl : s.pc = .loop
    · by_cases ha : e = .adv
      · subst ha
        intro h'
        by_cases hc : (CastRace.step s.cast .adv).pc = .idle
        · simpa [step, does, hl] using hc
        · exfalso
          simp only [step, does, other, hl, if_true, List.foldl_cons, List.foldl_nil] at h'
          split at h' <;> simp_all
      · cases kind s e he with
        | other h => obtain ⟨c, h1, _, h2⟩ := h; rw [h1]; intro h'; simp [hl] at h'
        | loop h0 h => obtain ⟨c, h1, _⟩ := h; rw [h1]; intro h'; simp [hl] at h'
        | next id h0 h => obtain ⟨c, h1, _⟩ := h; rw [h1]; intro h'; simp at h'
        | over h0 h => cases e <;> simp_all [step, does, other]; (split at h <;> simp_all)
        | store id h0 h => rw [hl] at h0; cases h0
        | write id h0 h => rw [hl] at h0; cases h0
        | report h0 h => rw [hl] at h0; cases h0
        | read h0 h => rw [hl] at h0; cases h0
        | answer id args h0 _ h => rw [h]; intro h'; simp [hl] at h'
        | inside x _ h => rw [h]; intro h'; simp [hl] at h'
    · cases kind s e he with
      | other h' => obtain ⟨c, h1, _, h2⟩ := h'; rw [h1]; intro h'; rw [h2]; exact h h'
      | loop h0 => exact absurd h0 hl
      | next id h0 => exact absurd h0 hl
      | over h0 => exact absurd h0 hl
      | store id h0 h' => rw [h']; intro h'; simp at h'
      | write id h0 h' => rw [h']; intro h'; simp at h'
      | report h0 h' => rw [h']; exact fun _ => h (.inr (.inl h0))
      | read h0 h' => rw [h']; exact fun _ => h (.inr (.inr h0))
      | answer id args h0 _ h' => rw [h']; exact h
      | inside x _ h' => rw [h']; exact h

theorem inStep_run (h : List Ev) : InStep (run h) := by
  induction h using snocRec with
  | nil => intro _; rfl
  | append_singleton h e ih => rw [run_snoc]; exact inStep_step e ih

theorem idle_cast {h : List Ev} (hi : (run h).pc = .idle) : (run h).cast.pc = .idle := inStep_run h (.inl hi)

theorem whole_at {p : List Ev} {rooms except order : List Nat} (hb : (run p).pc = .idle) (q : List Ev) :
    (run (p ++ .emit rooms except order :: q)).cast =
      CastRace.run (trace {} p ++ .cast rooms except order :: trace (run (p ++ [.emit rooms except order])) q) := by
  rw [run_cast, trace_append, trace]
  have hd : does (p.foldl step {}) (.emit rooms except order) = [.cast rooms except order] := by
    show does (run p) _ = _
    simp [does, hb]
  rw [hd, run_snoc]
  rfl

/-- The call as a broadcast of `Model/CastRace`. -/
theorem whole_of {p : List Ev} {rooms except order : List Nat} {q : List Ev} (w : WholePoll p rooms except order q) :
    Whole (trace {} p) rooms except order (trace (run (p ++ [.emit rooms except order])) q) := by
  refine ⟨?_, ?_, fun x y z => trace_nocast q _ w.one x y z⟩
  · rw [← run_cast]; exact idle_cast w.begins
  · rw [← whole_at w.begins]; exact idle_cast w.ends

theorem emit_start {s : St} (h : s.pc = .idle) (hc : s.cast.pc = .idle) (rooms except order : List Nat) :
    step s (.emit rooms except order) =
      { cast := { s.cast with pc := .x except rooms [], order := order, sent := [] }, pc := .loop } := by
  simp [step, does, other, h, CastRace.step, hc]

/-- Induction over the time of the call. -/
theorem polled_ind {p : List Ev} {rooms except order : List Nat} (hb : (run p).pc = .idle) (I : St → Prop)
    (h0 : I { cast := { (run p).cast with pc := .x except rooms [], order := order, sent := [] }, pc := .loop })
    (hs : ∀ s e, (∀ r x o, e ≠ .emit r x o) → I s → I (step s e))
    (q : List Ev) (ho : ∀ r x o, .emit r x o ∉ q) : I (polled p rooms except order q) := by
  induction q using snocRec with
  | nil => unfold polled; rw [run_snoc, emit_start hb (idle_cast hb)]; exact h0
  | append_singleton q e ih =>
    have e1 : p ++ .emit rooms except order :: (q ++ [e]) = (p ++ .emit rooms except order :: q) ++ [e] := by simp
    have ih := ih (fun r x o h => ho r x o (by simp [h]))
    unfold polled at ih ⊢
    rw [e1, run_snoc]
    exact hs _ e (fun r x o h => ho r x o (by simp [h])) ih

theorem once_nodup {c : CastRace.St} (h : CastRaceLoop.Once c) : c.sent.Nodup := by
  unfold CastRaceLoop.Once at h
  split at h
  · rw [h]; exact List.nodup_nil
  · rw [h]; exact List.nodup_nil
  all_goals first | exact h.2 | exact h.2.1 | exact h

theorem once_poll {s : St} (e : Ev) (he : ∀ r x o, e ≠ .emit r x o) (h : CastRaceLoop.Once s.cast) : CastRaceLoop.Once (step s e).cast := by
  rw [step_cast]
  have hn := does_nocast s e he
  rcases does_le s e with hd | ⟨x, hd⟩ <;> rw [hd]
  · exact h
  · rw [hd] at hn
    exact CastRaceLoop.once_step x (fun a b c hx => hn a b c (by simp [hx])) h

/-- What has been registered, written and heard. -/
structure Book (s : St) : Prop where
  once : CastRaceLoop.Once s.cast
  sent : s.cast.sent = s.stored ++ (match s.pc with | .store id => [id] | _ => [])
  stored : s.stored = s.written ++ (match s.pc with | .write id => [id] | _ => [])
  acks : ∀ id, s.acks id = true ↔ id ∈ s.stored ∧ id ∉ s.heard.map (·.1)
  heard : (s.heard.map (·.1)).Nodup ∧ ∀ id ∈ s.heard.map (·.1), id ∈ s.stored

theorem book_step {s : St} (e : Ev) (he : ∀ r x o, e ≠ .emit r x o) (b : Book s) : Book (step s e) := by
  have ho := once_poll e he b.once
  have hnd := once_nodup b.once
  obtain ⟨_, b1, b2, b3, b4⟩ := b
  cases kind s e he with
  | other h =>
    obtain ⟨c, h1, h2, _⟩ := h
    rw [h1] at ho ⊢
    exact ⟨ho, by rw [← b1]; exact h2, b2, b3, b4⟩
  | loop h0 h =>
    obtain ⟨c, h1, h2⟩ := h
    rw [h1] at ho ⊢
    exact ⟨ho, by rw [← b1]; exact h2, b2, b3, b4⟩
  | next id h0 h =>
    obtain ⟨c, h1, h2⟩ := h
    rw [h1] at ho ⊢
    simp only [h0, List.append_nil] at b1 b2
    exact ⟨ho, by simp only [h2, b1], by simp only [b2, List.append_nil], b3, b4⟩
  | over h0 h =>
    obtain ⟨c, h1, h2⟩ := h
    rw [h1] at ho ⊢
    simp only [h0, List.append_nil] at b1 b2
    exact ⟨ho, by simp only [h2, b1, List.append_nil], by simp only [b2, List.append_nil], b3, b4⟩
  | store id h0 h =>
    rw [h] at ho ⊢
    simp only [h0, List.append_nil] at b1 b2
    have hnew : id ∉ s.stored := by
      rw [b1] at hnd
      intro hm
      exact (List.nodup_append.1 hnd).2.2 id hm id (by simp) rfl
    refine ⟨ho, by simp only [b1, List.append_nil], by simp only [b2], ?_, b4.1, fun i hi => by simp [b4.2 i hi]⟩
    intro i
    by_cases ei : i = id
    · subst ei
      simp only [upd_same, List.mem_append, List.mem_singleton, or_true, true_and, true_iff]
      exact fun hm => hnew (b4.2 i hm)
    · simp only [upd_ne _ _ ei, List.mem_append, List.mem_singleton, ei, or_false]
      exact b3 i
  | write id h0 h =>
    rw [h] at ho ⊢
    simp only [h0, List.append_nil] at b1 b2
    exact ⟨ho, by simp only [b1, List.append_nil], by simp only [b2, List.append_nil], b3, b4⟩
  | report h0 h =>
    rw [h] at ho ⊢
    simp only [h0, List.append_nil] at b1 b2
    exact ⟨ho, by simp only [b1, List.append_nil], by simp only [b2, List.append_nil], b3, b4⟩
  | read h0 h =>
    rw [h] at ho ⊢
    simp only [h0, List.append_nil] at b1 b2
    exact ⟨ho, by simp only [b1, List.append_nil], by simp only [b2, List.append_nil], b3, b4⟩
  | answer id args h0 _ h =>
    rw [h] at ho ⊢
    have hid := (b3 id).1 h0
    refine ⟨ho, b1, b2, ?_, ?_, ?_⟩
    · intro i
      simp only [List.map_append, List.map_cons, List.map_nil, List.mem_append, List.mem_singleton, not_or]
      by_cases ei : i = id
      · subst ei; simp
      · simp only [upd_ne _ _ ei, ei, not_false_eq_true, and_true]; exact b3 i
    · simp only [List.map_append, List.map_cons, List.map_nil]
      refine List.nodup_append.2 ⟨b4.1, by simp, ?_⟩
      rintro a ha b hb rfl
      simp only [List.mem_singleton] at hb
      subst hb
      exact hid.2 ha
    · intro i hi
      simp only [List.map_append, List.map_cons, List.map_nil, List.mem_append, List.mem_singleton] at hi
      rcases hi with hi | rfl
      · exact b4.2 i hi
      · exact hid.1
  | inside x _ h => rw [h] at ho ⊢; exact ⟨ho, b1, b2, b3, b4⟩

theorem book {p : List Ev} (rooms except order : List Nat) (hb : (run p).pc = .idle) (q : List Ev) (ho : ∀ r x o, .emit r x o ∉ q) :
    Book (polled p rooms except order q) :=
  polled_ind hb Book ⟨rfl, rfl, rfl, by simp, by simp, by simp⟩ (fun _ e he b => book_step e he b) q ho

theorem nodup_length_le {l : List Nat} (hn : l.Nodup) : ∀ {m : List Nat}, (∀ a ∈ l, a ∈ m) → l.length ≤ m.length := by
  induction l with
  | nil => intro m _; simp
  | cons a l ih =>
    intro m h
    obtain ⟨h1, h2⟩ := List.nodup_cons.1 hn
    have h3 := ih h2 (m := m.erase a) fun b hb => (List.mem_erase_of_ne (by rintro rfl; exact h1 hb)).2 (h b (by simp [hb]))
    have h4 := List.length_erase_of_mem (h a (by simp))
    have h5 : 0 < m.length := List.length_pos_of_mem (h a (by simp))
    simp only [List.length_cons]
    omega

/-- What the operator has been told. -/
structure Told (s : St) : Prop where
  reports : reports (started s.hist) = if s.pc = .read ∨ s.pc = .idle then 1 else 0
  reads : serverReads (started s.hist) = if s.pc = .idle then 1 else 0
  val : ∀ k, .servers k ∈ started s.hist → k = 1
  count : notified (started s.hist) = if s.pc = .read ∨ s.pc = .idle then s.stored.length else 0
  answered : answered (started s.hist) = s.heard.length
  replies : answersOf (started s.hist) = replies s
  args : ∀ a, .answer a ∈ started s.hist → ∃ id, (id, a) ∈ s.heard

theorem started_snoc (h : List Collector.CEv) (e : Collector.Ev) : started (h ++ [.start e]) = started h ++ [e] := by
  rw [Collector.started_append]; rfl

theorem started_snoc_adv (h : List Collector.CEv) (k : Nat) : started (h ++ [.adv k]) = started h := by
  rw [Collector.started_append]; simp [started]

theorem told_step {s : St} (e : Ev) (he : ∀ r x o, e ≠ .emit r x o) (t : Told s) : Told (step s e) := by
  obtain ⟨t1, t2, t3, t4, t5, t6, t7⟩ := t
  unfold replies at t6
  cases kind s e he with
  | other h => obtain ⟨c, h1, _⟩ := h; rw [h1]; exact ⟨t1, t2, t3, t4, t5, t6, t7⟩
  | loop h0 h => obtain ⟨c, h1, _⟩ := h; rw [h1]; exact ⟨t1, t2, t3, t4, t5, t6, t7⟩
  | next id h0 h =>
    obtain ⟨c, h1, _⟩ := h; rw [h1]
    simp only [h0] at t1 t2 t4
    exact ⟨by simpa using t1, by simpa using t2, t3, by simpa using t4, t5, t6, t7⟩
  | over h0 h =>
    obtain ⟨c, h1, _⟩ := h; rw [h1]
    simp only [h0] at t1 t2 t4
    exact ⟨by simpa using t1, by simpa using t2, t3, by simpa using t4, t5, t6, t7⟩
  | store id h0 h =>
    rw [h]
    simp only [h0] at t1 t2 t4
    exact ⟨by simpa using t1, by simpa using t2, t3, by simpa using t4, t5, t6, t7⟩
  | write id h0 h =>
    rw [h]
    simp only [h0] at t1 t2 t4
    exact ⟨by simpa using t1, by simpa using t2, t3, by simpa using t4, t5, t6, t7⟩
  | report h0 h =>
    rw [h]
    simp only [h0] at t1 t2 t4
    constructor <;> simp only [started_snoc, Collector.reports_append, Collector.serverReads_append, Collector.notified_append,
      Collector.answered_append, Collector.answersOf_append]
    · rw [t1]; rfl
    · rw [t2]; rfl
    · intro k hk; exact t3 k (by simpa using hk)
    · rw [t4]; simp [notified]
    · rw [t5]; rfl
    · rw [t6]; simp [answersOf, replies]
    · intro a ha; exact t7 a (by simpa using ha)
  | read h0 h =>
    rw [h]
    simp only [h0] at t1 t2 t4
    constructor <;> simp only [started_snoc, Collector.reports_append, Collector.serverReads_append, Collector.notified_append,
      Collector.answered_append, Collector.answersOf_append]
    · rw [t1]; rfl
    · rw [t2]; rfl
    · intro k hk; simp only [List.mem_append, List.mem_singleton, Collector.Ev.servers.injEq] at hk; exact hk.elim (t3 k) (fun h => h)
    · rw [t4]; simp [notified]
    · rw [t5]; rfl
    · rw [t6]; simp [answersOf, replies]
    · intro a ha; exact t7 a (by simpa using ha)
  | answer id args h0 _ h =>
    rw [h]
    constructor <;> simp only [started_snoc, Collector.reports_append, Collector.serverReads_append, Collector.notified_append,
      Collector.answered_append, Collector.answersOf_append]
    · rw [t1]; rfl
    · rw [t2]; rfl
    · intro k hk; exact t3 k (by simpa using hk)
    · rw [t4]; simp [notified]
    · rw [t5]; simp [answered]
    · rw [t6]; simp [answersOf, replies]
    · intro a ha
      simp only [List.mem_append, List.mem_singleton, Collector.Ev.answer.injEq] at ha
      rcases ha with ha | rfl
      · obtain ⟨i, hi⟩ := t7 a ha; exact ⟨i, by simp [hi]⟩
      · exact ⟨id, by simp⟩
  | inside x hx h =>
    rw [h]
    rcases hx with ⟨rfl, _⟩ | ⟨k, rfl⟩
    · constructor <;> simp only [started_snoc, Collector.reports_append, Collector.serverReads_append, Collector.notified_append,
        Collector.answered_append, Collector.answersOf_append]
      · rw [t1]; rfl
      · rw [t2]; rfl
      · intro k hk; exact t3 k (by simpa using hk)
      · rw [t4]; simp [notified]
      · rw [t5]; rfl
      · rw [t6]; simp [answersOf, replies]
      · intro a ha; exact t7 a (by simpa using ha)
    · constructor <;> simp only [started_snoc_adv]
      · exact t1
      · exact t2
      · exact t3
      · exact t4
      · exact t5
      · exact t6
      · exact t7

theorem told {p : List Ev} (rooms except order : List Nat) (hb : (run p).pc = .idle) (q : List Ev) (ho : ∀ r x o, .emit r x o ∉ q) :
    Told (polled p rooms except order q) :=
  polled_ind hb Told ⟨rfl, rfl, by simp [started], rfl, rfl, rfl, by simp [started]⟩ (fun _ e he b => told_step e he b) q ho

/-- The timer has fired only if it has. -/
theorem nofire {p : List Ev} {rooms except order : List Nat} (hb : (run p).pc = .idle) (q : List Ev) (ho : ∀ r x o, .emit r x o ∉ q)
    (hf : .fire ∉ q) : .fire ∉ started (polled p rooms except order q).hist := by
  induction q using snocRec with
  | nil => unfold polled; rw [run_snoc, emit_start hb (idle_cast hb)]; simp [started]
  | append_singleton q e ih =>
    have e1 : p ++ .emit rooms except order :: (q ++ [e]) = (p ++ .emit rooms except order :: q) ++ [e] := by simp
    have ih := ih (fun r x o h => ho r x o (by simp [h])) (fun h => hf (by simp [h]))
    have he : ∀ r x o, e ≠ .emit r x o := fun r x o h => ho r x o (by simp [h])
    have e2 : polled p rooms except order (q ++ [e]) = step (polled p rooms except order q) e := by unfold polled; rw [e1, run_snoc]
    rw [e2]
    generalize polled p rooms except order q = s at ih
    cases kind s e he with
    | other h => obtain ⟨c, h1, _⟩ := h; rw [h1]; exact ih
    | loop h0 h => obtain ⟨c, h1, _⟩ := h; rw [h1]; exact ih
    | next id h0 h => obtain ⟨c, h1, _⟩ := h; rw [h1]; exact ih
    | over h0 h => obtain ⟨c, h1, _⟩ := h; rw [h1]; exact ih
    | store id h0 h => rw [h]; exact ih
    | write id h0 h => rw [h]; exact ih
    | report h0 h => rw [h]; simp only [started_snoc]; simpa using ih
    | read h0 h => rw [h]; simp only [started_snoc]; simpa using ih
    | answer id args h0 _ h => rw [h]; simp only [started_snoc]; simpa using ih
    | inside x hx h =>
      rw [h]
      rcases hx with ⟨rfl, rfl⟩ | ⟨k, rfl⟩
      · exact absurd (by simp) hf
      · simp only [started_snoc_adv]; exact ih

theorem full {s : St} (t : Told s) (hp : s.pc = .idle) (hl : s.heard.length = s.stored.length) (h1 : OneValue s) :
    Full 1 (started s.hist) := by
  obtain ⟨t1, t2, t3, t4, t5, t6, t7⟩ := t
  simp only [hp] at t1 t2 t4
  refine ⟨by simpa using t1, by simpa using t2, t3, by rw [t5, t4, hl]; simp, ?_⟩
  intro a ha
  obtain ⟨i, hi⟩ := t7 a ha
  exact h1 _ hi

/-- What is still to come, if `n` answers are missing. -/
def missing (s : St) (n : Nat) : List Collector.Ev :=
  (if s.pc = .read ∨ s.pc = .idle then [] else [.count (s.heard.length + n)]) ++ (if s.pc = .idle then [] else [.servers 1]) ++
    List.replicate n (.answer [.str ""])

theorem answered_replicate (n : Nat) : answered (List.replicate n (.answer [.str ""])) = n := by
  induction n with
  | zero => rfl
  | succ n ih => rw [List.replicate_succ, answered, List.countP_cons]; unfold answered at ih; simp [ih]

theorem notified_replicate (n : Nat) : notified (List.replicate n (.answer [.str ""])) = 0 := by
  induction n with
  | zero => rfl
  | succ n ih => rw [List.replicate_succ, notified]; exact ih; simp

theorem full_missing {s : St} (t : Told s) (n : Nat)
    (hl : (s.pc = .read ∨ s.pc = .idle) → s.heard.length + n = s.stored.length) (h1 : OneValue s) :
    Full 1 (started s.hist ++ missing s n) ∧ notified (started s.hist ++ missing s n) = s.heard.length + n := by
  obtain ⟨t1, t2, t3, t4, t5, t6, t7⟩ := t
  have hn : notified (started s.hist ++ missing s n) = s.heard.length + n := by
    rw [Collector.notified_append, t4, missing, Collector.notified_append, Collector.notified_append, notified_replicate]
    by_cases h : s.pc = .read ∨ s.pc = .idle
    · simp only [h, if_true]
      rw [hl h]
      split <;> simp [notified]
    · simp only [h, if_false]
      split <;> simp [notified]
  refine ⟨⟨?_, ?_, ?_, ?_, ?_⟩, hn⟩
  · rw [Collector.reports_append, t1, missing, Collector.reports_append, Collector.reports_append]
    have : reports (List.replicate n (.answer [.str ""])) = 0 := by simp [reports]
    rw [this]
    by_cases h : s.pc = .read ∨ s.pc = .idle
    · simp only [h, if_true]
      split <;> simp [reports]
    · simp only [h, if_false]
      split <;> simp [reports]
  · rw [Collector.serverReads_append, t2, missing, Collector.serverReads_append, Collector.serverReads_append]
    have : serverReads (List.replicate n (.answer [.str ""])) = 0 := by simp [serverReads]
    rw [this]
    by_cases h : s.pc = .idle
    · simp [h, serverReads]
    · simp only [h, if_false]
      split <;> simp [serverReads]
  · intro k hk
    simp only [missing, List.mem_append] at hk
    rcases hk with hk | (hk | hk) | hk
    · exact t3 k hk
    · split at hk <;> simp at hk
    · split at hk <;> simp at hk; exact hk
    · simp at hk
  · rw [hn, Collector.answered_append, t5, missing, Collector.answered_append, Collector.answered_append, answered_replicate]
    have a1 : answered (if s.pc = .read ∨ s.pc = .idle then [] else [.count (s.heard.length + n)]) = 0 := by split <;> rfl
    have a2 : answered (if s.pc = .idle then [] else [.servers 1]) = 0 := by split <;> rfl
    rw [a1, a2]; omega
  · intro a ha
    simp only [missing, List.mem_append] at ha
    rcases ha with ha | (ha | ha) | ha
    · obtain ⟨i, hi⟩ := t7 a ha; exact h1 _ hi
    · split at ha <;> simp at ha
    · split at ha <;> simp at ha
    · have := (List.mem_replicate.1 ha).2
      cases this; rfl

theorem replies_length {s : St} (h1 : OneValue s) : (replies s).length = s.heard.length := by
  unfold replies OneValue at *
  generalize s.heard = l at *
  induction l with
  | nil => rfl
  | cons x l ih => simp [h1 x (by simp), ih fun y hy => h1 y (by simp [hy])]; omega

/-- As long as an answer is missing the callback is not called without error. -/
theorem not_early {s : St} (t : Told s) (n : Nat) (hn : 0 < n)
    (hl : (s.pc = .read ∨ s.pc = .idle) → s.heard.length + n = s.stored.length) (h1 : OneValue s) (l : List Val) :
    .ok l ∉ outcomes s := by
  intro hm
  obtain ⟨hf, ha⟩ := full_missing t n hl h1
  have hi := (Collector.cinv_run s.hist _ hf).calls l hm
  rw [ha] at hi
  have := hi.1.length_eq
  rw [t.replies, replies_length h1] at this
  omega

/-- What the call has still to do. -/
def pcLeft : PC → Nat
  | .store _ => 3
  | .write _ => 2
  | .loop => 1
  | _ => 0

def phaseLeft : PC → Nat
  | .idle => 0
  | .read => 1
  | .report => 2
  | _ => 3

def pollLeft (s : St) : Nat × (Nat × Nat) × Nat := (phaseLeft s.pc, Returns.castLeft s.cast.pc, pcLeft s.pc)

theorem poll_ends (σ : Nat → Ev) (fair : AgainAndAgain .adv σ) (s : St) : ∃ n, ((firstOf σ n).foldl step s).pc = .idle := by
  refine Returns.ends step (fun s => s.pc = .idle) .adv pollLeft (Prod.Lex (· < ·) (Prod.Lex Returns.Lex2 (· < ·)))
    (Prod.lex Nat.lt_wfRel (Prod.lex ⟨Returns.Lex2, Returns.lex2_wf⟩ Nat.lt_wfRel)).wf ?_ ?_ σ fair s
  · intro s h
    cases hp : s.pc with
    | idle => exact absurd hp h
    | loop =>
      right
      unfold pollLeft
      have h2 : (step s .adv).cast = CastRace.step s.cast .adv := by simp [step, does, hp]
      rw [h2]
      by_cases h3 : s.cast.pc = .idle
      · have h4 : CastRace.step s.cast .adv = s.cast := by
          have : CastRace.step s.cast .adv = { s.cast with pc := .idle } := by simp [CastRace.step, h3, CastRace.act]
          rw [this, ← h3]
        have hr : BulkRace.reached s.cast s.cast = none := by simp [BulkRace.reached]
        have : (step s .adv).pc = .report := by simp [step, does, other, hp, h4, hr, h3]
        rw [this, hp]
        exact Prod.Lex.left _ _ (by simp [phaseLeft])
      · have hd := Returns.cast_dec s.cast s.cast.pc h3
        rcases CastRace.sent_step s.cast .adv (by simp) with h | ⟨_, id, h⟩
        · have hr : BulkRace.reached s.cast (CastRace.step s.cast .adv) = none := by simp [BulkRace.reached, h]
          by_cases hc : (CastRace.step s.cast .adv).pc = .idle
          · have : (step s .adv).pc = .report := by simp [step, does, other, hp, hr, hc]
            rw [this, hp]
            exact Prod.Lex.left _ _ (by simp [phaseLeft])
          · have : (step s .adv).pc = .loop := by simp [step, does, other, hp, hr, hc]
            rw [this, hp]
            exact Prod.Lex.right _ (Prod.Lex.left _ _ hd)
        · have hr : BulkRace.reached s.cast (CastRace.step s.cast .adv) = some id := by simp [BulkRace.reached, h]
          have : (step s .adv).pc = .store id := by simp [step, does, other, hp, hr]
          rw [this, hp]
          exact Prod.Lex.right _ (Prod.Lex.left _ _ hd)
    | store id =>
      right
      have : step s .adv = { s with pc := .write id, acks := upd s.acks id true, stored := s.stored ++ [id] } := by
        simp [step, does, other, hp]
      unfold pollLeft
      rw [this, hp]
      exact Prod.Lex.right _ (Prod.Lex.right _ (by simp [pcLeft]))
    | write id =>
      right
      have : step s .adv = { s with pc := .loop, written := s.written ++ [id] } := by simp [step, does, other, hp]
      unfold pollLeft
      rw [this, hp]
      exact Prod.Lex.right _ (Prod.Lex.right _ (by simp [pcLeft]))
    | report =>
      right
      have : (step s .adv).pc = .read := by simp [step, does, other, hp]
      unfold pollLeft
      rw [this, hp]
      exact Prod.Lex.left _ _ (by simp [phaseLeft])
    | read => left; simp [step, does, other, hp]
  · intro s e he h
    right
    cases e with
    | adv => exact absurd rfl he
    | emit r x o => simp [step, does, other, h]
    | answer id args => unfold pollLeft; simp only [step, does, other]; split <;> rfl
    | _ => rfl

end Verif.PollRace
