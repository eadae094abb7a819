import Verif.Spec.BulkRace
import Verif.Proof.RoomCalls
import Verif.Proof.CastRaceLoop

namespace Verif.BulkRace
open Verif Verif.Spec Verif.World

theorem run_snoc (h : List Ev) (e : Ev) : run (h ++ [e]) = step (run h) e := by simp [run]

theorem step_cast (s : St) (e : Ev) : (step s e).cast = (does s e).foldl CastRace.step s.cast := by
  cases e with
  | shut id => rfl
  | bulk a r x o =>
    by_cases h : s.idle = true
    · simp [step, h]
    · simp [step, does, h]
  | adv =>
    simp only [step]
    split
    · rfl
    · split
      · rfl
      · split <;> rfl
  | _ => rfl

theorem foldl_cast (h : List Ev) (s : St) : (h.foldl step s).cast = (trace s h).foldl CastRace.step s.cast := by
  induction h generalizing s with
  | nil => rfl
  | cons e h ih => rw [List.foldl_cons, ih, trace, List.foldl_append, step_cast]

theorem trace_append (h l : List Ev) (s : St) : trace s (h ++ l) = trace s h ++ trace (h.foldl step s) l := by
  induction h generalizing s with
  | nil => rfl
  | cons e h ih => simp only [List.cons_append, trace, ih, List.foldl_cons, List.append_assoc]

theorem run_cast (h : List Ev) : (run h).cast = CastRace.run (trace {} h) := foldl_cast h {}

/-- The calls of the adapter and their steps. -/
def roomEvs (h : List CastRace.Ev) : List RoomRace.Ev := h.filterMap fun e => match e with
  | .room e => some e
  | _ => none

theorem cast_tab (h : List CastRace.Ev) : (CastRace.run h).tab = RoomRace.run (roomEvs h) := by
  induction h using snocRec with
  | nil => rfl
  | append_singleton h e ih =>
    rw [CastRace.run_snoc]
    have hr : roomEvs (h ++ [e]) = roomEvs h ++ roomEvs [e] := by simp [roomEvs, List.filterMap_append]
    rw [hr]
    cases e with
    | room e =>
      have : roomEvs [.room e] = [e] := rfl
      rw [this, RoomRace.run_snoc, ← ih]; rfl
    | connect i => rw [show roomEvs [.connect i] = [] from rfl, List.append_nil, ← ih]; rfl
    | disconnect i => rw [show roomEvs [.disconnect i] = [] from rfl, List.append_nil, ← ih]; rfl
    | cast a b c =>
      rw [show roomEvs [.cast a b c] = [] from rfl, List.append_nil, ← ih]
      simp only [CastRace.step]; split <;> rfl
    | adv =>
      rw [show roomEvs [.adv] = [] from rfl, List.append_nil, ← ih]
      exact (CastRace.act_tab _ _).1

theorem wf_own (h : List Ev) : RoomRace.WF (run h).cast.tab ∧ RoomRace.Own (run h).cast.tab := by
  rw [run_cast, cast_tab]; exact RoomRace.wf_own _

theorem does_le (s : St) (e : Ev) : does s e = [] ∨ ∃ x, does s e = [x] := by
  cases e with
  | room e => simp only [does]; split <;> simp
  | connect i => exact .inr ⟨_, rfl⟩
  | disconnect i => exact .inr ⟨_, rfl⟩
  | shut i => exact .inl rfl
  | bulk a r x o => simp only [does]; split <;> simp
  | adv => simp only [does]; split <;> (try split) <;> simp

/-- Every moment of the history of the tables is one of the whole history. -/
theorem trace_prefix (q : List Ev) (s : St) (t₁ t₂ : List CastRace.Ev) (h : trace s q = t₁ ++ t₂) :
    ∃ q₁ q₂, q = q₁ ++ q₂ ∧ trace s q₁ = t₁ := by
  induction q generalizing s t₁ with
  | nil =>
    have : t₁ = [] := by
      have h' : ([] : List CastRace.Ev) = t₁ ++ t₂ := h
      exact (List.append_eq_nil_iff.1 h'.symm).1
    exact ⟨[], [], rfl, by rw [this]; rfl⟩
  | cons e q ih =>
    cases t₁ with
    | nil => exact ⟨[], e :: q, rfl, rfl⟩
    | cons x t =>
      simp only [trace] at h
      rcases does_le s e with hd | ⟨y, hd⟩
      · rw [hd, List.nil_append] at h
        obtain ⟨q₁, q₂, e1, e2⟩ := ih (step s e) (x :: t) h
        exact ⟨e :: q₁, q₂, by rw [e1]; rfl, by rw [trace, hd, e2]; rfl⟩
      · rw [hd] at h
        simp only [List.cons_append, List.nil_append, List.cons.injEq] at h
        obtain ⟨q₁, q₂, e1, e2⟩ := ih (step s e) t h.2
        exact ⟨e :: q₁, q₂, by rw [e1]; rfl, by rw [trace, hd, e2, h.1]; rfl⟩

theorem does_nocast (s : St) (e : Ev) (he : ∀ b r x o, e ≠ .bulk b r x o) (a b c : List Nat) : .cast a b c ∉ does s e := by
  cases e with
  | room e => simp only [does]; split <;> simp
  | connect i => simp [does]
  | disconnect i => simp [does]
  | shut i => simp [does]
  | bulk a r x o => exact absurd rfl (he a r x o)
  | adv => simp only [does]; split <;> (try split) <;> simp

theorem trace_nocast (q : List Ev) (s : St) (h : ∀ b r x o, .bulk b r x o ∉ q) (a b c : List Nat) : .cast a b c ∉ trace s q := by
  induction q generalizing s with
  | nil => simp [trace]
  | cons e q ih =>
    simp only [trace, List.mem_append, not_or]
    exact ⟨does_nocast s e (fun b r x o he => h b r x o (by simp [he])) a b c,
      ih _ fun b r x o hm => h b r x o (by simp [hm])⟩

theorem idle_iff (s : St) : s.idle = true ↔ s.cast.pc = .idle ∧ s.todo = [] ∧ (s.cast.tab.th 0).2 = .done := by
  simp [St.idle, and_assoc]

/-- The bulk call as a broadcast of `Model/CastRace`. -/
theorem whole_of {p : List Ev} {a : Act} {rooms except order : List Nat} {q : List Ev} (w : WholeBulk p a rooms except order q) :
    trace {} (p ++ .bulk a rooms except order :: q) =
      trace {} p ++ .cast rooms except order :: trace (run (p ++ [.bulk a rooms except order])) q ∧
    Whole (trace {} p) rooms except order (trace (run (p ++ [.bulk a rooms except order])) q) := by
  have hb := w.begins
  have e1 : ∀ q, trace {} (p ++ .bulk a rooms except order :: q) =
      trace {} p ++ .cast rooms except order :: trace (run (p ++ [.bulk a rooms except order])) q := by
    intro q
    rw [trace_append, trace]
    have hd : does (p.foldl step {}) (.bulk a rooms except order) = [.cast rooms except order] := by
      show does (run p) _ = _
      simp [does, hb]
    rw [hd, run_snoc]
    rfl
  refine ⟨e1 q, ⟨?_, ?_, fun x y z => trace_nocast q _ w.one x y z⟩⟩
  · rw [← run_cast]; exact ((idle_iff _).1 hb).1
  · rw [← e1 q, ← run_cast]; exact ((idle_iff _).1 w.ends).1

theorem whole_at {p : List Ev} {a : Act} {rooms except order : List Nat} (hb : (run p).idle = true) (q : List Ev) :
    (run (p ++ .bulk a rooms except order :: q)).cast =
      CastRace.run (trace {} p ++ .cast rooms except order :: trace (run (p ++ [.bulk a rooms except order])) q) := by
  rw [run_cast, trace_append, trace]
  have hd : does (p.foldl step {}) (.bulk a rooms except order) = [.cast rooms except order] := by
    show does (run p) _ = _
    simp [does, hb]
  rw [hd, run_snoc]
  rfl

/-- Induction over the time of the call. -/
theorem during_ind {p : List Ev} {a : Act} {rooms except order : List Nat} {q : List Ev} (ho : ∀ b r x o, .bulk b r x o ∉ q)
    {P : St → Prop} (hP : During p a rooms except order q P) (I : St → Prop)
    (h0 : I (step (run p) (.bulk a rooms except order)))
    (hs : ∀ s e, RoomRace.WF s.cast.tab → RoomRace.Own s.cast.tab → (∀ b r x o, e ≠ .bulk b r x o) → P s → P (step s e) → I s → I (step s e)) :
    I (run (p ++ .bulk a rooms except order :: q)) := by
  induction q using snocRec with
  | nil => rw [run_snoc]; exact h0
  | append_singleton q e ih =>
    have e1 : p ++ .bulk a rooms except order :: (q ++ [e]) = (p ++ .bulk a rooms except order :: q) ++ [e] := by simp
    have ih := ih (fun b r x o h => ho b r x o (by simp [h]))
      (fun q₁ q₂ h => hP q₁ (q₂ ++ [e]) (by rw [h, List.append_assoc]))
    have hP1 := hP q [e] rfl
    have hP2 := hP (q ++ [e]) [] (by simp)
    rw [e1] at hP2 ⊢
    rw [run_snoc] at hP2 ⊢
    obtain ⟨wf, o⟩ := wf_own (p ++ .bulk a rooms except order :: q)
    exact hs _ e wf o (fun b r x o h => ho b r x o (by simp [h])) hP1 hP2 ih

theorem bulk_start {s : St} (h : s.idle = true) (a : Act) (rooms except order : List Nat) :
    step s (.bulk a rooms except order) =
      { s with cast := { s.cast with pc := .x except rooms [], order := order, sent := [] }, act := a } := by
  simp [step, does, h, CastRace.step, ((idle_iff s).1 h).1]

/-- What one event does, seen from the bulk call: something in the tables, not by goroutine 0; a step of a call it made; the next call;
or the loop goes on, perhaps to the next socket. -/
inductive Kind (s : St) (e : Ev) : Prop
  /-- not the bulk call -/
  | other (h1 : (step s e).now = s.now) (h2 : (step s e).todo = s.todo) (h3 : (step s e).act = s.act)
      (h4 : (step s e).cast.sent = s.cast.sent)
      (h5 : (step s e).cast.tab = s.cast.tab ∨ ∃ x, (step s e).cast.tab = RoomRace.step s.cast.tab x ∧ ∀ k i c, x = .call k i c → k ≠ 0)
      (h6 : ∀ i c, .room (.call 0 i c) ∉ does s e)
  /-- the call for the socket -/
  | call (c : RoomRace.Call) (cs : List RoomRace.Call) (h0 : (s.cast.tab.th 0).2 = .done) (h2 : s.todo = c :: cs)
      (h2' : (step s e).todo = cs) (h1 : (step s e).now = s.now) (h3 : (step s e).act = s.act) (h4 : (step s e).cast.sent = s.cast.sent)
      (h5 : (step s e).cast.tab = RoomRace.step s.cast.tab (.call 0 s.now c)) (h6 : does s e = [.room (.call 0 s.now c)])
  /-- the next socket -/
  | next (id : Nat) (h0 : (s.cast.tab.th 0).2 = .done) (h2 : s.todo = []) (h4 : (step s e).cast.sent = s.cast.sent ++ [id])
      (h1 : (step s e).now = id) (h2' : (step s e).todo = s.act.calls (s.shut id)) (h3 : (step s e).act = s.act)
      (h5 : (step s e).cast.tab = s.cast.tab) (h6 : does s e = [.adv])

theorem kind (s : St) (e : Ev) (he : ∀ b r x o, e ≠ .bulk b r x o) : Kind s e := by
  cases e with
  | room x =>
    by_cases h : who x = 0
    · have hd : does s (.room x) = [] := by simp [does, h]
      have hc := step_cast s (.room x)
      rw [hd] at hc
      exact .other rfl rfl rfl (by rw [hc]; rfl) (.inl (by rw [hc]; rfl)) (by rw [hd]; simp)
    · have hd : does s (.room x) = [.room x] := by simp [does, h]
      have hc := step_cast s (.room x)
      rw [hd] at hc
      refine .other rfl rfl rfl (by rw [hc]; rfl) (.inr ⟨x, by rw [hc]; rfl, ?_⟩) ?_
      · intro k i c e hk; subst e; subst hk; exact h rfl
      · intro i c hm
        rw [hd] at hm
        simp only [List.mem_singleton, CastRace.Ev.room.injEq] at hm
        subst hm
        exact h rfl
  | connect i => exact .other rfl rfl rfl rfl (.inl rfl) (by simp [does])
  | disconnect i => exact .other rfl rfl rfl rfl (.inl rfl) (by simp [does])
  | shut i => exact .other rfl rfl rfl rfl (.inl rfl) (by simp [does])
  | bulk a r x o => exact absurd rfl (he a r x o)
  | adv =>
    have hc := step_cast s .adv
    by_cases h0 : (s.cast.tab.th 0).2 = .done
    · cases ht : s.todo with
      | cons c cs =>
        have hd : does s .adv = [.room (.call 0 s.now c)] := by simp [does, h0, ht]
        rw [hd] at hc
        have hs : step s .adv = { s with cast := (does s .adv).foldl CastRace.step s.cast, todo := cs } := by
          simp [step, h0, ht]
        exact .call c cs h0 ht (by rw [hs]) (by rw [hs]) (by rw [hs]) (by rw [hc]; rfl) (by rw [hc]; rfl) hd
      | nil =>
        have hd : does s .adv = [.adv] := by simp [does, h0, ht]
        rw [hd] at hc
        have hc' : (step s .adv).cast = CastRace.step s.cast .adv := hc
        have htab : (step s .adv).cast.tab = s.cast.tab := by rw [hc']; exact (CastRace.act_tab _ _).1
        rcases CastRace.sent_step s.cast .adv (by simp) with h | ⟨_, id, h⟩
        · have hr : reached s.cast (CastRace.step s.cast .adv) = none := by simp [reached, h]
          have hs : step s .adv = { s with cast := CastRace.step s.cast .adv } := by
            simp only [step, hd, List.foldl_cons, List.foldl_nil, hr, h0, ht]
            simp
          exact .other (by rw [hs]) (by rw [hs]) (by rw [hs]) (by rw [hs]; exact h) (.inl htab) (by rw [hd]; simp)
        · have hr : reached s.cast (CastRace.step s.cast .adv) = some id := by simp [reached, h]
          have hs : step s .adv = { s with cast := CastRace.step s.cast .adv, now := id, todo := s.act.calls (s.shut id) } := by
            simp only [step, hd, List.foldl_cons, List.foldl_nil, hr, h0, ht]
            simp
          exact .next id h0 ht (by rw [hs]; exact h) (by rw [hs]) (by rw [hs]) (by rw [hs]) htab hd
    · have hd : does s .adv = [.room (.adv 0)] := by simp [does, h0]
      rw [hd] at hc
      have hs : step s .adv = { s with cast := (does s .adv).foldl CastRace.step s.cast } := by simp [step, h0]
      exact .other (by rw [hs]) (by rw [hs]) (by rw [hs]) (by rw [hc]; rfl) (.inr ⟨.adv 0, by rw [hc]; rfl, by simp⟩) (by rw [hd]; simp)

/-! ### Nobody twice -/

theorem once_nodup {s : CastRace.St} (h : CastRaceLoop.Once s) : s.sent.Nodup := by
  unfold CastRaceLoop.Once at h
  split at h
  all_goals first | (rw [h]; exact List.nodup_nil) | exact h.2 | exact h.2.1 | exact h.1 | exact h

theorem once_foldl {s : CastRace.St} (l : List CastRace.Ev) (hl : ∀ a b c, .cast a b c ∉ l) (h : CastRaceLoop.Once s) :
    CastRaceLoop.Once (l.foldl CastRace.step s) := by
  induction l generalizing s with
  | nil => exact h
  | cons e l ih =>
    exact ih (fun a b c hm => hl a b c (by simp [hm])) (CastRaceLoop.once_step e (fun a b c he => hl a b c (by simp [he])) h)

theorem once_bulk {s : St} (e : Ev) (he : ∀ b r x o, e ≠ .bulk b r x o) (h : CastRaceLoop.Once s.cast) :
    CastRaceLoop.Once (step s e).cast := by
  rw [step_cast]; exact once_foldl _ (does_nocast s e he) h

/-! ### The calls that are made -/

/-- The calls of goroutine 0 for socket `id`. -/
def mine (id : Nat) (l : List CastRace.Ev) : List RoomRace.Call := l.filterMap fun e => match e with
  | .room (.call k i c) => if k = 0 ∧ i = id then some c else none
  | _ => none

theorem mine_append (id : Nat) (l m : List CastRace.Ev) : mine id (l ++ m) = mine id l ++ mine id m := List.filterMap_append

theorem mine_none {id : Nat} {l : List CastRace.Ev} (h : ∀ i c, .room (.call 0 i c) ∉ l) : mine id l = [] := by
  unfold mine
  rw [List.filterMap_eq_nil_iff]
  intro e he
  split
  · next k i c =>
    split
    · next hk => obtain ⟨rfl, rfl⟩ := hk; exact absurd he (h _ _)
    · rfl
  · rfl

/-- The calls made so far and those to be made, for one socket. -/
structure Made (a : Act) (id : Nat) (s : St) (m : List RoomRace.Call) : Prop where
  act : s.act = a
  once : CastRaceLoop.Once s.cast
  now : s.todo ≠ [] → s.now ∈ s.cast.sent
  before : id ∉ s.cast.sent → m = []
  after : id ∈ s.cast.sent → m ++ (if s.now = id then s.todo else []) = wanted a

theorem made_step {a : Act} {id : Nat} {s : St} {m : List RoomRace.Call} (e : Ev) (he : ∀ b r x o, e ≠ .bulk b r x o)
    (hs : (∃ rs, a = .leave rs) ∨ s.shut id = false) (h : Made a id s m) : Made a id (step s e) (m ++ mine id (does s e)) := by
  have ho := once_bulk e he h.once
  cases kind s e he with
  | other h1 h2 h3 h4 h5 h6 =>
    rw [mine_none h6, List.append_nil]
    exact ⟨by rw [h3]; exact h.act, ho, by rw [h1, h2, h4]; exact h.now, by rw [h4]; exact h.before, by rw [h1, h2, h4]; exact h.after⟩
  | call c cs h0 h2 h2' h1 h3 h4 h5 h6 =>
    have hnow : s.now ∈ s.cast.sent := h.now (by rw [h2]; simp)
    rw [h6]
    refine ⟨by rw [h3]; exact h.act, ho, fun _ => by rw [h1, h4]; exact hnow, ?_, ?_⟩
    · rw [h4]
      intro hn
      have hne : s.now ≠ id := by rintro rfl; exact hn hnow
      rw [h.before hn]
      simp [mine, hne]
    · rw [h1, h2', h4]
      intro hm
      have := h.after hm
      rw [h2] at this
      by_cases hn : s.now = id
      · rw [if_pos hn] at this ⊢
        rw [← this]
        simp [mine, hn]
      · rw [if_neg hn] at this ⊢
        rw [← this]
        simp [mine, hn]
  | next i h0 h2 h4 h1 h2' h3 h5 h6 =>
    have hmine : mine id (does s e) = [] := by rw [h6]; rfl
    rw [hmine, List.append_nil]
    have hni : i ∉ s.cast.sent := by
      have := once_nodup ho
      rw [h4, List.nodup_append] at this
      exact fun hm => this.2.2 i hm i (by simp) rfl
    refine ⟨by rw [h3]; exact h.act, ho, fun _ => by rw [h1, h4]; simp, ?_, ?_⟩
    · rw [h4]
      exact fun hn => h.before fun hm => hn (by simp [hm])
    · rw [h1, h2', h4]
      intro hm
      by_cases hi : i = id
      · subst hi
        rw [h.before hni, if_pos rfl, h.act]
        rcases hs with ⟨rs, rfl⟩ | hs
        · rfl
        · rw [hs]; cases a <;> rfl
      · have hm' : id ∈ s.cast.sent := by
          rcases List.mem_append.1 hm with h | h
          · exact h
          · exact absurd (List.mem_singleton.1 h).symm hi
        have := h.after hm'
        rw [h2] at this
        rw [if_neg hi]
        simpa using this

theorem callsFor_snoc (id : Nat) (p : List Ev) (a : Act) (rooms except order : List Nat) (q : List Ev) (e : Ev) :
    callsFor id p a rooms except order (q ++ [e]) =
      callsFor id p a rooms except order q ++ mine id (does (run (p ++ .bulk a rooms except order :: q)) e) := by
  show mine id (trace _ (q ++ [e])) = mine id (trace _ q) ++ _
  rw [trace_append, mine_append]
  have : List.foldl step (run (p ++ [.bulk a rooms except order])) q = run (p ++ .bulk a rooms except order :: q) := by
    simp [run]
  rw [this]
  simp [trace]

theorem made_run {p : List Ev} {a : Act} {rooms except order : List Nat} (hb : (run p).idle = true) (q : List Ev)
    (ho : ∀ b r x o, .bulk b r x o ∉ q) (id : Nat)
    (hs : (∃ rs, a = .leave rs) ∨ During p a rooms except order q (fun s => s.shut id = false)) :
    Made a id (run (p ++ .bulk a rooms except order :: q)) (callsFor id p a rooms except order q) := by
  induction q using snocRec with
  | nil =>
    rw [run_snoc, bulk_start hb]
    have ht := ((idle_iff _).1 hb).2.1
    exact ⟨rfl, rfl, fun h => absurd ht h, fun _ => rfl, by simp⟩
  | append_singleton q e ih =>
    have e1 : p ++ .bulk a rooms except order :: (q ++ [e]) = (p ++ .bulk a rooms except order :: q) ++ [e] := by simp
    have ih := ih (fun b r x o h => ho b r x o (by simp [h])) (hs.imp (fun h => h)
      fun hP q₁ q₂ h => hP q₁ (q₂ ++ [e]) (by rw [h, List.append_assoc]))
    rw [e1, run_snoc]
    rw [callsFor_snoc]
    exact made_step e (fun b r x o h => ho b r x o (by simp [h])) (hs.imp (fun h => h) fun hP => hP q [e] rfl) ih

/-- No call is made that makes a socket join that cannot join. -/
structure Refused (rs : List Nat) (id : Nat) (s : St) (m : List RoomRace.Call) : Prop where
  act : s.act = .join rs
  none : m = []
  now : s.now = id → s.todo = []

theorem refused_step {rs : List Nat} {id : Nat} {s : St} {m : List RoomRace.Call} (e : Ev) (he : ∀ b r x o, e ≠ .bulk b r x o)
    (hs : s.shut id = true) (h : Refused rs id s m) : Refused rs id (step s e) (m ++ mine id (does s e)) := by
  cases kind s e he with
  | other h1 h2 h3 h4 h5 h6 =>
    rw [mine_none h6, List.append_nil]
    exact ⟨by rw [h3]; exact h.act, h.none, by rw [h1, h2]; exact h.now⟩
  | call c cs h0 h2 h2' h1 h3 h4 h5 h6 =>
    have hne : s.now ≠ id := fun hn => by rw [h.now hn] at h2; cases h2
    rw [h6]
    exact ⟨by rw [h3]; exact h.act, by rw [h.none]; simp [mine, hne], fun hn => absurd (by rw [← h1]; exact hn) hne⟩
  | next i h0 h2 h4 h1 h2' h3 h5 h6 =>
    have hmine : mine id (does s e) = [] := by rw [h6]; rfl
    rw [hmine, List.append_nil]
    refine ⟨by rw [h3]; exact h.act, h.none, ?_⟩
    rw [h1, h2', h.act]
    intro hi
    rw [hi, hs]; rfl

theorem refused_run {p : List Ev} {rs : List Nat} {rooms except order : List Nat} (hb : (run p).idle = true) (q : List Ev)
    (ho : ∀ b r x o, .bulk b r x o ∉ q) (id : Nat) (hs : During p (.join rs) rooms except order q (fun s => s.shut id = true)) :
    Refused rs id (run (p ++ .bulk (.join rs) rooms except order :: q)) (callsFor id p (.join rs) rooms except order q) := by
  induction q using snocRec with
  | nil =>
    rw [run_snoc, bulk_start hb]
    have ht := ((idle_iff _).1 hb).2.1
    exact ⟨rfl, rfl, fun _ => ht⟩
  | append_singleton q e ih =>
    have e1 : p ++ .bulk (.join rs) rooms except order :: (q ++ [e]) = (p ++ .bulk (.join rs) rooms except order :: q) ++ [e] := by simp
    have ih := ih (fun b r x o h => ho b r x o (by simp [h])) fun q₁ q₂ h => hs q₁ (q₂ ++ [e]) (by rw [h, List.append_assoc])
    rw [e1, run_snoc, callsFor_snoc]
    exact refused_step e (fun b r x o h => ho b r x o (by simp [h])) (hs q [e] rfl) ih

/-- No call is made for a socket the loop does not come to. -/
structure Passed (id : Nat) (s : St) (m : List RoomRace.Call) : Prop where
  now : s.todo ≠ [] → s.now ∈ s.cast.sent
  before : id ∉ s.cast.sent → m = []

theorem passed_step {id : Nat} {s : St} {m : List RoomRace.Call} (e : Ev) (he : ∀ b r x o, e ≠ .bulk b r x o)
    (h : Passed id s m) : Passed id (step s e) (m ++ mine id (does s e)) := by
  cases kind s e he with
  | other h1 h2 h3 h4 h5 h6 =>
    rw [mine_none h6, List.append_nil]
    exact ⟨by rw [h1, h2, h4]; exact h.now, by rw [h4]; exact h.before⟩
  | call c cs h0 h2 h2' h1 h3 h4 h5 h6 =>
    have hnow : s.now ∈ s.cast.sent := h.now (by rw [h2]; simp)
    rw [h6]
    refine ⟨fun _ => by rw [h1, h4]; exact hnow, ?_⟩
    rw [h4]
    intro hn
    have hne : s.now ≠ id := by rintro rfl; exact hn hnow
    rw [h.before hn]
    simp [mine, hne]
  | next i h0 h2 h4 h1 h2' h3 h5 h6 =>
    have hmine : mine id (does s e) = [] := by rw [h6]; rfl
    rw [hmine, List.append_nil]
    refine ⟨fun _ => by rw [h1, h4]; simp, ?_⟩
    rw [h4]
    exact fun hn => h.before fun hm => hn (by simp [hm])

theorem none_run {p : List Ev} {a : Act} {rooms except order : List Nat} (hb : (run p).idle = true) (q : List Ev)
    (ho : ∀ b r x o, .bulk b r x o ∉ q) (id : Nat) (hn : id ∉ (run (p ++ .bulk a rooms except order :: q)).cast.sent) :
    callsFor id p a rooms except order q = [] := by
  suffices h : Passed id (run (p ++ .bulk a rooms except order :: q)) (callsFor id p a rooms except order q) from h.before hn
  clear hn
  induction q using snocRec with
  | nil =>
    rw [run_snoc, bulk_start hb]
    have ht := ((idle_iff _).1 hb).2.1
    exact ⟨fun h => absurd ht h, fun _ => rfl⟩
  | append_singleton q e ih =>
    have e1 : p ++ .bulk a rooms except order :: (q ++ [e]) = (p ++ .bulk a rooms except order :: q) ++ [e] := by simp
    rw [e1, run_snoc, callsFor_snoc]
    exact passed_step e (fun b r x o h => ho b r x o (by simp [h])) (ih fun b r x o h => ho b r x o (by simp [h]))

/-! ### What has become of the socket -/

/-- `SocketsJoin`: the loop has not come to the socket, or the call is to be made, or it was made. -/
def Join (rs : List Nat) (id g : Nat) (s : St) : Prop :=
  s.act = .join rs ∧ (s.todo ≠ [] → s.now ∈ s.cast.sent) ∧
  (id ∈ s.cast.sent → (s.now = id ∧ s.todo = [.join rs]) ∨ RoomRace.Entering s.cast.tab 0 id g)

theorem join_step {rs : List Nat} {id g : Nat} {s : St} (wf : RoomRace.WF s.cast.tab) (o : RoomRace.Own s.cast.tab) (e : Ev)
    (he : ∀ b r x o, e ≠ .bulk b r x o) (hg : g ∈ rs) (hs : s.shut id = false)
    (hl : ∀ j, (s.cast.tab.th j).1 = id → mayLeave g (s.cast.tab.th j).2 = false)
    (hd : (step s e).cast.tab.deleted ≠ s.cast.tab.deleted ++ [g]) (h : Join rs id g s) : Join rs id g (step s e) := by
  obtain ⟨ha, hn, h⟩ := h
  cases kind s e he with
  | other h1 h2 h3 h4 h5 h6 =>
    refine ⟨by rw [h3]; exact ha, by rw [h1, h2, h4]; exact hn, fun hm => ?_⟩
    rw [h4] at hm
    rcases h hm with h | h
    · exact .inl ⟨by rw [h1]; exact h.1, by rw [h2]; exact h.2⟩
    · rcases h5 with h5 | ⟨x, h5, _⟩
      · rw [h5]; exact .inr h
      · rw [h5] at hd ⊢
        exact .inr (RoomRace.entering_step wf o x hl hd h)
  | call c cs h0 h2 h2' h1 h3 h4 h5 h6 =>
    refine ⟨by rw [h3]; exact ha, fun _ => by rw [h1, h4]; exact hn (by rw [h2]; simp), fun hm => ?_⟩
    rw [h4] at hm
    rw [h5] at hd ⊢
    rcases h hm with ⟨hnow, h⟩ | h
    · rw [h2] at h
      cases h
      refine .inr (.inl ?_)
      simp only [RoomRace.step, h0, if_true, upd_same]
      exact ⟨hnow, hg⟩
    · exact .inr (RoomRace.entering_step wf o _ hl hd h)
  | next i h0 h2 h4 h1 h2' h3 h5 h6 =>
    refine ⟨by rw [h3]; exact ha, fun _ => by rw [h1, h4]; simp, fun hm => ?_⟩
    rw [h4] at hm
    rw [h5]
    by_cases hm' : id ∈ s.cast.sent
    · rcases h hm' with ⟨_, h⟩ | h
      · rw [h2] at h; cases h
      · exact .inr h
    · have hi : id = i := by
        rcases List.mem_append.1 hm with h | h
        · exact absurd h hm'
        · exact List.mem_singleton.1 h
      subst hi
      exact .inl ⟨h1, by rw [h2', ha, hs]; rfl⟩

/-- The same for `SocketsLeave` and one of its rooms. -/
def Leave (rs : List Nat) (id g : Nat) (s : St) : Prop :=
  s.act = .leave rs ∧ (s.todo ≠ [] → s.now ∈ s.cast.sent) ∧
  (id ∈ s.cast.sent → (s.now = id ∧ .leave g ∈ s.todo) ∨ RoomRace.Leaving s.cast.tab 0 id g)

theorem leave_step {rs : List Nat} {id g : Nat} {s : St} (wf : RoomRace.WF s.cast.tab) (o : RoomRace.Own s.cast.tab) (e : Ev)
    (he : ∀ b r x o, e ≠ .bulk b r x o) (hg : g ∈ rs)
    (hl : ∀ j, (s.cast.tab.th j).1 = id → g ∉ joining (s.cast.tab.th j).2)
    (h : Leave rs id g s) : Leave rs id g (step s e) := by
  obtain ⟨ha, hn, h⟩ := h
  cases kind s e he with
  | other h1 h2 h3 h4 h5 h6 =>
    refine ⟨by rw [h3]; exact ha, by rw [h1, h2, h4]; exact hn, fun hm => ?_⟩
    rw [h4] at hm
    rcases h hm with h | h
    · exact .inl ⟨by rw [h1]; exact h.1, by rw [h2]; exact h.2⟩
    · rcases h5 with h5 | ⟨x, h5, _⟩
      · rw [h5]; exact .inr h
      · rw [h5]
        exact .inr (RoomRace.leaving_step wf o x hl h)
  | call c cs h0 h2 h2' h1 h3 h4 h5 h6 =>
    refine ⟨by rw [h3]; exact ha, fun _ => by rw [h1, h4]; exact hn (by rw [h2]; simp), fun hm => ?_⟩
    rw [h4] at hm
    rw [h5]
    rcases h hm with ⟨hnow, h⟩ | h
    · rw [h2] at h
      rcases List.mem_cons.1 h with rfl | h
      · refine .inr (.inl ?_)
        simp only [RoomRace.step, h0, if_true, upd_same]
        exact ⟨hnow, rfl⟩
      · exact .inl ⟨by rw [h1]; exact hnow, by rw [h2']; exact h⟩
    · exact .inr (RoomRace.leaving_step wf o _ hl h)
  | next i h0 h2 h4 h1 h2' h3 h5 h6 =>
    refine ⟨by rw [h3]; exact ha, fun _ => by rw [h1, h4]; simp, fun hm => ?_⟩
    rw [h4] at hm
    rw [h5]
    by_cases hm' : id ∈ s.cast.sent
    · rcases h hm' with ⟨_, h⟩ | h
      · rw [h2] at h; cases h
      · exact .inr h
    · have hi : id = i := by
        rcases List.mem_append.1 hm with h | h
        · exact absurd h hm'
        · exact List.mem_singleton.1 h
      subst hi
      refine .inl ⟨h1, ?_⟩
      rw [h2', ha]
      simp only [Act.calls, List.mem_map]
      exact ⟨g, hg, rfl⟩

end Verif.BulkRace
