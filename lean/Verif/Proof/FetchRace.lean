import Verif.Spec.FetchRace
import Verif.Proof.BulkRace
import Verif.Proof.Returns

namespace Verif.FetchRace
open Verif Verif.Spec Verif.World

theorem run_snoc (h : List Ev) (e : Ev) : run (h ++ [e]) = step (run h) e := by simp [run]

theorem step_cast (s : St) (e : Ev) : (step s e).cast = (does s e).foldl CastRace.step s.cast := rfl

theorem foldl_cast (h : List Ev) (s : St) : (h.foldl step s).cast = (trace s h).foldl CastRace.step s.cast := by
  induction h generalizing s with
  | nil => rfl
  | cons e h ih => rw [List.foldl_cons, ih, trace, List.foldl_append, step_cast]

theorem trace_append (h l : List Ev) (s : St) : trace s (h ++ l) = trace s h ++ trace (h.foldl step s) l := by
  induction h generalizing s with
  | nil => rfl
  | cons e h ih => simp only [List.cons_append, trace, ih, List.foldl_cons, List.append_assoc]

theorem run_cast (h : List Ev) : (run h).cast = CastRace.run (trace {} h) := foldl_cast h {}

theorem wf_own (h : List Ev) : RoomRace.WF (run h).cast.tab ∧ RoomRace.Own (run h).cast.tab := by
  rw [run_cast, BulkRace.cast_tab]; exact RoomRace.wf_own _

theorem does_le (s : St) (e : Ev) : does s e = [] ∨ ∃ x, does s e = [x] := by
  cases e <;> simp only [does] <;> (try split) <;> simp

/-- Every moment of the history of the tables is one of the whole history. -/
theorem trace_prefix (q : List Ev) (s : St) (t₁ t₂ : List CastRace.Ev) (h : trace s q = t₁ ++ t₂) :
    ∃ q₁ q₂, q = q₁ ++ q₂ ∧ trace s q₁ = t₁ := by
  induction q generalizing s t₁ with
  | nil =>
    have : t₁ = [] := by
      have h' : ([] : List CastRace.Ev) = t₁ ++ t₂ := h
      exact (List.append_eq_nil_iff.1 h'.symm).1
    exact ⟨[], [], rfl, by rw [this]; rfl⟩
  | cons e q ih =>
    cases t₁ with
    | nil => exact ⟨[], e :: q, rfl, rfl⟩
    | cons x t =>
      simp only [trace] at h
      rcases does_le s e with hd | ⟨y, hd⟩
      · rw [hd, List.nil_append] at h
        obtain ⟨q₁, q₂, e1, e2⟩ := ih (step s e) (x :: t) h
        exact ⟨e :: q₁, q₂, by rw [e1]; rfl, by rw [trace, hd, e2]; rfl⟩
      · rw [hd] at h
        simp only [List.cons_append, List.nil_append, List.cons.injEq] at h
        obtain ⟨q₁, q₂, e1, e2⟩ := ih (step s e) t h.2
        exact ⟨e :: q₁, q₂, by rw [e1]; rfl, by rw [trace, hd, e2, h.1]; rfl⟩

theorem does_nocast (s : St) (e : Ev) (he : ∀ r x o, e ≠ .fetch r x o) (a b c : List Nat) : .cast a b c ∉ does s e := by
  cases e with
  | fetch r x o => exact absurd rfl (he r x o)
  | _ => simp only [does] <;> (try split) <;> simp

theorem trace_nocast (q : List Ev) (s : St) (h : ∀ r x o, .fetch r x o ∉ q) (a b c : List Nat) : .cast a b c ∉ trace s q := by
  induction q generalizing s with
  | nil => simp [trace]
  | cons e q ih =>
    simp only [trace, List.mem_append, not_or]
    exact ⟨does_nocast s e (fun r x o he => h r x o (by simp [he])) a b c,
      ih _ fun r x o hm => h r x o (by simp [hm])⟩

theorem cast_other_pc (c : CastRace.St) (e : CastRace.Ev) (h1 : e ≠ .adv) (h2 : ∀ r x o, e ≠ .cast r x o) :
    (CastRace.step c e).pc = c.pc ∧ (CastRace.step c e).sent = c.sent := by
  cases e with
  | adv => exact absurd rfl h1
  | cast r x o => exact absurd rfl (h2 r x o)
  | _ => exact ⟨rfl, rfl⟩

/-- What is not a step of the call. -/
theorem quiet_step (s : St) (e : Ev) (h1 : e ≠ .adv) (h2 : ∀ r x o, e ≠ .fetch r x o) :
    (step s e).pc = s.pc ∧ (step s e).result = s.result ∧ (step s e).cast.pc = s.cast.pc ∧ (step s e).cast.sent = s.cast.sent ∧
      ((step s e).cast.tab = s.cast.tab ∨ ∃ x, (step s e).cast.tab = RoomRace.step s.cast.tab x) := by
  cases e with
  | adv => exact absurd rfl h1
  | fetch r x o => exact absurd rfl (h2 r x o)
  | room x => exact ⟨rfl, rfl, rfl, rfl, .inr ⟨x, rfl⟩⟩
  | _ => exact ⟨rfl, rfl, rfl, rfl, .inl rfl⟩

/-- The call is in the loop when it is. -/
def InStep (s : St) : Prop := s.pc = .loop ↔ s.cast.pc ≠ .idle

theorem inStep_step {s : St} (e : Ev) (h : InStep s) : InStep (step s e) := by
  unfold InStep at *
  cases e with
  | fetch r x o =>
    by_cases hp : s.pc = .idle
    · have hc : s.cast.pc = .idle := Classical.byContradiction fun hc => by rw [h.2 hc] at hp; cases hp
      simp [step, does, other, hp, CastRace.step, hc]
    · simp [step, does, other, hp, h]
  | adv =>
    cases hp : s.pc with
    | idle => simp only [hp] at h; simp [step, does, other, hp]; simpa using h
    | loop =>
      by_cases hc : (CastRace.step s.cast .adv).pc = .idle <;> simp [step, does, other, hp, hc]
    | wrap l =>
      simp only [hp] at h
      cases l with
      | nil => simp [step, does, other, hp]; simpa using h
      | cons id l => cases hx : s.cast.tab.sids id <;> simp [step, does, other, hp, hx] <;> simpa using h
    | keys id x l => simp only [hp] at h; simp [step, does, other, hp]; simpa using h
  | _ => exact h

theorem inStep_run (h : List Ev) : InStep (run h) := by
  induction h using snocRec with
  | nil => simp [InStep, run]
  | append_singleton h e ih => rw [run_snoc]; exact inStep_step e ih

theorem idle_cast {h : List Ev} (hi : (run h).pc = .idle) : (run h).cast.pc = .idle :=
  Classical.byContradiction fun hc => by have := (inStep_run h).2 hc; rw [hi] at this; cases this

theorem whole_at {p : List Ev} {rooms except order : List Nat} (hb : (run p).pc = .idle) (q : List Ev) :
    (run (p ++ .fetch rooms except order :: q)).cast =
      CastRace.run (trace {} p ++ .cast rooms except order :: trace (run (p ++ [.fetch rooms except order])) q) := by
  rw [run_cast, trace_append, trace]
  have hd : does (p.foldl step {}) (.fetch rooms except order) = [.cast rooms except order] := by
    show does (run p) _ = _
    simp [does, hb]
  rw [hd, run_snoc]
  rfl

/-- The call as a broadcast of `Model/CastRace`. -/
theorem whole_of {p : List Ev} {rooms except order : List Nat} {q : List Ev} (w : WholeFetch p rooms except order q) :
    Whole (trace {} p) rooms except order (trace (run (p ++ [.fetch rooms except order])) q) := by
  refine ⟨?_, ?_, fun x y z => trace_nocast q _ w.one x y z⟩
  · rw [← run_cast]; exact idle_cast w.begins
  · rw [← whole_at w.begins]; exact idle_cast w.ends

theorem fetch_start {s : St} (h : s.pc = .idle) (hc : s.cast.pc = .idle) (rooms except order : List Nat) :
    step s (.fetch rooms except order) =
      { s with cast := { s.cast with pc := .x except rooms [], order := order, sent := [] }, pc := .loop, result := [] } := by
  simp [step, does, other, h, CastRace.step, hc]

/-- Induction over the time of the call. -/
theorem while_ind {p : List Ev} {rooms except order : List Nat} {q : List Ev} (hb : (run p).pc = .idle) (ho : ∀ r x o, .fetch r x o ∉ q)
    {P : St → Prop} (hP : WhileFetching p rooms except order q P) (I : List Ev → St → Prop)
    (h0 : I [] { run p with cast := { (run p).cast with pc := .x except rooms [], order := order, sent := [] }, pc := .loop, result := [] })
    (hs : ∀ q₁ q₂ e, q = q₁ ++ e :: q₂ → RoomRace.WF (fetched p rooms except order q₁).cast.tab →
      RoomRace.Own (fetched p rooms except order q₁).cast.tab → (∀ r x o, e ≠ .fetch r x o) →
      P (fetched p rooms except order q₁) → P (step (fetched p rooms except order q₁) e) → I q₁ (fetched p rooms except order q₁) →
      I (q₁ ++ [e]) (step (fetched p rooms except order q₁) e)) :
    I q (fetched p rooms except order q) := by
  induction q using snocRec with
  | nil => unfold fetched; rw [run_snoc, fetch_start hb (idle_cast hb)]; exact h0
  | append_singleton q e ih =>
    have e1 : p ++ .fetch rooms except order :: (q ++ [e]) = (p ++ .fetch rooms except order :: q) ++ [e] := by simp
    have ih := ih (fun r x o h => ho r x o (by simp [h]))
      (fun q₁ q₂ h => hP q₁ (q₂ ++ [e]) (by rw [h, List.append_assoc]))
      (fun q₁ q₂ e' h => hs q₁ (q₂ ++ [e]) e' (by rw [h]; simp))
    have hP1 := hP q [e] rfl
    have hP2 := hP (q ++ [e]) [] (by simp)
    obtain ⟨wf, o⟩ := wf_own (p ++ .fetch rooms except order :: q)
    have e2 : fetched p rooms except order (q ++ [e]) = step (fetched p rooms except order q) e := by
      unfold fetched; rw [e1, run_snoc]
    rw [e2] at hP2 ⊢
    exact hs q [] e rfl wf o (fun r x o h => ho r x o (by simp [h])) hP1 hP2 ih

/-- What one event does, seen from the call. -/
inductive Kind (s : St) (e : Ev) : Prop
  /-- not a step of the call -/
  | other (h1 : (step s e).pc = s.pc) (h2 : (step s e).result = s.result) (h3 : (step s e).cast.sent = s.cast.sent)
      (h4 : (step s e).cast.tab = s.cast.tab ∨ ∃ x, (step s e).cast.tab = RoomRace.step s.cast.tab x)
  /-- the loop -/
  | loop (h0 : s.pc = .loop) (h1 : (step s e).pc = .loop) (h2 : (step s e).result = s.result) (h4 : (step s e).cast.tab = s.cast.tab)
  /-- its end -/
  | over (h0 : s.pc = .loop) (h1 : (step s e).pc = .wrap (step s e).cast.sent) (h2 : (step s e).result = s.result)
      (h4 : (step s e).cast.tab = s.cast.tab)
  /-- the call returns -/
  | ret (h0 : s.pc = .wrap []) (h1 : step s e = { s with pc := .idle })
  /-- the rooms of the next socket are loaded -/
  | load (id x : Nat) (todo : List Nat) (h0 : s.pc = .wrap (id :: todo)) (h1 : s.cast.tab.sids id = some x)
      (h2 : step s e = { s with pc := .keys id x todo })
  /-- it has none -/
  | none (id : Nat) (todo : List Nat) (h0 : s.pc = .wrap (id :: todo)) (h1 : s.cast.tab.sids id = none)
      (h2 : step s e = { s with pc := .wrap todo, result := s.result ++ [(id, [])] })
  /-- they are copied -/
  | copy (id x : Nat) (todo : List Nat) (h0 : s.pc = .keys id x todo)
      (h2 : step s e = { s with pc := .wrap todo, result := s.result ++ [(id, s.cast.tab.sset x)] })

theorem kind (s : St) (e : Ev) (he : ∀ r x o, e ≠ .fetch r x o) : Kind s e := by
  by_cases ha : e = .adv
  · subst ha
    cases hp : s.pc with
    | idle => exact .other (by simp [step, other, hp]) (by simp [step, other, hp]) (by simp [step, does, hp]) (.inl (by simp [step, does, hp]))
    | loop =>
      have htab := (CastRace.act_tab s.cast s.cast.pc).1
      by_cases hc : (CastRace.step s.cast .adv).pc = .idle
      · exact .over hp (by simp [step, does, other, hp, hc]) (by simp [step, does, other, hp, hc])
          (by simp [step, does, hp]; exact htab)
      · exact .loop hp (by simp [step, does, other, hp, hc]) (by simp [step, does, other, hp, hc])
          (by simp [step, does, hp]; exact htab)
    | wrap l =>
      cases l with
      | nil => exact .ret hp (by simp [step, does, other, hp])
      | cons id l =>
        cases hx : s.cast.tab.sids id with
        | none => exact .none id l hp hx (by simp [step, does, other, hp, hx])
        | some x => exact .load id x l hp hx (by simp [step, does, other, hp, hx])
    | keys id x l => exact .copy id x l hp (by simp [step, does, other, hp])
  · obtain ⟨h1, h2, _, h3, h4⟩ := quiet_step s e ha he
    exact .other h1 h2 h3 h4

/-- Of which sockets remote sockets have been made. -/
def Made (s : St) : Prop :=
  match s.pc with
  | .loop => s.result = []
  | .idle => s.result.map (·.1) = s.cast.sent
  | .wrap todo => s.result.map (·.1) ++ todo = s.cast.sent
  | .keys id _ todo => s.result.map (·.1) ++ id :: todo = s.cast.sent

theorem made_step {s : St} (e : Ev) (he : ∀ r x o, e ≠ .fetch r x o) (h : Made s) : Made (step s e) := by
  unfold Made at *
  cases kind s e he with
  | other h1 h2 h3 _ => rw [h1, h2, h3]; exact h
  | loop h0 h1 h2 _ => rw [h0] at h; rw [h1, h2]; exact h
  | over h0 h1 h2 _ => rw [h0] at h; rw [h1, h2, h]; simp
  | ret h0 h1 => rw [h0] at h; rw [h1]; simpa using h
  | load id x l h0 h1 h2 => rw [h0] at h; rw [h2]; exact h
  | none id l h0 h1 h2 => rw [h0] at h; rw [h2]; simpa using h
  | copy id x l h0 h2 => rw [h0] at h; rw [h2]; simpa using h

/-- A socket loses its set of rooms only at the end of a call that leaves all rooms. -/
theorem act_sid_gone (s : RoomRace.St) (i : Nat) (pc : RoomRace.PC) {id x : Nat} (h : s.sids id = some x) :
    (RoomRace.act s i pc).1.sids id = some x ∨ ((RoomRace.act s i pc).1.sids id = none ∧ i = id ∧ leavingAll pc = true) := by
  cases pc with
  | a0 => simp only [RoomRace.act]; split <;> exact .inl h
  | a1 x => exact .inl h
  | a2 l =>
    cases l with
    | nil =>
      by_cases e : id = i
      · subst e; exact .inr ⟨by simp [RoomRace.act], rfl, rfl⟩
      · exact .inl (by simp only [RoomRace.act, upd_ne _ _ e]; exact h)
    | cons => exact .inl h
  | e2 r l => simp only [RoomRace.act]; split <;> exact .inl h
  | e3 r t l => exact .inl h
  | e4 r t l => exact .inl h
  | e5 r l => exact .inl (by show (RoomRace.loadAndDelete s r).sids id = _; rw [(RoomRace.load_same s r).1]; exact h)
  | d0 r => simp only [RoomRace.act]; split <;> exact .inl h
  | d1 x r => exact .inl h
  | d2 r => simp only [RoomRace.act]; split <;> exact .inl h
  | d3 r t => exact .inl h
  | d4 r t => exact .inl h
  | d5 r => exact .inl (by show (RoomRace.loadAndDelete s r).sids id = _; rw [(RoomRace.load_same s r).1]; exact h)
  | j0 rs =>
    simp only [RoomRace.act]
    split
    · exact .inl h
    · next hn =>
      have hne : id ≠ i := by rintro rfl; rw [hn] at h; cases h
      exact .inl (by simp only [upd_ne _ _ hne]; exact h)
  | j1 x rs => cases rs <;> exact .inl h
  | j2 x r rs => simp only [RoomRace.act]; split <;> exact .inl h
  | j3 x r t rs => exact .inl h
  | j4 x r t rs => exact .inl h
  | done => exact .inl h

theorem room_sid_gone (s : RoomRace.St) (e : RoomRace.Ev) {id x : Nat} (h : s.sids id = some x) :
    (RoomRace.step s e).sids id = some x ∨
      ((RoomRace.step s e).sids id = none ∧ ∃ k, (s.th k).1 = id ∧ leavingAll (s.th k).2 = true) := by
  cases e with
  | call k i c => simp only [RoomRace.step]; split <;> exact .inl h
  | adv k =>
    rcases act_sid_gone s (s.th k).1 (s.th k).2 h with h1 | ⟨h1, h2, h3⟩
    · exact .inl h1
    · exact .inr ⟨h1, k, h2, h3⟩

/-- While the set of a socket is being copied, it is the socket's set still. -/
def Still (id : Nat) (s : St) : Prop := ∀ x todo, s.pc = .keys id x todo → s.cast.tab.sids id = some x

theorem still_step {s : St} (id : Nat) (e : Ev) (he : ∀ r x o, e ≠ .fetch r x o)
    (hp : (∀ k, (s.cast.tab.th k).1 = id → leavingAll (s.cast.tab.th k).2 = false) ∨ (step s e).cast.tab.sids id ≠ none)
    (h : Still id s) : Still id (step s e) := by
  intro x todo hk
  cases kind s e he with
  | other h1 h2 h3 h4 =>
    rw [h1] at hk
    have h := h x todo hk
    rcases h4 with h4 | ⟨y, h4⟩
    · rw [h4]; exact h
    · rcases room_sid_gone s.cast.tab y h with h5 | ⟨h5, k, h6, h7⟩
      · rw [h4]; exact h5
      · rcases hp with hp | hp
        · rw [hp k h6] at h7; cases h7
        · rw [h4] at hp; exact absurd h5 hp
  | loop h0 h1 => rw [h1] at hk; cases hk
  | over h0 h1 => rw [h1] at hk; cases hk
  | ret h0 h1 => rw [h1] at hk; cases hk
  | load i y l h0 h1 h2 => rw [h2] at hk ⊢; cases hk; exact h1
  | none i l h0 h1 h2 => rw [h2] at hk; cases hk
  | copy i y l h0 h2 => rw [h2] at hk; cases hk

/-- Room `g`, which the socket has all the time, is in the result. -/
theorem kept_step {s : St} (id g : Nat) (e : Ev) (he : ∀ r x o, e ≠ .fetch r x o) (h1 : HasRoom s.cast.tab id g)
    (h2 : HasRoom (step s e).cast.tab id g)
    (h : Still id s ∧ ∀ rs, (id, rs) ∈ s.result → g ∈ rs) :
    Still id (step s e) ∧ ∀ rs, (id, rs) ∈ (step s e).result → g ∈ rs := by
  refine ⟨still_step id e he (.inr ?_) h.1, ?_⟩
  · obtain ⟨x, hx, _⟩ := h2; rw [hx]; simp
  intro rs hm
  obtain ⟨x, hx, hg⟩ := h1
  cases kind s e he with
  | other _ h2 => rw [h2] at hm; exact h.2 rs hm
  | loop _ _ h2 => rw [h2] at hm; exact h.2 rs hm
  | over _ _ h2 => rw [h2] at hm; exact h.2 rs hm
  | ret _ h1 => rw [h1] at hm; exact h.2 rs hm
  | load i y l h0 h1 h2 => rw [h2] at hm; exact h.2 rs hm
  | none i l h0 h1 h2 =>
    rw [h2] at hm
    simp only [List.mem_append, List.mem_singleton, Prod.mk.injEq] at hm
    rcases hm with hm | ⟨rfl, _⟩
    · exact h.2 rs hm
    · rw [hx] at h1; cases h1
  | copy i y l h0 h2 =>
    rw [h2] at hm
    simp only [List.mem_append, List.mem_singleton, Prod.mk.injEq] at hm
    rcases hm with hm | ⟨rfl, rfl⟩
    · exact h.2 rs hm
    · have := h.1 y l h0; rw [hx] at this; cases this; exact hg

/-- Which sets a step adds a room to. -/
theorem act_sset_new (s : RoomRace.St) (i : Nat) (pc : RoomRace.PC) {x g : Nat} (hx : x < s.next)
    (h : g ∈ (RoomRace.act s i pc).1.sset x) : g ∈ s.sset x ∨ (pc.heldS = some x ∧ g ∈ joining pc) := by
  cases pc with
  | j0 rs =>
    simp only [RoomRace.act] at h
    split at h
    · exact .inl h
    · exact .inl (by simpa only [upd_ne _ _ (Nat.ne_of_lt hx)] using h)
  | j1 y rs =>
    cases rs with
    | nil => exact .inl h
    | cons r rs =>
      simp only [RoomRace.act] at h
      by_cases e : x = y
      · subst e
        rw [upd_same, RoomRace.mem_add] at h
        rcases h with h | h
        · exact .inl h
        · exact .inr ⟨rfl, by simp [joining, h]⟩
      · exact .inl (by simpa only [upd_ne _ _ e] using h)
  | d1 y r =>
    simp only [RoomRace.act] at h
    by_cases e : x = y
    · subst e
      rw [upd_same, RoomRace.mem_del] at h
      exact .inl h.1
    · exact .inl (by simpa only [upd_ne _ _ e] using h)
  | a2 l => cases l <;> exact .inl h
  | d5 r =>
    have : g ∈ (RoomRace.loadAndDelete s r).sset x := h
    rw [(RoomRace.load_same s r).2.1] at this; exact .inl this
  | e5 r l =>
    have : g ∈ (RoomRace.loadAndDelete s r).sset x := h
    rw [(RoomRace.load_same s r).2.1] at this; exact .inl this
  | _ => simp only [RoomRace.act] at h; (try split at h) <;> exact .inl h

/-- The set that is being copied is this socket's and nobody else's, and room `g` is not in it. -/
def Apart (id g x : Nat) (s : RoomRace.St) : Prop :=
  x < s.next ∧ (∀ i, s.sids i = some x → i = id) ∧ (∀ k, (s.th k).2.heldS = some x → (s.th k).1 = id) ∧ g ∉ s.sset x

theorem apart_step {s : RoomRace.St} (e : RoomRace.Ev) {id g x : Nat}
    (hn : ∀ k, (s.th k).1 = id → g ∉ joining (s.th k).2) (h : Apart id g x s) : Apart id g x (RoomRace.step s e) := by
  obtain ⟨h1, h2, h3, h4⟩ := h
  cases e with
  | call k i c =>
    simp only [RoomRace.step]
    split
    · refine ⟨h1, h2, ?_, h4⟩
      intro j hj
      by_cases e : j = k
      · subst e; simp only [upd_same] at hj; cases c <;> simp [RoomRace.Call.start, RoomRace.PC.heldS] at hj
      · simp only [upd_ne _ _ e] at hj ⊢; exact h3 j hj
    · exact ⟨h1, h2, h3, h4⟩
  | adv k =>
    show Apart id g x (RoomRace.advance s k)
    refine ⟨Nat.lt_of_lt_of_le h1 (RoomRace.act_next s _ _), ?_, ?_, ?_⟩
    · intro i hi
      have hi : (RoomRace.act s (s.th k).1 (s.th k).2).1.sids i = some x := hi
      rcases RoomRace.act_sids s (s.th k).1 (s.th k).2 with e | ⟨e, _⟩ | e
      · rw [e] at hi; exact h2 i hi
      · rw [e] at hi
        by_cases ei : i = (s.th k).1
        · subst ei; rw [upd_same] at hi; simp only [Option.some.injEq] at hi; omega
        · rw [upd_ne _ _ ei] at hi; exact h2 i hi
      · rw [e] at hi
        by_cases ei : i = (s.th k).1
        · subst ei; rw [upd_same] at hi; cases hi
        · rw [upd_ne _ _ ei] at hi; exact h2 i hi
    · intro j hj
      by_cases ej : j = k
      · subst ej
        rw [RoomRace.advance_th] at hj ⊢
        rcases RoomRace.act_heldS s _ _ hj with h | h | ⟨h, _⟩
        · exact h3 j h
        · exact h2 _ h
        · omega
      · rw [RoomRace.advance_th_ne s ej] at hj ⊢; exact h3 j hj
    · intro hg
      rcases act_sset_new s (s.th k).1 (s.th k).2 h1 hg with h | ⟨h, h'⟩
      · exact h4 h
      · exact hn k (h3 k h) h'

def Foreign (id g : Nat) (s : St) : Prop :=
  (∀ x todo, s.pc = .keys id x todo → Apart id g x s.cast.tab) ∧ ∀ rs, (id, rs) ∈ s.result → g ∉ rs

theorem foreign_step {s : St} (wf : RoomRace.WF s.cast.tab) (o : RoomRace.Own s.cast.tab) (id g : Nat) (e : Ev)
    (he : ∀ r x o, e ≠ .fetch r x o) (h1 : ¬ HasRoom s.cast.tab id g)
    (h2 : ∀ k, (s.cast.tab.th k).1 = id → g ∉ joining (s.cast.tab.th k).2) (h : Foreign id g s) : Foreign id g (step s e) := by
  obtain ⟨ha, hr⟩ := h
  cases kind s e he with
  | other e1 e2 e3 e4 =>
    refine ⟨fun x todo hk => ?_, fun rs hm => hr rs (by rwa [e2] at hm)⟩
    rw [e1] at hk
    rcases e4 with e4 | ⟨y, e4⟩ <;> rw [e4]
    · exact ha x todo hk
    · exact apart_step y h2 (ha x todo hk)
  | loop e0 e1 e2 => exact ⟨fun x todo hk => (by rw [e1] at hk; cases hk), fun rs hm => hr rs (by rwa [e2] at hm)⟩
  | over e0 e1 e2 => exact ⟨fun x todo hk => (by rw [e1] at hk; cases hk), fun rs hm => hr rs (by rwa [e2] at hm)⟩
  | ret e0 e1 => rw [e1]; exact ⟨fun x todo hk => (by cases hk), hr⟩
  | load i y l e0 e1 e2 =>
    rw [e2]
    refine ⟨fun x todo hk => ?_, hr⟩
    cases hk
    exact ⟨wf.sidLt e1, fun i hi => wf.sidInj hi e1, fun k hk => ((o k _ hk).2 _ e1).symm, fun hg => h1 ⟨_, e1, hg⟩⟩
  | none i l e0 e1 e2 =>
    rw [e2]
    refine ⟨fun x todo hk => (by cases hk), fun rs hm => ?_⟩
    simp only [List.mem_append, List.mem_singleton, Prod.mk.injEq] at hm
    rcases hm with hm | ⟨_, rfl⟩
    · exact hr rs hm
    · simp
  | copy i y l e0 e2 =>
    rw [e2]
    refine ⟨fun x todo hk => (by cases hk), fun rs hm => ?_⟩
    simp only [List.mem_append, List.mem_singleton, Prod.mk.injEq] at hm
    rcases hm with hm | ⟨rfl, rfl⟩
    · exact hr rs hm
    · exact (ha y l e0).2.2.2

theorem hasRoom_iff (s : RoomRace.St) (id r : Nat) :
    HasRoom s id r ↔ (match s.sids id with | some x => decide (r ∈ s.sset x) | none => false) = true := by
  unfold HasRoom; cases s.sids id <;> simp

instance (s : RoomRace.St) (id r : Nat) : Decidable (HasRoom s id r) := decidable_of_iff _ (hasRoom_iff s id r).symm

/-- What the call has still to do. -/
def pcLeft : PC → Nat
  | .wrap l => 2 * l.length + 1
  | .keys _ _ l => 2 * l.length + 2
  | _ => 0

def fetchLeft (s : St) : Nat × (Nat × Nat) × Nat := (if s.pc = .loop then 1 else 0, Returns.castLeft s.cast.pc, pcLeft s.pc)

theorem fetch_ends (σ : Nat → Ev) (fair : AgainAndAgain .adv σ) (s : St) : ∃ n, ((firstOf σ n).foldl step s).pc = .idle := by
  refine Returns.ends step (fun s => s.pc = .idle) .adv fetchLeft (Prod.Lex (· < ·) (Prod.Lex Returns.Lex2 (· < ·)))
    (Prod.lex Nat.lt_wfRel (Prod.lex ⟨Returns.Lex2, Returns.lex2_wf⟩ Nat.lt_wfRel)).wf ?_ ?_ σ fair s
  · intro s h
    cases hp : s.pc with
    | idle => exact absurd hp h
    | loop =>
      right
      unfold fetchLeft
      by_cases hc : (CastRace.step s.cast .adv).pc = .idle
      · have : (step s .adv).pc = .wrap (step s .adv).cast.sent := by simp [step, does, other, hp, hc]
        rw [this, hp]
        exact Prod.Lex.left _ _ (by simp)
      · have h1 : (step s .adv).pc = .loop := by simp [step, does, other, hp, hc]
        have h2 : (step s .adv).cast = CastRace.step s.cast .adv := by simp [step, does, hp]
        have h3 : s.cast.pc ≠ .idle := fun h => hc (by simp [CastRace.step, h, CastRace.act])
        rw [h1, h2, hp]
        exact Prod.Lex.right _ (Prod.Lex.left _ _ (Returns.cast_dec s.cast s.cast.pc h3))
    | wrap l =>
      cases l with
      | nil => left; simp [step, other, hp]
      | cons id l =>
        right
        unfold fetchLeft
        cases hx : s.cast.tab.sids id with
        | none =>
          have : step s .adv = { s with pc := .wrap l, result := s.result ++ [(id, [])] } := by simp [step, does, other, hp, hx]
          rw [this, hp]
          exact Prod.Lex.right _ (Prod.Lex.right _ (by simp [pcLeft]))
        | some x =>
          have : step s .adv = { s with pc := .keys id x l } := by simp [step, does, other, hp, hx]
          rw [this, hp]
          exact Prod.Lex.right _ (Prod.Lex.right _ (by simp [pcLeft]; omega))
    | keys id x l =>
      right
      unfold fetchLeft
      have : step s .adv = { s with pc := .wrap l, result := s.result ++ [(id, s.cast.tab.sset x)] } := by simp [step, does, other, hp]
      rw [this, hp]
      exact Prod.Lex.right _ (Prod.Lex.right _ (by simp [pcLeft]))
  · intro s e he h
    right
    cases e with
    | adv => exact absurd rfl he
    | fetch r x o => simp [step, does, other, h]
    | _ => rfl

end Verif.FetchRace
