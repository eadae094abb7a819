import Verif.Spec.Inbound
import Verif.Lib.ListExtra

/-! # Invariants of `Model/Inbound` -/

namespace Verif.Inbound
open Verif Verif.Spec

theorem run_snoc (h : List Ev) (e : Ev) : run (h ++ [e]) = step (run h) e := by simp [run]

/-- `C`: answers to a `RemoteSocket` are harmless; `P` holds of the packets received, `N` of the names of events, `S` of the ids of acknowledgements asked from a `RemoteSocket`. -/
structure Inv (C : Prop) (P : Packet → Prop) (N : String → Prop) (S : Nat → Prop) (s : St) : Prop where
  ok : C → s.panicked = false
  packets : ∀ ref p, some (Task.onpacket ref p) ∈ s.tasks → P p
  gates : ∀ ref args, some (Task.gate ref args) ∈ s.tasks → ∃ name rest, args = .str name :: rest ∧ N name
  delivers : ∀ ref args ok, some (Task.deliver ref args ok) ∈ s.tasks → ∃ name rest, args = .str name :: rest ∧ N name
  acks : ∀ k ∈ s.socks, ∀ id, (id, AckFn.single) ∈ k.acks → S id
  fires : ∀ ref name args, some (Task.fire ref name args) ∈ s.tasks → N name

variable {C : Prop} {P : Packet → Prop} {N : String → Prop} {S : Nat → Prop}

theorem inv_out {s : St} (i : Inv C P N S s) (o : Obs) : Inv C P N S (out s o) := ⟨i.1, i.2, i.3, i.4, i.5, i.6⟩

theorem mem_modify {α} (l : List α) (k : Nat) (f : α → α) (x : α) (h : x ∈ l.modify k f) : x ∈ l ∨ ∃ y ∈ l, x = f y := by
  obtain ⟨j, hj⟩ := List.getElem?_of_mem h
  rw [List.getElem?_modify] at hj
  cases e : l[j]? with
  | none => simp [e] at hj
  | some y =>
    simp only [e, Option.map_eq_map, Option.map_some, Option.some.injEq] at hj
    have := List.mem_of_getElem? e
    split at hj
    · exact .inr ⟨y, this, hj.symm⟩
    · exact .inl (hj ▸ this)

theorem inv_setSock {s : St} (i : Inv C P N S s) (ref : Nat) (f : Sock → Sock) (hf : ∀ k id, (id, AckFn.single) ∈ (f k).acks → (id, AckFn.single) ∈ k.acks ∨ S id) :
    Inv C P N S (setSock s ref f) := by
  refine ⟨i.1, i.2, i.3, i.4, fun k hk id hid => ?_, i.6⟩
  rcases mem_modify _ _ _ _ hk with h | ⟨y, hy, rfl⟩
  · exact i.5 k h id hid
  · rcases hf y id hid with h | h
    · exact i.5 y hy id h
    · exact h

theorem inv_onclose {s : St} (i : Inv C P N S s) (ref : Nat) (reason : String) : Inv C P N S (onclose s ref reason) := by
  unfold onclose
  split
  · refine inv_out ?_ _
    have := inv_setSock (inv_out i (.fired ref "disconnecting" [.str reason])) ref ({ · with connected := false }) (fun k id h => .inl h)
    exact ⟨this.1, this.2, this.3, this.4, this.5, this.6⟩
  · exact i

theorem inv_foldl {α} (l : List α) (f : St → α → St) (hf : ∀ s a, Inv C P N S s → Inv C P N S (f s a)) {s : St} (i : Inv C P N S s) :
    Inv C P N S (l.foldl f s) := by
  induction l generalizing s with
  | nil => exact i
  | cons a l ih => exact ih (hf _ _ i)

theorem inv_clientOnclose {s : St} (i : Inv C P N S s) (reason : String) : Inv C P N S (clientOnclose s reason) :=
  inv_foldl _ _ (fun _ ref i => inv_onclose i ref reason) ⟨i.1, i.2, i.3, i.4, i.5, i.6⟩

theorem inv_spawn {s : St} (i : Inv C P N S s) (t : Task) (h1 : ∀ ref p, t = .onpacket ref p → P p)
    (h2 : ∀ ref args, t = .gate ref args → ∃ name rest, args = .str name :: rest ∧ N name)
    (h3 : ∀ ref args ok, t = .deliver ref args ok → ∃ name rest, args = .str name :: rest ∧ N name)
    (h4 : ∀ ref name args, t = .fire ref name args → N name) : Inv C P N S (spawn s t) := by
  refine ⟨i.1, ?_, ?_, ?_, i.5, ?_⟩
  · intro ref p h
    simp only [spawn, List.mem_append, List.mem_singleton, Option.some.injEq] at h
    exact h.elim (i.2 ref p) (fun h => h1 ref p h.symm)
  · intro ref p h
    simp only [spawn, List.mem_append, List.mem_singleton, Option.some.injEq] at h
    exact h.elim (i.3 ref p) (fun h => h2 ref p h.symm)
  · intro ref p ok h
    simp only [spawn, List.mem_append, List.mem_singleton, Option.some.injEq] at h
    exact h.elim (i.4 ref p ok) (fun h => h3 ref p ok h.symm)
  · intro ref name args h
    simp only [spawn, List.mem_append, List.mem_singleton, Option.some.injEq] at h
    exact h.elim (i.6 ref name args) (fun h => h4 ref name args h.symm)

theorem inv_ondecoded {s : St} (i : Inv C P N S s) (p : Packet) (hp : P p) : Inv C P N S (ondecoded s p) := by
  unfold ondecoded
  split
  · split
    · exact inv_out i _
    · exact inv_clientOnclose (inv_out i _) _
  · split
    · exact inv_clientOnclose (inv_out i _) _
    · exact inv_spawn i _ (by rintro _ _ ⟨⟩; exact hp) (by rintro _ _ ⟨⟩) (by rintro _ _ _ ⟨⟩) (by rintro _ _ _ ⟨⟩)

theorem inv_dispatch {s : St} (i : Inv C P N S s) (ref : Nat) (args : List JVal) (h : ∃ name rest, args = .str name :: rest ∧ N name) :
    Inv C P N S (dispatch s ref args) := by
  unfold dispatch
  split
  · exact inv_spawn i _ (by rintro _ _ ⟨⟩) (by rintro _ _ ⟨⟩) (by rintro _ _ _ ⟨⟩; exact h) (by rintro _ _ _ ⟨⟩)
  · exact inv_spawn i _ (by rintro _ _ ⟨⟩) (by rintro _ _ ⟨⟩; exact h) (by rintro _ _ _ ⟨⟩) (by rintro _ _ _ ⟨⟩)

theorem lookup_mem {α β} [BEq α] [LawfulBEq α] (l : List (α × β)) (a : α) (b : β) (h : l.lookup a = some b) : (a, b) ∈ l := by
  induction l with
  | nil => simp at h
  | cons x l ih =>
    obtain ⟨a', b'⟩ := x
    simp only [List.lookup] at h
    split at h
    · rename_i e
      have := eq_of_beq e
      cases h; subst this; simp
    · exact List.mem_cons_of_mem _ (ih h)

/-- What the packets received must be like for the invariant to hold. -/
def Good (C : Prop) (P : Packet → Prop) (N : String → Prop) (S : Nat → Prop) : Prop := ∀ p, P p → Decoded p ∧
  (∀ name rest, p.type = .event ∨ p.type = .binaryEvent → p.data = .arr (.str name :: rest) → N name) ∧
  (C → ∀ id, p.type = .ack ∨ p.type = .binaryAck → p.id = some id → S id → ¬ LoneScalar p.data)

theorem inv_onevent {s : St} (i : Inv C P N S s) (ref : Nat) (p : Packet) (ht : p.type = .event ∨ p.type = .binaryEvent)
    (hd : Decoded p) (hn : ∀ name rest, p.type = .event ∨ p.type = .binaryEvent → p.data = .arr (.str name :: rest) → N name) :
    Inv C P N S (onevent s ref p) := by
  have : ∃ name rest, p.data = .arr (.str name :: rest) := by
    unfold Decoded at hd; rcases ht with h | h <;> simpa [h] using hd
  obtain ⟨name, rest, hp⟩ := this
  have hn := hn name rest ht hp
  unfold onevent
  rw [hp]
  simp only
  refine inv_dispatch (inv_out i _) ref _ ?_
  split
  · exact ⟨name, _, rfl, hn⟩
  · exact ⟨name, _, rfl, hn⟩

theorem inv_onack {s : St} (i : Inv C P N S s) (ref : Nat) (p : Packet) (ht : p.type = .ack ∨ p.type = .binaryAck)
    (hd : Decoded p) (hs : C → ∀ id, p.type = .ack ∨ p.type = .binaryAck → p.id = some id → S id → ¬ LoneScalar p.data) :
    Inv C P N S (onack s ref p) := by
  have : ∃ l, p.data = .arr l := by
    unfold Decoded at hd; rcases ht with h | h <;> simpa [h] using hd
  obtain ⟨l, hp⟩ := this
  unfold onack
  split
  · exact i
  · rename_i id hid
    split
    · exact i
    · rename_i f hf
      rw [hp]
      simp only
      refine inv_setSock ?_ ref _ (fun k id h => .inl (List.mem_filter.1 h).1)
      split
      · exact inv_out i _
      · rename_i hsing
        have hS : S id := by
          have := lookup_mem _ _ _ hf
          cases e : s.socks[ref]? with
          | none => simp [e] at this
          | some k => simp [e] at this; exact i.acks k (List.mem_of_getElem? e) id this
        unfold answerSingle
        split
        · exact inv_out i _
        · rename_i x hx
          exact ⟨fun c => absurd ⟨x, hp, fun l hl => hx l hl⟩ (hs c id ht hid hS), i.2, i.3, i.4, i.5, i.6⟩
        · exact i

theorem inv_run_task {s : St} (g : Good C P N S) (i : Inv C P N S s) (k : Nat) (ok : Bool) : Inv C P N S (runTask s k ok) := by
  have clear : Inv C P N S { s with tasks := s.tasks.set k none } := by
    refine ⟨i.1, fun ref p h => ?_, fun ref p h => ?_, fun ref p ok h => ?_, i.5, fun ref name args h => ?_⟩
    · rcases mem_of_set h with h | h
      · exact i.2 ref p h
      · cases h
    · rcases mem_of_set h with h | h
      · exact i.3 ref p h
      · cases h
    · rcases mem_of_set h with h | h
      · exact i.4 ref p ok h
      · cases h
    · rcases mem_of_set h with h | h
      · exact i.6 ref name args h
      · cases h
  unfold runTask
  split
  · rename_i ref p h
    have hp := g p (i.2 ref p (List.mem_of_getElem? h))
    unfold onpacket
    split
    · exact inv_onevent clear ref p (.inl (by assumption)) hp.1 hp.2.1
    · exact inv_onevent clear ref p (.inr (by assumption)) hp.1 hp.2.1
    · exact inv_onack clear ref p (.inl (by assumption)) hp.1 hp.2.2
    · exact inv_onack clear ref p (.inr (by assumption)) hp.1 hp.2.2
    · exact inv_onclose clear _ _
    · exact clear
    · exact clear
  · rename_i ref args ok' h
    obtain ⟨name, rest, rfl, hn⟩ := i.4 ref args ok' (List.mem_of_getElem? h)
    unfold deliver
    split
    · exact inv_out clear _
    · split
      · exact inv_spawn clear _ (by rintro _ _ ⟨⟩) (by rintro _ _ ⟨⟩) (by rintro _ _ _ ⟨⟩) (by rintro _ _ _ ⟨⟩; exact hn)
      · exact clear
  · exact inv_out clear _
  · rename_i ref args h
    exact inv_spawn i _ (by rintro _ _ ⟨⟩) (by rintro _ _ ⟨⟩) (by rintro _ _ _ ⟨⟩; exact i.3 _ _ (List.mem_of_getElem? h)) (by rintro _ _ _ ⟨⟩)
  · exact i

theorem inv_step {s : St} (g : Good C P N S) (i : Inv C P N S s) (e : Ev) (hp : ∀ p, e = .recv p → P p)
    (hs : ∀ ref id, e = .emitAck ref id true → S id) : Inv C P N S (step s e) := by
  unfold step
  split
  · exact i
  · split
    · split
      · exact inv_ondecoded i _ (hp _ rfl)
      · exact i
    · refine ⟨i.1, i.2, i.3, i.4, fun k hk id hid => ?_, i.6⟩
      simp only [List.mem_append, List.mem_singleton] at hk
      rcases hk with hk | rfl
      · exact i.5 k hk id hid
      · simp at hid
    · exact inv_run_task g i _ _
    · exact inv_setSock i _ _ (fun k id h => .inl h)
    · rename_i ref id single
      refine inv_setSock i _ _ (fun k id' h => ?_)
      simp only [List.mem_cons, Prod.mk.injEq] at h
      rcases h with ⟨h1, h2⟩ | h
      · cases single
        · simp at h2
        · exact .inr (h1 ▸ hs ref id rfl)
      · exact .inl (List.mem_filter.1 h).1
    · exact inv_setSock i _ _ (fun k id h => .inl (List.mem_filter.1 h).1)
    · exact inv_onclose i _ _
    · split
      · refine inv_out (inv_foldl _ _ (fun s ref i => ?_) i) _
        split
        · exact inv_out i _
        · exact i
      · exact i
    · split
      · exact inv_clientOnclose i _
      · exact i

theorem inv_all (h : List Ev) (g : Good C P N S) (hp : ∀ p, .recv p ∈ h → P p) (hs : ∀ ref id, .emitAck ref id true ∈ h → S id) :
    Inv C P N S (run h) := by
  induction h using snocRec with
  | nil => constructor <;> simp [run]
  | append_singleton h e ih =>
    rw [run_snoc]
    exact inv_step g (ih (fun p hp' => hp p (by simp [hp'])) (fun r id h' => hs r id (by simp [h']))) e
      (fun p e' => hp p (by simp [e'])) (fun r id e' => hs r id (by simp [e']))

/-- Socket `ref` exists and is disconnected. -/
def isDown (s : St) (ref : Nat) : Bool := match s.socks[ref]? with
  | some k => !k.connected
  | none => false

/-- What the log says about reserved names; `R`: the reasons. -/
structure Tidy (R : String → Prop) (s : St) : Prop where
  shape : ∀ ref name args, Obs.fired ref name args ∈ s.log → name ∈ reservedNames →
    (name = "disconnect" ∨ name = "disconnecting") ∧ ∃ r, R r ∧ args = [.str r]
  once : ∀ ref, timesFired s ref "disconnect" = (if isDown s ref then 1 else 0) ∧
    timesFired s ref "disconnecting" = (if isDown s ref then 1 else 0)

variable {R : String → Prop}

/-- Steps that fire no reserved name and disconnect nobody. -/
structure Quiet (s s' : St) : Prop where
  log : ∃ es, s'.log = s.log ++ es ∧ ∀ ref name args, Obs.fired ref name args ∈ es → name ∉ reservedNames
  down : ∀ ref, isDown s' ref = isDown s ref

theorem Quiet.rfl {s : St} : Quiet s s := ⟨⟨[], by simp, by simp⟩, fun _ => _root_.rfl⟩

theorem Quiet.trans {a b c : St} (h : Quiet a b) (h' : Quiet b c) : Quiet a c := by
  obtain ⟨es, e, he⟩ := h.log
  obtain ⟨es', e', he'⟩ := h'.log
  refine ⟨⟨es ++ es', by rw [e', e]; simp, fun ref name args hm => ?_⟩, fun ref => (h'.down ref).trans (h.down ref)⟩
  rcases List.mem_append.1 hm with hm | hm
  · exact he ref name args hm
  · exact he' ref name args hm

theorem quiet_same {s s' : St} (hl : s'.log = s.log) (hs : s'.socks = s.socks) : Quiet s s' :=
  ⟨⟨[], by simp [hl], by simp⟩, fun ref => by simp [isDown, hs]⟩

theorem quiet_out (s : St) (o : Obs) (ho : ∀ ref name args, o = .fired ref name args → name ∉ reservedNames) : Quiet s (out s o) :=
  ⟨⟨[o], _root_.rfl, fun ref name args h => ho ref name args (List.mem_singleton.1 h).symm⟩, fun _ => _root_.rfl⟩

theorem isDown_setSock (s : St) (ref j : Nat) (f : Sock → Sock) :
    isDown (setSock s ref f) j = match s.socks[j]? with
      | some k => !(if ref = j then f k else k).connected
      | none => false := by
  unfold isDown setSock
  simp only [List.getElem?_modify]
  cases e : s.socks[j]? with
  | none => simp
  | some k => by_cases h : ref = j <;> simp [h]

theorem quiet_setSock (s : St) (ref : Nat) (f : Sock → Sock) (hf : ∀ k, (f k).connected = k.connected) : Quiet s (setSock s ref f) := by
  refine ⟨⟨[], by simp [setSock], by simp⟩, fun j => ?_⟩
  rw [isDown_setSock]
  unfold isDown
  cases e : s.socks[j]? with
  | none => rfl
  | some k => by_cases h : ref = j <;> simp [h, hf]

theorem times_append (s s' : St) (es : List Obs) (h : s'.log = s.log ++ es) (ref : Nat) (name : String) :
    timesFired s' ref name = timesFired s ref name + (es.filter (isFired ref name)).length := by
  simp [timesFired, h]

theorem tidy_quiet {s s' : St} (t : Tidy R s) (q : Quiet s s') : Tidy R s' := by
  obtain ⟨es, e, he⟩ := q.log
  have zero : ∀ ref name, name ∈ reservedNames → (es.filter (isFired ref name)).length = 0 := by
    intro ref name hn
    rw [List.length_eq_zero_iff, List.filter_eq_nil_iff]
    intro o ho hf
    cases o <;> simp [isFired] at hf
    obtain ⟨rfl, rfl⟩ := hf
    exact he _ _ _ ho hn
  constructor
  · intro ref name args h hn
    rw [e, List.mem_append] at h
    rcases h with h | h
    · exact t.shape ref name args h hn
    · exact absurd hn (he ref name args h)
  · intro ref
    rw [times_append s s' es e, times_append s s' es e, zero ref _ (by decide), zero ref _ (by decide), q.down]
    exact t.once ref

theorem isConnected_iff (s : St) (ref : Nat) : isConnected s ref = true ↔ ∃ k, s.socks[ref]? = some k ∧ k.connected = true := by
  unfold isConnected
  cases e : s.socks[ref]? <;> simp

theorem tidy_onclose {s : St} (t : Tidy R s) (ref : Nat) (reason : String) (hr : R reason) : Tidy R (onclose s ref reason) := by
  unfold onclose
  split
  · rename_i hc
    obtain ⟨k, hk, hkc⟩ := (isConnected_iff s ref).1 hc
    have hd : isDown s ref = false := by simp [isDown, hk, hkc]
    simp only []
    refine ⟨?_, ?_⟩
    · intro ref' name args h hn
      simp only [out, setSock, List.mem_append, List.mem_singleton, Obs.fired.injEq] at h
      rcases h with (h | ⟨_, rfl, rfl⟩) | ⟨_, rfl, rfl⟩
      · exact t.shape ref' name args h hn
      · exact ⟨.inr rfl, reason, hr, rfl⟩
      · exact ⟨.inl rfl, reason, hr, rfl⟩
    · intro j
      have hdown : ∀ (s₀ : St) (l : List (String × Nat)) (o : Obs), s₀.socks = s.socks →
          isDown (out { setSock s₀ ref ({ · with connected := false }) with nsps := l } o) j = if ref = j then true else isDown s j := by
        intro s₀ l o h0
        show isDown (setSock s₀ ref _) j = _
        rw [isDown_setSock, h0]
        by_cases h : ref = j
        · subst h; simp [hk]
        · simp only [h, if_false, isDown]
      rw [hdown (out s (.fired ref "disconnecting" [.str reason])) _ _ rfl]
      have hl : ∀ name, timesFired (out { setSock (out s (.fired ref "disconnecting" [.str reason])) ref ({ · with connected := false }) with
          nsps := (out s (.fired ref "disconnecting" [.str reason])).nsps.filter (·.2 != ref) } (.fired ref "disconnect" [.str reason])) j name =
          timesFired s j name + (List.filter (isFired j name) [.fired ref "disconnecting" [.str reason], .fired ref "disconnect" [.str reason]]).length := by
        intro name
        apply times_append
        simp [out, setSock]
      rw [hl, hl, (t.once j).1, (t.once j).2]
      by_cases h : ref = j
      · subst h
        simp [hd, isFired]
      · simp [isFired, h]
  · exact t

theorem tidy_clientOnclose {s : St} (t : Tidy R s) (reason : String) (hr : R reason) : Tidy R (clientOnclose s reason) := by
  unfold clientOnclose
  have base : Tidy R { s with listening := false } := tidy_quiet t (quiet_same rfl rfl)
  generalize ({ s with listening := false } : St) = s₀ at base
  generalize List.range s.socks.length = l
  induction l generalizing s₀ with
  | nil => exact base
  | cons a l ih => exact ih _ (tidy_onclose base a reason hr)

theorem quiet_spawn (s : St) (t : Task) : Quiet s (spawn s t) := quiet_same rfl rfl

theorem quiet_dispatch (s : St) (ref : Nat) (args : List JVal) : Quiet s (dispatch s ref args) := by
  unfold dispatch; split <;> exact quiet_spawn _ _

theorem error_free : "error" ∉ reservedNames := by decide

theorem tidy_step {s : St} (t : Tidy R s) (i : Inv C P (· ∉ reservedNames) S s) (e : Ev)
    (h1 : R "client namespace disconnect") (h2 : R "server namespace disconnect") (h3 : R "forced server close")
    (h4 : ∀ r, e = .lost r → R r) : Tidy R (step s e) := by
  have close : Tidy R (clientClose s) := tidy_clientOnclose (tidy_quiet t (quiet_out _ _ (by rintro _ _ _ ⟨⟩))) _ h3
  unfold step
  split
  · exact t
  · split
    · split
      · unfold ondecoded
        split
        · split
          · exact tidy_quiet t (quiet_out _ _ (by rintro _ _ _ ⟨⟩))
          · exact close
        · split
          · exact close
          · exact tidy_quiet t (quiet_spawn _ _)
      · exact t
    · rename_i nsp
      refine tidy_quiet t ⟨⟨[], by simp, by simp⟩, fun ref => ?_⟩
      unfold isDown
      simp only
      rw [List.getElem?_append]
      by_cases hlt : ref < s.socks.length
      · rw [if_pos hlt]
      · rw [if_neg hlt, List.getElem?_eq_none (Nat.not_lt.1 hlt)]
        cases e : ([{ nsp := nsp }] : List Sock)[ref - s.socks.length]? with
        | none => rfl
        | some k =>
          have := List.mem_of_getElem? e
          simp at this; subst this; rfl
    · rename_i k ok
      have clear : Tidy R { s with tasks := s.tasks.set k none } := tidy_quiet t (quiet_same rfl rfl)
      unfold runTask
      split
      · unfold onpacket
        split
        iterate 2
          · unfold onevent
            split
            · exact tidy_quiet clear (.trans (quiet_out _ _ (by rintro _ _ _ ⟨⟩)) (quiet_dispatch _ _ _))
            · exact tidy_quiet clear (quiet_same rfl rfl)
        iterate 2
          · unfold onack
            split
            · exact clear
            · split
              · exact clear
              · split
                · refine tidy_quiet clear (.trans ?_ (quiet_setSock _ _ _ (fun _ => rfl)))
                  split
                  · exact quiet_out _ _ (by rintro _ _ _ ⟨⟩)
                  · unfold answerSingle
                    split
                    · exact quiet_out _ _ (by rintro _ _ _ ⟨⟩)
                    · exact quiet_same rfl rfl
                    · exact Quiet.rfl
                · exact tidy_quiet clear (quiet_same rfl rfl)
        · exact tidy_onclose clear _ _ h1
        · exact clear
        · exact clear
      · rename_i ref args ok' hk
        obtain ⟨name, rest, rfl, hn⟩ := i.delivers _ _ _ (List.mem_of_getElem? hk)
        unfold deliver
        split
        · exact tidy_quiet clear (quiet_out _ _ (by rintro _ _ _ ⟨⟩; exact error_free))
        · split
          · exact tidy_quiet clear (quiet_spawn _ _)
          · exact clear
      · rename_i ref name args hk
        exact tidy_quiet clear (quiet_out _ _ (by rintro _ _ _ ⟨⟩; exact i.fires _ _ _ (List.mem_of_getElem? hk)))
      · exact tidy_quiet t (quiet_spawn _ _)
      · exact t
    · exact tidy_quiet t (quiet_setSock _ _ _ (fun _ => rfl))
    · exact tidy_quiet t (quiet_setSock _ _ _ (fun _ => rfl))
    · exact tidy_quiet t (quiet_setSock _ _ _ (fun _ => rfl))
    · exact tidy_onclose t _ _ h2
    · split
      · unfold onerror
        refine tidy_quiet ?_ (quiet_out _ _ (by rintro _ _ _ ⟨⟩))
        generalize List.range s.socks.length = l
        have : ∀ s₀ : St, Tidy R s₀ → Tidy R (l.foldl (fun s ref => if isConnected s ref then out s (.fired ref "error" [.null]) else s) s₀) := by
          induction l with
          | nil => exact fun _ h => h
          | cons a l ih =>
            intro s₀ h0
            rw [List.foldl_cons]
            apply ih
            split
            · exact tidy_quiet h0 (quiet_out _ _ (by rintro _ _ _ ⟨⟩; exact error_free))
            · exact h0
        exact this s t
      · exact t
    · split
      · exact tidy_clientOnclose t _ (h4 _ rfl)
      · exact t

theorem tidy_all (h : List Ev) (g : Good C P (· ∉ reservedNames) S) (hp : ∀ p, .recv p ∈ h → P p) (hs : ∀ ref id, .emitAck ref id true ∈ h → S id)
    (h1 : R "client namespace disconnect") (h2 : R "server namespace disconnect") (h3 : R "forced server close")
    (h4 : ∀ r, .lost r ∈ h → R r) : Tidy R (run h) := by
  induction h using snocRec with
  | nil => constructor <;> simp [run, timesFired, isDown]
  | append_singleton h e ih =>
    rw [run_snoc]
    have hp' : ∀ p, .recv p ∈ h → P p := fun p h' => hp p (by simp [h'])
    have hs' : ∀ ref id, .emitAck ref id true ∈ h → S id := fun r id h' => hs r id (by simp [h'])
    exact tidy_step (ih hp' hs' (fun r h' => h4 r (by simp [h']))) (inv_all h g hp' hs') e h1 h2 h3 (fun r e' => h4 r (by simp [e']))

end Verif.Inbound
