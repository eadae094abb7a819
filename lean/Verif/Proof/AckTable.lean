import Verif.Proof.AcksLive
import Verif.Spec.AckTable

/-! # Which callbacks a socket still holds -/

namespace Verif.Acks
open Verif Verif.Spec

/-! ## Calls in turn -/

/-- The number has been given out and the socket holds nothing under it. -/
structure Gone (k id : Nat) (s : St) : Prop where
  here : s.acks.get? (k, id) = none
  bound : id ≤ s.ids

/-- The socket holds a callback under the number, with its timer if it has one. -/
structure Held (cb k id : Nat) (timed : Bool) (s : St) : Prop where
  here : s.acks.get? (k, id) = some ⟨cb, if timed then some id else none⟩
  timer : s.timers.get? id = if timed then some (k, cb) else none
  elsewhere : ∀ k' i e, (k', i) ≠ (k, id) → s.acks.get? (k', i) = some e → e.timer ≠ some id
  bound : id ≤ s.ids

theorem emit_tables (s : St) (k c : Nat) (t : Bool) :
    (step s (.emit k c t)).acks = s.acks.insert (k, s.ids + 1) ⟨c, if t then some (s.ids + 1) else none⟩ ∧
    (step s (.emit k c t)).timers = (if t then s.timers.insert (s.ids + 1) (k, c) else s.timers) ∧
    (step s (.emit k c t)).ids = s.ids + 1 := by
  refine ⟨?_, ?_, ?_⟩ <;> simp only [step, emit, register, nextId] <;> split <;> simp_all

theorem gone_step {k id : Nat} {s : St} (g : Gone k id s) (op : Op) : Gone k id (step s op) := by
  have b := g.bound
  cases op with
  | emit k' c t =>
    obtain ⟨e1, _, e3⟩ := emit_tables s k' c t
    refine ⟨?_, by rw [e3]; omega⟩
    rw [e1, FMap.get?_insert_ne (by simp; omega)]
    exact g.here
  | bcast socks c =>
    obtain ⟨e1, _, _, e3⟩ := bcast_acks socks (s.ids + 1) c { s with ids := s.ids + 1 }
    refine ⟨Eq.trans (e3 k id) ?_, ?_⟩
    · rw [if_neg (by omega)]; exact g.here
    · have h1 : (step s (.bcast socks c)).ids = s.ids + 1 := e1
      omega
  | answer k' i args =>
    cases i with
    | none => exact g
    | some i =>
      simp only [step, onack]
      cases hg : s.acks.get? (k', i) with
      | none => exact g
      | some e =>
        obtain ⟨h1, h2, _, _⟩ := call_spec s e args
        refine ⟨?_, by show id ≤ (call s e args).ids; rw [h1]; exact b⟩
        simp only [h2, FMap.get?_erase]
        split
        · rfl
        · exact g.here
  | expire i =>
    simp only [step, expire]
    cases hg : s.timers.get? i with
    | none => exact g
    | some p =>
      refine ⟨?_, b⟩
      simp only [FMap.get?_erase]
      split
      · rfl
      · exact g.here

theorem gone_fold {k id : Nat} (post : List Op) {s : St} (g : Gone k id s) : Gone k id (post.foldl step s) := by
  induction post generalizing s with
  | nil => exact g
  | cons op post ih => exact ih (gone_step g op)

theorem held_fold {cb k id : Nat} {timed : Bool} (post : List Op) {s : St} (hw : Held cb k id timed s) :
    holdsAck (post.foldl step s) k id ↔ outcome k id timed post = none := by
  induction post generalizing s with
  | nil => simp [outcome, holdsAck, hw.here]
  | cons op post ih =>
    have b := hw.bound
    have over : ∀ {s' : St} {r : Res}, Gone k id s' → (holdsAck (post.foldl step s') k id ↔ some r = none) := by
      intro s' r g
      simp [holdsAck, (gone_fold post g).here]
    rw [List.foldl_cons]
    cases op with
    | emit k' c t =>
      obtain ⟨e1, e2, e3⟩ := emit_tables s k' c t
      refine ih ⟨?_, ?_, ?_, by rw [e3]; omega⟩
      · rw [e1, FMap.get?_insert_ne (by simp; omega)]; exact hw.here
      · rw [e2]; split
        · rw [FMap.get?_insert_ne (by omega)]; exact hw.timer
        · exact hw.timer
      · intro k'' i e hne; rw [e1, FMap.get?_insert]; split
        · intro h; cases h; dsimp only; split
          · simp; omega
          · simp
        · exact hw.elsewhere k'' i e hne
    | bcast socks c =>
      obtain ⟨e1, e4, e2, e3⟩ := bcast_acks socks (s.ids + 1) c { s with ids := s.ids + 1 }
      refine ih ⟨?_, ?_, ?_, ?_⟩
      · refine Eq.trans (e3 k id) ?_
        rw [if_neg (by omega)]; exact hw.here
      · exact Eq.trans (congrArg (fun m => FMap.get? m id) e4) hw.timer
      · intro k' i e hki h'
        have h'' := (e3 k' i).symm.trans h'
        split at h''
        · cases h''; simp
        · exact hw.elsewhere k' i e hki h''
      · have h1 : (step s (.bcast socks c)).ids = s.ids + 1 := e1
        omega
    | answer k' i args =>
      cases i with
      | none => exact ih hw
      | some i =>
        simp only [outcome]
        by_cases hki : k' = k ∧ i = id
        · obtain ⟨rfl, rfl⟩ := hki
          simp only [and_self, if_true]
          refine over ?_
          obtain ⟨h1, h2, _, _⟩ := call_spec s ⟨cb, if timed then some i else none⟩ args
          simp only [step, onack, hw.here]
          exact ⟨by simp only [FMap.get?_erase, if_true], by show i ≤ (call s _ args).ids; rw [h1]; exact b⟩
        · simp only [hki, if_false]
          simp only [step, onack]
          cases hg : s.acks.get? (k', i) with
          | none => exact ih hw
          | some e =>
            have hkey : (k', i) ≠ (k, id) := by simp; omega
            have htm := hw.elsewhere k' i e hkey hg
            obtain ⟨h1, h2, h3, h4⟩ := call_spec s e args
            refine ih ⟨?_, ?_, ?_, ?_⟩
            · simp only [h2, FMap.get?_erase_ne hkey]; exact hw.here
            · simp only [h4, htm, if_false]; exact hw.timer
            · intro k'' i' e' hne; simp only [h2, FMap.get?_erase]; split
              · simp
              · exact hw.elsewhere k'' i' e' hne
            · show id ≤ (call s e args).ids; rw [h1]; exact b
    | expire i =>
      simp only [outcome]
      by_cases hti : timed = true ∧ i = id
      · obtain ⟨rfl, rfl⟩ := hti
        simp only [and_self, if_true]
        refine over ?_
        have hg : s.timers.get? i = some (k, cb) := by rw [hw.timer]; rfl
        simp only [step, expire, hg]
        exact ⟨by simp only [FMap.get?_erase, if_true], b⟩
      · simp only [hti, if_false]
        simp only [step, expire]
        cases hg : s.timers.get? i with
        | none => exact ih hw
        | some p =>
          have hne : i ≠ id := by
            intro h; subst h
            rw [hw.timer] at hg
            cases timed
            · simp at hg
            · exact hti ⟨rfl, rfl⟩
          refine ih ⟨?_, ?_, ?_, b⟩
          · simp only
            rw [FMap.get?_erase_ne (by simp; omega)]; exact hw.here
          · simp only
            rw [FMap.get?_erase_ne hne]; exact hw.timer
          · intro k'' i' e' hn; simp only [FMap.get?_erase]; split
            · simp
            · exact hw.elsewhere k'' i' e' hn

/-! ## Interleaved -/

/-- The number of the emission a goroutine makes. -/
def eid : Thread → Option Nat
  | .emitter i _ _ _ => some i
  | _ => none

theorem eid_adv (s : CSt) (t : Thread) : eid (advThread s t).2 = eid t := by
  cases t with
  | emitter i c tm pc => obtain ⟨_, h, _⟩ := adv_emitter s i c tm pc; rw [h]; rfl
  | handler i a pc o => obtain ⟨_, _, h, _⟩ := adv_handler s i a pc o; rw [h]; rfl
  | timer i c pc => obtain ⟨_, h, _⟩ := adv_timer s i c pc; rw [h]; rfl

/-- Every number is given out once. -/
structure Uniq (s : CSt) : Prop where
  bound : ∀ (k i : Nat), (s.threads.map eid)[k]? = some (some i) → i ≤ s.ids
  one : ∀ (k k' i : Nat), (s.threads.map eid)[k]? = some (some i) → (s.threads.map eid)[k']? = some (some i) → k = k'

theorem uniq_none {s s' : CSt} (u : Uniq s) (t : Thread) (ht : eid t = none) (hi : s'.ids = s.ids) (hs : s'.threads = s.threads ++ [t]) : Uniq s' := by
  have g : ∀ (k i : Nat), (s'.threads.map eid)[k]? = some (some i) → (s.threads.map eid)[k]? = some (some i) := by
    intro k i h
    rw [hs, List.map_append] at h
    rcases get_snoc _ _ _ _ h with h | ⟨_, h⟩
    · exact h
    · rw [ht] at h; cases h
  exact ⟨fun k i h => by rw [hi]; exact u.bound k i (g k i h), fun k k' i h h' => u.one k k' i (g k i h) (g k' i h')⟩

theorem map_set_eid {l : List Thread} {k : Nat} {t t' : Thread} (hk : l[k]? = some t) (h : eid t' = eid t) : (l.set k t').map eid = l.map eid := by
  rw [List.map_set, h]
  apply List.ext_getElem?
  intro j
  by_cases e : j = k
  · subst e
    have hl := (List.getElem?_eq_some_iff.1 hk).1
    rw [List.getElem?_set_self (by simpa using hl), List.getElem?_map, hk]; rfl
  · rw [List.getElem?_set_ne (fun h => e h.symm)]

theorem uniq_step {s : CSt} (u : Uniq s) (e : Ev) : Uniq (cstep s e) := by
  cases e with
  | emit c tm =>
    have g : ∀ (k i : Nat), ((cstep s (.emit c tm)).threads.map eid)[k]? = some (some i) →
        (s.threads.map eid)[k]? = some (some i) ∨ (k = s.threads.length ∧ i = s.ids + 1) := by
      intro k i h
      simp only [cstep, List.map_append] at h
      rcases get_snoc _ _ _ _ h with h | ⟨h1, h2⟩
      · exact .inl h
      · refine .inr ⟨by simpa using h1, ?_⟩
        simp only [eid, Option.some.injEq] at h2
        exact h2
    refine ⟨fun k i h => ?_, fun k k' i h h' => ?_⟩
    · rcases g k i h with h | ⟨_, h⟩
      · have := u.bound k i h; simp only [cstep]; omega
      · simp only [cstep]; omega
    · rcases g k i h with h | ⟨h1, h2⟩ <;> rcases g k' i h' with h' | ⟨h3, h4⟩
      · exact u.one k k' i h h'
      · have := u.bound k i h; omega
      · have := u.bound k' i h'; omega
      · omega
  | recv i a => exact uniq_none u _ rfl rfl rfl
  | fire i =>
    simp only [cstep]
    cases s.timers.get? i with
    | none => exact u
    | some c => exact uniq_none u (.timer i c 0) rfl rfl rfl
  | adv k =>
    simp only [cstep]
    cases hk : s.threads[k]? with
    | none => exact u
    | some t =>
      have e1 := map_set_eid hk (eid_adv s t)
      refine ⟨fun j i h => ?_, fun j j' i h h' => ?_⟩
      · simp only [e1] at h
        simp only [(adv_log s t).2]
        exact u.bound j i h
      · simp only [e1] at h h'
        exact u.one j j' i h h'

theorem uniq_run (h : List Ev) : Uniq (crun h) := by
  induction h using snocRec with
  | nil => exact ⟨fun k i h => by simp [crun] at h, fun k k' i h => by simp [crun] at h⟩
  | append_singleton h e ih => rw [crun_snoc]; exact uniq_step ih e

/-- The emission with this number has returned. -/
structure Past (id : Nat) (s : CSt) : Prop where
  bound : id ≤ s.ids
  em : ∀ c tm pc, Thread.emitter id c tm pc ∈ s.threads → 2 ≤ pc

theorem past_of {id cb : Nat} {timed : Bool} {s : CSt} (u : Uniq s) (r : EmitReturned s id cb timed) : Past id s := by
  obtain ⟨k, hk⟩ := List.getElem?_of_mem r
  have hk' : (s.threads.map eid)[k]? = some (some id) := by rw [List.getElem?_map, hk]; rfl
  refine ⟨u.bound k id hk', fun c tm pc h => ?_⟩
  obtain ⟨j, hj⟩ := List.getElem?_of_mem h
  have := u.one k j id hk' (by rw [List.getElem?_map, hj]; rfl)
  subst this
  rw [hk] at hj
  cases hj
  exact Nat.le_refl _

/-- A goroutine of another emission, or one that has stored its callback, does not store this one. -/
theorem adv_gone {id : Nat} {s : CSt} {t : Thread} (ht : ∀ c tm pc, t = .emitter id c tm pc → 2 ≤ pc) (h : s.acks.get? id = none) :
    (advThread s t).1.acks.get? id = none := by
  have era : ∀ i, (s.acks.erase i).get? id = none := by
    intro i; rw [FMap.get?_erase]; split
    · rfl
    · exact h
  cases t with
  | emitter i c tm pc =>
    rcases pc with _ | _ | pc
    · cases tm <;> exact h
    · have hne : i ≠ id := by
        intro e; subst e
        have := ht c tm _ rfl
        omega
      simp only [advThread, FMap.get?_insert, hne, if_false]
      exact h
    · exact h
  | handler i a pc o =>
    rcases pc with _ | _ | _ | _ | pc
    · simp only [advThread]; split <;> exact h
    · cases o with
      | none => exact h
      | some e => simp only [advThread]; cases e.timer <;> exact h
    · cases o <;> exact h
    · cases o <;> exact era i
    · cases o <;> exact h
  | timer i c pc =>
    rcases pc with _ | _ | pc
    · exact era i
    · exact h
    · exact h

theorem past_step {id : Nat} {s : CSt} (p : Past id s) (e : Ev) :
    Past id (cstep s e) ∧ (s.acks.get? id = none → (cstep s e).acks.get? id = none) := by
  have b := p.bound
  cases e with
  | emit c tm =>
    refine ⟨⟨by simp only [cstep]; omega, fun c' tm' pc h => ?_⟩, fun h => h⟩
    simp only [cstep, List.mem_append, List.mem_singleton, Thread.emitter.injEq] at h
    rcases h with h | ⟨h, _⟩
    · exact p.em _ _ _ h
    · omega
  | recv i a =>
    refine ⟨⟨b, fun c' tm' pc h => ?_⟩, fun h => h⟩
    simp only [cstep, List.mem_append, List.mem_singleton] at h
    rcases h with h | h
    · exact p.em _ _ _ h
    · cases h
  | fire i =>
    simp only [cstep]
    cases s.timers.get? i with
    | none => exact ⟨p, fun h => h⟩
    | some c =>
      refine ⟨⟨b, fun c' tm' pc h => ?_⟩, fun h => h⟩
      simp only [List.mem_append, List.mem_singleton] at h
      rcases h with h | h
      · exact p.em _ _ _ h
      · cases h
  | adv k =>
    simp only [cstep]
    cases hk : s.threads[k]? with
    | none => exact ⟨p, fun h => h⟩
    | some t =>
      refine ⟨⟨by simp only [(adv_log s t).2]; exact b, fun c' tm' pc h => ?_⟩, fun h => ?_⟩
      · rcases mem_of_mem_set h with h | h
        · exact p.em _ _ _ h
        · have he := eid_adv s t
          rw [← h] at he
          cases t with
          | emitter i c tm pc0 =>
            obtain ⟨pc', h1, _, h3, _⟩ := adv_emitter s i c tm pc0
            rw [h1] at h
            cases h
            exact Nat.le_trans (p.em _ _ _ (List.mem_of_getElem? hk)) h3
          | handler i a q o => cases he
          | timer i c q => cases he
      · exact adv_gone (fun c tm pc e => p.em c tm pc (e ▸ List.mem_of_getElem? hk)) h

/-- The goroutine `k` deals with an answer or with the end of the time; when it has come far enough the callback is gone. -/
def Drops (id k : Nat) (s : CSt) : Prop :=
  (∃ a pc o, s.threads[k]? = some (.handler id a pc o) ∧ (pc = 4 → s.acks.get? id = none)) ∨
  ∃ c pc, s.threads[k]? = some (.timer id c pc) ∧ (1 ≤ pc → s.acks.get? id = none)

theorem drops_get {id k : Nat} {s s' : CSt} (d : Drops id k s) (ht : s'.threads[k]? = s.threads[k]?)
    (hg : s.acks.get? id = none → s'.acks.get? id = none) : Drops id k s' := by
  rcases d with ⟨a, pc, o, h1, h2⟩ | ⟨c, pc, h1, h2⟩
  · exact .inl ⟨a, pc, o, ht.trans h1, fun h => hg (h2 h)⟩
  · exact .inr ⟨c, pc, ht.trans h1, fun h => hg (h2 h)⟩

theorem drops_step {id k : Nat} {s : CSt} (p : Past id s) (d : Drops id k s) (e : Ev) : Drops id k (cstep s e) := by
  have hg := (past_step p e).2
  have hl : k < s.threads.length := by
    rcases d with ⟨_, _, _, h, _⟩ | ⟨_, _, h, _⟩ <;> exact (List.getElem?_eq_some_iff.1 h).1
  have app : ∀ t, (s.threads ++ [t])[k]? = s.threads[k]? := fun t => List.getElem?_append_left hl
  cases e with
  | emit c tm => exact drops_get d (app _) hg
  | recv i a => exact drops_get d (app _) hg
  | fire i =>
    cases ht : s.timers.get? i with
    | none => simp only [cstep, ht]; exact d
    | some c =>
      simp only [cstep, ht] at hg ⊢
      exact drops_get d (app _) hg
  | adv j =>
    by_cases hj : j = k
    · subst hj
      rcases d with ⟨a, pc, o, h1, h2⟩ | ⟨c, pc, h1, h2⟩
      · have self : ∀ t', (s.threads.set j t')[j]? = some t' := fun t' => List.getElem?_set_self hl
        simp only [cstep, h1] at hg ⊢
        rcases pc with _ | _ | _ | _ | pc
        · cases ha : s.acks.get? id with
          | none => exact .inl ⟨a, 4, none, by simp only [self]; cases o <;> simp only [advThread, ha], fun _ => hg ha⟩
          | some e => exact .inl ⟨a, 1, some e, by simp only [self]; cases o <;> simp only [advThread, ha], fun h => by omega⟩
        · cases o with
          | none => exact .inl ⟨a, 1, none, by simp only [self]; rfl, fun h => by omega⟩
          | some e => exact .inl ⟨a, 2, some e, by simp only [self]; rfl, fun h => by omega⟩
        · cases o with
          | none => exact .inl ⟨a, 2, none, by simp only [self]; rfl, fun h => by omega⟩
          | some e => exact .inl ⟨a, 3, some e, by simp only [self]; rfl, fun h => by omega⟩
        · refine .inl ⟨a, 4, o, by simp only [self]; cases o <;> rfl, fun _ => ?_⟩
          cases o <;> simp only [advThread, FMap.get?_erase, if_true]
        · refine .inl ⟨a, pc + 4, o, by simp only [self]; cases o <;> rfl, fun h => ?_⟩
          cases o <;> exact h2 h
      · have self : ∀ t', (s.threads.set j t')[j]? = some t' := fun t' => List.getElem?_set_self hl
        simp only [cstep, h1] at hg ⊢
        rcases pc with _ | _ | pc
        · exact .inr ⟨c, 1, by simp only [self]; rfl, fun _ => by simp only [advThread, FMap.get?_erase, if_true]⟩
        · exact .inr ⟨c, 2, by simp only [self]; rfl, fun _ => h2 (by omega)⟩
        · exact .inr ⟨c, pc + 2, by simp only [self]; rfl, fun _ => h2 (by omega)⟩
    · cases ht : s.threads[j]? with
      | none => simp only [cstep, ht]; exact d
      | some t =>
        simp only [cstep, ht] at hg ⊢
        exact drops_get d (List.getElem?_set_ne (fun h => hj h)) hg

theorem drops_run {id k : Nat} (post : List Ev) {s : CSt} (p : Past id s) (d : Drops id k s) : Drops id k (post.foldl cstep s) := by
  induction post generalizing s with
  | nil => exact d
  | cons e post ih => exact ih (past_step p e).1 (drops_step p d e)

theorem drops_done {id k : Nat} {s : CSt} (d : Drops id k s) {t : Thread} (hk : s.threads[k]? = some t) (ht : ThreadDone t) : ¬stillHolds s id := by
  rcases d with ⟨a, pc, o, h1, h2⟩ | ⟨c, pc, h1, h2⟩
  · rw [hk] at h1; cases h1
    exact fun h => h (h2 ht)
  · rw [hk] at h1; cases h1
    exact fun h => h (h2 (by have : pc = 2 := ht; omega))

/-- Nobody answers the emission and its time does not end. -/
structure Calm (id : Nat) (s : CSt) : Prop where
  threads : ∀ t ∈ s.threads, (∀ a pc o, t ≠ .handler id a pc o) ∧ ∀ c pc, t ≠ .timer id c pc
  kept : (∃ c tm pc, 2 ≤ pc ∧ Thread.emitter id c tm pc ∈ s.threads) → stillHolds s id

theorem calm_snoc {id : Nat} {s s' : CSt} (c : Calm id s) (t : Thread) (hs : s'.threads = s.threads ++ [t]) (ha : s'.acks = s.acks)
    (ht : (∀ a pc o, t ≠ .handler id a pc o) ∧ ∀ c pc, t ≠ .timer id c pc) (he : ∀ c tm pc, t = .emitter id c tm pc → pc = 0) : Calm id s' := by
  refine ⟨fun u hu => ?_, fun ⟨c', tm, pc, h1, h2⟩ => ?_⟩
  · rw [hs, List.mem_append, List.mem_singleton] at hu
    rcases hu with hu | rfl
    · exact c.threads u hu
    · exact ht
  · rw [hs, List.mem_append, List.mem_singleton] at h2
    unfold stillHolds
    rw [ha]
    rcases h2 with h2 | h2
    · exact c.kept ⟨c', tm, pc, h1, h2⟩
    · have := he c' tm pc h2.symm; omega

theorem calm_step {id : Nat} {s : CSt} (c : Calm id s) (e : Ev) (he : endsAck id e = false) : Calm id (cstep s e) := by
  cases e with
  | emit x tm =>
    exact calm_snoc c _ rfl rfl ⟨fun _ _ _ h => (by cases h), fun _ _ h => by cases h⟩ (fun _ _ _ h => by cases h; rfl)
  | recv i a =>
    have hi : i ≠ id := by simpa [endsAck] using he
    exact calm_snoc c _ rfl rfl ⟨fun _ _ _ h => by cases h; exact hi rfl, fun _ _ h => by cases h⟩ (fun _ _ _ h => by cases h)
  | fire i =>
    have hi : i ≠ id := by simpa [endsAck] using he
    simp only [cstep]
    cases s.timers.get? i with
    | none => exact c
    | some x =>
      exact calm_snoc c (.timer i x 0) rfl rfl ⟨fun _ _ _ h => (by cases h), fun _ _ h => by cases h; exact hi rfl⟩ (fun _ _ _ h => by cases h)
  | adv k =>
    simp only [cstep]
    cases hk : s.threads[k]? with
    | none => exact c
    | some t =>
      have hm := List.mem_of_getElem? hk
      have ct := c.threads t hm
      have era : ∀ i, i ≠ id → stillHolds s id → (s.acks.erase i).get? id ≠ none := by
        intro i hi h; rw [FMap.get?_erase, if_neg hi]; exact h
      have holds : stillHolds s id → (advThread s t).1.acks.get? id ≠ none := by
        intro h
        cases t with
        | emitter i x tm pc =>
          rcases pc with _ | _ | pc
          · cases tm <;> exact h
          · simp only [advThread, FMap.get?_insert]; split
            · simp
            · exact h
          · exact h
        | handler i a pc o =>
          have hi : i ≠ id := fun e => ct.1 a pc o (by rw [e])
          rcases pc with _ | _ | _ | _ | pc
          · simp only [advThread]; split <;> exact h
          · cases o with
            | none => exact h
            | some e => simp only [advThread]; cases e.timer <;> exact h
          · cases o <;> exact h
          · cases o <;> exact era i hi h
          · cases o <;> exact h
        | timer i x pc =>
          have hi : i ≠ id := fun e => ct.2 x pc (by rw [e])
          rcases pc with _ | _ | pc
          · exact era i hi h
          · exact h
          · exact h
      refine ⟨fun u hu => ?_, fun ⟨x, tm, pc, h1, h2⟩ => ?_⟩
      · rcases mem_of_mem_set hu with hu | rfl
        · exact c.threads u hu
        · cases t with
          | emitter i x tm pc =>
            obtain ⟨_, h, _⟩ := adv_emitter s i x tm pc
            rw [h]
            exact ⟨fun _ _ _ h => (by cases h), fun _ _ h => by cases h⟩
          | handler i a pc o =>
            obtain ⟨_, _, h, _⟩ := adv_handler s i a pc o
            rw [h]
            exact ⟨fun _ _ _ h => by cases h; exact ct.1 a pc o rfl, fun _ _ h => by cases h⟩
          | timer i x pc =>
            obtain ⟨_, h, _⟩ := adv_timer s i x pc
            rw [h]
            exact ⟨fun _ _ _ h => (by cases h), fun _ _ h => by cases h; exact ct.2 x pc rfl⟩
      · rcases mem_of_mem_set h2 with h2 | h2
        · exact holds (c.kept ⟨x, tm, pc, h1, h2⟩)
        · have he := eid_adv s t
          rw [← h2] at he
          cases t with
          | emitter i c0 tm0 pc0 =>
            obtain ⟨pc', e1, _, _, e4, _⟩ := adv_emitter s i c0 tm0 pc0
            rw [e1] at h2
            cases h2
            rcases e4 h1 with h | h
            · exact holds (c.kept ⟨_, _, pc0, h, hm⟩)
            · exact h
          | handler i a q o => cases he
          | timer i c q => cases he

theorem calm_run {id : Nat} (h : List Ev) (hh : ∀ e ∈ h, endsAck id e = false) : Calm id (crun h) := by
  induction h using snocRec with
  | nil => exact ⟨fun t h => by simp [crun] at h, fun ⟨_, _, _, _, h⟩ => by simp [crun] at h⟩
  | append_singleton h e ih =>
    rw [crun_snoc]
    exact calm_step (ih fun e' he' => hh e' (by simp [he'])) e (hh e (by simp))

end Verif.Acks
