import Verif.Spec.Acks
import Verif.Lib.ListExtra

/-! # Invariants of the acknowledgement tables -/

namespace Verif.Acks
open Verif Verif.Spec

theorem bcast_acks (socks : List Nat) (id cb : Nat) (s : St) :
    (socks.foldl (fun s' k => { s' with acks := s'.acks.insert (k, id) ⟨cb, none⟩ }) s).ids = s.ids ∧
    (socks.foldl (fun s' k => { s' with acks := s'.acks.insert (k, id) ⟨cb, none⟩ }) s).timers = s.timers ∧
    (socks.foldl (fun s' k => { s' with acks := s'.acks.insert (k, id) ⟨cb, none⟩ }) s).log = s.log ∧
    ∀ (k i : Nat), (socks.foldl (fun s' k => { s' with acks := s'.acks.insert (k, id) ⟨cb, none⟩ }) s).acks.get? (k, i) =
      if i = id ∧ k ∈ socks then some ⟨cb, none⟩ else s.acks.get? (k, i) := by
  induction socks generalizing s with
  | nil => simp
  | cons a l ih =>
    rw [List.foldl_cons]
    obtain ⟨h1, h2, h3, h4⟩ := ih { s with acks := s.acks.insert (a, id) ⟨cb, none⟩ }
    refine ⟨h1, h2, h3, ?_⟩
    intro k i
    rw [h4]
    simp only [FMap.get?_insert, List.mem_cons]
    grind

/-- Ids in the tables have been drawn; a stored function clears the timer of its own id; a pending timer
belongs to a stored function; callbacks are those of the requests made so far. -/
structure Inv (s : St) (h : List Op) : Prop where
  ids : s.ids = h.countP drawsId
  bound : ∀ k i e, s.acks.get? (k, i) = some e → i ≤ s.ids
  tbound : ∀ i p, s.timers.get? i = some p → i ≤ s.ids
  own : ∀ k i e t, s.acks.get? (k, i) = some e → e.timer = some t → t = i
  cb : ∀ k i e, s.acks.get? (k, i) = some e → ∃ op ∈ h, cbOf op = some e.cb
  tcb : ∀ i k c, s.timers.get? i = some (k, c) → ∃ op ∈ h, cbOf op = some c
  log : ∀ p ∈ s.log, ∃ op ∈ h, cbOf op = some p.1

theorem inv_init : Inv {} [] := by constructor <;> simp

theorem inv_step {s : St} {h : List Op} (hi : Inv s h) (op : Op) : Inv (step s op) (h ++ [op]) := by
  have old : ∀ c, (∃ o ∈ h, cbOf o = some c) → ∃ o ∈ h ++ [op], cbOf o = some c := by
    rintro c ⟨o, ho, hc⟩; exact ⟨o, by simp [ho], hc⟩
  cases op with
  | emit sock cb timed =>
    have new : ∃ o ∈ h ++ [Op.emit sock cb timed], cbOf o = some cb := ⟨.emit sock cb timed, by simp, rfl⟩
    have e1 : (step s (.emit sock cb timed)).ids = s.ids + 1 := by
      simp only [step, emit, register, nextId]; split <;> rfl
    have e2 : (step s (.emit sock cb timed)).log = s.log := by
      simp only [step, emit, register, nextId]; split <;> rfl
    have e3 : (step s (.emit sock cb timed)).acks =
        s.acks.insert (sock, s.ids + 1) ⟨cb, if timed then some (s.ids + 1) else none⟩ := by
      simp only [step, emit, register, nextId]; split <;> simp_all
    have e4 : (step s (.emit sock cb timed)).timers =
        if timed then s.timers.insert (s.ids + 1) (sock, cb) else s.timers := by
      simp only [step, emit, register, nextId]; split <;> rfl
    constructor
    · rw [e1, List.countP_append, hi.ids]; rfl
    · intro k i e; rw [e3, e1, FMap.get?_insert]; split
      · rename_i he; intro _; simp at he; omega
      · intro h'; have := hi.bound k i e h'; omega
    · intro i p; rw [e4, e1]; split
      · rw [FMap.get?_insert]; split
        · rename_i he; intro _; omega
        · intro h'; have := hi.tbound i p h'; omega
      · intro h'; have := hi.tbound i p h'; omega
    · intro k i e t; rw [e3, FMap.get?_insert]; split
      · rename_i he; intro h1 h2; simp at he; cases h1; simp at h2; omega
      · exact hi.own k i e t
    · intro k i e; rw [e3, FMap.get?_insert]; split
      · intro h1; cases h1; exact new
      · intro h1; exact old _ (hi.cb k i e h1)
    · intro i k c; rw [e4]; split
      · rw [FMap.get?_insert]; split
        · intro h1; cases h1; exact new
        · intro h1; exact old _ (hi.tcb i k c h1)
      · intro h1; exact old _ (hi.tcb i k c h1)
    · intro p; rw [e2]; intro h1; exact old _ (hi.log p h1)
  | bcast socks cb =>
    have new : ∃ o ∈ h ++ [Op.bcast socks cb], cbOf o = some cb := ⟨.bcast socks cb, by simp, rfl⟩
    obtain ⟨e1, e4, e2, e3⟩ := bcast_acks socks (s.ids + 1) cb { s with ids := s.ids + 1 }
    constructor
    · rw [List.countP_append, ← hi.ids]; exact e1
    · intro k i e h'
      have e1' : (step s (.bcast socks cb)).ids = s.ids + 1 := e1
      rw [e1']
      have h'' := (e3 k i).symm.trans h'
      split at h''
      · omega
      · have := hi.bound k i e h''; omega
    · intro i p h'
      have e1' : (step s (.bcast socks cb)).ids = s.ids + 1 := e1
      rw [e1']
      have := hi.tbound i p (e4 ▸ h'); omega
    · intro k i e t h'
      have h'' := (e3 k i).symm.trans h'
      split at h''
      · cases h''; simp
      · exact hi.own k i e t h''
    · intro k i e h'
      have h'' := (e3 k i).symm.trans h'
      split at h''
      · cases h''; exact new
      · exact old _ (hi.cb k i e h'')
    · intro i k c h'; exact old _ (hi.tcb i k c (e4 ▸ h'))
    · intro p h'; exact old _ (hi.log p (e2 ▸ h'))
  | answer sock id args =>
    simp only [step, onack]
    have same : Inv s (h ++ [Op.answer sock id args]) :=
      ⟨by rw [hi.ids, List.countP_append]; simp [drawsId], hi.bound, hi.tbound, hi.own,
        fun k i e h1 => old _ (hi.cb k i e h1), fun i k c h1 => old _ (hi.tcb i k c h1),
        fun p h1 => old _ (hi.log p h1)⟩
    cases id with
    | none => exact same
    | some id =>
      simp only []
      cases hg : s.acks.get? (sock, id) with
      | none => exact same
      | some e =>
        have hids : (call s e args).ids = s.ids := by simp only [call]; split <;> rfl
        have hacks : (call s e args).acks = s.acks := by simp only [call]; split <;> rfl
        have hlog : (call s e args).log = s.log ++ [(e.cb, .ok args)] := by simp only [call]; split <;> rfl
        have htim : ∀ i p, (call s e args).timers.get? i = some p → s.timers.get? i = some p := by
          intro i p; simp only [call]; split
          · simp only [FMap.get?_erase]; split
            · simp
            · exact (fun x => x)
          · exact (fun x => x)
        have hera : ∀ k i e', ((call s e args).acks.erase (sock, id)).get? (k, i) = some e' →
            s.acks.get? (k, i) = some e' := by
          intro k i e'; rw [hacks, FMap.get?_erase]; split
          · simp
          · exact (fun x => x)
        constructor
        · show (call s e args).ids = _; rw [hids]; exact same.ids
        · intro k i e' h1; show i ≤ (call s e args).ids; rw [hids]; exact hi.bound k i e' (hera k i e' h1)
        · intro i p h1; show i ≤ (call s e args).ids; rw [hids]; exact hi.tbound i p (htim i p h1)
        · intro k i e' t h1; exact hi.own k i e' t (hera k i e' h1)
        · intro k i e' h1; exact same.cb k i e' (hera k i e' h1)
        · intro i k c h1; exact same.tcb i k c (htim i _ h1)
        · intro p h1
          have h1 : p ∈ (call s e args).log := h1
          rw [hlog, List.mem_append] at h1
          rcases h1 with h1 | h1
          · exact same.log p h1
          · simp at h1; subst h1; exact same.cb _ _ e hg
  | expire id =>
    simp only [step, expire]
    have same : Inv s (h ++ [Op.expire id]) :=
      ⟨by rw [hi.ids, List.countP_append]; simp [drawsId], hi.bound, hi.tbound, hi.own,
        fun k i e h1 => old _ (hi.cb k i e h1), fun i k c h1 => old _ (hi.tcb i k c h1),
        fun p h1 => old _ (hi.log p h1)⟩
    cases hg : s.timers.get? id with
    | none => exact same
    | some p =>
      obtain ⟨sock, cb⟩ := p
      have hera : ∀ k i e', (s.acks.erase (sock, id)).get? (k, i) = some e' →
          s.acks.get? (k, i) = some e' := by
        intro k i e'; rw [FMap.get?_erase]; split
        · simp
        · exact (fun x => x)
      have htim : ∀ i p, (s.timers.erase id).get? i = some p → s.timers.get? i = some p := by
        intro i p; rw [FMap.get?_erase]; split
        · simp
        · exact (fun x => x)
      constructor
      · exact same.ids
      · intro k i e' h1; exact hi.bound k i e' (hera k i e' h1)
      · intro i p h1; exact hi.tbound i p (htim i p h1)
      · intro k i e' t h1; exact hi.own k i e' t (hera k i e' h1)
      · intro k i e' h1; exact same.cb k i e' (hera k i e' h1)
      · intro i k c h1; exact same.tcb i k c (htim i _ h1)
      · intro p h1
        rw [List.mem_append] at h1
        rcases h1 with h1 | h1
        · exact same.log p h1
        · simp at h1; subst h1; exact same.tcb _ _ _ hg

theorem inv_run (h : List Op) : Inv (run h) h := by
  induction h using snocRec with
  | nil => exact inv_init
  | append_singleton h op ih => rw [run, List.foldl_append]; exact inv_step ih op

theorem run_append (h1 h2 : List Op) : run (h1 ++ h2) = h2.foldl step (run h1) := by
  simp [run, List.foldl_append]

theorem callsOf_append (cb : Nat) (l m) : callsOf cb (l ++ m) = callsOf cb l ++ callsOf cb m := by
  simp [callsOf, List.filterMap_append]

/-- The callback `cb` is not stored anywhere. -/
structure Quiet (cb : Nat) (s : St) : Prop where
  acks : ∀ k i e, s.acks.get? (k, i) = some e → e.cb ≠ cb
  timers : ∀ i k c, s.timers.get? i = some (k, c) → c ≠ cb

/-- The callback `cb` waits under `(sock, id)` and nowhere else. -/
structure Waiting (cb sock id : Nat) (timed : Bool) (s : St) : Prop where
  here : s.acks.get? (sock, id) = some ⟨cb, if timed then some id else none⟩
  timer : s.timers.get? id = if timed then some (sock, cb) else none
  elsewhere : ∀ k i e, (k, i) ≠ (sock, id) → s.acks.get? (k, i) = some e → e.cb ≠ cb ∧ e.timer ≠ some id
  timers : ∀ i k c, i ≠ id → s.timers.get? i = some (k, c) → c ≠ cb
  bound : id ≤ s.ids

theorem call_spec (s : St) (e : Entry) (args : List Val) :
    (call s e args).ids = s.ids ∧ (call s e args).acks = s.acks ∧
    (call s e args).log = s.log ++ [(e.cb, .ok args)] ∧
    ∀ i, (call s e args).timers.get? i = if e.timer = some i then none else s.timers.get? i := by
  simp only [call]
  cases h : e.timer with
  | none => simp
  | some t => simp [FMap.get?_erase]

theorem quiet_step {cb : Nat} {s : St} (hq : Quiet cb s) (op : Op) (hop : cbOf op ≠ some cb) :
    Quiet cb (step s op) ∧ callsOf cb (step s op).log = callsOf cb s.log := by
  cases op with
  | emit sock c timed =>
    simp [cbOf] at hop
    refine ⟨⟨?_, ?_⟩, ?_⟩
    · intro k i e; simp only [step, emit, register, nextId]
      split <;> simp only [FMap.get?_insert] <;> split
      · intro h; cases h; exact hop
      · exact hq.acks k i e
      · intro h; cases h; exact hop
      · exact hq.acks k i e
    · intro i k c'; simp only [step, emit, register, nextId]
      split
      · simp only [FMap.get?_insert]; split
        · intro h; cases h; exact hop
        · exact hq.timers i k c'
      · exact hq.timers i k c'
    · simp only [step, emit, register, nextId]; split <;> rfl
  | bcast socks c =>
    simp [cbOf] at hop
    obtain ⟨e1, e4, e2, e3⟩ := bcast_acks socks (s.ids + 1) c { s with ids := s.ids + 1 }
    refine ⟨⟨?_, ?_⟩, ?_⟩
    · intro k i e h'
      have h'' := (e3 k i).symm.trans h'
      split at h''
      · cases h''; exact hop
      · exact hq.acks k i e h''
    · intro i k c' h'; exact hq.timers i k c' (e4 ▸ h')
    · exact congrArg (callsOf cb) e2
  | answer sock id args =>
    simp only [step, onack]
    cases id with
    | none => exact ⟨hq, rfl⟩
    | some id =>
      simp only []
      cases hg : s.acks.get? (sock, id) with
      | none => exact ⟨hq, rfl⟩
      | some e =>
        obtain ⟨h1, h2, h3, h4⟩ := call_spec s e args
        refine ⟨⟨?_, ?_⟩, ?_⟩
        · intro k i e'; simp only [h2, FMap.get?_erase]; split
          · simp
          · exact hq.acks k i e'
        · intro i k c; simp only [h4]; split
          · simp
          · exact hq.timers i k c
        · show callsOf cb (call s e args).log = _
          rw [h3, callsOf_append]
          have := hq.acks _ _ _ hg
          simp [callsOf, this]
  | expire id =>
    simp only [step, expire]
    cases hg : s.timers.get? id with
    | none => exact ⟨hq, rfl⟩
    | some p =>
      obtain ⟨sock, c⟩ := p
      refine ⟨⟨?_, ?_⟩, ?_⟩
      · intro k i e'; simp only [FMap.get?_erase]; split
        · simp
        · exact hq.acks k i e'
      · intro i k c'; simp only [FMap.get?_erase]; split
        · simp
        · exact hq.timers i k c'
      · simp only [callsOf_append]
        have := hq.timers _ _ _ hg
        simp [callsOf, this]

theorem quiet_fold {cb : Nat} (post : List Op) {s : St} (hq : Quiet cb s)
    (hp : ∀ op ∈ post, cbOf op ≠ some cb) :
    callsOf cb (post.foldl step s).log = callsOf cb s.log := by
  induction post generalizing s with
  | nil => rfl
  | cons op post ih =>
    obtain ⟨h1, h2⟩ := quiet_step hq op (hp op (by simp))
    rw [List.foldl_cons, ih h1 (fun o ho => hp o (by simp [ho])), h2]

theorem waiting_fold {cb sock id : Nat} {timed : Bool} (post : List Op) {s : St}
    (hw : Waiting cb sock id timed s) (hp : ∀ op ∈ post, cbOf op ≠ some cb) :
    callsOf cb (post.foldl step s).log = callsOf cb s.log ++ (outcome sock id timed post).toList := by
  induction post generalizing s with
  | nil => simp [outcome]
  | cons op post ih =>
    have hop := hp op (by simp)
    have hp' : ∀ o ∈ post, cbOf o ≠ some cb := fun o ho => hp o (by simp [ho])
    rw [List.foldl_cons]
    cases op with
    | emit k c t =>
      simp [cbOf] at hop
      have hne : s.ids + 1 ≠ id := by have := hw.bound; omega
      have e3 : (step s (.emit k c t)).acks =
          s.acks.insert (k, s.ids + 1) ⟨c, if t then some (s.ids + 1) else none⟩ := by
        simp only [step, emit, register, nextId]; split <;> simp_all
      have e4 : (step s (.emit k c t)).timers =
          if t then s.timers.insert (s.ids + 1) (k, c) else s.timers := by
        simp only [step, emit, register, nextId]; split <;> rfl
      have e2 : (step s (.emit k c t)).log = s.log := by
        simp only [step, emit, register, nextId]; split <;> rfl
      have hw' : Waiting cb sock id timed (step s (.emit k c t)) := by
        constructor
        · rw [e3, FMap.get?_insert_ne (by simp; omega)]; exact hw.here
        · rw [e4]; split
          · rw [FMap.get?_insert_ne hne]; exact hw.timer
          · exact hw.timer
        · intro k' i e hki; rw [e3, FMap.get?_insert]; split
          · intro h; cases h; refine ⟨hop, ?_⟩
            simp only []; split
            · simp; omega
            · simp
          · exact hw.elsewhere k' i e hki
        · intro i k' c' hi; rw [e4]; split
          · rw [FMap.get?_insert]; split
            · intro h; cases h; exact hop
            · exact hw.timers i k' c' hi
          · exact hw.timers i k' c' hi
        · have : (step s (.emit k c t)).ids = s.ids + 1 := by
            simp only [step, emit, register, nextId]; split <;> rfl
          have := hw.bound; omega
      rw [ih hw' hp', e2]; rfl
    | bcast socks c =>
      simp [cbOf] at hop
      have hne : s.ids + 1 ≠ id := by have := hw.bound; omega
      obtain ⟨e1, e4, e2, e3⟩ := bcast_acks socks (s.ids + 1) c { s with ids := s.ids + 1 }
      have hw' : Waiting cb sock id timed (step s (.bcast socks c)) := by
        constructor
        · refine Eq.trans (e3 sock id) ?_
          rw [if_neg (by omega)]; exact hw.here
        · exact Eq.trans (congrArg (fun m => FMap.get? m id) e4) hw.timer
        · intro k' i e hki h'
          have h'' := (e3 k' i).symm.trans h'
          split at h''
          · cases h''; exact ⟨hop, by simp⟩
          · exact hw.elsewhere k' i e hki h''
        · intro i k' c' hi h'; exact hw.timers i k' c' hi (e4 ▸ h')
        · have h1 : (step s (.bcast socks c)).ids = s.ids + 1 := e1
          have := hw.bound; omega
      rw [ih hw' hp']
      refine congrArg (· ++ _) (congrArg (callsOf cb) e2)
    | answer k i args =>
      cases i with
      | none => simp only [step, onack, outcome]; exact ih hw hp'
      | some i =>
        simp only [outcome]
        by_cases hki : k = sock ∧ i = id
        · obtain ⟨rfl, rfl⟩ := hki
          simp only [and_self, if_true, Option.toList_some]
          have hs : step s (.answer k (some i) args) =
              { call s ⟨cb, if timed then some i else none⟩ args with
                acks := (call s ⟨cb, if timed then some i else none⟩ args).acks.erase (k, i) } := by
            simp only [step, onack, hw.here]
          obtain ⟨h1, h2, h3, h4⟩ := call_spec s ⟨cb, if timed then some i else none⟩ args
          have hq : Quiet cb (step s (.answer k (some i) args)) := by
            rw [hs]
            constructor
            · intro k' i' e; simp only [h2, FMap.get?_erase]; split
              · simp
              · rename_i hne; intro h; exact (hw.elsewhere k' i' e (fun h => hne h.symm) h).1
            · intro i' k' c
              rw [h4]
              by_cases hii : i' = i
              · subst hii
                rw [hw.timer]
                cases timed <;> simp
              · intro h
                refine hw.timers i' k' c hii ?_
                generalize (if timed = true then some i else none) = tm at h
                by_cases ht : tm = some i'
                · simp [ht] at h
                · simp only [ht, if_false] at h; exact h
          rw [quiet_fold post hq hp', hs]
          show callsOf cb (call s _ args).log = _
          rw [h3, callsOf_append]
          simp [callsOf]
        · simp only [hki, if_false]
          simp only [step, onack]
          cases hg : s.acks.get? (k, i) with
          | none => exact ih hw hp'
          | some e =>
            have hkey : (k, i) ≠ (sock, id) := by simp; omega
            obtain ⟨hcb, htm⟩ := hw.elsewhere k i e hkey hg
            obtain ⟨h1, h2, h3, h4⟩ := call_spec s e args
            have hw' : Waiting cb sock id timed
                { call s e args with acks := (call s e args).acks.erase (k, i) } := by
              constructor
              · simp only [h2, FMap.get?_erase_ne hkey]; exact hw.here
              · simp only [h4, htm, if_false]; exact hw.timer
              · intro k' i' e' hne; simp only [h2, FMap.get?_erase]; split
                · simp
                · exact hw.elsewhere k' i' e' hne
              · intro i' k' c' hne; simp only [h4]; split
                · simp
                · exact hw.timers i' k' c' hne
              · show id ≤ (call s e args).ids; rw [h1]; exact hw.bound
            refine Eq.trans (ih hw' hp') ?_
            show callsOf cb (call s e args).log ++ _ = _
            rw [h3, callsOf_append]
            simp [callsOf, hcb]
    | expire i =>
      simp only [outcome]
      by_cases hti : timed = true ∧ i = id
      · obtain ⟨rfl, rfl⟩ := hti
        simp only [and_self, if_true, Option.toList_some]
        have hg : s.timers.get? i = some (sock, cb) := by rw [hw.timer]; rfl
        have hs : step s (.expire i) = { s with timers := s.timers.erase i, acks := s.acks.erase (sock, i), log := s.log ++ [(cb, .timeout)] } := by
          simp only [step, expire, hg]
        have hq : Quiet cb (step s (.expire i)) := by
          rw [hs]
          constructor
          · intro k' i' e; simp only [FMap.get?_erase]; split
            · simp
            · rename_i hne; intro h; exact (hw.elsewhere k' i' e (fun h => hne h.symm) h).1
          · intro i' k' c; simp only [FMap.get?_erase]; split
            · simp
            · rename_i hne; exact hw.timers i' k' c (Ne.symm hne)
        rw [quiet_fold post hq hp', hs]
        simp [callsOf]
      · simp only [hti, if_false]
        simp only [step, expire]
        cases hg : s.timers.get? i with
        | none => exact ih hw hp'
        | some p =>
          obtain ⟨k', c⟩ := p
          have hid : i ≠ id := by
            intro h; subst h
            rw [hw.timer] at hg
            cases timed <;> simp_all
          have hc := hw.timers i k' c hid hg
          have hw' : Waiting cb sock id timed { s with timers := s.timers.erase i, acks := s.acks.erase (k', i), log := s.log ++ [(c, .timeout)] } := by
            constructor
            · simp only []; rw [FMap.get?_erase_ne (by simp; omega)]; exact hw.here
            · simp only []; rw [FMap.get?_erase_ne hid]; exact hw.timer
            · intro k'' i' e' hne; simp only [FMap.get?_erase]; split
              · simp
              · exact hw.elsewhere k'' i' e' hne
            · intro i' k'' c' hne; simp only [FMap.get?_erase]; split
              · simp
              · exact hw.timers i' k'' c' hne
            · exact hw.bound
          refine Eq.trans (ih hw' hp') ?_
          simp [callsOf, hc]

/-- The callback `cb` waits under `(k, id)` for the sockets `k` in `socks` and nowhere else. -/
structure WaitingAll (cb id : Nat) (socks : List Nat) (s : St) : Prop where
  here : ∀ k ∈ socks, s.acks.get? (k, id) = some ⟨cb, none⟩
  elsewhere : ∀ k i e, (i = id → k ∉ socks) → s.acks.get? (k, i) = some e → e.cb ≠ cb
  timers : ∀ i k c, s.timers.get? i = some (k, c) → c ≠ cb
  bound : id ≤ s.ids

theorem waitingAll_fold {cb id : Nat} (post : List Op) {socks : List Nat} {s : St}
    (hw : WaitingAll cb id socks s) (hp : ∀ op ∈ post, cbOf op ≠ some cb) (notimer : s.timers.get? id = none) :
    callsOf cb (post.foldl step s).log = callsOf cb s.log ++ (firstAnswers id socks post).map Res.ok := by
  induction post generalizing s socks with
  | nil => simp [firstAnswers]
  | cons op post ih =>
    have hop := hp op (by simp)
    have hp' : ∀ o ∈ post, cbOf o ≠ some cb := fun o ho => hp o (by simp [ho])
    rw [List.foldl_cons]
    cases op with
    | emit k c t =>
      simp [cbOf] at hop
      have hne : s.ids + 1 ≠ id := by have := hw.bound; omega
      have e3 : (step s (.emit k c t)).acks =
          s.acks.insert (k, s.ids + 1) ⟨c, if t then some (s.ids + 1) else none⟩ := by
        simp only [step, emit, register, nextId]; split <;> simp_all
      have e4 : (step s (.emit k c t)).timers =
          if t then s.timers.insert (s.ids + 1) (k, c) else s.timers := by
        simp only [step, emit, register, nextId]; split <;> rfl
      have e2 : (step s (.emit k c t)).log = s.log := by
        simp only [step, emit, register, nextId]; split <;> rfl
      have hw' : WaitingAll cb id socks (step s (.emit k c t)) := by
        constructor
        · intro k' hk'; rw [e3, FMap.get?_insert_ne (by simp; omega)]; exact hw.here k' hk'
        · intro k' i e hki; rw [e3, FMap.get?_insert]; split
          · intro h; cases h; exact hop
          · exact hw.elsewhere k' i e hki
        · intro i k' c'; rw [e4]; split
          · rw [FMap.get?_insert]; split
            · intro h; cases h; exact hop
            · exact hw.timers i k' c'
          · exact hw.timers i k' c'
        · have : (step s (.emit k c t)).ids = s.ids + 1 := by
            simp only [step, emit, register, nextId]; split <;> rfl
          have := hw.bound; omega
      have hn' : (step s (.emit k c t)).timers.get? id = none := by
        rw [e4]; split
        · rw [FMap.get?_insert_ne hne]; exact notimer
        · exact notimer
      rw [ih hw' hp' hn', e2]; rfl
    | bcast l c =>
      simp [cbOf] at hop
      have hne : s.ids + 1 ≠ id := by have := hw.bound; omega
      obtain ⟨e1, e4, e2, e3⟩ := bcast_acks l (s.ids + 1) c { s with ids := s.ids + 1 }
      have hw' : WaitingAll cb id socks (step s (.bcast l c)) := by
        constructor
        · intro k' hk'
          refine Eq.trans (e3 k' id) ?_
          rw [if_neg (by omega)]; exact hw.here k' hk'
        · intro k' i e hki h'
          have h'' := (e3 k' i).symm.trans h'
          split at h''
          · cases h''; exact hop
          · exact hw.elsewhere k' i e hki h''
        · intro i k' c' h'; exact hw.timers i k' c' (e4 ▸ h')
        · have h1 : (step s (.bcast l c)).ids = s.ids + 1 := e1
          have := hw.bound; omega
      rw [ih hw' hp' (Eq.trans (congrArg (fun m => FMap.get? m id) e4) notimer)]
      exact congrArg (· ++ _) (congrArg (callsOf cb) e2)
    | answer k i args =>
      cases i with
      | none => simp only [step, onack, firstAnswers]; exact ih hw hp' notimer
      | some i =>
        simp only [firstAnswers]
        by_cases hki : i = id ∧ k ∈ socks
        · obtain ⟨rfl, hk⟩ := hki
          simp only [hk, and_self, if_true, List.map_cons]
          have hs : step s (.answer k (some i) args) =
              { call s ⟨cb, none⟩ args with acks := (call s ⟨cb, none⟩ args).acks.erase (k, i) } := by
            simp only [step, onack, hw.here k hk]
          obtain ⟨h1, h2, h3, h4⟩ := call_spec s ⟨cb, none⟩ args
          have hw' : WaitingAll cb i (socks.filter (· ≠ k)) (step s (.answer k (some i) args)) := by
            rw [hs]
            constructor
            · intro k' hk'
              simp only [List.mem_filter] at hk'
              simp only [h2]
              rw [FMap.get?_erase_ne (by simp; intro h; simp [h] at hk')]
              exact hw.here k' hk'.1
            · intro k' i' e hne; simp only [h2, FMap.get?_erase]; split
              · simp
              · rename_i hne'
                refine hw.elsewhere k' i' e ?_
                intro hi hin
                refine hne hi ?_
                simp only [List.mem_filter, hin, true_and, decide_eq_true_eq]
                intro h; exact hne' (by rw [hi, h])
            · intro i' k' c; simp only [h4]; split
              · simp
              · exact hw.timers i' k' c
            · show i ≤ (call s _ args).ids; rw [h1]; exact hw.bound
          have hn' : (step s (.answer k (some i) args)).timers.get? i = none := by
            rw [hs]; simp only [h4]; simpa using notimer
          rw [ih hw' hp' hn', hs]
          show callsOf cb (call s _ args).log ++ _ = _
          rw [h3, callsOf_append]
          simp [callsOf]
        · simp only [hki, if_false]
          simp only [step, onack]
          cases hg : s.acks.get? (k, i) with
          | none => exact ih hw hp' notimer
          | some e =>
            have hcb := hw.elsewhere k i e (fun h1 h2 => hki ⟨h1, h2⟩) hg
            obtain ⟨h1, h2, h3, h4⟩ := call_spec s e args
            have hw' : WaitingAll cb id socks
                { call s e args with acks := (call s e args).acks.erase (k, i) } := by
              constructor
              · intro k' hk'
                simp only [h2]
                rw [FMap.get?_erase_ne ?_]
                · exact hw.here k' hk'
                · intro h; simp at h; exact hki ⟨h.2, h.1 ▸ hk'⟩
              · intro k' i' e' hne; simp only [h2, FMap.get?_erase]; split
                · simp
                · exact hw.elsewhere k' i' e' hne
              · intro i' k' c'; simp only [h4]; split
                · simp
                · exact hw.timers i' k' c'
              · show id ≤ (call s e args).ids; rw [h1]; exact hw.bound
            refine Eq.trans (ih hw' hp' ?_) ?_
            · simp only [h4]; split
              · rfl
              · exact notimer
            · show callsOf cb (call s e args).log ++ _ = _
              rw [h3, callsOf_append]
              simp [callsOf, hcb]
    | expire i =>
      simp only [firstAnswers]
      simp only [step, expire]
      cases hg : s.timers.get? i with
      | none => exact ih hw hp' notimer
      | some p =>
        obtain ⟨k', c⟩ := p
        have hid : i ≠ id := by intro h; subst h; rw [notimer] at hg; simp at hg
        have hc := hw.timers i k' c hg
        have hw' : WaitingAll cb id socks { s with timers := s.timers.erase i, acks := s.acks.erase (k', i), log := s.log ++ [(c, .timeout)] } := by
          constructor
          · intro k'' hk''; simp only []; rw [FMap.get?_erase_ne (by simp; omega)]; exact hw.here k'' hk''
          · intro k'' i' e' hne; simp only [FMap.get?_erase]; split
            · simp
            · exact hw.elsewhere k'' i' e' hne
          · intro i' k'' c'; simp only [FMap.get?_erase]; split
            · simp
            · exact hw.timers i' k'' c'
          · exact hw.bound
        refine Eq.trans (ih hw' hp' ?_) ?_
        · simp only []; rw [FMap.get?_erase_ne hid]; exact notimer
        · simp [callsOf, hc]

end Verif.Acks

namespace Verif.Acks
open Verif Verif.Spec

/-! ## The interleaving machine: calls are paid for by received packets and timers -/

/-- How many calls of `cb` a goroutine may still make. -/
def weight (cb id : Nat) : Thread → Nat
  | .emitter _ c timed pc => if c = cb ∧ timed = true ∧ pc = 0 then 1 else 0
  | .handler i _ pc e =>
    if pc = 0 then (if i = id then 1 else 0)
    else if pc ≤ 2 then (if e.map Entry.cb = some cb then 1 else 0) else 0
  | .timer _ c pc => if c = cb ∧ pc ≤ 1 then 1 else 0

/-- Is a timer holding `cb` pending? -/
def pend (cb _id : Nat) (o : Option Nat) : Nat := if o = some cb then 1 else 0

@[simp] theorem pend_none (cb id : Nat) : pend cb id none = 0 := by simp [pend]
@[simp] theorem pend_some (cb id c : Nat) : pend cb id (some c) = if c = cb then 1 else 0 := by simp [pend]

/-- Calls made plus calls that may still be made by goroutines or by the pending timer. -/
def potential (cb id : Nat) (s : CSt) : Nat :=
  (callsOf cb s.log).length + (s.threads.map (weight cb id)).sum +
    pend cb id (s.timers.get? id)

structure CInv (cb id : Nat) (s : CSt) : Prop where
  acks : ∀ i e, s.acks.get? i = some e → e.cb = cb → i = id
  timers : ∀ i, s.timers.get? i = some cb → i = id
  emitters : ∀ i c timed pc, Thread.emitter i c timed pc ∈ s.threads → c = cb → i = id

theorem callsOf_snoc_len (cb : Nat) (l : List (Nat × Res)) (c : Nat) (r : Res) :
    (callsOf cb (l ++ [(c, r)])).length = (callsOf cb l).length + if c = cb then 1 else 0 := by
  rw [callsOf_append]; by_cases h : c = cb <;> simp [callsOf, h]

/-- One goroutine step. -/
theorem adv_potential {cb id : Nat} {s : CSt} (hi : CInv cb id s) (k : Nat) :
    CInv cb id (cstep s (.adv k)) ∧ potential cb id (cstep s (.adv k)) ≤ potential cb id s := by
  simp only [cstep]
  cases hk : s.threads[k]? with
  | none => exact ⟨hi, Nat.le_refl _⟩
  | some t =>
    have hmem : t ∈ s.threads := List.mem_iff_getElem?.2 ⟨k, hk⟩
    have hsum := fun y => sum_set (weight cb id) s.threads k t y hk
    cases t with
    | emitter i c timed pc =>
      have hid := hi.emitters i c timed pc hmem
      have hem : ∀ pc', ∀ i' c' timed' pc'', Thread.emitter i' c' timed' pc'' ∈
          s.threads.set k (.emitter i c timed pc') → c' = cb → i' = id := by
        intro pc' i' c' timed' pc'' hm hc
        rcases mem_of_set hm with h | h
        · exact hi.emitters i' c' timed' pc'' h hc
        · cases h; exact hid hc
      rcases pc with _ | _ | pc
      · cases timed
        · refine ⟨⟨hi.acks, hi.timers, hem 1⟩, ?_⟩
          have := hsum (.emitter i c false 1)
          simp only [potential, advThread]
          simp [weight] at this ⊢
          omega
        · refine ⟨⟨hi.acks, ?_, hem 1⟩, ?_⟩
          · intro i'; simp only [advThread, if_true, FMap.get?_insert]; split
            · rename_i he; intro h; cases h; exact he ▸ hid rfl
            · exact hi.timers i'
          · have := hsum (.emitter i c true 1)
            simp only [potential, advThread, if_true, FMap.get?_insert]
            by_cases hc : c = cb
            · simp [weight, hc] at this ⊢
              have := hid hc
              simp [this]
              omega
            · simp [weight, hc] at this ⊢
              by_cases hii : i = id
              · simp [hii, hc]; omega
              · simp [hii]; omega
      · refine ⟨⟨?_, hi.timers, hem 2⟩, ?_⟩
        · intro i' e; simp only [advThread, FMap.get?_insert]; split
          · rename_i he; intro h; cases h; intro hc; exact he ▸ hid hc
          · exact hi.acks i' e
        · have := hsum (.emitter i c timed 2)
          simp only [potential, advThread]
          simp [weight] at this ⊢
          omega
      · refine ⟨⟨hi.acks, hi.timers, hem _⟩, ?_⟩
        have := hsum (.emitter i c timed (pc + 1 + 1))
        simp only [potential, advThread]
        omega
    | handler i args pc e =>
      have hem : ∀ i0 a0 p0 e0, ∀ i' c' timed' pc'', Thread.emitter i' c' timed' pc'' ∈
          s.threads.set k (.handler i0 a0 p0 e0) → c' = cb → i' = id := by
        intro i0 a0 p0 e0 i' c' timed' pc'' hm hc
        rcases mem_of_set hm with h | h
        · exact hi.emitters i' c' timed' pc'' h hc
        · cases h
      have nop : CInv cb id { s with threads := s.threads.set k (.handler i args pc e) } ∧
          potential cb id { s with threads := s.threads.set k (.handler i args pc e) } ≤ potential cb id s := by
        refine ⟨⟨hi.acks, hi.timers, hem _ _ _ _⟩, ?_⟩
        have := hsum (.handler i args pc e)
        simp only [potential]; omega
      rcases pc with _ | _ | _ | _ | pc
      · simp only [advThread]
        cases hg : s.acks.get? i with
        | none =>
          refine ⟨⟨hi.acks, hi.timers, hem _ _ _ _⟩, ?_⟩
          have := hsum (.handler i args 4 none)
          simp only [potential]
          simp [weight] at this ⊢
          omega
        | some e' =>
          refine ⟨⟨hi.acks, hi.timers, hem _ _ _ _⟩, ?_⟩
          have := hsum (.handler i args 1 (some e'))
          simp only [potential]
          by_cases hc : e'.cb = cb
          · have hii := hi.acks i e' hg hc
            simp [weight, hc, hii] at this ⊢
            omega
          · simp [weight, hc] at this ⊢
            omega
      · cases e with
        | none => exact nop
        | some e =>
          simp only [advThread]
          cases ht : e.timer with
          | none =>
            refine ⟨⟨hi.acks, hi.timers, hem _ _ _ _⟩, ?_⟩
            have := hsum (.handler i args 2 (some e))
            simp only [potential]
            simp [weight] at this ⊢
            omega
          | some t =>
            refine ⟨⟨hi.acks, ?_, hem _ _ _ _⟩, ?_⟩
            · intro i'; simp only [FMap.get?_erase]; split
              · simp
              · exact hi.timers i'
            · have := hsum (.handler i args 2 (some e))
              simp only [potential, FMap.get?_erase]
              simp [weight] at this ⊢
              by_cases htid : t = id
              · simp [htid]; omega
              · simp [htid]; omega
      · cases e with
        | none => exact nop
        | some e =>
          simp only [advThread]
          refine ⟨⟨hi.acks, hi.timers, hem _ _ _ _⟩, ?_⟩
          have := hsum (.handler i args 3 (some e))
          simp only [potential, callsOf_snoc_len]
          simp [weight] at this ⊢
          omega
      · simp only [advThread]
        refine ⟨⟨?_, hi.timers, hem _ _ _ _⟩, ?_⟩
        · intro i' e'; simp only [FMap.get?_erase]; split
          · simp
          · exact hi.acks i' e'
        · have := hsum (.handler i args 4 e)
          simp only [potential]
          simp [weight] at this ⊢
          omega
      · exact nop
    | timer i c pc =>
      have hem : ∀ i0 a0 p0, ∀ i' c' timed' pc'', Thread.emitter i' c' timed' pc'' ∈
          s.threads.set k (.timer i0 a0 p0) → c' = cb → i' = id := by
        intro i0 a0 p0 i' c' timed' pc'' hm hc
        rcases mem_of_set hm with h | h
        · exact hi.emitters i' c' timed' pc'' h hc
        · cases h
      rcases pc with _ | _ | pc
      · simp only [advThread]
        refine ⟨⟨?_, hi.timers, hem _ _ _⟩, ?_⟩
        · intro i' e'; simp only [FMap.get?_erase]; split
          · simp
          · exact hi.acks i' e'
        · have := hsum (.timer i c 1)
          simp only [potential]
          simp [weight] at this ⊢
          omega
      · simp only [advThread]
        refine ⟨⟨hi.acks, hi.timers, hem _ _ _⟩, ?_⟩
        have := hsum (.timer i c 2)
        simp only [potential, callsOf_snoc_len]
        simp [weight] at this ⊢
        omega
      · simp only [advThread]
        refine ⟨⟨hi.acks, hi.timers, hem _ _ _⟩, ?_⟩
        have := hsum (.timer i c (pc + 1 + 1))
        simp only [potential]; omega

/-- What an event adds to the potential. -/
def gain (cb id : Nat) : Ev → Nat
  | .emit c timed => if c = cb ∧ timed = true then 1 else 0
  | .recv i _ => if i = id then 1 else 0
  | _ => 0

theorem cstep_potential {cb id : Nat} {s : CSt} (hi : CInv cb id s) (e : Ev)
    (he : ∀ timed, e = .emit cb timed → s.ids + 1 = id) :
    CInv cb id (cstep s e) ∧ potential cb id (cstep s e) ≤ potential cb id s + gain cb id e := by
  cases e with
  | adv k => have := adv_potential hi k; exact ⟨this.1, by simp only [gain]; omega⟩
  | emit c timed =>
    refine ⟨⟨hi.acks, hi.timers, ?_⟩, ?_⟩
    · intro i' c' timed' pc' hm hc
      simp only [cstep, List.mem_append] at hm
      rcases hm with h | h
      · exact hi.emitters i' c' timed' pc' h hc
      · simp at h
        obtain ⟨rfl, rfl, rfl, rfl⟩ := h
        subst hc
        exact he _ rfl
    · simp only [potential, cstep, List.map_append, List.sum_append, gain]
      simp [weight]
      by_cases h : c = cb ∧ timed = true
      · simp [h]; omega
      · simp [h]
  | recv i args =>
    refine ⟨⟨hi.acks, hi.timers, ?_⟩, ?_⟩
    · intro i' c' timed' pc' hm hc
      simp only [cstep, List.mem_append] at hm
      rcases hm with h | h
      · exact hi.emitters i' c' timed' pc' h hc
      · simp at h
    · simp only [potential, cstep, List.map_append, List.sum_append, gain]
      simp [weight]
      by_cases h : i = id
      · simp [h]; omega
      · simp [h]
  | fire i =>
    simp only [cstep]
    cases hg : s.timers.get? i with
    | none => exact ⟨hi, Nat.le_add_right _ _⟩
    | some c =>
      refine ⟨⟨hi.acks, ?_, ?_⟩, ?_⟩
      · intro i'; simp only [FMap.get?_erase]; split
        · simp
        · exact hi.timers i'
      · intro i' c' timed' pc' hm hc
        simp only [List.mem_append] at hm
        rcases hm with h | h
        · exact hi.emitters i' c' timed' pc' h hc
        · simp at h
      · simp only [potential, List.map_append, List.sum_append, gain, FMap.get?_erase]
        simp [weight]
        by_cases hc : c = cb
        · have hii := hi.timers i (hc ▸ hg)
          subst hii
          simp [hc, hg]
          omega
        · by_cases hii : i = id
          · simp [hii, hc]
          · simp [hii, hc]

theorem cids (h : List Ev) (s : CSt) :
    (h.foldl cstep s).ids = s.ids + h.countP isEmit := by
  induction h generalizing s with
  | nil => simp
  | cons e h ih =>
    rw [List.foldl_cons, ih]
    have hadv : ∀ t, (advThread s t).1.ids = s.ids := by
      intro t
      cases t with
      | emitter i c timed pc => rcases pc with _ | _ | pc <;> simp only [advThread]; split <;> rfl
      | handler i a pc e =>
        rcases pc with _ | _ | _ | _ | pc <;> cases e <;> simp only [advThread]
        all_goals first | rfl | (split <;> rfl)
      | timer i c pc => rcases pc with _ | _ | pc <;> rfl
    cases e with
    | emit c t => simp [cstep, List.countP_cons, isEmit]; omega
    | recv i a => simp [cstep, isEmit]
    | fire i => simp only [cstep]; split <;> simp [isEmit]
    | adv k =>
      simp only [cstep]; split
      · simp [hadv, isEmit]
      · simp [isEmit]

end Verif.Acks
