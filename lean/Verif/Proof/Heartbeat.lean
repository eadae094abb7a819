import Verif.Spec.Heartbeat
import Verif.Lib.ListExtra

/-! # Membership and requests: lemmas -/

namespace Verif.Heartbeat
open Verif Verif.Spec

/-! ## Nodes -/

theorem fold_drop_nodes (u : Uid) (l : List Nat) (s : St) : (l.foldl (dropMissing u) s).nodes = s.nodes := by
  induction l generalizing s with
  | nil => rfl
  | cons a l ih =>
    rw [List.foldl_cons, ih]
    simp only [dropMissing]
    split
    · rfl
    · split <;> rfl

theorem removeNode_nodes (s : St) (u : Uid) : (removeNode s u).nodes = s.nodes.erase u := by
  simp [removeNode, fold_drop_nodes]

theorem cleanNode_get (T now : Nat) (s : St) (u w : Uid) :
    (cleanNode T now s u).nodes.get? w =
      if u = w then (s.nodes.get? w).filter (fun τ => decide (now ≤ τ + T)) else s.nodes.get? w := by
  by_cases huw : u = w
  · subst huw
    simp only [cleanNode, if_true]
    cases h : s.nodes.get? u with
    | none => simp [h]
    | some τ =>
      simp only
      by_cases ht : τ + T < now
      · rw [if_pos ht, removeNode_nodes]
        simp [Option.filter, Nat.not_le.2 ht]
      · rw [if_neg ht, h]
        simp [Option.filter, Nat.not_lt.1 ht]
  · rw [if_neg huw]
    simp only [cleanNode]
    split
    · rfl
    · split
      · rw [removeNode_nodes, FMap.get?_erase_ne huw]
      · rfl

theorem foldl_clean_get (T now : Nat) (l : List Uid) (s : St) (w : Uid) :
    (l.foldl (cleanNode T now) s).nodes.get? w =
      if w ∈ l then (s.nodes.get? w).filter (fun τ => decide (now ≤ τ + T)) else s.nodes.get? w := by
  induction l generalizing s with
  | nil => simp
  | cons a l ih =>
    rw [List.foldl_cons, ih, cleanNode_get]
    by_cases haw : a = w
    · subst haw
      cases h : s.nodes.get? a with
      | none => simp
      | some τ => by_cases ht : now ≤ τ + T <;> by_cases hl : a ∈ l <;> simp [Option.filter, ht, hl]
    · have : w ≠ a := fun e => haw e.symm
      simp [haw, this]

theorem cleanup_get (T : Nat) (s : St) (now : Nat) (order : List Uid) (w : Uid) :
    (cleanup T s now order).nodes.get? w =
      (s.nodes.get? w).filter (fun τ => decide (now ≤ τ + T)) := by
  rw [cleanup, foldl_clean_get]
  by_cases hw : w ∈ order ++ s.nodes.keys
  · rw [if_pos hw]
  · rw [if_neg hw]
    have : s.nodes.get? w = none := by
      rw [FMap.get?_eq_none_iff]; intro h; exact hw (List.mem_append.2 (.inr h))
    simp [this]

theorem onResponseBase_nodes (s : St) (r : Resp) : (onResponseBase s r).nodes = s.nodes := by
  unfold onResponseBase
  cases r <;> (simp only; repeat' split) <;> rfl

theorem answer_nodes (s : St) (u : Uid) (req : Nat) (l : List Val) : (answer s u req l).nodes = s.nodes := by
  simp only [answer]
  split
  · rfl
  · split <;> rfl

theorem onResponse_nodes (s : St) (u : Uid) (r : Resp) : (onResponse s u r).nodes = s.nodes := by
  cases r <;> simp [onResponse, answer_nodes, onResponseBase_nodes]

theorem request_nodes (s : St) (id : Nat) (k : Kind) (l : List Val) : (request s id k l).nodes = s.nodes := by
  simp only [request]; split <;> rfl

theorem timeout_nodes (s : St) (id : Nat) : (timeout s id).nodes = s.nodes := by
  simp only [timeout]; split <;> rfl

theorem onMessageBase_nodes (self : Uid) (s : St) (u : Uid) (r : Resp) :
    (onMessageBase self s u r).nodes = s.nodes := by
  simp only [onMessageBase]; split
  · rfl
  · exact onResponseBase_nodes _ _

theorem onMessage_get (self : Uid) (s : St) (u : Uid) (m : MType) (now : Nat) (w : Uid)
    (hs : w ≠ self) (he : w ≠ EMITTER) :
    (onMessage self s u m now).nodes.get? w =
      if u = w then (if m = .close then none else some now) else s.nodes.get? w := by
  simp only [onMessage]
  by_cases hu : u = self
  · have : u ≠ w := fun e => hs (e ▸ hu)
    rw [if_pos hu, if_neg this]
  · rw [if_neg hu]
    have hn : ∀ s' : St, s' = (if u ≠ EMITTER then { s with nodes := s.nodes.insert u now } else s) →
        s'.nodes.get? w = if u = w then some now else s.nodes.get? w := by
      rintro s' rfl
      by_cases hue : u = EMITTER
      · have : u ≠ w := fun e => he (e ▸ hue)
        simp [hue, this] ; intro h; exact absurd (hue.trans h) this
      · simp [hue, FMap.get?_insert]
    cases m with
    | close =>
      simp only [removeNode_nodes, FMap.get?_erase, hn _ rfl]
      by_cases huw : u = w <;> simp [huw]
    | response r =>
      simp only [onMessageBase_nodes, hn _ rfl]; simp
    | _ => simp only [hn _ rfl]; simp

theorem heard_snoc (T : Nat) (h : List Ev) (e : Ev) (u : Uid) (τ : Nat) :
    Heard T (h ++ [e]) u τ ↔
      (∃ m, e = .message u m τ ∧ m ≠ .close) ∨
      (Heard T h u τ ∧ (∀ m t, e ≠ .message u m t) ∧ ∀ t o, e = .cleanup t o → t ≤ τ + T) := by
  constructor
  · rintro ⟨pre, m, post, heq, hm, hno, hcl⟩
    rcases List.eq_nil_or_concat post with rfl | ⟨post', x, rfl⟩
    · have := List.append_inj' heq (by simp)
      have he : e = .message u m τ := by simpa using this.2
      exact .inl ⟨m, he, hm⟩
    · rw [List.concat_eq_append, show pre ++ Ev.message u m τ :: (post' ++ [x]) =
        (pre ++ Ev.message u m τ :: post') ++ [x] by simp] at heq
      have hh := List.append_inj' heq (by simp)
      have hx : e = x := by simpa using hh.2
      subst hx
      simp only [List.concat_eq_append] at hno hcl
      refine .inr ⟨⟨pre, m, post', hh.1, hm, fun m' t' hmem => hno m' t' (by simp [hmem]),
        fun t o hmem => hcl t o (by simp [hmem])⟩, fun m' t' he => hno m' t' (by simp [he]),
        fun t o he => hcl t o (by simp [he])⟩
  · rintro (⟨m, rfl, hm⟩ | ⟨⟨pre, m, post, rfl, hm, hno, hcl⟩, h1, h2⟩)
    · exact ⟨h, m, [], rfl, hm, by simp, by simp⟩
    · refine ⟨pre, m, post ++ [e], by simp, hm, ?_, ?_⟩
      · intro m' t' hmem
        rcases List.mem_append.1 hmem with hmem | hmem
        · exact hno m' t' hmem
        · exact h1 m' t' (List.mem_singleton.1 hmem).symm
      · intro t o hmem
        rcases List.mem_append.1 hmem with hmem | hmem
        · exact hcl t o hmem
        · exact h2 t o (List.mem_singleton.1 hmem).symm

theorem run_snoc (self : Uid) (T : Nat) (h : List Ev) (e : Ev) :
    run self T (h ++ [e]) = step self T (run self T h) e := by simp [run]

theorem nodes_spec (self : Uid) (T : Nat) (h : List Ev) (u : Uid) (hs : u ≠ self) (he : u ≠ EMITTER) (τ : Nat) :
    (run self T h).nodes.get? u = some τ ↔ Heard T h u τ := by
  induction h using snocRec generalizing τ with
  | nil =>
    constructor
    · intro h; simp [run] at h
    · rintro ⟨pre, m, post, h, _⟩; simp at h
  | append_singleton h e ih =>
    rw [run_snoc, heard_snoc]
    cases e with
    | message w m now =>
      simp only [step]
      rw [onMessage_get self _ _ _ _ _ hs he]
      by_cases hwu : w = u
      · subst hwu
        by_cases hm : m = .close
        · subst hm; simp
        · simp only [if_true, if_neg hm, Option.some.injEq]
          constructor
          · rintro rfl; exact .inl ⟨m, rfl, hm⟩
          · rintro (⟨m', he', _⟩ | ⟨_, h2, _⟩)
            · cases he'; rfl
            · exact absurd rfl (h2 m now)
      · have : ¬ u = w := fun e => hwu e.symm
        simp [hwu, ih]
    | cleanup t o =>
      simp only [step]
      rw [cleanup_get, ← ih]
      cases hg : (run self T h).nodes.get? u with
      | none => simp
      | some τ' =>
        simp only [Option.filter]
        by_cases ht : t ≤ τ' + T
        · simp [ht]; rintro rfl; exact ht
        · simp [ht]; rintro rfl; omega
    | response w r => simp only [step]; rw [onResponse_nodes, ih]; simp
    | request id k l => simp only [step]; rw [request_nodes, ih]; simp
    | timeout id => simp only [step]; rw [timeout_nodes, ih]; simp

/-- The server itself and the emitter are never stored. -/
theorem nodes_not_self (self : Uid) (T : Nat) (h : List Ev) (u : Uid) (hx : u = self ∨ u = EMITTER) :
    (run self T h).nodes.get? u = none := by
  induction h using snocRec with
  | nil => rfl
  | append_singleton h e ih =>
    rw [run_snoc]
    cases e with
    | message w m now =>
      simp only [step, onMessage]
      by_cases hw : w = self
      · rw [if_pos hw]; exact ih
      · rw [if_neg hw]
        have hn : ∀ s' : St, s' = (if w ≠ EMITTER then
            { (run self T h) with nodes := (run self T h).nodes.insert w now } else run self T h) →
            s'.nodes.get? u = none := by
          rintro s' rfl
          by_cases hwe : w = EMITTER
          · simp [hwe, ih]
          · have : w ≠ u := by rintro rfl; rcases hx with h | h <;> contradiction
            simp [hwe, FMap.get?_insert, this, ih]
        cases m with
        | close => simp only [removeNode_nodes, FMap.get?_erase, hn _ rfl]; simp
        | response r => simp only [onMessageBase_nodes, hn _ rfl]
        | _ => simp only [hn _ rfl]
    | cleanup t o => simp only [step]; rw [cleanup_get, ih]; rfl
    | response w r => simp only [step]; rw [onResponse_nodes, ih]
    | request id k l => simp only [step]; rw [request_nodes, ih]
    | timeout id => simp only [step]; rw [timeout_nodes, ih]

theorem known_iff (self : Uid) (T : Nat) (h : List Ev) (u : Uid) :
    u ∈ (run self T h).nodes.keys ↔ Known self T h u := by
  rw [FMap.mem_keys_iff]
  by_cases hx : u = self ∨ u = EMITTER
  · rw [nodes_not_self self T h u hx]
    simp only [Known]
    constructor
    · rintro ⟨_, h⟩; cases h
    · rintro ⟨h1, h2, _⟩; rcases hx with h | h
      · exact absurd h h1
      · exact absurd h h2
  · have h1 : u ≠ self := fun e => hx (.inl e)
    have h2 : u ≠ EMITTER := fun e => hx (.inr e)
    simp only [nodes_spec self T h u h1 h2, Known]
    exact ⟨fun h => ⟨h1, h2, h⟩, fun h => h.2.2⟩

theorem cleanNode_wf (T now : Nat) (s : St) (u : Uid) (h : FMap.WF s.nodes) :
    FMap.WF (cleanNode T now s u).nodes := by
  simp only [cleanNode]
  split
  · exact h
  · split
    · rw [removeNode_nodes]; exact FMap.wf_erase h _
    · exact h

theorem foldl_clean_wf (T now : Nat) (l : List Uid) (s : St) (h : FMap.WF s.nodes) :
    FMap.WF (l.foldl (cleanNode T now) s).nodes := by
  induction l generalizing s with
  | nil => exact h
  | cons a l ih => exact ih _ (cleanNode_wf T now s a h)

theorem nodes_wf (self : Uid) (T : Nat) (h : List Ev) : FMap.WF (run self T h).nodes := by
  induction h using snocRec with
  | nil => exact FMap.wf_nil
  | append_singleton h e ih =>
    rw [run_snoc]
    cases e with
    | message w m now =>
      simp only [step, onMessage]
      by_cases hw : w = self
      · rw [if_pos hw]; exact ih
      · rw [if_neg hw]
        have hn : ∀ s' : St, s' = (if w ≠ EMITTER then
            { (run self T h) with nodes := (run self T h).nodes.insert w now } else run self T h) →
            FMap.WF s'.nodes := by
          rintro s' rfl
          split
          · exact FMap.wf_insert ih _ _
          · exact ih
        cases m with
        | close => simp only [removeNode_nodes]; exact FMap.wf_erase (hn _ rfl) _
        | response r => simp only [onMessageBase_nodes]; exact hn _ rfl
        | initialHeartbeat => have := hn _ rfl; exact this
        | heartbeat => exact hn _ rfl
        | other => exact hn _ rfl
    | cleanup t o => exact foldl_clean_wf _ _ _ _ ih
    | response w r => simp only [step]; rw [onResponse_nodes]; exact ih
    | request id k l => simp only [step]; rw [request_nodes]; exact ih
    | timeout id => simp only [step]; rw [timeout_nodes]; exact ih

/-! ## Requests -/

/-- The part of the state that concerns request `id`. -/
def view (id : Nat) (s : St) : Option Custom × List Call := (s.custom.get? id, requestCalls id s.calls)

/-- The effect of `removeNode u` on one request. -/
def drop (u : Uid) : Option Custom × List Call → Option Custom × List Call
  | (none, c) => (none, c)
  | (some q, c) =>
    if (LSet.del q.missing u).length = 0 then (none, c ++ [.ok q.responses])
    else (some { q with missing := LSet.del q.missing u }, c)

theorem del_del {α} [DecidableEq α] (l : List α) (a : α) : LSet.del (LSet.del l a) a = LSet.del l a := by
  simp [LSet.del, List.filter_filter]

theorem drop_drop (u : Uid) (v : Option Custom × List Call) : drop u (drop u v) = drop u v := by
  rcases v with ⟨q, c⟩
  cases q with
  | none => rfl
  | some q =>
    by_cases h : (LSet.del q.missing u).length = 0
    · simp [drop, h]
    · simp [drop, h, del_del]

theorem requestCalls_snoc (id : Nat) (l : List (Nat × Call)) (i : Nat) (c : Call) :
    requestCalls id (l ++ [(i, c)]) = requestCalls id l ++ (if i = id then [c] else []) := by
  by_cases h : i = id <;> simp [requestCalls, h]

theorem dropMissing_view (u : Uid) (s : St) (i id : Nat) :
    view id (dropMissing u s i) = if i = id then drop u (view id s) else view id s := by
  by_cases h : i = id
  · subst h
    simp only [dropMissing, view, if_true]
    cases hg : s.custom.get? i with
    | none => simp [hg, drop]
    | some q =>
      by_cases hm : (LSet.del q.missing u).length = 0
      · simp [drop, hm, requestCalls_snoc]
      · simp [drop, hm]
  · simp only [dropMissing, view, if_neg h]
    cases hg : s.custom.get? i with
    | none => rfl
    | some q =>
      simp only
      split
      · simp [FMap.get?_erase_ne h, requestCalls_snoc, h]
      · simp [FMap.get?_insert_ne h]

theorem foldl_drop_view (u : Uid) (l : List Nat) (s : St) (id : Nat) :
    view id (l.foldl (dropMissing u) s) = if id ∈ l then drop u (view id s) else view id s := by
  induction l generalizing s with
  | nil => simp
  | cons a l ih =>
    rw [List.foldl_cons, ih, dropMissing_view]
    by_cases ha : a = id
    · subst ha
      by_cases hl : a ∈ l <;> simp [hl, drop_drop]
    · have : id ≠ a := fun e => ha e.symm
      simp [ha, this]

theorem removeNode_view (s : St) (u : Uid) (id : Nat) : view id (removeNode s u) = drop u (view id s) := by
  have : view id (removeNode s u) = view id (s.custom.keys.foldl (dropMissing u) s) := rfl
  rw [this, foldl_drop_view]
  by_cases h : id ∈ s.custom.keys
  · rw [if_pos h]
  · rw [if_neg h]
    have : s.custom.get? id = none := by rw [FMap.get?_eq_none_iff]; exact h
    simp [view, this, drop]

/-- The effect of an answer on its request. -/
def answerView (u : Uid) (l : List Val) : Option Custom × List Call → Option Custom × List Call
  | (none, c) => (none, c)
  | (some q, c) => drop u (some { q with responses := q.responses ++ l }, c)

theorem answer_view (s : St) (u : Uid) (i id : Nat) (l : List Val) :
    view id (answer s u i l) = if i = id then answerView u l (view id s) else view id s := by
  by_cases h : i = id
  · subst h
    simp only [answer, view, if_true]
    cases hg : s.custom.get? i with
    | none => simp [hg, answerView]
    | some q =>
      by_cases hm : (LSet.del q.missing u).length = 0
      · simp [answerView, drop, hm, requestCalls_snoc]
      · simp [answerView, drop, hm]
  · simp only [answer, view, if_neg h]
    cases hg : s.custom.get? i with
    | none => rfl
    | some q =>
      simp only
      split
      · simp [FMap.get?_erase_ne h, requestCalls_snoc, h]
      · simp [FMap.get?_insert_ne h]

theorem dropMissing_base (u : Uid) (s : St) (i : Nat) : (dropMissing u s i).base = s.base := by
  simp only [dropMissing]; split
  · rfl
  · split <;> rfl

theorem removeNode_base (s : St) (u : Uid) : (removeNode s u).base = s.base := by
  have : ∀ (l : List Nat) (s : St), (l.foldl (dropMissing u) s).base = s.base := by
    intro l
    induction l with
    | nil => intro s; rfl
    | cons a l ih => intro s; rw [List.foldl_cons, ih, dropMissing_base]
  exact this _ _

theorem foldl_clean_base (T now : Nat) (l : List Uid) (s : St) :
    (l.foldl (cleanNode T now) s).base = s.base := by
  induction l generalizing s with
  | nil => rfl
  | cons a l ih =>
    rw [List.foldl_cons, ih]
    simp only [cleanNode]
    split
    · rfl
    · split
      · exact removeNode_base _ _
      · rfl

theorem onResponseBase_base (s : St) (r : Resp) (h : s.base = []) :
    (onResponseBase s r).base = [] ∧ ∀ id, view id (onResponseBase s r) = view id s := by
  unfold onResponseBase
  cases r <;> simp only [h, FMap.get?_nil] <;> (try split) <;> simp [h, view]

theorem base_nil (self : Uid) (T : Nat) (h : List Ev) : (run self T h).base = [] := by
  induction h using snocRec with
  | nil => rfl
  | append_singleton h e ih =>
    rw [run_snoc]
    cases e with
    | message w m now =>
      simp only [step, onMessage]
      by_cases hw : w = self
      · rw [if_pos hw]; exact ih
      · rw [if_neg hw]
        have hn : ∀ s' : St, s' = (if w ≠ EMITTER then
            { (run self T h) with nodes := (run self T h).nodes.insert w now } else run self T h) →
            s'.base = [] := by
          rintro s' rfl; split <;> exact ih
        cases m with
        | close => simp only [removeNode_base]; exact hn _ rfl
        | response r =>
          simp only [onMessageBase, if_neg hw]
          exact (onResponseBase_base _ r (hn _ rfl)).1
        | initialHeartbeat => have := hn _ rfl; exact this
        | heartbeat => exact hn _ rfl
        | other => exact hn _ rfl
    | cleanup t o => simp only [step, cleanup]; rw [foldl_clean_base]; exact ih
    | response w r =>
      simp only [step]
      cases r with
      | clientCount i n => exact (onResponseBase_base _ _ ih).1
      | ack i p => exact (onResponseBase_base _ _ ih).1
      | fetch i l => simp only [onResponse, answer]; split; exact ih; split <;> exact ih
      | sse i v => simp only [onResponse, answer]; split; exact ih; split <;> exact ih
    | request id k l => simp only [step, request]; split <;> exact ih
    | timeout id => simp only [step, timeout]; split <;> exact ih

/-! ### A request being waited for -/

/-- `M` are the servers still missing, `resp` the answers so far. -/
def Waiting (kind : Kind) (M : Uid → Prop) (resp : List Val) (v : Option Custom × List Call) : Prop :=
  ∃ q, v = (some q, []) ∧ q.kind = kind ∧ q.responses = resp ∧ (∀ u, u ∈ q.missing ↔ M u) ∧ ∃ u, M u

/-- Either still waiting for `M`, or `M` is empty and the callback was called. -/
def Track (kind : Kind) (M : Uid → Prop) (resp : List Val) (v : Option Custom × List Call) : Prop :=
  Waiting kind M resp v ∨ ((∀ u, ¬ M u) ∧ v = (none, [.ok resp]))

theorem track_congr {kind : Kind} {M M' : Uid → Prop} {resp : List Val} {v}
    (h : Track kind M resp v) (hm : ∀ u, M u ↔ M' u) : Track kind M' resp v := by
  have : M = M' := funext fun u => propext (hm u)
  exact this ▸ h

theorem drop_track {kind : Kind} {M : Uid → Prop} {resp : List Val} {v} (u : Uid)
    (h : Track kind M resp v) : Track kind (fun w => w ≠ u ∧ M w) resp (drop u v) := by
  rcases h with ⟨q, rfl, hk, hr, hm, hx⟩ | ⟨hn, rfl⟩
  · by_cases hd : (LSet.del q.missing u).length = 0
    · right
      refine ⟨?_, by simp [drop, hd, hr]⟩
      rintro w ⟨h1, h2⟩
      have : w ∈ LSet.del q.missing u := by rw [LSet.mem_del]; exact ⟨h1, (hm w).2 h2⟩
      rw [List.length_eq_zero_iff.1 hd] at this
      cases this
    · left
      refine ⟨{ q with missing := LSet.del q.missing u }, by simp [drop, hd], hk, hr, ?_, ?_⟩
      · intro w; simp [LSet.mem_del, hm w]
      · cases hl : LSet.del q.missing u with
        | nil => simp [hl] at hd
        | cons a l =>
          have : a ∈ LSet.del q.missing u := by simp [hl]
          rw [LSet.mem_del] at this
          exact ⟨a, this.1, (hm a).1 this.2⟩
  · right; exact ⟨fun w h => hn w h.2, rfl⟩

theorem answer_track {kind : Kind} {M : Uid → Prop} {resp : List Val} {v} (u : Uid) (l : List Val)
    (h : Waiting kind M resp v) : Track kind (fun w => w ≠ u ∧ M w) (resp ++ l) (answerView u l v) := by
  obtain ⟨q, rfl, hk, hr, hm, hx⟩ := h
  exact drop_track u (v := (some { q with responses := q.responses ++ l }, []))
    (.inl ⟨_, rfl, hk, by simp [hr], hm, hx⟩)

/-- Membership, as a predicate. -/
def Has (s : St) (u : Uid) : Prop := u ∈ s.nodes.keys

theorem has_removeNode (s : St) (u w : Uid) : Has (removeNode s u) w ↔ w ≠ u ∧ Has s w := by
  simp only [Has, removeNode_nodes, FMap.mem_keys_erase]

theorem removeNode_track {kind : Kind} {M : Uid → Prop} {resp : List Val} (id : Nat) (s : St) (u : Uid)
    (h : Track kind (fun w => M w ∧ Has s w) resp (view id s)) :
    Track kind (fun w => M w ∧ Has (removeNode s u) w) resp (view id (removeNode s u)) := by
  rw [removeNode_view]
  refine track_congr (drop_track u h) fun w => ?_
  rw [has_removeNode]
  exact ⟨fun h => ⟨h.2.1, h.1, h.2.2⟩, fun h => ⟨h.2.1, h.1, h.2.2⟩⟩

theorem cleanNode_track {kind : Kind} {M : Uid → Prop} {resp : List Val} (id T now : Nat) (s : St) (u : Uid)
    (h : Track kind (fun w => M w ∧ Has s w) resp (view id s)) :
    Track kind (fun w => M w ∧ Has (cleanNode T now s u) w) resp (view id (cleanNode T now s u)) := by
  simp only [cleanNode]
  split
  · exact h
  · split
    · exact removeNode_track id s u h
    · exact h

theorem foldl_clean_track {kind : Kind} {M : Uid → Prop} {resp : List Val} (id T now : Nat) (l : List Uid)
    (s : St) (h : Track kind (fun w => M w ∧ Has s w) resp (view id s)) :
    Track kind (fun w => M w ∧ Has (l.foldl (cleanNode T now) s) w) resp
      (view id (l.foldl (cleanNode T now) s)) := by
  induction l generalizing s with
  | nil => exact h
  | cons a l ih => exact ih _ (cleanNode_track id T now s a h)

theorem onMessage_track {kind : Kind} {M : Uid → Prop} {resp : List Val} (id : Nat) (self : Uid) (s : St)
    (u : Uid) (m : MType) (now : Nat) (hb : s.base = []) (hM : ∀ w, M w → Has s w)
    (h : Track kind M resp (view id s)) :
    Track kind (fun w => M w ∧ Has (onMessage self s u m now) w) resp
      (view id (onMessage self s u m now)) := by
  simp only [onMessage]
  by_cases hu : u = self
  · rw [if_pos hu]; exact track_congr h fun w => ⟨fun h => ⟨h, hM w h⟩, And.left⟩
  · rw [if_neg hu]
    have hs' : ∀ s' : St, s' = (if u ≠ EMITTER then { s with nodes := s.nodes.insert u now } else s) →
        s'.base = [] ∧ view id s' = view id s ∧ ∀ w, M w → Has s' w := by
      rintro s' rfl
      split
      · refine ⟨hb, rfl, fun w hw => ?_⟩
        simp only [Has, FMap.mem_keys_insert]
        exact .inr (hM w hw)
      · exact ⟨hb, rfl, hM⟩
    obtain ⟨h1, h2, h3⟩ := hs' _ rfl
    generalize (if u ≠ EMITTER then { s with nodes := s.nodes.insert u now } else s) = s' at h1 h2 h3
    have ht : Track kind (fun w => M w ∧ Has s' w) resp (view id s') := by
      rw [h2]; exact track_congr h fun w => ⟨fun h => ⟨h, h3 w h⟩, And.left⟩
    cases m with
    | close => exact removeNode_track id s' u ht
    | response r =>
      simp only [onMessageBase, if_neg hu]
      rw [(onResponseBase_base s' r h1).2]
      refine track_congr ht fun w => ?_
      simp only [Has, onResponseBase_nodes]
    | initialHeartbeat => exact ht
    | heartbeat => exact ht
    | other => exact ht

/-- One event that is neither the timer of `id` nor a request with that id. -/
theorem step_track {kind : Kind} {M : Uid → Prop} {resp : List Val} (self : Uid) (T id : Nat) (s : St) (e : Ev)
    (hb : s.base = []) (hM : ∀ w, M w → Has s w) (hreq : ∀ k l, e ≠ .request id k l) (htm : e ≠ .timeout id)
    (h : Waiting kind M resp (view id s)) :
    Track kind (fun w => M w ∧ Has (step self T s e) w ∧ ¬ AnswerOf id w e) (resp ++ broughtBy id e)
      (view id (step self T s e)) := by
  cases e with
  | message u m now =>
    have := onMessage_track id self s u m now hb hM (.inl h)
    simp only [step, broughtBy, List.append_nil]
    exact track_congr this fun w => by simp [AnswerOf]
  | cleanup t o =>
    have := foldl_clean_track id T t (o ++ s.nodes.keys) s
      (track_congr (.inl h) fun w => ⟨fun h => ⟨h, hM w h⟩, And.left⟩)
    simp only [step, broughtBy, List.append_nil]
    exact track_congr this fun w => by simp [AnswerOf, cleanup]
  | request i k l =>
    have hi : i ≠ id := fun e => hreq k l (e ▸ rfl)
    have hv : view id (request s i k l) = view id s := by
      simp only [request, view]
      split
      · simp [requestCalls_snoc, hi]
      · simp [FMap.get?_insert_ne hi]
    simp only [step, broughtBy, List.append_nil, hv]
    exact track_congr (.inl h) fun w => by
      simp only [AnswerOf, Has, request_nodes]
      exact ⟨fun h => ⟨h, hM w h, by simp⟩, And.left⟩
  | timeout i =>
    have hi : i ≠ id := fun e => htm (e ▸ rfl)
    have hv : view id (timeout s i) = view id s := by
      simp only [timeout, view]
      split
      · rfl
      · simp [requestCalls_snoc, hi, FMap.get?_erase_ne hi]
    simp only [step, broughtBy, List.append_nil, hv]
    exact track_congr (.inl h) fun w => by
      simp only [AnswerOf, Has, timeout_nodes]
      exact ⟨fun h => ⟨h, hM w h, by simp⟩, And.left⟩
  | response u r =>
    have key : ∀ (i : Nat) (l : List Val), Track kind (fun w => M w ∧ Has s w ∧ ¬ (i = id ∧ u = w))
        (resp ++ if i = id then l else []) (view id (answer s u i l)) := by
      intro i l
      rw [answer_view]
      by_cases hi : i = id
      · simp only [hi, if_true, true_and]
        refine track_congr (answer_track u l h) fun w => ?_
        exact ⟨fun h => ⟨h.2, hM w h.2, fun e => h.1 e.symm⟩, fun h => ⟨fun e => h.2.2 e.symm, h.1⟩⟩
      · simp only [hi, if_false, List.append_nil]
        exact track_congr (.inl h) fun w => ⟨fun h => ⟨h, hM w h, by simp⟩, And.left⟩
    cases r with
    | clientCount i n =>
      simp only [step, onResponse, broughtBy, List.append_nil, (onResponseBase_base s _ hb).2]
      exact track_congr (.inl h) fun w => by
        simp only [AnswerOf, Has, onResponseBase_nodes]
        exact ⟨fun h => ⟨h, hM w h, by simp⟩, And.left⟩
    | ack i p =>
      simp only [step, onResponse, broughtBy, List.append_nil, (onResponseBase_base s _ hb).2]
      exact track_congr (.inl h) fun w => by
        simp only [AnswerOf, Has, onResponseBase_nodes]
        exact ⟨fun h => ⟨h, hM w h, by simp⟩, And.left⟩
    | fetch i l =>
      simp only [step, onResponse, broughtBy]
      refine track_congr (key i l) fun w => ?_
      simp only [Has, answer_nodes, AnswerOf, Ev.response.injEq, Resp.fetch.injEq, reduceCtorEq, and_false,
        exists_false, or_false]
      constructor
      · rintro ⟨a, b, c⟩; exact ⟨a, b, fun ⟨_, h1, h2, _⟩ => c ⟨h2, h1⟩⟩
      · rintro ⟨a, b, c⟩; exact ⟨a, b, fun ⟨h1, h2⟩ => c ⟨l, h2, h1, rfl⟩⟩
    | sse i v =>
      simp only [step, onResponse, broughtBy]
      refine track_congr (key i [v]) fun w => ?_
      simp only [Has, answer_nodes, AnswerOf, Ev.response.injEq, Resp.sse.injEq, reduceCtorEq, and_false,
        exists_false, false_or]
      constructor
      · rintro ⟨a, b, c⟩; exact ⟨a, b, fun ⟨_, h1, h2, _⟩ => c ⟨h2, h1⟩⟩
      · rintro ⟨a, b, c⟩; exact ⟨a, b, fun ⟨h1, h2⟩ => c ⟨v, h2, h1, rfl⟩⟩

/-- A request that is over, or never existed, is not touched by anything but a new request with its id. -/
theorem step_over (self : Uid) (T id : Nat) (s : St) (e : Ev) (hb : s.base = [])
    (hreq : ∀ k l, e ≠ .request id k l) (h : s.custom.get? id = none) :
    view id (step self T s e) = view id s := by
  have hd : ∀ u, drop u (view id s) = view id s := by intro u; simp [view, h, drop]
  cases e with
  | message u m now =>
    simp only [step, onMessage]
    by_cases hu : u = self
    · rw [if_pos hu]
    · rw [if_neg hu]
      have hs' : ∀ s' : St, s' = (if u ≠ EMITTER then { s with nodes := s.nodes.insert u now } else s) →
          s'.base = [] ∧ view id s' = view id s := by
        rintro s' rfl; split <;> exact ⟨hb, rfl⟩
      obtain ⟨h1, h2⟩ := hs' _ rfl
      generalize (if u ≠ EMITTER then { s with nodes := s.nodes.insert u now } else s) = s' at h1 h2
      cases m with
      | close => simp only [removeNode_view, h2, hd]
      | response r => simp only [onMessageBase, if_neg hu, (onResponseBase_base s' r h1).2, h2]
      | initialHeartbeat => exact h2
      | heartbeat => exact h2
      | other => exact h2
  | cleanup t o =>
    simp only [step, cleanup]
    generalize o ++ s.nodes.keys = l
    have : ∀ (l : List Uid) (s' : St), view id s' = view id s →
        view id (l.foldl (cleanNode T t) s') = view id s := by
      intro l
      induction l with
      | nil => intro s' h'; exact h'
      | cons a l ih =>
        intro s' h'
        refine ih _ ?_
        simp only [cleanNode]
        split
        · exact h'
        · split
          · rw [removeNode_view, h', hd]
          · exact h'
    exact this l s rfl
  | request i k l =>
    have hi : i ≠ id := fun e => hreq k l (e ▸ rfl)
    simp only [step, request, view]
    split
    · simp [requestCalls_snoc, hi]
    · simp [FMap.get?_insert_ne hi]
  | timeout i =>
    simp only [step, timeout, view]
    split
    · rfl
    · rename_i q hq
      have hi : i ≠ id := by rintro rfl; rw [h] at hq; cases hq
      simp [requestCalls_snoc, hi, FMap.get?_erase_ne hi]
  | response u r =>
    cases r with
    | clientCount i n => simp only [step, onResponse, (onResponseBase_base s _ hb).2]
    | ack i p => simp only [step, onResponse, (onResponseBase_base s _ hb).2]
    | fetch i l => simp only [step, onResponse, answer_view]; split <;> simp [view, h, answerView]
    | sse i v => simp only [step, onResponse, answer_view]; split <;> simp [view, h, answerView]

/-- Once over, a request stays so. -/
theorem over_forever (self : Uid) (T id : Nat) (h : List Ev) (p : List Ev) (c : List Call)
    (hreq : ∀ k l, .request id k l ∉ p) (hv : view id (run self T h) = (none, c)) :
    view id (run self T (h ++ p)) = (none, c) := by
  induction p using snocRec with
  | nil => simpa using hv
  | append_singleton p e ih =>
    rw [← List.append_assoc, run_snoc]
    have ih' := ih fun k l hm => hreq k l (by simp [hm])
    rw [step_over self T id _ e (base_nil _ _ _) (fun k l he => hreq k l (by simp [he])), ih']
    have := congrArg Prod.fst ih'
    exact this

/-! ### From the request on -/

theorem settled_snoc (self : Uid) (T : Nat) (pre : List Ev) (req : Ev) (id : Nat) (p : List Ev) (e : Ev) (u : Uid) :
    Settled self T pre req id (p ++ [e]) u ↔
      Settled self T pre req id p u ∨ AnswerOf id u e ∨ ¬ Known self T (pre ++ req :: (p ++ [e])) u := by
  constructor
  · rintro (⟨x, hx, ha⟩ | ⟨p1, p2, hp, hk⟩)
    · rcases List.mem_append.1 hx with hx | hx
      · exact .inl (.inl ⟨x, hx, ha⟩)
      · have : x = e := by simpa using hx
        exact .inr (.inl (this ▸ ha))
    · rcases List.eq_nil_or_concat p2 with rfl | ⟨p2', x, rfl⟩
      · rw [List.append_nil] at hp; subst hp; exact .inr (.inr hk)
      · rw [List.concat_eq_append, ← List.append_assoc] at hp
        have := List.append_inj' hp (by simp)
        exact .inl (.inr ⟨p1, p2', this.1, hk⟩)
  · rintro ((⟨x, hx, ha⟩ | ⟨p1, p2, rfl, hk⟩) | ha | hk)
    · exact .inl ⟨x, by simp [hx], ha⟩
    · exact .inr ⟨p1, p2 ++ [e], by simp, hk⟩
    · exact .inl ⟨e, by simp, ha⟩
    · exact .inr ⟨p ++ [e], [], by simp, hk⟩

theorem settled_append {self : Uid} {T : Nat} {pre : List Ev} {req : Ev} {id : Nat} {p : List Ev} {u : Uid}
    (q : List Ev) (h : Settled self T pre req id p u) : Settled self T pre req id (p ++ q) u := by
  rcases h with ⟨x, hx, ha⟩ | ⟨p1, p2, rfl, hk⟩
  · exact .inl ⟨x, by simp [hx], ha⟩
  · exact .inr ⟨p1, p2 ++ q, by simp, hk⟩

theorem view_fresh (self : Uid) (T id : Nat) (h : List Ev) (hreq : ∀ k l, .request id k l ∉ h) :
    view id (run self T h) = (none, []) := by
  have := over_forever self T id [] h [] hreq rfl
  simpa using this

/-- The situation right after the request. -/
theorem request_track (self : Uid) (T id : Nat) (pre : List Ev) (kind : Kind) (here : List Val)
    (hreq : ∀ k l, .request id k l ∉ pre) :
    Track kind (Known self T pre) here (view id (run self T (pre ++ [.request id kind here]))) := by
  have hv := view_fresh self T id pre hreq
  rw [run_snoc]
  simp only [step, request]
  have hg : (run self T pre).custom.get? id = none := congrArg Prod.fst hv
  have hc : requestCalls id (run self T pre).calls = [] := congrArg Prod.snd hv
  have hk : ∀ u, u ∈ (run self T pre).nodes.keys ↔ Known self T pre u := known_iff self T pre
  split
  · rename_i h0
    right
    refine ⟨fun u hu => ?_, by simp [view, hg, requestCalls_snoc, hc]⟩
    have := (hk u).2 hu
    rw [List.length_eq_zero_iff.1 h0] at this
    cases this
  · rename_i h0
    left
    refine ⟨⟨kind, (run self T pre).nodes.keys, here⟩, by simp [view, hc], rfl, rfl, hk, ?_⟩
    cases hn : (run self T pre).nodes with
    | nil => simp [hn] at h0
    | cons a l => exact ⟨a.1, (hk a.1).1 (by simp [hn, FMap.keys])⟩

/-- As long as the timer has not fired and before `p` some server was missing, the request is tracked. -/
theorem request_run (self : Uid) (T id : Nat) (pre : List Ev) (kind : Kind) (here : List Val) (p : List Ev)
    (hpre : ∀ k l, .request id k l ∉ pre) (hp : ∀ k l, .request id k l ∉ p) (htm : .timeout id ∉ p)
    (hnd : ∀ p1 e p2, p = p1 ++ e :: p2 → ¬ Done self T pre (.request id kind here) id p1) :
    Track kind (fun u => Known self T pre u ∧ ¬ Settled self T pre (.request id kind here) id p u)
      (here ++ receivedFor id p) (view id (run self T (pre ++ .request id kind here :: p))) := by
  induction p using snocRec with
  | nil =>
    have := request_track self T id pre kind here hpre
    simp only [receivedFor, List.flatMap_nil, List.append_nil]
    refine track_congr this fun u => ⟨fun h => ⟨h, ?_⟩, And.left⟩
    rintro (⟨e, he, _⟩ | ⟨p1, p2, hp12, hk⟩)
    · cases he
    · have : p1 = [] := (List.append_eq_nil_iff.1 hp12.symm).1
      subst this
      rw [← known_iff] at hk h
      rw [run_snoc] at hk
      simp only [step, request_nodes] at hk
      exact hk h
  | append_singleton p e ih =>
    have ih' := ih (fun k l hm => hp k l (by simp [hm])) (fun hm => htm (by simp [hm]))
      (fun p1 x p2 h => hnd p1 x (p2 ++ [e]) (by simp [h]))
    have hnd' := hnd p e [] rfl
    have hw : Waiting kind (fun u => Known self T pre u ∧ ¬ Settled self T pre (.request id kind here) id p u)
        (here ++ receivedFor id p) (view id (run self T (pre ++ .request id kind here :: p))) := by
      rcases ih' with h | ⟨h, _⟩
      · exact h
      · exact absurd (fun u hu => Classical.byContradiction fun hs => h u ⟨hu, hs⟩) hnd'
    have hrun : run self T (pre ++ .request id kind here :: (p ++ [e])) =
        step self T (run self T (pre ++ .request id kind here :: p)) e := by
      rw [show pre ++ Ev.request id kind here :: (p ++ [e]) = (pre ++ .request id kind here :: p) ++ [e] by simp,
        run_snoc]
    have := step_track self T id _ e (base_nil self T (pre ++ .request id kind here :: p)) (M := _) ?_
      (fun k l he => hp k l (by simp [he])) (fun he => htm (by simp [he])) hw
    · have ha : receivedFor id (p ++ [e]) = receivedFor id p ++ broughtBy id e := by simp [receivedFor]
      rw [ha, ← List.append_assoc, hrun]
      refine track_congr this fun u => ?_
      rw [settled_snoc]
      have hk : Has (step self T (run self T (pre ++ .request id kind here :: p)) e) u ↔
          Known self T (pre ++ .request id kind here :: (p ++ [e])) u := by
        rw [← known_iff, hrun]; rfl
      rw [hk]
      constructor
      · rintro ⟨⟨h1, h2⟩, h3, h4⟩
        exact ⟨h1, by rintro (h | h | h) <;> contradiction⟩
      · rintro ⟨h1, h2⟩
        exact ⟨⟨h1, fun h => h2 (.inl h)⟩, Classical.byContradiction fun h => h2 (.inr (.inr h)),
          fun h => h2 (.inr (.inl h))⟩
    · rintro u ⟨_, h2⟩
      rw [Has, known_iff]
      exact Classical.byContradiction fun h => h2 (.inr ⟨p, [], by simp, h⟩)

/-- Every history has a first moment at which a property of prefixes holds, if it ever does. -/
theorem first_prefix {α : Type} (P : List α → Prop) (p : List α) :
    (∃ q r, p = q ++ r ∧ P q ∧ ∀ q1 e q2, q = q1 ++ e :: q2 → ¬ P q1) ∨ ∀ q r, p = q ++ r → ¬ P q := by
  induction p using snocRec with
  | nil =>
    by_cases h : P []
    · exact .inl ⟨[], [], rfl, h, by simp⟩
    · refine .inr fun q r hq => ?_
      rw [(List.append_eq_nil_iff.1 hq.symm).1]; exact h
  | append_singleton p e ih =>
    rcases ih with ⟨q, r, rfl, h, hm⟩ | hn
    · exact .inl ⟨q, r ++ [e], by simp, h, hm⟩
    · by_cases h : P (p ++ [e])
      · refine .inl ⟨p ++ [e], [], by simp, h, fun q1 x q2 hq => ?_⟩
        rcases List.eq_nil_or_concat q2 with rfl | ⟨q2', y, rfl⟩
        · have := List.append_inj' hq (by simp)
          exact hn q1 [] (by simp [this.1])
        · rw [List.concat_eq_append, show q1 ++ x :: (q2' ++ [y]) = (q1 ++ x :: q2') ++ [y] by simp] at hq
          have := List.append_inj' hq (by simp)
          exact hn q1 (x :: q2') this.1
      · refine .inr fun q r hq => ?_
        rcases List.eq_nil_or_concat r with rfl | ⟨r', y, rfl⟩
        · rw [List.append_nil] at hq; rw [← hq]; exact h
        · rw [List.concat_eq_append, ← List.append_assoc] at hq
          have := List.append_inj' hq (by simp)
          exact hn q r' this.1

/-! ## Heartbeats published -/

theorem dropMissing_hb (u : Uid) (s : St) (id : Nat) : (dropMissing u s id).heartbeats = s.heartbeats := by
  simp only [dropMissing]
  split
  · rfl
  · split <;> rfl

theorem fold_drop_hb (u : Uid) (l : List Nat) (s : St) : (l.foldl (dropMissing u) s).heartbeats = s.heartbeats := by
  induction l generalizing s with
  | nil => rfl
  | cons a l ih => rw [List.foldl_cons, ih, dropMissing_hb]

theorem removeNode_hb (s : St) (u : Uid) : (removeNode s u).heartbeats = s.heartbeats := by
  simp [removeNode, fold_drop_hb]

theorem cleanup_hb (T now : Nat) (l : List Uid) (s : St) : (l.foldl (cleanNode T now) s).heartbeats = s.heartbeats := by
  induction l generalizing s with
  | nil => rfl
  | cons a l ih =>
    rw [List.foldl_cons, ih]
    simp only [cleanNode]
    split
    · rfl
    · split
      · exact removeNode_hb s a
      · rfl

theorem onResponseBase_hb (s : St) (r : Resp) : (onResponseBase s r).heartbeats = s.heartbeats := by
  cases r <;> simp only [onResponseBase] <;> split <;> try rfl
  all_goals split <;> rfl

theorem answer_hb (s : St) (u : Uid) (req : Nat) (l : List Val) : (answer s u req l).heartbeats = s.heartbeats := by
  simp only [answer]
  split
  · rfl
  · split <;> rfl

theorem step_heartbeats (self : Uid) (T : Nat) (s : St) (e : Ev) :
    (step self T s e).heartbeats = s.heartbeats + if isAnnouncement self e then 1 else 0 := by
  cases e with
  | message u m now =>
    by_cases hu : u = self
    · subst hu
      have : isAnnouncement u (.message u m now) = false := by cases m <;> simp [isAnnouncement]
      simp [step, onMessage, this]
    · have h2 : (if u = EMITTER then s else { s with nodes := s.nodes.insert u now }).heartbeats = s.heartbeats := by split <;> rfl
      cases m with
      | initialHeartbeat => simp [step, onMessage, hu, isAnnouncement, h2]
      | heartbeat => simp [step, onMessage, hu, isAnnouncement, h2]
      | close => simp [step, onMessage, hu, isAnnouncement, removeNode_hb, h2]
      | response r => simp [step, onMessage, hu, isAnnouncement, onMessageBase, onResponseBase_hb, h2]
      | other => simp [step, onMessage, hu, isAnnouncement, h2]
  | response u r =>
    cases r <;> simp [step, onResponse, isAnnouncement, answer_hb, onResponseBase_hb]
  | cleanup now order => simp [step, cleanup, cleanup_hb, isAnnouncement]
  | request id kind here => simp only [step, request, isAnnouncement]; split <;> rfl
  | timeout id => simp only [step, timeout, isAnnouncement]; split <;> rfl

end Verif.Heartbeat
