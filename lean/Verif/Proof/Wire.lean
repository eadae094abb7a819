import Verif.Spec.Wire
import Verif.Lib.ListExtra

/-! # No panics -/

namespace Verif.Wire
open Verif Verif.Spec

def isSocket : Item → Bool
  | .socket _ => true
  | .packet _ => false

/-- Requests for sockets have ids in `P` and hold only sockets; server-side events to be answered have ids in `Q`. -/
structure Good (P Q : Nat → Prop) (s : St) : Prop where
  log : ∀ a t r, Effect.eventAck a t r ∈ s.log → Q r
  base : s.base = []
  fetch : ∀ r q, s.custom.get? r = some q → q.kind = .fetch → P r ∧ ∀ i ∈ q.responses, isSocket i = true

/-- A message that does no harm to a server whose requests for sockets have ids in `P`. -/
structure Fine (P Q : Nat → Prop) (recovery : Bool) (m : Message) : Prop where
  data : dataThere m
  packet : packetThere m
  list : recovery = true → packetList m
  sockets : socketsThere m
  apart : ∀ d, m.data = .reply (some d) → ¬ P d.requestId
  emit : ∀ d r, m.data = .emit (some d) → d.requestId = some r → Q r

theorem good_init (P Q) : Good P Q {} := ⟨by simp, rfl, fun r q h => by simp at h⟩

theorem good_mono {P Q P' Q' : Nat → Prop} (hpq : ∀ r, P r → P' r) (hq : ∀ r, Q r → Q' r) {s} (g : Good P Q s) : Good P' Q' s :=
  ⟨fun a t r h => hq _ (g.log a t r h), g.base, fun r q h hk => ⟨hpq _ (g.fetch r q h hk).1, (g.fetch r q h hk).2⟩⟩

theorem resolve_some {k req l s} (h : k = .fetch → ∀ i ∈ l, isSocket i = true) :
    resolve k req l s = some { s with log := s.log ++ [.resolved req l] } := by
  cases k <;> simp [resolve]
  intro i hi
  have := h rfl i hi
  cases i <;> simp_all [isSocket]

theorem remoteSockets_some {l : List (Option Sid)} (h : none ∉ l) :
    ∃ k, remoteSockets l = some k ∧ ∀ i ∈ k, isSocket i = true := by
  induction l with
  | nil => exact ⟨[], rfl, by simp⟩
  | cons x l ih =>
    cases x with
    | none => simp at h
    | some id =>
      obtain ⟨k, hk, hs⟩ := ih (fun hn => h (List.mem_cons_of_mem _ hn))
      refine ⟨.socket id :: k, by simp [remoteSockets, hk], ?_⟩
      intro i hi
      rcases List.mem_cons.1 hi with rfl | hi
      · rfl
      · exact hs i hi

theorem good_erase {P Q s} (g : Good P Q s) (req : Nat) (l) (hl : ∀ a t r, Effect.eventAck a t r ∈ l → Q r) :
    Good P Q { s with log := l, custom := s.custom.erase req } :=
  ⟨hl, g.base, fun r q h hk => by
    have h : (s.custom.erase req).get? r = some q := h
    rw [FMap.get?_erase] at h
    split at h
    · cases h
    · exact g.fetch r q h hk⟩

theorem good_insert {P Q s} (g : Good P Q s) (req : Nat) (q0 : Custom)
    (h0 : q0.kind = .fetch → P req ∧ ∀ i ∈ q0.responses, isSocket i = true) (l) (hl : ∀ a t r, Effect.eventAck a t r ∈ l → Q r) :
    Good P Q { s with log := l, custom := s.custom.insert req q0 } :=
  ⟨hl, g.base, fun r q h hk => by
    have h' : (s.custom.insert req q0).get? r = some q := h
    by_cases e : req = r
    · subst e
      rw [FMap.get?_insert_self] at h'
      injection h' with h'
      subst h'
      exact h0 hk
    · rw [FMap.get?_insert_ne e] at h'
      exact g.fetch r q h' hk⟩

theorem good_log {P Q s} (g : Good P Q s) (l) (hl : ∀ a t r, Effect.eventAck a t r ∈ l → Q r) : Good P Q { s with log := l } :=
  ⟨hl, g.base, g.fetch⟩

theorem log_push {P Q s} (g : Good P Q s) {e : Effect} (he : ∀ a t r, e = .eventAck a t r → Q r) :
    ∀ a t r, Effect.eventAck a t r ∈ s.log ++ [e] → Q r := by
  intro a t r h
  rcases List.mem_append.1 h with h | h
  · exact g.log a t r h
  · exact he a t r (List.mem_singleton.1 h).symm

theorem pushBase_good {P Q s} (g : Good P Q s) (req l) : pushBase s req l = some s := by
  simp [pushBase, g.base]

theorem pushCustom_good {P Q s} (g : Good P Q s) (u req) {l : List Item}
    (hl : P req → ∀ i ∈ l, isSocket i = true) : ∃ s', pushCustom s u req (some l) = some s' ∧ Good P Q s' := by
  unfold pushCustom
  cases hq : s.custom.get? req with
  | none => exact ⟨s, rfl, g⟩
  | some q =>
    dsimp only
    have hk : q.kind = .fetch → P req ∧ ∀ i ∈ q.responses ++ l, isSocket i = true := by
      intro hk
      have := g.fetch req q hq hk
      refine ⟨this.1, fun i hi => ?_⟩
      rcases List.mem_append.1 hi with hi | hi
      · exact this.2 i hi
      · exact hl this.1 i hi
    split
    · rw [resolve_some (fun e => (hk e).2)]
      exact ⟨_, rfl, good_erase g req _ (log_push g (by simp))⟩
    · exact ⟨_, rfl, good_insert g req _ hk s.log g.log⟩

theorem onResponseBase_good {P Q s m} (g : Good P Q s) (f : dataThere m) : ∃ s', onResponseBase s m = some s' ∧ Good P Q s' := by
  unfold onResponseBase
  unfold dataThere at f
  split
  · split
    · next h => rw [h] at f; exact absurd rfl f
    · split
      · exact ⟨_, rfl, good_log g _ (log_push g (by simp))⟩
      · exact ⟨_, rfl, g⟩
    · exact ⟨_, rfl, g⟩
  · split
    · next h => rw [h] at f; exact absurd rfl f
    · split
      · exact ⟨_, rfl, good_log g _ (log_push g (by simp))⟩
      · exact ⟨_, rfl, g⟩
    · exact ⟨_, rfl, g⟩
  · split
    · next h => rw [h] at f; exact absurd rfl f
    · exact ⟨_, pushBase_good g _ _, g⟩
    · exact ⟨_, rfl, g⟩
  · split
    · next h => rw [h] at f; exact absurd rfl f
    · exact ⟨_, pushBase_good g _ _, g⟩
    · exact ⟨_, rfl, g⟩
  · exact ⟨_, rfl, g⟩

theorem addOffsetW_some {recovery p o offset} (hl : recovery = true → p.type = .event → ∃ l, p.data = .args l) :
    ∃ p', addOffsetW recovery (some p) o offset = some (some p') := by
  unfold addOffsetW
  split
  · exact ⟨_, rfl⟩
  · next hr =>
    dsimp only
    split
    · next h =>
      obtain ⟨l, hd⟩ := hl (by simpa using hr) h.1
      rw [hd]
      exact ⟨_, rfl⟩
    · exact ⟨_, rfl⟩

theorem onMessageBase_good {P Q self recovery s m offset} (g : Good P Q s) (f : Fine P Q recovery m) :
    ∃ s', onMessageBase self recovery s m offset = some s' ∧ Good P Q s' := by
  have hd := f.data
  unfold onMessageBase
  split
  · exact ⟨_, rfl, g⟩
  split
  · split
    · next h => simp [dataThere, h] at hd
    · next d h =>
      have hp := f.packet d h
      obtain ⟨p, hp⟩ := Option.ne_none_iff_exists'.1 hp
      split
      · rw [hp]
        exact ⟨_, rfl, good_log g _ (log_push g (by simp))⟩
      · rw [hp]
        obtain ⟨p', he⟩ := addOffsetW_some (o := decode d.opts) (offset := offset)
          (fun hr => f.list hr d p h hp)
        rw [he]
        exact ⟨_, rfl, good_log g _ (log_push g (by simp))⟩
    · exact ⟨_, rfl, g⟩
  · split
    · next h => simp [dataThere, h] at hd
    · exact ⟨_, rfl, good_log g _ (log_push g (by simp))⟩
    · exact ⟨_, rfl, g⟩
  · split
    · next h => simp [dataThere, h] at hd
    · exact ⟨_, rfl, good_log g _ (log_push g (by simp))⟩
    · exact ⟨_, rfl, g⟩
  · split
    · next h => simp [dataThere, h] at hd
    · exact ⟨_, rfl, good_log g _ (log_push g (by simp))⟩
    · exact ⟨_, rfl, g⟩
  · split
    · next h => simp [dataThere, h] at hd
    · exact ⟨_, rfl, good_log g _ (log_push g (by simp))⟩
    · exact ⟨_, rfl, g⟩
  · split
    · next h => simp [dataThere, h] at hd
    · split
      · exact ⟨_, rfl, good_log g _ (log_push g (by simp))⟩
      · next hr =>
        refine ⟨_, rfl, good_log g _ (log_push g ?_)⟩
        intro a t r e
        injection e with e1 e2 e3
        exact f.emit _ _ (by assumption) (e3 ▸ hr)
    · exact ⟨_, rfl, g⟩
  · exact onResponseBase_good g f.data
  · exact onResponseBase_good g f.data
  · exact onResponseBase_good g f.data
  · exact onResponseBase_good g f.data
  · exact ⟨_, rfl, g⟩

theorem onResponse_good {P Q recovery s m} (g : Good P Q s) (f : Fine P Q recovery m) :
    ∃ s', onResponse s m = some s' ∧ Good P Q s' := by
  have hd := f.data
  unfold onResponse
  split
  · split
    · next h => simp [dataThere, h] at hd
    · next d h =>
      obtain ⟨k, hk, hs⟩ := remoteSockets_some (f.sockets d h)
      rw [hk]
      exact pushCustom_good g _ _ (fun _ => hs)
    · exact ⟨_, rfl, g⟩
  · split
    · next h => simp [dataThere, h] at hd
    · next d h => exact pushCustom_good g _ _ (fun hp => absurd hp (f.apart d h))
    · exact ⟨_, rfl, g⟩
  · exact onResponseBase_good g f.data

theorem dropMissing_good {P Q s} (g : Good P Q s) (u req) : ∃ s', dropMissing u (some s) req = some s' ∧ Good P Q s' := by
  unfold dropMissing
  dsimp only
  cases hq : s.custom.get? req with
  | none => exact ⟨s, rfl, g⟩
  | some q =>
    dsimp only
    split
    · rw [resolve_some (fun e => (g.fetch req q hq e).2)]
      exact ⟨_, rfl, good_erase g req _ (log_push g (by simp))⟩
    · exact ⟨_, rfl, good_insert g req { q with missing := LSet.del q.missing u } (g.fetch req q hq) s.log g.log⟩

theorem dropAll_good {P Q} (u) (l : List Nat) : ∀ {s}, Good P Q s → ∃ s', l.foldl (dropMissing u) (some s) = some s' ∧ Good P Q s' := by
  induction l with
  | nil => exact fun g => ⟨_, rfl, g⟩
  | cons r l ih =>
    intro s g
    obtain ⟨s', h, g'⟩ := dropMissing_good g u r
    rw [List.foldl_cons, h]
    exact ih g'

/-- What the loop of `removeNode` does over some of the requests. -/
theorem dropAll_spec {s : St} (hs : ∀ r q, s.custom.get? r = some q → q.kind = .fetch → ∀ i ∈ q.responses, isSocket i = true)
    (u : Uid) (l : List Nat) : ∃ (s' : St) (ended : List (Nat × List Item)), l.foldl (dropMissing u) (some s) = some s' ∧ s'.nodes = s.nodes ∧ s'.acks = s.acks ∧
      s'.base = s.base ∧ s'.log = s.log ++ ended.map (fun e => .resolved e.1 e.2) ∧ (ended.map (·.1)).Nodup ∧
      (∀ r l', (r, l') ∈ ended ↔ r ∈ l ∧ ∃ q, s.custom.get? r = some q ∧ q.responses = l' ∧ ∀ w ∈ q.missing, w = u) ∧
      (∀ r q, s'.custom.get? r = some q ↔ ∃ q0, s.custom.get? r = some q0 ∧
        ((r ∉ l ∧ q = q0) ∨ (r ∈ l ∧ (∃ w ∈ q0.missing, w ≠ u) ∧ q = { q0 with missing := LSet.del q0.missing u }))) := by
  induction l using snocRec with
  | nil => exact ⟨s, [], rfl, rfl, rfl, rfl, by simp, by simp, by simp, fun r q => by simp⟩
  | append_singleton l r ih =>
    obtain ⟨s1, ended, h1, hn, ha, hb, hl, hd, he, hc⟩ := ih
    rw [List.foldl_append, List.foldl_cons, List.foldl_nil, h1]
    have hdel : ∀ (m : List Uid), (LSet.del m u).length = 0 ↔ ∀ w ∈ m, w = u := fun m => by
      rw [List.length_eq_zero_iff, List.eq_nil_iff_forall_not_mem]
      simp only [LSet.mem_del, not_and]
      exact ⟨fun h w hw => Classical.byContradiction fun hne => h w hne hw, fun h w hne hw => hne (h w hw)⟩
    have hdd : ∀ (m : List Uid), LSet.del (LSet.del m u) u = LSet.del m u := fun m => by simp [LSet.del]
    have hsome : ∀ q0 : Custom, (∃ w ∈ q0.missing, w ≠ u) ↔ ¬ ∀ w ∈ q0.missing, w = u := fun q0 => by simp
    unfold dropMissing
    dsimp only
    by_cases hrl : r ∈ l
    · -- nothing changes
      have hsame : ∀ x, x ∈ l ++ [r] ↔ x ∈ l := fun x => by
        rw [List.mem_append, List.mem_singleton]
        exact ⟨fun h => h.elim id (fun h => h ▸ hrl), Or.inl⟩
      cases hq : s1.custom.get? r with
      | none => exact ⟨s1, ended, rfl, hn, ha, hb, hl, hd, fun x l' => by rw [he, hsame], fun x q => by rw [hc]; simp only [hsame]⟩
      | some q =>
        obtain ⟨q0, hq0, ⟨h, -⟩ | ⟨-, hw, rfl⟩⟩ := (hc r q).1 hq
        · exact absurd hrl h
        dsimp only
        rw [hdd, if_neg (by rw [hdel]; exact (hsome q0).1 hw)]
        refine ⟨_, ended, rfl, hn, ha, hb, hl, hd, fun x l' => by rw [he, hsame], fun x q => ?_⟩
        dsimp only
        rw [FMap.get?_insert]
        split
        · next h => subst h; simp only [hsame]; rw [← hc, hq]
        · rw [hc]; simp only [hsame]
    · have hq : s1.custom.get? r = s.custom.get? r := by
        cases h : s.custom.get? r with
        | none =>
          cases h' : s1.custom.get? r with
          | none => rfl
          | some q => obtain ⟨q0, e, -⟩ := (hc r q).1 h'; rw [h] at e; cases e
        | some q => exact (hc r q).2 ⟨q, h, Or.inl ⟨hrl, rfl⟩⟩
      rw [hq]
      cases hq0 : s.custom.get? r with
      | none =>
        refine ⟨s1, ended, rfl, hn, ha, hb, hl, hd, fun x l' => ?_, fun x q => ?_⟩
        · rw [he, List.mem_append, List.mem_singleton]
          refine ⟨fun h => ⟨Or.inl h.1, h.2⟩, fun h => ⟨h.1.elim id (fun e => ?_), h.2⟩⟩
          subst e; obtain ⟨-, q, e, -⟩ := h; rw [hq0] at e; cases e
        · rw [hc]
          constructor
          all_goals
            rintro ⟨q', e, h⟩
            have hne : x ≠ r := fun e' => by rw [e', hq0] at e; cases e
            refine ⟨q', e, ?_⟩
            simpa [hne] using h
      | some q0 =>
        dsimp only
        split
        · next h0 =>
          rw [resolve_some (hs r q0 hq0)]
          refine ⟨_, ended ++ [(r, q0.responses)], rfl, hn, ha, hb, by simp [hl], ?_, fun x l' => ?_, fun x q => ?_⟩
          · rw [List.map_append, List.nodup_append]
            refine ⟨hd, by simp, fun a h b hb' => ?_⟩
            simp at hb'; subst hb'
            rintro rfl
            obtain ⟨⟨x, l'⟩, hx, rfl⟩ := List.mem_map.1 h
            exact hrl ((he x l').1 hx).1
          · simp only [List.mem_append, List.mem_singleton, he, Prod.mk.injEq]
            constructor
            · rintro (⟨h, h'⟩ | ⟨rfl, rfl⟩)
              · exact ⟨Or.inl h, h'⟩
              · exact ⟨Or.inr rfl, q0, hq0, rfl, (hdel _).1 h0⟩
            · rintro ⟨h | rfl, q, e, e', h'⟩
              · exact Or.inl ⟨h, q, e, e', h'⟩
              · rw [hq0] at e; cases e; exact Or.inr ⟨rfl, e'.symm⟩
          · dsimp only
            rw [FMap.get?_erase]
            split
            · next h =>
              subst h
              refine ⟨(fun e => by cases e), ?_⟩
              rintro ⟨q', e, ⟨h, -⟩ | ⟨-, h, -⟩⟩
              · simp at h
              · rw [hq0] at e; cases e; exact absurd ((hdel _).1 h0) ((hsome _).1 h)
            · next h =>
              rw [hc]
              have h' : x ≠ r := fun e => h e.symm
              simp [h']
        · next h0 =>
          refine ⟨_, ended, rfl, hn, ha, hb, hl, hd, fun x l' => ?_, fun x q => ?_⟩
          · rw [he, List.mem_append, List.mem_singleton]
            refine ⟨fun h => ⟨Or.inl h.1, h.2⟩, fun h => ⟨h.1.elim id (fun e => ?_), h.2⟩⟩
            subst e; obtain ⟨-, q, e, -, h⟩ := h; rw [hq0] at e; cases e; exact absurd ((hdel _).2 h) h0
          · dsimp only
            rw [FMap.get?_insert]
            split
            · next h =>
              subst h
              constructor
              · intro e; cases e
                exact ⟨q0, hq0, Or.inr ⟨by simp, (hsome q0).2 (fun h => h0 ((hdel _).2 h)), rfl⟩⟩
              · rintro ⟨q', e, ⟨h, -⟩ | ⟨-, h, rfl⟩⟩
                · simp at h
                · rw [hq0] at e; cases e; rfl
            · next h =>
              rw [hc]
              have h' : x ≠ r := fun e => h e.symm
              simp [h']

theorem removeNode_good {P Q s} (g : Good P Q s) (u) : ∃ s', removeNode s u = some s' ∧ Good P Q s' := by
  obtain ⟨s', h, g'⟩ := dropAll_good u s.custom.keys g
  unfold removeNode
  rw [h]
  exact ⟨_, rfl, ⟨g'.log, g'.base, g'.fetch⟩⟩

theorem onMessage_good {P Q self recovery s m offset} (g : Good P Q s) (f : Fine P Q recovery m) :
    ∃ s', onMessage self recovery s m offset = some s' ∧ Good P Q s' := by
  unfold onMessage
  split
  · exact ⟨_, rfl, g⟩
  dsimp only
  generalize hs1 : (if m.uid ≠ .emitter then { s with nodes := LSet.add s.nodes m.uid } else s : St) = s1
  have g1 : Good P Q s1 := by
    subst hs1
    split
    · exact ⟨g.log, g.base, g.fetch⟩
    · exact g
  split
  · exact ⟨_, rfl, good_log g1 _ (log_push g1 (by simp))⟩
  · exact ⟨_, rfl, g1⟩
  · exact removeNode_good g1 _
  · exact onMessageBase_good g1 f

theorem request_good {P Q s} (g : Good P Q s) (req kind here) (hp : kind = .fetch → P req) : Good P Q (request s req kind here) := by
  unfold request
  split
  · exact good_log g _ (log_push g (by simp))
  · refine good_insert g req _ (fun hk => ⟨hp hk, ?_⟩) s.log g.log
    intro i hi
    obtain ⟨a, _, rfl⟩ := List.mem_map.1 hi
    rfl

theorem timeout_good {P Q s} (g : Good P Q s) (req) : Good P Q (timeout s req) := by
  unfold timeout
  split
  · exact g
  · exact good_erase g req _ (log_push g (by simp))

theorem step_good {P Q self recovery s} (g : Good P Q s) (e : Ev)
    (hm : ∀ m, (∃ off, e = .message m off) ∨ e = .response m → Fine P Q recovery m)
    (hr : ∀ req here, e = .request req .fetch here → P req) :
    ∃ s', step self recovery (some s) e = some s' ∧ Good P Q s' := by
  unfold step
  cases e with
  | message m off => exact onMessage_good g (hm m (Or.inl ⟨off, rfl⟩))
  | response m => exact onResponse_good g (hm m (Or.inr rfl))
  | request req kind here => exact ⟨_, rfl, request_good g _ _ _ (fun hk => hr req here (by rw [hk]))⟩
  | timeout req => exact ⟨_, rfl, timeout_good g _⟩
  | down u => exact removeNode_good g _
  | await req => exact ⟨_, rfl, ⟨g.log, g.base, g.fetch⟩⟩
  | forget req => exact ⟨_, rfl, ⟨g.log, g.base, g.fetch⟩⟩

theorem fold_good {P Q self recovery} (h : List Ev) : ∀ {s}, Good P Q s →
    (∀ m ∈ arriving h, Fine P Q recovery m) → (∀ r ∈ fetchIds h, P r) →
    ∃ s', h.foldl (step self recovery) (some s) = some s' ∧ Good P Q s' := by
  induction h with
  | nil => exact fun g _ _ => ⟨_, rfl, g⟩
  | cons e h ih =>
    intro s g hm hr
    obtain ⟨s', hs, g'⟩ := step_good (self := self) (recovery := recovery) g e
      (fun m he => hm m (by
        unfold arriving
        rw [List.mem_filterMap]
        refine ⟨e, List.mem_cons_self, ?_⟩
        rcases he with ⟨off, rfl⟩ | rfl <;> rfl))
      (fun req here he => hr req (by
        unfold fetchIds
        rw [List.mem_filterMap]
        exact ⟨e, List.mem_cons_self, by rw [he]⟩))
    rw [List.foldl_cons, hs]
    refine ih g' (fun m hmm => hm m ?_) (fun r hrr => hr r ?_)
    · unfold arriving at *
      rw [List.mem_filterMap] at *
      obtain ⟨a, ha, hb⟩ := hmm
      exact ⟨a, List.mem_cons_of_mem _ ha, hb⟩
    · unfold fetchIds at *
      rw [List.mem_filterMap] at *
      obtain ⟨a, ha, hb⟩ := hrr
      exact ⟨a, List.mem_cons_of_mem _ ha, hb⟩

/-! ## Ignored messages -/

theorem onResponseBase_ignored {s m} (h : dataFits m = false) : onResponseBase s m = some s := by
  unfold onResponseBase
  unfold dataFits at h
  split <;> (try split) <;> simp_all

theorem onResponse_ignored {s m} (h : dataFits m = false) : onResponse s m = some s := by
  unfold onResponse
  split
  · unfold dataFits at h
    split <;> simp_all
  · unfold dataFits at h
    split <;> simp_all
  · exact onResponseBase_ignored h

theorem onMessageBase_ignored {self recovery s m offset} (h : dataFits m = false) :
    onMessageBase self recovery s m offset = some s := by
  have hb := onResponseBase_ignored (s := s) h
  unfold onMessageBase
  unfold dataFits at h
  split
  · rfl
  split <;> (try exact hb) <;> (try split) <;> simp_all

/-! ## A cluster -/

/-- The id was given to a request for sockets, or to a server-side event. -/
def FetchId (k : List Kind) (r : Nat) : Prop := k[r]? = some .fetch
def SseId (k : List Kind) (r : Nat) : Prop := k[r]? = some .sse

/-- A message the cluster itself sent. -/
structure Sent (k : List Kind) (m : Message) : Prop where
  data : dataThere m
  packet : packetThere m
  list : packetList m
  sockets : socketsThere m
  reply : ∀ d, m.data = .reply (some d) → SseId k d.requestId
  emit : ∀ d r, m.data = .emit (some d) → d.requestId = some r → SseId k r

theorem Sent.fine {k m} (h : Sent k m) (recovery) : Fine (FetchId k) (SseId k) recovery m where
  data := h.data
  packet := h.packet
  list _ := h.list
  sockets := h.sockets
  apart d hd hp := by
    have := h.reply d hd
    unfold FetchId at hp
    unfold SseId at this
    rw [hp] at this
    cases this
  emit := h.emit

structure NetOK (x : Net) : Prop where
  nodes : ∀ i, ∃ s, x.nodes i = some s ∧ Good (FetchId x.kinds) (SseId x.kinds) s
  sent : ∀ m ∈ x.sent, Sent x.kinds m.1
  backs : ∀ m ∈ x.backs, Sent x.kinds m.2

theorem id_mono {k : List Kind} {l : List Kind} {a : Kind} {r : Nat} (h : k[r]? = some a) : (k ++ l)[r]? = some a := by
  rw [List.getElem?_append_left]
  · exact h
  · exact (List.getElem?_eq_some_iff.1 h).1

theorem Sent.mono {k m} (h : Sent k m) (l) : Sent (k ++ l) m :=
  ⟨h.data, h.packet, h.list, h.sockets, fun d hd => id_mono (h.reply d hd), fun d r hd hr => id_mono (h.emit d r hd hr)⟩

theorem netOK_issue {x} (o : NetOK x) (l) : NetOK { x with kinds := x.kinds ++ l } :=
  ⟨fun i => by
    obtain ⟨s, hs, g⟩ := o.nodes i
    exact ⟨s, hs, good_mono (fun r h => id_mono h) (fun r h => id_mono h) g⟩,
   fun m hm => (o.sent m hm).mono l, fun m hm => (o.backs m hm).mono l⟩

theorem netOK_onNode {x} (o : NetOK x) (i) (f : St → Option St)
    (hf : ∀ s, Good (FetchId x.kinds) (SseId x.kinds) s → ∃ s', f s = some s' ∧ Good (FetchId x.kinds) (SseId x.kinds) s') :
    NetOK (onNode x i f) := by
  refine ⟨fun j => ?_, o.sent, o.backs⟩
  obtain ⟨s, hs, g⟩ := o.nodes j
  show ∃ s', (if j = i then (x.nodes j).bind f else x.nodes j) = some s' ∧ _
  split
  · rw [hs]
    exact hf s g
  · exact ⟨s, hs, g⟩

theorem netOK_say {x} (o : NetOK x) (i) (f : St → Option St) (type d offset)
    (hf : ∀ s, Good (FetchId x.kinds) (SseId x.kinds) s → ∃ s', f s = some s' ∧ Good (FetchId x.kinds) (SseId x.kinds) s')
    (hd : Sent x.kinds ⟨.server i, type, d⟩) : NetOK (say x i f type d offset) := by
  unfold say
  split
  · exact o
  · have o' := netOK_onNode o i f hf
    refine ⟨o'.nodes, fun m hm => ?_, o'.backs⟩
    rcases List.mem_append.1 hm with hm | hm
    · exact o.sent m hm
    · rw [List.mem_singleton.1 hm]
      exact hd

theorem netOK_reply {x} (o : NetOK x) (i to) (e : Effect → Bool) (type d)
    (hd : ∀ s, x.nodes i = some s → s.log.any e = true → Sent x.kinds ⟨.server i, type, d⟩) : NetOK (reply x i to e type d) := by
  unfold reply
  split
  · exact o
  · next s hs =>
    split
    · next he =>
      refine ⟨o.nodes, o.sent, fun m hm => ?_⟩
      rcases List.mem_append.1 hm with hm | hm
      · exact o.backs m hm
      · rw [List.mem_singleton.1 hm]
        exact hd s hs he
    · exact o

theorem sent_plain {k : List Kind} {u type d} (h : dataThere ⟨u, type, d⟩) (hb : ∀ x, d ≠ .broadcast x) (hs : ∀ x, d ≠ .sockets x)
    (hr : ∀ x, d ≠ .reply x) (he : ∀ x, d ≠ .emit x) : Sent k ⟨u, type, d⟩ :=
  ⟨h, fun _ e => absurd e (hb _), fun _ _ e => absurd e (hb _), fun _ e => absurd e (hs _), fun _ e => absurd e (hr _),
    fun _ _ e => absurd e (he _)⟩

theorem sent_broadcast {k : List Kind} {u o args req} :
    Sent k ⟨u, 3, .broadcast (some ⟨o, some { type := .event, data := .args args }, req⟩)⟩ := by
  refine ⟨by simp [dataThere], ?_, ?_, ?_, ?_, ?_⟩
  · intro d e
    cases e
    simp
  · intro d p e hp _
    cases e
    cases hp
    exact ⟨_, rfl⟩
  · intro d e
    cases e
  · intro d e
    cases e
  · intro d r e
    cases e

theorem sent_emit {k : List Kind} {u args req} (h : ∀ r, req = some r → SseId k r) : Sent k ⟨u, 9, .emit (some ⟨req, args⟩)⟩ := by
  refine ⟨by simp [dataThere], ?_, ?_, ?_, ?_, ?_⟩
  · intro d e
    cases e
  · intro d p e
    cases e
  · intro d e
    cases e
  · intro d e
    cases e
  · intro d r e hr
    cases e
    exact h r hr

theorem netOK_step {recovery x} (o : NetOK x) (e : NetEv) : NetOK (netStep recovery x e) := by
  have push : ∀ (e : Effect), (∀ a t r, e ≠ .eventAck a t r) → ∀ {k : List Kind} s, Good (FetchId k) (SseId k) s →
      ∃ s', some { s with log := s.log ++ [e] } = some s' ∧ Good (FetchId k) (SseId k) s' :=
    fun e he k s g => ⟨_, rfl, good_log g _ (log_push g (fun a t r h => absurd h (he a t r)))⟩
  cases e with
  | broadcast i args op offset =>
    refine netOK_say o i _ _ _ _ (fun s g => ?_) sent_broadcast
    obtain ⟨p', hp⟩ := addOffsetW_some (recovery := recovery) (p := { type := .event, data := .args args }) (o := op) (offset := offset)
      (fun _ _ => ⟨_, rfl⟩)
    rw [hp]
    exact push _ (by simp) s g
  | broadcastAck i args op offset =>
    exact netOK_say (netOK_issue o [.ack]) i _ _ _ _ (fun s g => ⟨_, rfl, ⟨g.log, g.base, g.fetch⟩⟩) sent_broadcast
  | join i op rooms offset =>
    exact netOK_say o i _ _ _ _ (push _ (by simp)) (sent_plain (by simp [dataThere]) (by simp) (by simp) (by simp) (by simp))
  | leave i op rooms offset =>
    exact netOK_say o i _ _ _ _ (push _ (by simp)) (sent_plain (by simp [dataThere]) (by simp) (by simp) (by simp) (by simp))
  | disconnect i op rooms offset =>
    exact netOK_say o i _ _ _ _ (push _ (by simp)) (sent_plain (by simp [dataThere]) (by simp) (by simp) (by simp) (by simp))
  | fetch i op here offset =>
    refine netOK_say (netOK_issue o [.fetch]) i _ _ _ _ (fun s g => ⟨_, rfl, request_good g _ _ _ (fun _ => ?_)⟩)
      (sent_plain (by simp [dataThere]) (by simp) (by simp) (by simp) (by simp))
    simp [FetchId]
  | emit i args offset =>
    exact netOK_say o i _ _ _ _ (fun s g => ⟨_, rfl, g⟩) (sent_emit (by simp))
  | emitAck i args offset =>
    refine netOK_say (netOK_issue o [.sse]) i _ _ _ _ (fun s g => ⟨_, rfl, request_good g _ _ _ (by simp)⟩) (sent_emit ?_)
    intro r hr
    cases hr
    simp [SseId]
  | init i offset =>
    exact netOK_say o i _ _ _ _ (fun s g => ⟨_, rfl, g⟩) (sent_plain (by simp [dataThere]) (by simp) (by simp) (by simp) (by simp))
  | beat i offset =>
    exact netOK_say o i _ _ _ _ (fun s g => ⟨_, rfl, g⟩) (sent_plain (by simp [dataThere]) (by simp) (by simp) (by simp) (by simp))
  | close i offset =>
    exact netOK_say o i _ _ _ _ (fun s g => ⟨_, rfl, g⟩) (sent_plain (by simp [dataThere]) (by simp) (by simp) (by simp) (by simp))
  | replies i to req l =>
    refine netOK_reply o i to _ _ _ (fun s hs he => ?_)
    obtain ⟨e, hm, he⟩ := List.any_eq_true.1 he
    split at he
    · next t r =>
      obtain ⟨s', hs', g⟩ := o.nodes i
      rw [hs] at hs'
      cases hs'
      have he : t = .server to ∧ r = req := by simpa using he
      have hq := g.log _ _ _ hm
      rw [he.2] at hq
      refine ⟨by simp [dataThere], ?_, ?_, ?_, ?_, ?_⟩
      · intro d e
        cases e
      · intro d p e
        cases e
      · intro d e
        cases e
      · intro d e
        cases e
        exact hq
      · intro d r e
        cases e
    · cases he
  | clientAnswers i to req l =>
    exact netOK_reply o i to _ _ _ (fun s hs he => sent_plain (by simp [dataThere]) (by simp) (by simp) (by simp) (by simp))
  | counts i to req l =>
    exact netOK_reply o i to _ _ _ (fun s hs he => sent_plain (by simp [dataThere]) (by simp) (by simp) (by simp) (by simp))
  | finds i to req l =>
    refine netOK_reply o i to _ _ _ (fun s hs he => ⟨by simp [dataThere], ?_, ?_, ?_, ?_, ?_⟩)
    · intro d e
      cases e
    · intro d p e
      cases e
    · intro d e
      cases e
      simp
    · intro d e
      cases e
    · intro d r e
      cases e
  | deliver i k =>
    show NetOK (match x.sent[k]? with
      | none => x
      | some (m, offset) => onNode x i (fun s => onMessage (.server i) recovery s m offset))
    split
    · exact o
    · next m offset hk =>
      exact netOK_onNode o i _ (fun s g => onMessage_good g ((o.sent _ (List.mem_of_getElem? hk)).fine recovery))
  | back k asMessage =>
    show NetOK (match x.backs[k]? with
      | none => x
      | some (i, m) => onNode x i (fun s => if asMessage then onMessage (.server i) recovery s m "" else onResponse s m))
    split
    · exact o
    · next i m hk =>
      have f := (o.backs _ (List.mem_of_getElem? hk)).fine recovery
      refine netOK_onNode o i _ (fun s g => ?_)
      split
      · exact onMessage_good g f
      · exact onResponse_good g f
  | timeout i req => exact netOK_onNode o i _ (fun s g => ⟨_, rfl, timeout_good g _⟩)
  | forget i req => exact netOK_onNode o i _ (fun s g => ⟨_, rfl, ⟨g.log, g.base, g.fetch⟩⟩)
  | down i u => exact netOK_onNode o i _ (fun s g => removeNode_good g u)

theorem netOK_run (recovery) (h : List NetEv) : NetOK (netRun recovery h) := by
  unfold netRun
  suffices ∀ x, NetOK x → NetOK (h.foldl (netStep recovery) x) from
    this _ ⟨fun _ => ⟨_, rfl, good_init _ _⟩, by simp, by simp⟩
  induction h with
  | nil => exact fun x o => o
  | cons e h ih => exact fun x o => ih _ (netOK_step o e)

/-! ## Who is answered -/

/-- What the log says is to be answered: the kind of the question, who asked, the id. -/
def wants : Effect → Option (Nat × Uid × Nat)
  | .fetch _ t r => some (7, t, r)
  | .eventAck _ t r => some (9, t, r)
  | .broadcastAck _ _ t r => some (3, t, r)
  | _ => none

/-- The question a message asks. -/
def question (m : Message) : Option (Nat × Uid × Nat) :=
  match m.type, m.data with
  | 7, .fetch (some d) => some (7, m.uid, d.requestId)
  | 9, .emit (some d) => d.requestId.map (fun r => (9, m.uid, r))
  | 3, .broadcast (some d) => d.requestId.map (fun r => (3, m.uid, r))
  | _, _ => none

/-- Everything new in the log that is to be answered was asked by `m`. -/
def NewFrom (m : Option Message) (s s' : St) : Prop :=
  ∀ e ∈ s'.log, e ∈ s.log ∨ wants e = none ∨ ∃ m', m = some m' ∧ wants e = question m'

theorem new_refl (m s) : NewFrom m s s := fun _ h => Or.inl h

theorem new_same {m s s'} (h : s'.log = s.log) : NewFrom m s s' := fun e he => Or.inl (h ▸ he)

theorem new_push {m s s' e} (h : s'.log = s.log ++ [e]) (he : wants e = none ∨ ∃ m', m = some m' ∧ wants e = question m') : NewFrom m s s' := by
  intro e' he'
  rw [h, List.mem_append, List.mem_singleton] at he'
  rcases he' with h1 | rfl
  · exact Or.inl h1
  · exact Or.inr he

theorem new_trans {m s s' s''} (h : NewFrom m s s') (h' : NewFrom m s' s'') : NewFrom m s s'' := by
  intro e he
  rcases h' e he with h1 | h1
  · exact h e h1
  · exact Or.inr h1

theorem resolve_log {k req l s s'} (h : resolve k req l s = some s') : s'.log = s.log ++ [.resolved req l] := by
  unfold resolve at h
  split at h
  · split at h
    · cases h; rfl
    · cases h
  · cases h; rfl

theorem new_resolve {k req l s s'} (h : resolve k req l s = some s') (m) (f : St → St) (hf : ∀ s, (f s).log = s.log) :
    NewFrom m s (f s') := new_push (e := .resolved req l) ((hf _).trans (resolve_log h)) (Or.inl rfl)

theorem pushBase_new {m s req l s'} (h : pushBase s req l = some s') : NewFrom m s s' := by
  unfold pushBase at h
  split at h
  · cases h; exact new_refl _ _
  split at h
  · cases h
  dsimp only at h
  split at h
  · obtain ⟨s1, h1, rfl⟩ := Option.map_eq_some_iff.1 h
    exact new_resolve h1 m (fun s => { s with base := s.base.erase req }) (fun _ => rfl)
  · cases h; exact new_same rfl

theorem pushCustom_new {m s u req l s'} (h : pushCustom s u req l = some s') : NewFrom m s s' := by
  unfold pushCustom at h
  split at h
  · cases h; exact new_refl _ _
  split at h
  · cases h
  dsimp only at h
  split at h
  · obtain ⟨s1, h1, rfl⟩ := Option.map_eq_some_iff.1 h
    exact new_resolve h1 m (fun s => { s with custom := s.custom.erase req }) (fun _ => rfl)
  · cases h; exact new_same rfl

theorem onResponseBase_new {m' s m s'} (h : onResponseBase s m = some s') : NewFrom m' s s' := by
  unfold onResponseBase at h
  split at h
  · split at h
    · cases h
    · cases h
      split
      · exact new_push rfl (Or.inl rfl)
      · exact new_refl _ _
    · cases h; exact new_refl _ _
  · split at h
    · cases h
    · cases h
      split
      · exact new_push rfl (Or.inl rfl)
      · exact new_refl _ _
    · cases h; exact new_refl _ _
  · split at h
    · cases h
    · exact pushBase_new h
    · cases h; exact new_refl _ _
  · split at h
    · cases h
    · exact pushBase_new h
    · cases h; exact new_refl _ _
  · cases h; exact new_refl _ _

theorem onResponse_new {m' s m s'} (h : onResponse s m = some s') : NewFrom m' s s' := by
  unfold onResponse at h
  split at h
  · split at h
    · cases h
    · exact pushCustom_new h
    · cases h; exact new_refl _ _
  · split at h
    · cases h
    · exact pushCustom_new h
    · cases h; exact new_refl _ _
  · exact onResponseBase_new h

theorem onMessageBase_new {self recovery s m offset s'} (h : onMessageBase self recovery s m offset = some s') : NewFrom (some m) s s' := by
  unfold onMessageBase at h
  split at h
  · cases h; exact new_refl _ _
  obtain ⟨u, t, d⟩ := m
  dsimp only at h
  split at h
  · split at h
    · cases h
    · next dd =>
      split at h
      · next req hreq =>
        split at h
        · cases h
        · cases h
          exact new_push rfl (Or.inr ⟨_, rfl, by simp [wants, question, hreq]⟩)
      · split at h
        · cases h
        · cases h
        · cases h; exact new_push rfl (Or.inl rfl)
    · cases h; exact new_refl _ _
  · split at h <;> cases h <;> first | exact new_push rfl (Or.inl rfl) | exact new_refl _ _
  · split at h <;> cases h <;> first | exact new_push rfl (Or.inl rfl) | exact new_refl _ _
  · split at h <;> cases h <;> first | exact new_push rfl (Or.inl rfl) | exact new_refl _ _
  · split at h <;> cases h <;> first | exact new_push rfl (Or.inr ⟨_, rfl, rfl⟩) | exact new_refl _ _
  · split at h
    · cases h
    · split at h
      · cases h; exact new_push rfl (Or.inl rfl)
      · next req hreq => cases h; exact new_push rfl (Or.inr ⟨_, rfl, by simp [wants, question, hreq]⟩)
    · cases h; exact new_refl _ _
  · exact onResponseBase_new h
  · exact onResponseBase_new h
  · exact onResponseBase_new h
  · exact onResponseBase_new h
  · cases h; exact new_refl _ _

theorem dropMissing_new {m u s req s'} (h : dropMissing u (some s) req = some s') : NewFrom m s s' := by
  unfold dropMissing at h
  dsimp only at h
  split at h
  · cases h; exact new_refl _ _
  split at h
  · obtain ⟨s1, h1, rfl⟩ := Option.map_eq_some_iff.1 h
    exact new_resolve h1 m (fun s => { s with custom := s.custom.erase req }) (fun _ => rfl)
  · cases h; exact new_same rfl

theorem dropAll_new {m u} (l : List Nat) : ∀ {s s'}, l.foldl (dropMissing u) (some s) = some s' → NewFrom m s s' := by
  induction l using snocRec with
  | nil => intro s s' h; cases h; exact new_refl _ _
  | append_singleton l r ih =>
    intro s s' h
    rw [List.foldl_append, List.foldl_cons, List.foldl_nil] at h
    cases h1 : l.foldl (dropMissing u) (some s) with
    | none => rw [h1] at h; cases h
    | some s1 => rw [h1] at h; exact new_trans (ih h1) (dropMissing_new h)

theorem removeNode_new {m u s s'} (h : removeNode s u = some s') : NewFrom m s s' := by
  unfold removeNode at h
  obtain ⟨s1, h1, rfl⟩ := Option.map_eq_some_iff.1 h
  exact new_trans (dropAll_new _ h1) (new_same rfl)

theorem onMessage_new {self recovery s m offset s'} (h : onMessage self recovery s m offset = some s') :
    NewFrom (if m.uid = self then none else some m) s s' := by
  unfold onMessage at h
  split at h
  · cases h; exact new_refl _ _
  next hs =>
  rw [if_neg hs]
  dsimp only at h
  generalize hs1 : (if m.uid ≠ .emitter then { s with nodes := LSet.add s.nodes m.uid } else s : St) = s1 at h
  have h1 : NewFrom (some m) s s1 := new_same (by subst hs1; split <;> rfl)
  refine new_trans h1 ?_
  split at h
  · cases h; exact new_push rfl (Or.inl rfl)
  · cases h; exact new_refl _ _
  · exact removeNode_new h
  · exact onMessageBase_new h

theorem request_new {m s req kind here} : NewFrom m s (request s req kind here) := by
  unfold request
  split
  · exact new_push rfl (Or.inl rfl)
  · exact new_same rfl

theorem timeout_new {m s req} : NewFrom m s (timeout s req) := by
  unfold timeout
  split
  · exact new_refl _ _
  · exact new_push rfl (Or.inl rfl)

/-- Everything to be answered was asked by another server; every response answers a question of the server it goes to. -/
structure Asked (x : Net) : Prop where
  log : ∀ i s, x.nodes i = some s → ∀ e ∈ s.log, ∀ k t r, wants e = some (k, t, r) →
    t ≠ .server i ∧ ∃ m ∈ x.sent, question m.1 = some (k, t, r)
  backs : ∀ b ∈ x.backs, b.2.uid ≠ .server b.1 ∧ ∃ m ∈ x.sent, m.1.uid = .server b.1 ∧ AnswerTo m.1 b.2
  noQuestion : ∀ b ∈ x.backs, question b.2 = none

theorem question_uid {m k t r} (h : question m = some (k, t, r)) : m.uid = t := by
  unfold question at h
  split at h
  · cases h; rfl
  · obtain ⟨_, _, h⟩ := Option.map_eq_some_iff.1 h; cases h; rfl
  · obtain ⟨_, _, h⟩ := Option.map_eq_some_iff.1 h; cases h; rfl
  · cases h

theorem asked_onNode {x} (o : Asked x) (i) (f : St → Option St)
    (hf : ∀ s s', f s = some s' → ∃ m, NewFrom m s s' ∧ ∀ m', m = some m' → question m' ≠ none →
      m'.uid ≠ .server i ∧ ∃ off, (m', off) ∈ x.sent) : Asked (onNode x i f) := by
  refine ⟨fun j s hs e he k t r hw => ?_, o.backs, o.noQuestion⟩
  replace hs : (if j = i then (x.nodes j).bind f else x.nodes j) = some s := hs
  by_cases hj : j = i
  · rw [if_pos hj] at hs
    subst hj
    obtain ⟨s0, h0, h1⟩ := Option.bind_eq_some_iff.1 hs
    obtain ⟨m, hn, hm⟩ := hf s0 s h1
    rcases hn e he with h | h | ⟨m', hm', h⟩
    · exact o.log j s0 h0 e h k t r hw
    · rw [h] at hw; cases hw
    · rw [hw] at h
      have := hm m' hm' (by rw [← h]; simp)
      exact ⟨question_uid h.symm ▸ this.1, (m', this.2.choose), this.2.choose_spec, h.symm⟩
  · rw [if_neg hj] at hs
    exact o.log j s hs e he k t r hw

theorem asked_say {x} (o : Asked x) (i) (f : St → Option St) (type d offset)
    (hf : ∀ s s', f s = some s' → NewFrom none s s') : Asked (say x i f type d offset) := by
  unfold say
  split
  · exact o
  · have o' := asked_onNode o i f (fun s s' h => ⟨none, hf s s' h, fun _ e => by cases e⟩)
    refine ⟨fun j s hs e he k t r hw => ?_, fun b hb => ?_, o'.noQuestion⟩
    · obtain ⟨h1, m, hm, h2⟩ := o'.log j s hs e he k t r hw
      exact ⟨h1, m, List.mem_append_left _ hm, h2⟩
    · obtain ⟨h1, m, hm, h2⟩ := o.backs b hb
      exact ⟨h1, m, List.mem_append_left _ hm, h2⟩

theorem asked_kinds {x} (o : Asked x) (l) : Asked { x with kinds := l } := ⟨o.log, o.backs, o.noQuestion⟩

theorem asked_reply {x} (o : Asked x) (i to k req) (e : Effect → Bool) (type d)
    (he : ∀ a, e a = true → wants a = some (k, .server to, req))
    (hd : ∀ m, question m = some (k, .server to, req) → AnswerTo m ⟨.server i, type, d⟩)
    (hq : question ⟨.server i, type, d⟩ = none) : Asked (reply x i to e type d) := by
  unfold reply
  split
  · exact o
  · next s hs =>
    split
    · next ha =>
      obtain ⟨a, ha, hea⟩ := List.any_eq_true.1 ha
      obtain ⟨h1, m, hm, h2⟩ := o.log i s hs a ha _ _ _ (he a hea)
      refine ⟨o.log, fun b hb => ?_, fun b hb => ?_⟩
      · rcases List.mem_append.1 hb with hb | hb
        · exact o.backs b hb
        · rw [List.mem_singleton.1 hb]
          exact ⟨fun e => h1 e.symm, m, hm, question_uid h2, hd _ h2⟩
      · rcases List.mem_append.1 hb with hb | hb
        · exact o.noQuestion b hb
        · rw [List.mem_singleton.1 hb]; exact hq
    · exact o

theorem asked_step {recovery x} (o : Asked x) (e : NetEv) : Asked (netStep recovery x e) := by
  have logs : ∀ {s : St} {s' : St} {a}, s'.log = s.log ++ [a] → wants a = none → NewFrom none s s' := fun h h' => new_push h (Or.inl h')
  cases e with
  | broadcast i args op offset =>
    refine asked_say o _ _ _ _ _ (fun s s' h => ?_)
    obtain ⟨p, -, h⟩ := Option.bind_eq_some_iff.1 h
    obtain ⟨p, -, rfl⟩ := Option.map_eq_some_iff.1 h
    exact logs rfl rfl
  | broadcastAck i args op offset => exact asked_say (asked_kinds o _) _ _ _ _ _ (fun s s' h => by cases h; exact new_same rfl)
  | join i op rooms offset => exact asked_say o _ _ _ _ _ (fun s s' h => by cases h; exact logs rfl rfl)
  | leave i op rooms offset => exact asked_say o _ _ _ _ _ (fun s s' h => by cases h; exact logs rfl rfl)
  | disconnect i op close offset => exact asked_say o _ _ _ _ _ (fun s s' h => by cases h; exact logs rfl rfl)
  | fetch i op here offset => exact asked_say (asked_kinds o _) _ _ _ _ _ (fun s s' h => by cases h; exact request_new)
  | emit i args offset => exact asked_say o _ _ _ _ _ (fun s s' h => by cases h; exact new_refl _ _)
  | emitAck i args offset => exact asked_say (asked_kinds o _) _ _ _ _ _ (fun s s' h => by cases h; exact request_new)
  | init i offset => exact asked_say o _ _ _ _ _ (fun s s' h => by cases h; exact new_refl _ _)
  | beat i offset => exact asked_say o _ _ _ _ _ (fun s s' h => by cases h; exact new_refl _ _)
  | close i offset => exact asked_say o _ _ _ _ _ (fun s s' h => by cases h; exact new_refl _ _)
  | replies i to req l =>
    refine asked_reply o _ _ 9 req _ _ _ (fun a ha => ?_) (fun m hm => ?_) rfl
    · cases a <;> simp_all [wants]
    · obtain ⟨u, t, d⟩ := m
      unfold question at hm
      split at hm
      · cases hm
      · next d' ht hd =>
        simp only at ht hd
        subst ht; subst hd
        obtain ⟨r, hr, h⟩ := Option.map_eq_some_iff.1 hm
        obtain ⟨a, b⟩ := d'
        cases h; cases hr; exact .reply
      · obtain ⟨r, hr, h⟩ := Option.map_eq_some_iff.1 hm
        cases h
      · cases hm
  | clientAnswers i to req l =>
    refine asked_reply o _ _ 3 req _ _ _ (fun a ha => ?_) (fun m hm => ?_) rfl
    · cases a <;> simp_all [wants]
    · obtain ⟨u, t, d⟩ := m
      unfold question at hm
      split at hm
      · cases hm
      · obtain ⟨r, hr, h⟩ := Option.map_eq_some_iff.1 hm
        cases h
      · next d' ht hd =>
        simp only at ht hd
        subst ht; subst hd
        obtain ⟨r, hr, h⟩ := Option.map_eq_some_iff.1 hm
        obtain ⟨a, b, c⟩ := d'
        cases h; cases hr; exact .ack
      · cases hm
  | counts i to req n =>
    refine asked_reply o _ _ 3 req _ _ _ (fun a ha => ?_) (fun m hm => ?_) rfl
    · cases a <;> simp_all [wants]
    · obtain ⟨u, t, d⟩ := m
      unfold question at hm
      split at hm
      · cases hm
      · obtain ⟨r, hr, h⟩ := Option.map_eq_some_iff.1 hm
        cases h
      · next d' ht hd =>
        simp only at ht hd
        subst ht; subst hd
        obtain ⟨r, hr, h⟩ := Option.map_eq_some_iff.1 hm
        obtain ⟨a, b, c⟩ := d'
        cases h; cases hr; exact .count
      · cases hm
  | finds i to req l =>
    refine asked_reply o _ _ 7 req _ _ _ (fun a ha => ?_) (fun m hm => ?_) rfl
    · cases a <;> simp_all [wants]
    · obtain ⟨u, t, d⟩ := m
      unfold question at hm
      split at hm
      · next d' ht hd =>
        simp only at ht hd
        subst ht; subst hd
        obtain ⟨a, b⟩ := d'
        cases hm; exact .sockets
      · obtain ⟨r, hr, h⟩ := Option.map_eq_some_iff.1 hm
        cases h
      · obtain ⟨r, hr, h⟩ := Option.map_eq_some_iff.1 hm
        cases h
      · cases hm
  | deliver i k =>
    simp only [netStep]
    split
    · exact o
    · next m offset hm =>
      refine asked_onNode o _ _ (fun s s' h => ⟨_, onMessage_new h, fun m' h' _ => ?_⟩)
      split at h'
      · cases h'
      · next hne => cases h'; exact ⟨hne, offset, List.mem_of_getElem? hm⟩
  | back k asMessage =>
    simp only [netStep]
    split
    · exact o
    · next i m hm =>
      have hq := o.noQuestion _ (List.mem_of_getElem? hm)
      refine asked_onNode o _ _ (fun s s' h => ?_)
      split at h
      · refine ⟨_, onMessage_new h, fun m' h' h'' => ?_⟩
        split at h'
        · cases h'
        · cases h'; exact absurd hq h''
      · exact ⟨none, onResponse_new h, fun m' h' => by cases h'⟩
  | timeout i req => exact asked_onNode o _ _ (fun s s' h => ⟨none, by cases h; exact timeout_new, fun _ e => by cases e⟩)
  | forget i req => exact asked_onNode o _ _ (fun s s' h => ⟨none, by cases h; exact new_same rfl, fun _ e => by cases e⟩)
  | down i u => exact asked_onNode o _ _ (fun s s' h => ⟨none, removeNode_new h, fun _ e => by cases e⟩)

theorem asked_run (recovery) (h : List NetEv) : Asked (netRun recovery h) := by
  induction h using snocRec with
  | nil => exact ⟨fun i s hs e he => (by cases hs; cases he), fun b hb => (by cases hb), fun b hb => (by cases hb)⟩
  | append_singleton h e ih =>
    unfold netRun at *
    rw [List.foldl_append]
    exact asked_step ih e

/-! ## Waiting for acknowledgements -/

theorem resolve_acks {k req l s s'} (h : resolve k req l s = some s') : s'.acks = s.acks := by
  unfold resolve at h
  split at h
  · split at h
    · cases h; rfl
    · cases h
  · cases h; rfl

theorem pushBase_acks {s req l s'} (h : pushBase s req l = some s') : s'.acks = s.acks := by
  unfold pushBase at h
  split at h
  · cases h; rfl
  split at h
  · cases h
  dsimp only at h
  split at h
  · obtain ⟨s1, h1, rfl⟩ := Option.map_eq_some_iff.1 h; exact (resolve_acks h1 : s1.acks = s.acks)
  · cases h; rfl

theorem pushCustom_acks {s u req l s'} (h : pushCustom s u req l = some s') : s'.acks = s.acks := by
  unfold pushCustom at h
  split at h
  · cases h; rfl
  split at h
  · cases h
  dsimp only at h
  split at h
  · obtain ⟨s1, h1, rfl⟩ := Option.map_eq_some_iff.1 h; exact (resolve_acks h1 : s1.acks = s.acks)
  · cases h; rfl

theorem onResponseBase_acks {s m s'} (h : onResponseBase s m = some s') : s'.acks = s.acks := by
  unfold onResponseBase at h
  split at h <;> (try split at h) <;> (first | exact pushBase_acks h | (cases h; done) | (cases h; (try split) <;> rfl))

theorem onResponse_acks {s m s'} (h : onResponse s m = some s') : s'.acks = s.acks := by
  unfold onResponse at h
  split at h <;> (try split at h) <;> (first | exact pushCustom_acks h | exact onResponseBase_acks h | (cases h; done) | (cases h; rfl))

theorem onMessageBase_acks {self recovery s m offset s'} (h : onMessageBase self recovery s m offset = some s') : s'.acks = s.acks := by
  unfold onMessageBase at h
  split at h
  · cases h; rfl
  split at h <;> (try exact onResponseBase_acks h) <;> (try split at h) <;> (try split at h) <;> (try split at h) <;> cases h <;> rfl

theorem dropAll_acks {u} (l : List Nat) : ∀ {s s'}, l.foldl (dropMissing u) (some s) = some s' → s'.acks = s.acks := by
  induction l using snocRec with
  | nil => intro s s' h; cases h; rfl
  | append_singleton l r ih =>
    intro s s' h
    rw [List.foldl_append, List.foldl_cons, List.foldl_nil] at h
    cases h1 : l.foldl (dropMissing u) (some s) with
    | none => rw [h1] at h; cases h
    | some s1 =>
      rw [h1] at h
      rw [← ih h1]
      unfold dropMissing at h
      dsimp only at h
      split at h
      · cases h; rfl
      split at h
      · obtain ⟨s2, h2, rfl⟩ := Option.map_eq_some_iff.1 h; exact (resolve_acks h2 : s2.acks = s1.acks)
      · cases h; rfl

theorem removeNode_acks {u s s'} (h : removeNode s u = some s') : s'.acks = s.acks := by
  unfold removeNode at h
  obtain ⟨s1, h1, rfl⟩ := Option.map_eq_some_iff.1 h
  exact (dropAll_acks _ h1 : s1.acks = s.acks)

theorem onMessage_acks {self recovery s m offset s'} (h : onMessage self recovery s m offset = some s') : s'.acks = s.acks := by
  unfold onMessage at h
  split at h
  · cases h; rfl
  dsimp only at h
  generalize hs1 : (if m.uid ≠ .emitter then { s with nodes := LSet.add s.nodes m.uid } else s : St) = s1 at h
  have h1 : s1.acks = s.acks := by subst hs1; split <;> rfl
  rw [← h1]
  split at h
  · cases h; rfl
  · cases h; rfl
  · exact removeNode_acks h
  · exact onMessageBase_acks h

/-- The step changes `acks` only by `await` and `forget`. -/
theorem step_acks {self recovery s e s'} (h : step self recovery (some s) e = some s') (req : Nat) :
    req ∈ s'.acks ↔ e = .await req ∨ (req ∈ s.acks ∧ e ≠ .forget req) := by
  cases e with
  | message m offset => rw [onMessage_acks h]; simp
  | response m => rw [onResponse_acks h]; simp
  | request r kind here =>
    cases h
    unfold request
    split <;> simp
  | timeout r =>
    cases h
    unfold timeout
    split <;> simp
  | down u => rw [removeNode_acks h]; simp
  | await r => cases h; simp [LSet.mem_add, eq_comm]
  | forget r =>
    cases h
    simp only [LSet.mem_del]
    simp [eq_comm, and_comm]

end Verif.Wire
