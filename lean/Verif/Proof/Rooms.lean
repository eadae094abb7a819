import Verif.Proof.Adapter
import Verif.Spec.Rooms

/-! # Refinement of the membership specification, and the event mirror -/

namespace Verif.Adapter
open Verif Verif.Spec

/-- Reading of a model call as a call of the specification. -/
def Op.toCall : Op → Call
  | .addAll id rooms => .join id rooms
  | .del id room => .leave id room
  | .delAll id => .leaveAll id

/-- Reading of a model event as an event of the specification. -/
def Ev.toSpec : Ev → RoomEvent
  | .create r => .create r
  | .join r s => .join r s
  | .leave r s => .leave r s
  | .delete r => .delete r

theorem member_snoc (h : List Call) (c : Call) (s r : String) :
    Member (h ++ [c]) s r ↔ c.joins s r ∨ (Member h s r ∧ ¬ c.leaves s r) := by
  constructor
  · rintro ⟨pre, c', post, e, hj, hl⟩
    rcases List.eq_nil_or_concat post with rfl | ⟨post', x, rfl⟩
    · have : h ++ [c] = pre ++ [c'] := e
      obtain ⟨_, h2⟩ := List.append_inj' this rfl
      cases h2; exact .inl hj
    · have : h ++ [c] = (pre ++ c' :: post') ++ [x] := by simp [e]
      obtain ⟨h1, h2⟩ := List.append_inj' this rfl
      cases h2; subst h1
      refine .inr ⟨⟨pre, c', post', rfl, hj, fun c hc => hl c (by simp [hc])⟩, hl _ (by simp)⟩
  · rintro (hj | ⟨⟨pre, c', post, e, hj, hl⟩, hn⟩)
    · exact ⟨h, c, [], rfl, hj, by simp⟩
    · refine ⟨pre, c', post ++ [c], by simp [e], hj, ?_⟩
      intro x hx
      rcases List.mem_append.1 hx with hx | hx
      · exact hl x hx
      · rw [List.mem_singleton.1 hx]; exact hn

theorem reordered_inRoom {a b : Ad} (h : Reordered a b) (s : Sid) (r : Room) :
    b.inRoom s r ↔ a.inRoom s r := by
  have := h.roomOf r
  unfold Ad.inRoom
  cases ha : a.rooms.get? r <;> cases hb : b.rooms.get? r <;> simp [ha, hb] at this ⊢
  exact this.symm.mem_iff

theorem reordered_hasRoom {a b : Ad} (h : Reordered a b) (s : Sid) (r : Room) :
    b.hasRoom s r ↔ a.hasRoom s r := by
  have := h.sidOf s
  unfold Ad.hasRoom
  cases ha : a.sids.get? s <;> cases hb : b.sids.get? s <;> simp [ha, hb] at this ⊢
  exact this.symm.mem_iff

theorem inv_reorder {a b : Ad} (h : Inv a) (p : Reordered a b) : Inv b := by
  refine ⟨p.rooms h.wfRooms, p.sids h.wfSids, ?_, ?_, ?_, ?_⟩
  · intro r l hl
    have := p.roomOf r
    cases ha : a.rooms.get? r <;> simp [ha, hl] at this
    exact this.nodup_iff.1 (h.ndRooms _ _ ha)
  · intro r l hl
    have := p.sidOf r
    cases ha : a.sids.get? r <;> simp [ha, hl] at this
    exact this.nodup_iff.1 (h.ndSids _ _ ha)
  · intro r l hl
    have := p.roomOf r
    cases ha : a.rooms.get? r <;> simp [ha, hl] at this
    rintro rfl
    exact h.nonempty _ _ ha (List.perm_nil.1 this)
  · intro s r; rw [reordered_inRoom p, reordered_hasRoom p, h.agree]

theorem inv_step {a : Ad} (h : Inv a) (d : Bool) (op : Op) : Inv (step d a op).1 := by
  cases op with
  | addAll id rooms => exact (addAll_spec h id rooms).1
  | del id room => exact (del_spec h d id room).1
  | delAll id => exact (delAll_spec h d id).1

theorem step_inRoom {a : Ad} (h : Inv a) (d : Bool) (op : Op) (s : Sid) (r : Room) :
    (step d a op).1.inRoom s r ↔ op.toCall.joins s r ∨ (a.inRoom s r ∧ ¬ op.toCall.leaves s r) := by
  cases op with
  | addAll id rooms =>
    show (addAll a id rooms).1.inRoom s r ↔ _
    rw [(addAll_spec h id rooms).2.1]
    simp only [Op.toCall, Call.joins, Call.leaves, not_false_eq_true, and_true]
    constructor
    · rintro (h | ⟨h, h'⟩)
      · exact .inr h
      · exact .inl ⟨h.symm, h'⟩
    · rintro (⟨h, h'⟩ | h)
      · exact .inr ⟨h.symm, h'⟩
      · exact .inl h
  | del id room =>
    show (del d a id room).1.inRoom s r ↔ _
    rw [(del_spec h d id room).2.1]
    simp only [Op.toCall, Call.joins, Call.leaves, false_or, eq_comm]
  | delAll id =>
    show (delAll d a id).1.inRoom s r ↔ _
    rw [(delAll_spec h d id).2.1]
    simp only [Op.toCall, Call.joins, Call.leaves, false_or, eq_comm, ne_eq]

theorem reach_inv {d h a evs} (hr : Reach d h a evs) : Inv a := by
  induction hr with
  | init => exact inv_empty
  | step op _ ih => exact inv_step ih d op
  | reorder _ p ih => exact inv_reorder ih p

theorem reach_member {d h a evs} (hr : Reach d h a evs) (s : Sid) (r : Room) :
    a.inRoom s r ↔ Member (h.map Op.toCall) s r := by
  induction hr with
  | init => simp [Ad.inRoom, Member]
  | step op hp ih =>
    rw [step_inRoom (reach_inv hp), List.map_append, List.map_singleton, member_snoc, ih]
  | reorder _ p ih => rw [reordered_inRoom p, ih]

/-! ## The event mirror -/

/-- The mirror and the room table list the same rooms with the same members. -/
def Matches (m : Mirror) (a : Ad) : Prop :=
  ∀ r, match m r, a.rooms.get? r with
    | some l, some l' => ∀ x, x ∈ l ↔ x ∈ l'
    | none, none => True
    | _, _ => False

theorem replay_append (st : Bool) (m : Mirror) (es fs : List RoomEvent) :
    m.replay st (es ++ fs) = (m.replay st es).bind (fun m' => m'.replay st fs) := by
  induction es generalizing m with
  | nil => simp [Mirror.replay]
  | cons e es ih =>
    simp only [List.cons_append, Mirror.replay]
    cases m.onEvent st e with
    | none => simp
    | some m' => simp [ih]

theorem addRoom_mirror (st : Bool) (id : Sid) (p : Ad × List Ev) (room : Room) (m : Mirror)
    (hm : Matches m p.1) :
    ∃ evs, (addRoom id p room).2 = p.2 ++ evs ∧
      ∃ m', m.replay st (evs.map Ev.toSpec) = some m' ∧ Matches m' (addRoom id p room).1 := by
  have key : ∀ a : Ad, a.rooms = p.1.rooms →
      (let q : List Sid × Ad × List Ev := match a.rooms.get? room with
        | some ids => (ids, a, [])
        | none => ([], { a with rooms := a.rooms.insert room [] }, [Ev.create room])
       let res := (if id ∈ q.1 then (q.2.1, p.2 ++ q.2.2)
        else ({ q.2.1 with rooms := q.2.1.rooms.insert room (LSet.add q.1 id) },
              p.2 ++ q.2.2 ++ [Ev.join room id]))
       ∃ evs, res.2 = p.2 ++ evs ∧
        ∃ m', m.replay st (evs.map Ev.toSpec) = some m' ∧ Matches m' res.1) := by
    intro a ha
    have hma : Matches m a := by unfold Matches at *; rw [ha]; exact hm
    have hroom := hma room
    cases h : a.rooms.get? room with
    | some ids =>
      dsimp only
      rw [h] at hroom
      cases hmr : m room with
      | none => rw [hmr] at hroom; exact absurd hroom (fun h => h)
      | some l =>
        rw [hmr] at hroom
        simp only at hroom
        by_cases hi : id ∈ ids
        · simp only [hi, if_true]
          exact ⟨[], by simp, m, rfl, hma⟩
        · simp only [hi, if_false]
          refine ⟨[Ev.join room id], by simp, m.set room (some (id :: l)), ?_, ?_⟩
          · have : id ∉ l := fun hh => hi ((hroom id).1 hh)
            simp [Mirror.replay, Mirror.onEvent, Ev.toSpec, hmr, this]
          · intro r
            dsimp only
            rw [FMap.get?_insert]
            unfold Mirror.set
            by_cases e : r = room
            · subst e; simp [hroom]
            · simp only [e, if_false, Ne.symm e]; exact hma r
    | none =>
      dsimp only
      rw [h] at hroom
      cases hmr : m room with
      | some l => rw [hmr] at hroom; exact absurd hroom (fun h => h)
      | none =>
        simp only [List.not_mem_nil, if_false]
        refine ⟨[Ev.create room, Ev.join room id], by simp,
          (m.set room (some [])).set room (some [id]), ?_, ?_⟩
        · simp [Mirror.replay, Mirror.onEvent, Ev.toSpec, hmr, Mirror.set]
        · intro r
          dsimp only
          rw [FMap.get?_insert]
          unfold Mirror.set
          by_cases e : r = room
          · subst e; simp
          · simp only [e, if_false, Ne.symm e]
            rw [FMap.get?_insert_ne (Ne.symm e)]; exact hma r
  unfold addRoom
  exact key _ (by split <;> rfl)

theorem addFold_mirror (st : Bool) (id : Sid) (rooms : List Room) (p : Ad × List Ev) (m : Mirror)
    (hm : Matches m p.1) :
    ∃ evs, (rooms.foldl (addRoom id) p).2 = p.2 ++ evs ∧
      ∃ m', m.replay st (evs.map Ev.toSpec) = some m' ∧
        Matches m' (rooms.foldl (addRoom id) p).1 := by
  induction rooms generalizing p m with
  | nil => exact ⟨[], by simp, m, rfl, hm⟩
  | cons room rooms ih =>
    obtain ⟨e1, h1, m1, r1, mm1⟩ := addRoom_mirror st id p room m hm
    obtain ⟨e2, h2, m2, r2, mm2⟩ := ih (addRoom id p room) m1 mm1
    refine ⟨e1 ++ e2, by rw [List.foldl_cons, h2, h1, List.append_assoc], m2, ?_, mm2⟩
    rw [List.map_append, replay_append, r1]; exact r2

theorem del__mirror (d : Bool) (a : Ad) (room : Room) (id : Sid) (m : Mirror)
    (hm : Matches m a) :
    ∃ m', m.replay (!d) ((del_ d a room id).2.map Ev.toSpec) = some m' ∧
      Matches m' (del_ d a room id).1 := by
  unfold del_
  have hroom := hm room
  cases h : a.rooms.get? room with
  | none => exact ⟨m, rfl, hm⟩
  | some ids =>
    rw [h] at hroom
    cases hmr : m room with
    | none => rw [hmr] at hroom; exact absurd hroom (fun h => h)
    | some l =>
      rw [hmr] at hroom; simp only at hroom
      dsimp only
      have hfilt : ∀ x, x ∈ l.filter (fun x => decide (x ≠ id)) ↔ x ∈ LSet.del ids id := by
        intro x; simp [hroom, and_comm]
      -- the mirror after the optional leave event
      have step1 : ∃ l1, (∀ x, x ∈ l1 ↔ x ∈ LSet.del ids id) ∧
          m.replay (!d) ((if deleteResult d (decide (id ∈ ids)) then [Ev.leave room id] else []).map
            Ev.toSpec) = some (m.set room (some l1)) := by
        by_cases hd : deleteResult d (decide (id ∈ ids)) = true
        · refine ⟨_, hfilt, ?_⟩
          have : ¬ ((!d && !decide (id ∈ l)) = true) := by
            unfold deleteResult at hd
            cases d
            · simp at hd; simp [hroom, hd]
            · simp
          simp only [hd, if_true, List.map_cons, List.map_nil, Mirror.replay, Mirror.onEvent, Ev.toSpec,
            hmr, this]
          simp
        · have hnot : id ∉ ids := by
            intro hc; apply hd; simp [deleteResult, hc]
          refine ⟨l, ?_, ?_⟩
          · intro x; rw [LSet.mem_del, hroom]
            exact ⟨fun hx => ⟨fun e => hnot (e ▸ hx), hx⟩, fun hx => hx.2⟩
          · simp only [hd]
            have : m.set room (some l) = m := by
              funext x; unfold Mirror.set; split
              · rename_i e; rw [e, hmr]
              · rfl
            simp [Mirror.replay, this]
      obtain ⟨l1, hl1, hrep⟩ := step1
      by_cases hl : (LSet.del ids id).length = 0
      · simp only [hl, if_true]
        refine ⟨(m.set room (some l1)).set room none, ?_, ?_⟩
        · rw [List.map_append, replay_append, hrep]
          have hnil : l1 = [] := by
            rw [List.eq_nil_iff_forall_not_mem]; intro x hx
            have := (hl1 x).1 hx
            rw [List.length_eq_zero_iff.1 hl] at this; simp at this
          simp [Mirror.replay, Mirror.onEvent, Ev.toSpec, Mirror.set, hnil]
        · intro r
          dsimp only
          rw [FMap.get?_erase]; unfold Mirror.set
          by_cases e : r = room
          · subst e; simp
          · simp only [e, if_false, Ne.symm e]; exact hm r
      · simp only [hl, if_false]
        refine ⟨_, hrep, ?_⟩
        intro r
        dsimp only
        rw [FMap.get?_insert]; unfold Mirror.set
        by_cases e : r = room
        · subst e; simp only [if_true]; exact hl1
        · simp only [e, if_false, Ne.symm e]; exact hm r

theorem delFold_mirror (d : Bool) (id : Sid) (rooms : List Room) (p : Ad × List Ev) (m : Mirror)
    (hne : ∀ r l, p.1.rooms.get? r = some l → l ≠ []) (hm : Matches m p.1) :
    ∃ evs, (rooms.foldl (delLoop d id) p).2 = p.2 ++ evs ∧
      ∃ m', m.replay (!d) (evs.map Ev.toSpec) = some m' ∧
        Matches m' (rooms.foldl (delLoop d id) p).1 := by
  induction rooms generalizing p m with
  | nil => exact ⟨[], by simp, m, rfl, hm⟩
  | cons room rooms ih =>
    obtain ⟨m1, r1, mm1⟩ := del__mirror d p.1 room id m hm
    obtain ⟨e2, h2, m2, r2, mm2⟩ := ih (delLoop d id p room) m1 (del__ne hne) mm1
    refine ⟨(del_ d p.1 room id).2 ++ e2, ?_, m2, ?_, mm2⟩
    · rw [List.foldl_cons, h2]; simp [delLoop]
    · rw [List.map_append, replay_append, r1]; exact r2

theorem step_mirror (d : Bool) {a : Ad} (h : Inv a) (op : Op) (m : Mirror) (hm : Matches m a) :
    ∃ m', m.replay (!d) ((step d a op).2.map Ev.toSpec) = some m' ∧ Matches m' (step d a op).1 := by
  cases op with
  | addAll id rooms =>
    have hm0 : Matches m (loadOrStoreSid a id) := by
      unfold Matches at *; rw [loadOrStore_rooms]; exact hm
    obtain ⟨evs, h1, h2⟩ := addFold_mirror (!d) id rooms (loadOrStoreSid a id, []) m hm0
    simp only [List.nil_append] at h1
    show ∃ m', m.replay (!d) ((rooms.foldl (addRoom id) (loadOrStoreSid a id, [])).2.map Ev.toSpec) = _ ∧ _
    rw [h1]; exact h2
  | del id room =>
    show ∃ m', m.replay (!d) ((del d a id room).2.map Ev.toSpec) = _ ∧ Matches m' (del d a id room).1
    unfold del
    cases a.sids.get? id with
    | none => exact del__mirror d a room id m hm
    | some mine => exact del__mirror d _ room id m hm
  | delAll id =>
    show ∃ m', m.replay (!d) ((delAll d a id).2.map Ev.toSpec) = _ ∧ Matches m' (delAll d a id).1
    unfold delAll
    cases a.sids.get? id with
    | none => exact ⟨m, rfl, hm⟩
    | some rooms =>
      obtain ⟨evs, h1, h2⟩ := delFold_mirror d id rooms (a, []) m h.nonempty hm
      simp only [List.nil_append] at h1
      dsimp only
      rw [h1]; exact h2

theorem matches_reorder {m : Mirror} {a b : Ad} (h : Matches m a) (p : Reordered a b) :
    Matches m b := by
  intro r
  have h1 := h r
  have h2 := p.roomOf r
  cases ha : a.rooms.get? r <;> cases hb : b.rooms.get? r <;> cases hmr : m r <;>
    simp [ha, hb, hmr] at h1 h2 ⊢
  intro x; rw [h1, h2.mem_iff]

theorem reach_mirror {d h a evs} (hr : Reach d h a evs) :
    ∃ m, Mirror.replay (!d) (fun _ => none) (evs.map Ev.toSpec) = some m ∧ Matches m a := by
  induction hr with
  | init => exact ⟨_, rfl, by intro r; simp⟩
  | step op hp ih =>
    obtain ⟨m, h1, h2⟩ := ih
    obtain ⟨m', h3, h4⟩ := step_mirror d (reach_inv hp) op m h2
    exact ⟨m', by rw [List.map_append, replay_append, h1]; exact h3, h4⟩
  | reorder _ p ih =>
    obtain ⟨m, h1, h2⟩ := ih
    exact ⟨m, h1, matches_reorder h2 p⟩

end Verif.Adapter
