import Verif.Model.Adapter

/-! # Lemmas about the adapter's tables -/

namespace Verif.Adapter
open Verif

/-- `id` is listed under `r` in the room table. -/
def Ad.inRoom (a : Ad) (id : Sid) (r : Room) : Prop := ∃ l, a.rooms.get? r = some l ∧ id ∈ l

/-- `r` is listed under `id` in the socket table. -/
def Ad.hasRoom (a : Ad) (id : Sid) (r : Room) : Prop := ∃ l, a.sids.get? id = some l ∧ r ∈ l

/-- The consistency invariant of the two tables. -/
structure Inv (a : Ad) : Prop where
  wfRooms : a.rooms.WF
  wfSids : a.sids.WF
  ndRooms : ∀ r l, a.rooms.get? r = some l → l.Nodup
  ndSids : ∀ s l, a.sids.get? s = some l → l.Nodup
  nonempty : ∀ r l, a.rooms.get? r = some l → l ≠ []
  agree : ∀ s r, a.inRoom s r ↔ a.hasRoom s r

theorem inv_empty : Inv {} := by
  constructor <;> simp [FMap.wf_nil, Ad.inRoom, Ad.hasRoom]

theorem loadOrStore_sids (a : Ad) (id s : Sid) :
    (loadOrStoreSid a id).sids.get? s =
      if s = id then some ((a.sids.get? id).getD []) else a.sids.get? s := by
  unfold loadOrStoreSid
  split
  · rename_i l h; by_cases e : s = id
    · subst e; simp [h]
    · simp [e]
  · rename_i h; by_cases e : s = id
    · subst e; simp [h]
    · simp [e, FMap.get?_insert_ne (Ne.symm e)]

theorem loadOrStore_rooms (a : Ad) (id : Sid) : (loadOrStoreSid a id).rooms = a.rooms := by
  unfold loadOrStoreSid; split <;> rfl

theorem inv_loadOrStore {a : Ad} (h : Inv a) (id : Sid) : Inv (loadOrStoreSid a id) := by
  have hr := loadOrStore_rooms a id
  have hs := loadOrStore_sids a id
  refine ⟨by rw [hr]; exact h.wfRooms, ?_, by rw [hr]; exact h.ndRooms, ?_,
    by rw [hr]; exact h.nonempty, ?_⟩
  · unfold loadOrStoreSid; split
    · exact h.wfSids
    · exact FMap.wf_insert h.wfSids _ _
  · intro s l hl; rw [hs] at hl
    split at hl
    · cases e : a.sids.get? id with
      | none => simp [e] at hl; subst hl; exact List.nodup_nil
      | some m => simp [e] at hl; subst hl; exact h.ndSids _ _ e
    · exact h.ndSids _ _ hl
  · intro s r
    have := h.agree s r
    unfold Ad.inRoom Ad.hasRoom at *
    rw [hr, this, hs]
    by_cases e : s = id
    · subst e; cases e2 : a.sids.get? s <;> simp
    · simp [e]

/-- The room table after one step of `AddAll`. -/
theorem addRoom_rooms (id : Sid) (p : Ad × List Ev) (room r : Room) :
    (addRoom id p room).1.rooms.get? r =
      if room = r then some (LSet.add ((p.1.rooms.get? room).getD []) id) else p.1.rooms.get? r := by
  unfold addRoom
  have key : ∀ a : Ad, a.rooms = p.1.rooms →
      (let q : List Sid × Ad × List Ev := match a.rooms.get? room with
        | some ids => (ids, a, [])
        | none => ([], { a with rooms := a.rooms.insert room [] }, [Ev.create room])
       (if id ∈ q.1 then (q.2.1, p.2 ++ q.2.2)
        else ({ q.2.1 with rooms := q.2.1.rooms.insert room (LSet.add q.1 id) },
              p.2 ++ q.2.2 ++ [Ev.join room id])).1.rooms.get? r)
      = if room = r then some (LSet.add ((p.1.rooms.get? room).getD []) id)
        else p.1.rooms.get? r := by
    intro a ha
    rw [ha]
    cases h : p.1.rooms.get? room with
    | some ids =>
      by_cases hi : id ∈ ids
      · simp only [hi, if_true, ha]
        by_cases e : room = r
        · subst e; simp [h, LSet.add_of_mem hi]
        · simp [e]
      · simp only [hi, if_false, ha]
        rw [FMap.get?_insert]; simp
    | none =>
      simp only [List.not_mem_nil, if_false]
      rw [FMap.get?_insert]
      by_cases e : room = r
      · simp [e]
      · simp [e, FMap.get?_insert_ne e]
  exact key _ (by split <;> rfl)

theorem addRoom_sids (id : Sid) (p : Ad × List Ev) (room : Room) (mine : List Room)
    (h : p.1.sids.get? id = some mine) :
    (addRoom id p room).1.sids = p.1.sids.insert id (LSet.add mine room) := by
  unfold addRoom
  dsimp only
  rw [h]
  dsimp only
  cases p.1.rooms.get? room with
  | some ids => dsimp only; split <;> rfl
  | none => dsimp only; split <;> rfl

theorem wf_addRoom_rooms {id : Sid} {p : Ad × List Ev} {room : Room} (h : p.1.rooms.WF) :
    (addRoom id p room).1.rooms.WF := by
  unfold addRoom
  have key : ∀ a : Ad, a.rooms = p.1.rooms →
      (let q : List Sid × Ad × List Ev := match a.rooms.get? room with
        | some ids => (ids, a, [])
        | none => ([], { a with rooms := a.rooms.insert room [] }, [Ev.create room])
       FMap.WF (if id ∈ q.1 then (q.2.1, p.2 ++ q.2.2)
        else ({ q.2.1 with rooms := q.2.1.rooms.insert room (LSet.add q.1 id) },
              p.2 ++ q.2.2 ++ [Ev.join room id])).1.rooms) := by
    intro a ha
    have ha' : a.rooms.WF := by rw [ha]; exact h
    cases a.rooms.get? room with
    | some ids =>
      dsimp only; split
      · exact ha'
      · exact FMap.wf_insert ha' _ _
    | none =>
      dsimp only; split
      · exact FMap.wf_insert ha' _ _
      · exact FMap.wf_insert (FMap.wf_insert ha' _ _) _ _
  exact key _ (by split <;> rfl)

/-- Membership after one step of `AddAll`. -/
theorem addRoom_inRoom (id : Sid) (p : Ad × List Ev) (room : Room) (s : Sid) (r : Room) :
    (addRoom id p room).1.inRoom s r ↔ p.1.inRoom s r ∨ (s = id ∧ r = room) := by
  unfold Ad.inRoom
  rw [addRoom_rooms]
  by_cases e : room = r
  · subst e
    cases h : p.1.rooms.get? room <;> simp [or_comm]
  · simp [e, Ne.symm e]

theorem addRoom_hasRoom (id : Sid) (p : Ad × List Ev) (room : Room) (mine : List Room)
    (h : p.1.sids.get? id = some mine) (s : Sid) (r : Room) :
    (addRoom id p room).1.hasRoom s r ↔ p.1.hasRoom s r ∨ (s = id ∧ r = room) := by
  unfold Ad.hasRoom
  rw [addRoom_sids id p room mine h, FMap.get?_insert]
  by_cases e : id = s
  · subst e; simp [h, or_comm]
  · simp [e, Ne.symm e]

theorem inv_addRoom {id : Sid} {p : Ad × List Ev} {room : Room} (h : Inv p.1)
    (hid : ∃ mine, p.1.sids.get? id = some mine) :
    Inv (addRoom id p room).1 ∧ ∃ mine, (addRoom id p room).1.sids.get? id = some mine := by
  obtain ⟨mine, hm⟩ := hid
  refine ⟨⟨wf_addRoom_rooms h.wfRooms, ?_, ?_, ?_, ?_, ?_⟩, ?_⟩
  · rw [addRoom_sids id p room mine hm]; exact FMap.wf_insert h.wfSids _ _
  · intro r l hl; rw [addRoom_rooms] at hl
    split at hl
    · cases e : p.1.rooms.get? room with
      | none => simp [e] at hl; subst hl; exact LSet.nodup_add List.nodup_nil _
      | some m => simp [e] at hl; subst hl; exact LSet.nodup_add (h.ndRooms _ _ e) _
    · exact h.ndRooms _ _ hl
  · intro s l hl; rw [addRoom_sids id p room mine hm, FMap.get?_insert] at hl
    split at hl
    · cases hl; exact LSet.nodup_add (h.ndSids _ _ hm) _
    · exact h.ndSids _ _ hl
  · intro r l hl; rw [addRoom_rooms] at hl
    split at hl
    · cases hl; intro hn
      have : id ∈ LSet.add ((p.1.rooms.get? room).getD []) id := by simp
      rw [hn] at this; simp at this
    · exact h.nonempty _ _ hl
  · intro s r
    rw [addRoom_inRoom, addRoom_hasRoom id p room mine hm, h.agree]
  · rw [addRoom_sids id p room mine hm]; simp

theorem addFold (id : Sid) (rooms : List Room) (p : Ad × List Ev) (h : Inv p.1)
    (hid : ∃ mine, p.1.sids.get? id = some mine) :
    Inv (rooms.foldl (addRoom id) p).1 ∧
    (∀ s r, (rooms.foldl (addRoom id) p).1.inRoom s r ↔ p.1.inRoom s r ∨ (s = id ∧ r ∈ rooms)) ∧
    (∀ s, s ∈ (rooms.foldl (addRoom id) p).1.sids.keys ↔ s ∈ p.1.sids.keys) := by
  induction rooms generalizing p with
  | nil => simp [h]
  | cons room rooms ih =>
    obtain ⟨h', hid'⟩ := inv_addRoom (room := room) h hid
    obtain ⟨i1, i2, i3⟩ := ih _ h' hid'
    refine ⟨i1, ?_, ?_⟩
    · intro s r
      rw [List.foldl_cons, i2, addRoom_inRoom]
      simp only [List.mem_cons]
      constructor
      · rintro ((h | ⟨h, h2⟩) | ⟨h, h2⟩)
        · exact .inl h
        · exact .inr ⟨h, .inl h2⟩
        · exact .inr ⟨h, .inr h2⟩
      · rintro (h | ⟨h, h2 | h2⟩)
        · exact .inl (.inl h)
        · exact .inl (.inr ⟨h, h2⟩)
        · exact .inr ⟨h, h2⟩
    · intro s
      rw [List.foldl_cons, i3]
      obtain ⟨mine, hm⟩ := hid
      rw [addRoom_sids id p room mine hm, FMap.mem_keys_insert]
      constructor
      · rintro (rfl | h)
        · rw [FMap.mem_keys_iff]; exact ⟨_, hm⟩
        · exact h
      · exact .inr

theorem loadOrStore_inRoom (a : Ad) (id s : Sid) (r : Room) :
    (loadOrStoreSid a id).inRoom s r ↔ a.inRoom s r := by
  unfold Ad.inRoom; rw [loadOrStore_rooms]

theorem loadOrStore_keys (a : Ad) (id s : Sid) :
    s ∈ (loadOrStoreSid a id).sids.keys ↔ s = id ∨ s ∈ a.sids.keys := by
  rw [FMap.mem_keys_iff, FMap.mem_keys_iff, loadOrStore_sids]
  by_cases e : s = id <;> simp [e]

/-- `AddAll` in terms of the membership relation. -/
theorem addAll_spec {a : Ad} (h : Inv a) (id : Sid) (rooms : List Room) :
    Inv (addAll a id rooms).1 ∧
    (∀ s r, (addAll a id rooms).1.inRoom s r ↔ a.inRoom s r ∨ (s = id ∧ r ∈ rooms)) ∧
    (∀ s, s ∈ (addAll a id rooms).1.sids.keys ↔ s = id ∨ s ∈ a.sids.keys) := by
  have hid : ∃ mine, (loadOrStoreSid a id).sids.get? id = some mine := by
    rw [loadOrStore_sids]; simp
  obtain ⟨i1, i2, i3⟩ := addFold id rooms (loadOrStoreSid a id, []) (inv_loadOrStore h id) hid
  refine ⟨i1, ?_, ?_⟩
  · intro s r; unfold addAll; rw [i2, loadOrStore_inRoom]
  · intro s; unfold addAll; rw [i3, loadOrStore_keys]

/-- The room table after `_del`. -/
theorem del__rooms (d : Bool) (a : Ad) (room : Room) (id : Sid) (r : Room) :
    (del_ d a room id).1.rooms.get? r =
      if room = r then
        (match a.rooms.get? room with
         | none => none
         | some l => if (LSet.del l id).length = 0 then none else some (LSet.del l id))
      else a.rooms.get? r := by
  unfold del_
  cases h : a.rooms.get? room with
  | none =>
    by_cases e : room = r
    · subst e; simp [h]
    · simp [e]
  | some l =>
    dsimp only
    by_cases hl : (LSet.del l id).length = 0
    · simp only [hl, if_true]; rw [FMap.get?_erase]
    · simp only [hl, if_false]; rw [FMap.get?_insert]

theorem del__sids (d : Bool) (a : Ad) (room : Room) (id : Sid) :
    (del_ d a room id).1.sids = a.sids := by
  unfold del_
  split
  · rfl
  · dsimp only; split <;> rfl

theorem wf_del__rooms {d : Bool} {a : Ad} {room : Room} {id : Sid} (h : a.rooms.WF) :
    (del_ d a room id).1.rooms.WF := by
  unfold del_
  split
  · exact h
  · dsimp only; split
    · exact FMap.wf_erase h _
    · exact FMap.wf_insert h _ _

theorem del__inRoom (d : Bool) (a : Ad) (room : Room) (id s : Sid) (r : Room) :
    (del_ d a room id).1.inRoom s r ↔ a.inRoom s r ∧ ¬ (s = id ∧ r = room) := by
  unfold Ad.inRoom
  rw [del__rooms]
  by_cases e : room = r
  · subst e
    cases h : a.rooms.get? room with
    | none => simp
    | some l =>
      dsimp only
      by_cases hl : (LSet.del l id).length = 0
      · have hnil : LSet.del l id = [] := List.length_eq_zero_iff.1 hl
        have : ∀ x, x ∈ l → x = id := by
          intro x hx
          apply Classical.byContradiction; intro hne
          have : x ∈ LSet.del l id := by simp [hne, hx]
          rw [hnil] at this; simp at this
        simp only [hl, if_true]
        constructor
        · rintro ⟨_, h, _⟩; simp at h
        · rintro ⟨⟨l', h1, h2⟩, h3⟩
          cases h1; exact absurd ⟨this _ h2, trivial⟩ h3
      · simp only [hl, if_false]
        constructor
        · rintro ⟨l', h1, h2⟩; cases h1; rw [LSet.mem_del] at h2
          exact ⟨⟨l, rfl, h2.2⟩, fun h => h2.1 h.1⟩
        · rintro ⟨⟨l', h1, h2⟩, h3⟩; cases h1
          exact ⟨_, rfl, by rw [LSet.mem_del]; exact ⟨fun h => h3 ⟨h, trivial⟩, h2⟩⟩
  · simp [e, Ne.symm e]

/-- The parts of the invariant that only concern the room table survive `_del`. -/
theorem del__nd {d : Bool} {a : Ad} {room : Room} {id : Sid}
    (h : ∀ r l, a.rooms.get? r = some l → l.Nodup) :
    ∀ r l, (del_ d a room id).1.rooms.get? r = some l → l.Nodup := by
  intro r l hl
  rw [del__rooms] at hl
  by_cases e : room = r
  · simp only [e, if_true] at hl
    cases hr : a.rooms.get? r with
    | none => simp [hr] at hl
    | some l' =>
      simp only [hr] at hl
      split at hl
      · exact absurd hl (by simp)
      · cases hl; exact LSet.nodup_del (h _ _ hr) _
  · simp only [e, if_false] at hl; exact h _ _ hl

theorem del__ne {d : Bool} {a : Ad} {room : Room} {id : Sid}
    (h : ∀ r l, a.rooms.get? r = some l → l ≠ []) :
    ∀ r l, (del_ d a room id).1.rooms.get? r = some l → l ≠ [] := by
  intro r l hl
  rw [del__rooms] at hl
  by_cases e : room = r
  · simp only [e, if_true] at hl
    cases hr : a.rooms.get? r with
    | none => simp [hr] at hl
    | some l' =>
      simp only [hr] at hl
      split at hl
      · exact absurd hl (by simp)
      · rename_i hne; cases hl; intro hn; rw [hn] at hne; simp at hne
  · simp only [e, if_false] at hl; exact h _ _ hl

/-- `Del` in terms of the membership relation. -/
theorem del_spec {a : Ad} (h : Inv a) (d : Bool) (id : Sid) (room : Room) :
    Inv (del d a id room).1 ∧
    (∀ s r, (del d a id room).1.inRoom s r ↔ a.inRoom s r ∧ ¬ (s = id ∧ r = room)) ∧
    (∀ s, s ∈ (del d a id room).1.sids.keys ↔ s ∈ a.sids.keys) := by
  -- the table after updating the socket's own set
  have main : ∀ a' : Ad, a'.rooms = a.rooms → a'.sids.WF →
      (∀ s l, a'.sids.get? s = some l → l.Nodup) →
      (∀ s r, a'.hasRoom s r ↔ a.hasRoom s r ∧ ¬ (s = id ∧ r = room)) →
      (∀ s, s ∈ a'.sids.keys ↔ s ∈ a.sids.keys) →
      Inv (del_ d a' room id).1 ∧
      (∀ s r, (del_ d a' room id).1.inRoom s r ↔ a.inRoom s r ∧ ¬ (s = id ∧ r = room)) ∧
      (∀ s, s ∈ (del_ d a' room id).1.sids.keys ↔ s ∈ a.sids.keys) := by
    intro a' hr wf nd hh hk
    have hin : ∀ s r, (del_ d a' room id).1.inRoom s r ↔ a.inRoom s r ∧ ¬ (s = id ∧ r = room) := by
      intro s r; rw [del__inRoom]; unfold Ad.inRoom; rw [hr]
    refine ⟨⟨?_, ?_, ?_, ?_, ?_, ?_⟩, hin, ?_⟩
    · exact wf_del__rooms (by rw [hr]; exact h.wfRooms)
    · rw [del__sids]; exact wf
    · exact del__nd (by rw [hr]; exact h.ndRooms)
    · rw [del__sids]; exact nd
    · exact del__ne (by rw [hr]; exact h.nonempty)
    · intro s r
      rw [hin, h.agree]
      unfold Ad.hasRoom at hh ⊢
      rw [del__sids, hh]
    · intro s; rw [del__sids]; exact hk s
  unfold del
  cases e : a.sids.get? id with
  | none =>
    refine main a rfl h.wfSids h.ndSids ?_ (fun _ => Iff.rfl)
    intro s r
    constructor
    · intro hh
      refine ⟨hh, ?_⟩
      rintro ⟨rfl, rfl⟩
      obtain ⟨l, h1, _⟩ := hh
      rw [e] at h1; simp at h1
    · exact fun hh => hh.1
  | some mine =>
    refine main { a with sids := a.sids.insert id (LSet.del mine room) } rfl
      (FMap.wf_insert h.wfSids _ _) ?_ ?_ ?_
    · intro s l hl
      dsimp only at hl
      rw [FMap.get?_insert] at hl
      split at hl
      · cases hl; exact LSet.nodup_del (h.ndSids _ _ e) _
      · exact h.ndSids _ _ hl
    · intro s r
      unfold Ad.hasRoom
      dsimp only
      rw [FMap.get?_insert]
      by_cases es : id = s
      · subst es; simp [e, and_comm]
      · simp [es, Ne.symm es]
    · intro s
      dsimp only
      rw [FMap.mem_keys_insert]
      constructor
      · rintro (rfl | hs)
        · rw [FMap.mem_keys_iff]; exact ⟨_, e⟩
        · exact hs
      · exact .inr

theorem delFold (d : Bool) (id : Sid) (rooms : List Room) (p : Ad × List Ev) :
    (∀ s r, (rooms.foldl (delLoop d id) p).1.inRoom s r ↔ p.1.inRoom s r ∧ ¬ (s = id ∧ r ∈ rooms)) ∧
    (rooms.foldl (delLoop d id) p).1.sids = p.1.sids ∧
    (p.1.rooms.WF → (rooms.foldl (delLoop d id) p).1.rooms.WF) ∧
    ((∀ r l, p.1.rooms.get? r = some l → l.Nodup) →
      ∀ r l, (rooms.foldl (delLoop d id) p).1.rooms.get? r = some l → l.Nodup) ∧
    ((∀ r l, p.1.rooms.get? r = some l → l ≠ []) →
      ∀ r l, (rooms.foldl (delLoop d id) p).1.rooms.get? r = some l → l ≠ []) := by
  induction rooms generalizing p with
  | nil => simp
  | cons room rooms ih =>
    obtain ⟨i1, i2, i3, i4, i5⟩ := ih (delLoop d id p room)
    refine ⟨?_, ?_, ?_, ?_, ?_⟩
    · intro s r
      rw [List.foldl_cons, i1]
      show (del_ d p.1 room id).1.inRoom s r ∧ _ ↔ _
      rw [del__inRoom]
      simp only [List.mem_cons]
      constructor
      · rintro ⟨⟨h1, h2⟩, h3⟩
        refine ⟨h1, ?_⟩
        rintro ⟨e, h4 | h4⟩
        · exact h2 ⟨e, h4⟩
        · exact h3 ⟨e, h4⟩
      · rintro ⟨h1, h2⟩
        exact ⟨⟨h1, fun h => h2 ⟨h.1, .inl h.2⟩⟩, fun h => h2 ⟨h.1, .inr h.2⟩⟩
    · rw [List.foldl_cons, i2]; exact del__sids d p.1 room id
    · intro h; exact i3 (wf_del__rooms (d := d) (a := p.1) (room := room) (id := id) h)
    · intro h; exact i4 (del__nd (d := d) (a := p.1) (room := room) (id := id) h)
    · intro h; exact i5 (del__ne (d := d) (a := p.1) (room := room) (id := id) h)

/-- `DelAll` in terms of the membership relation. -/
theorem delAll_spec {a : Ad} (h : Inv a) (d : Bool) (id : Sid) :
    Inv (delAll d a id).1 ∧
    (∀ s r, (delAll d a id).1.inRoom s r ↔ a.inRoom s r ∧ s ≠ id) ∧
    (∀ s, s ∈ (delAll d a id).1.sids.keys ↔ s ∈ a.sids.keys ∧ s ≠ id) := by
  unfold delAll
  cases e : a.sids.get? id with
  | none =>
    refine ⟨h, ?_, ?_⟩
    · intro s r
      constructor
      · intro hh; refine ⟨hh, ?_⟩; rintro rfl
        obtain ⟨l, h1, _⟩ := (h.agree _ _).1 hh
        rw [e] at h1; simp at h1
      · exact fun hh => hh.1
    · intro s
      constructor
      · intro hh; refine ⟨hh, ?_⟩; rintro rfl
        rw [FMap.mem_keys_iff, e] at hh; simp at hh
      · exact fun hh => hh.1
  | some rooms =>
    dsimp only
    obtain ⟨i1, i2, i3, i4, i5⟩ := delFold d id rooms (a, [])
    have hin : ∀ s r, (rooms.foldl (delLoop d id) (a, [])).1.inRoom s r ↔ a.inRoom s r ∧ s ≠ id := by
      intro s r
      rw [i1]
      constructor
      · rintro ⟨h1, h2⟩
        refine ⟨h1, ?_⟩
        rintro rfl
        obtain ⟨l, h3, h4⟩ := (h.agree _ _).1 h1
        rw [e] at h3; cases h3
        exact h2 ⟨rfl, h4⟩
      · rintro ⟨h1, h2⟩; exact ⟨h1, fun hh => h2 hh.1⟩
    refine ⟨⟨?_, ?_, ?_, ?_, ?_, ?_⟩, ?_, ?_⟩
    · exact i3 h.wfRooms
    · rw [i2]; exact FMap.wf_erase h.wfSids _
    · exact i4 h.ndRooms
    · intro s l hl; rw [i2, FMap.get?_erase] at hl
      split at hl
      · exact absurd hl (by simp)
      · exact h.ndSids _ _ hl
    · exact i5 h.nonempty
    · intro s r
      show (rooms.foldl (delLoop d id) (a, [])).1.inRoom s r ↔ _
      rw [hin, h.agree]
      unfold Ad.hasRoom; dsimp only
      rw [i2, FMap.get?_erase]
      by_cases es : id = s
      · simp [es]
      · simp [es, Ne.symm es]
    · exact hin
    · intro s; rw [i2, FMap.mem_keys_erase]; exact and_comm

end Verif.Adapter
