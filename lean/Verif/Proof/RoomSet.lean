import Verif.Spec.RoomSet
import Verif.Proof.Rooms
import Verif.Lib.ListExtra

/-! Sets of rooms in the hands of the program. -/

namespace Verif.RoomSet
open Verif Verif.Adapter Verif.Spec

variable {d : Bool}

theorem run_snoc (h : List Ev) (e : Ev) : run d (h ++ [e]) = step d (run d h) e := by simp [run]

theorem calls_snoc (h : List Ev) (e : Ev) : roomCalls (h ++ [e]) = roomCalls h ++ roomCalls [e] := List.filterMap_append

theorem mem_roomsOf (a : Ad) (s : Sid) (r : Room) : r ∈ roomsOf a s ↔ a.hasRoom s r := by
  unfold roomsOf socketRooms Ad.hasRoom
  cases h : a.sids.get? s <;> simp

theorem never_snoc {h : List Ev} {e : Ev} {s r : String} (hn : NeverEdits d (h ++ [e]) s r) :
    NeverEdits d h s r ∧ ¬ EditsRoom (run d h) e s r :=
  ⟨fun a e' b hb => hn a e' (b ++ [e]) (by rw [hb]; simp), hn h e [] (by simp)⟩

/-! Without any assumption on the tables -/

theorem addFold_in (id : Sid) (rooms : List Room) (p : Ad × List Adapter.Ev) (s : Sid) (r : Room) :
    (rooms.foldl (addRoom id) p).1.inRoom s r ↔ p.1.inRoom s r ∨ (s = id ∧ r ∈ rooms) := by
  induction rooms generalizing p with
  | nil => simp
  | cons x l ih =>
    rw [List.foldl_cons, ih, addRoom_inRoom]
    simp only [List.mem_cons]
    constructor
    · rintro ((h | ⟨h1, h2⟩) | ⟨h1, h2⟩)
      · exact .inl h
      · exact .inr ⟨h1, .inl h2⟩
      · exact .inr ⟨h1, .inr h2⟩
    · rintro (h | ⟨h1, h2 | h2⟩)
      · exact .inl (.inl h)
      · exact .inl (.inr ⟨h1, h2⟩)
      · exact .inr ⟨h1, h2⟩

theorem addFold_has (id : Sid) (rooms : List Room) (p : Ad × List Adapter.Ev) (hid : ∃ mine, p.1.sids.get? id = some mine) :
    (∃ mine, (rooms.foldl (addRoom id) p).1.sids.get? id = some mine) ∧
    (∀ s r, (rooms.foldl (addRoom id) p).1.hasRoom s r ↔ p.1.hasRoom s r ∨ (s = id ∧ r ∈ rooms)) ∧
    ∀ s, s ≠ id → (rooms.foldl (addRoom id) p).1.sids.get? s = p.1.sids.get? s := by
  induction rooms generalizing p with
  | nil => simpa using hid
  | cons x l ih =>
    obtain ⟨mine, hm⟩ := hid
    have hs := addRoom_sids id p x mine hm
    obtain ⟨i1, i2, i3⟩ := ih (addRoom id p x) ⟨_, by rw [hs, FMap.get?_insert, if_pos rfl]⟩
    refine ⟨by rw [List.foldl_cons]; exact i1, fun s r => ?_, fun s hne => ?_⟩
    · rw [List.foldl_cons, i2, addRoom_hasRoom id p x mine hm]
      simp only [List.mem_cons]
      constructor
      · rintro ((h | ⟨h1, h2⟩) | ⟨h1, h2⟩)
        · exact .inl h
        · exact .inr ⟨h1, .inl h2⟩
        · exact .inr ⟨h1, .inr h2⟩
      · rintro (h | ⟨h1, h2 | h2⟩)
        · exact .inl (.inl h)
        · exact .inl (.inr ⟨h1, h2⟩)
        · exact .inr ⟨h1, h2⟩
    · rw [List.foldl_cons, i3 s hne, hs, FMap.get?_insert, if_neg (Ne.symm hne)]

theorem addRoom_ne {id : Sid} {p : Ad × List Adapter.Ev} {room : Room} (h : ∀ r l, p.1.rooms.get? r = some l → l ≠ []) :
    ∀ r l, (addRoom id p room).1.rooms.get? r = some l → l ≠ [] := by
  intro r l hl
  rw [addRoom_rooms] at hl
  by_cases e : room = r
  · rw [if_pos e] at hl
    cases hl
    intro hn
    have : id ∈ LSet.add ((p.1.rooms.get? room).getD []) id := by rw [LSet.mem_add]; exact .inl rfl
    rw [hn] at this; cases this
  · rw [if_neg e] at hl; exact h r l hl

theorem addFold_ne (id : Sid) (rooms : List Room) (p : Ad × List Adapter.Ev) (h : ∀ r l, p.1.rooms.get? r = some l → l ≠ []) :
    ∀ r l, (rooms.foldl (addRoom id) p).1.rooms.get? r = some l → l ≠ [] := by
  induction rooms generalizing p with
  | nil => exact h
  | cons x l ih => exact ih _ (addRoom_ne h)

/-- The table of one pair after a call. -/
theorem call_pair (a : Ad) (op : Op) (s : Sid) (r : Room) (hp : a.inRoom s r ↔ a.hasRoom s r) :
    ((Adapter.step d a op).1.inRoom s r ↔ (op.toCall.joins s r ∨ a.inRoom s r ∧ ¬ op.toCall.leaves s r)) ∧
    ((Adapter.step d a op).1.hasRoom s r ↔ (op.toCall.joins s r ∨ a.hasRoom s r ∧ ¬ op.toCall.leaves s r)) := by
  cases op with
  | addAll id rooms =>
    have hid : ∃ mine, (loadOrStoreSid a id).sids.get? id = some mine := ⟨_, by rw [loadOrStore_sids, if_pos rfl]⟩
    have h0 : (loadOrStoreSid a id).hasRoom s r ↔ a.hasRoom s r := by
      unfold Ad.hasRoom
      rw [loadOrStore_sids]
      by_cases e : s = id
      · subst e
        cases hg : a.sids.get? s <;> simp
      · rw [if_neg e]
    constructor
    · show (rooms.foldl (addRoom id) (loadOrStoreSid a id, [])).1.inRoom s r ↔ _
      rw [addFold_in, loadOrStore_inRoom]
      simp only [Op.toCall, Call.joins, Call.leaves, not_false_eq_true, and_true]
      constructor
      · rintro (h | ⟨h1, h2⟩)
        · exact .inr h
        · exact .inl ⟨h1.symm, h2⟩
      · rintro (⟨h1, h2⟩ | h)
        · exact .inr ⟨h1.symm, h2⟩
        · exact .inl h
    · show (rooms.foldl (addRoom id) (loadOrStoreSid a id, [])).1.hasRoom s r ↔ _
      rw [(addFold_has id rooms _ hid).2.1, h0]
      simp only [Op.toCall, Call.joins, Call.leaves, not_false_eq_true, and_true]
      constructor
      · rintro (h | ⟨h1, h2⟩)
        · exact .inr h
        · exact .inl ⟨h1.symm, h2⟩
      · rintro (⟨h1, h2⟩ | h)
        · exact .inr ⟨h1.symm, h2⟩
        · exact .inl h
  | del id room =>
    simp only [Adapter.step, del, Op.toCall, Call.joins, Call.leaves, false_or]
    constructor
    · rw [del__inRoom]
      have hq : ∀ b : Ad, b.rooms = a.rooms → (b.inRoom s r ↔ a.inRoom s r) := by
        intro b hb; unfold Ad.inRoom; rw [hb]
      rw [hq _ (by cases a.sids.get? id <;> rfl)]
      constructor
      · rintro ⟨h1, h2⟩; exact ⟨h1, fun h => h2 ⟨h.1.symm, h.2.symm⟩⟩
      · rintro ⟨h1, h2⟩; exact ⟨h1, fun h => h2 ⟨h.1.symm, h.2.symm⟩⟩
    · unfold Ad.hasRoom
      rw [del__sids]
      cases hg : a.sids.get? id with
      | none =>
        dsimp only
        by_cases e : id = s
        · subst e; simp [hg]
        · simp [e]
      | some mine =>
        dsimp only
        rw [FMap.get?_insert]
        by_cases e : id = s
        · subst e
          rw [if_pos rfl, hg]
          simp only [Option.some.injEq, exists_eq_left', LSet.mem_del, true_and]
          constructor
          · rintro ⟨h1, h2⟩; exact ⟨h2, fun h => h1 h.symm⟩
          · rintro ⟨h1, h2⟩; exact ⟨fun h => h2 h.symm, h1⟩
        · rw [if_neg e]; simp [e]
  | delAll id =>
    simp only [Adapter.step, delAll, Op.toCall, Call.joins, Call.leaves, false_or]
    cases hg : a.sids.get? id with
    | none =>
      dsimp only
      have hno : id = s → ¬ a.hasRoom s r := by
        rintro rfl ⟨l, h1, -⟩; rw [hg] at h1; cases h1
      constructor
      · exact ⟨fun h => ⟨h, fun e => hno e (hp.mp h)⟩, fun h => h.1⟩
      · exact ⟨fun h => ⟨h, fun e => hno e h⟩, fun h => h.1⟩
    | some l =>
      dsimp only
      obtain ⟨f1, f2, -⟩ := delFold d id l (a, [])
      constructor
      · show (l.foldl (delLoop d id) (a, [])).1.inRoom s r ↔ _
        rw [f1]
        constructor
        · rintro ⟨h1, h2⟩
          refine ⟨h1, fun e => h2 ⟨e.symm, ?_⟩⟩
          subst e
          obtain ⟨l', h3, h4⟩ := hp.mp h1
          rw [hg] at h3; cases h3; exact h4
        · rintro ⟨h1, h2⟩
          exact ⟨h1, fun h => h2 h.1.symm⟩
      · unfold Ad.hasRoom
        dsimp only
        rw [f2, FMap.get?_erase]
        by_cases e : id = s
        · simp [e]
        · rw [if_neg e]; simp [e]

theorem call_ne (a : Ad) (op : Op) (h : ∀ r l, a.rooms.get? r = some l → l ≠ []) :
    ∀ r l, (Adapter.step d a op).1.rooms.get? r = some l → l ≠ [] := by
  cases op with
  | addAll id rooms => exact addFold_ne id rooms _ (by rw [loadOrStore_rooms]; exact h)
  | del id room =>
    refine del__ne ?_
    cases a.sids.get? id <;> exact h
  | delAll id =>
    simp only [Adapter.step, delAll]
    cases a.sids.get? id with
    | none => exact h
    | some l => exact (delFold d id l (a, [])).2.2.2.2 h

theorem edit_rooms (s : St) (k : Nat) (f : List Room → List Room) : (edit s k f).ad.rooms = s.ad.rooms := by
  unfold edit
  cases s.handles[k]? with
  | none => rfl
  | some x =>
    cases x with
    | own l => rfl
    | live id =>
      dsimp only
      cases s.ad.sids.get? id <;> rfl

theorem edit_has (s : St) (k : Nat) (f : List Room → List Room) (id : Sid) (r : Room)
    (hf : s.handles[k]? = some (.live id) → ∀ l, r ∈ f l ↔ r ∈ l) : (edit s k f).ad.hasRoom id r ↔ s.ad.hasRoom id r := by
  unfold edit
  cases hk : s.handles[k]? with
  | none => exact Iff.rfl
  | some x =>
    cases x with
    | own l => exact Iff.rfl
    | live id' =>
      dsimp only
      cases hg : s.ad.sids.get? id' with
      | none => exact Iff.rfl
      | some l =>
        unfold Ad.hasRoom
        dsimp only
        rw [FMap.get?_insert]
        by_cases e : id' = id
        · subst e
          rw [if_pos rfl, hg]
          simpa using hf hk l
        · rw [if_neg e]

theorem pair_run (h : List Ev) (s r : String) (hn : NeverEdits d h s r) :
    ((run d h).ad.inRoom s r ↔ Member (roomCalls h) s r) ∧ ((run d h).ad.hasRoom s r ↔ Member (roomCalls h) s r) := by
  induction h using snocRec with
  | nil => simp [run, Ad.inRoom, Ad.hasRoom, roomCalls, Member]
  | append_singleton h e ih =>
    obtain ⟨hn1, hn2⟩ := never_snoc hn
    obtain ⟨i1, i2⟩ := ih hn1
    rw [run_snoc, calls_snoc]
    have hed : ∀ k f, (∀ l : List Room, (run d h).handles[k]? = some (.live s) → (r ∈ f l ↔ r ∈ l)) →
        roomCalls [e] = [] →
        ((edit (run d h) k f).ad.inRoom s r ↔ Member (roomCalls h ++ roomCalls [e]) s r) ∧
        ((edit (run d h) k f).ad.hasRoom s r ↔ Member (roomCalls h ++ roomCalls [e]) s r) := by
      intro k f hf hc
      rw [hc, List.append_nil, edit_has _ _ _ _ _ (fun hk l => hf l hk), i2]
      refine ⟨?_, Iff.rfl⟩
      rw [← i1]; unfold Ad.inRoom; rw [edit_rooms]
    cases e with
    | call op =>
      obtain ⟨c1, c2⟩ := call_pair (d := d) (run d h).ad op s r (i1.trans i2.symm)
      have hc : roomCalls [.call op] = [op.toCall] := by cases op <;> rfl
      rw [hc, member_snoc]
      exact ⟨c1.trans (by rw [i1]), c2.trans (by rw [i2])⟩
    | take id => simpa [step, roomCalls] using ⟨i1, i2⟩
    | add k r' =>
      refine hed k _ (fun l hk => ?_) rfl
      have : r' ≠ r := by rintro rfl; exact hn2 ⟨k, .inl rfl, hk⟩
      rw [LSet.mem_add]
      exact ⟨fun h => h.resolve_left (Ne.symm this), .inr⟩
    | remove k r' =>
      refine hed k _ (fun l hk => ?_) rfl
      have : r' ≠ r := by rintro rfl; exact hn2 ⟨k, .inr rfl, hk⟩
      rw [LSet.mem_del]
      exact ⟨fun h => h.2, fun h => ⟨Ne.symm this, h⟩⟩

theorem ne_run (h : List Ev) : ∀ r l, (run d h).ad.rooms.get? r = some l → l ≠ [] := by
  induction h using snocRec with
  | nil => intro r l hl; simp [run] at hl
  | append_singleton h e ih =>
    rw [run_snoc]
    cases e with
    | call op => exact call_ne _ _ ih
    | take id => exact ih
    | add k r => simp only [step]; rw [edit_rooms]; exact ih
    | remove k r => simp only [step]; rw [edit_rooms]; exact ih

/-! The handles -/

theorem edit_handle (s : St) (k : Nat) (f : List Room → List Room) (j : Nat) (id : Sid) :
    s.handles[j]? = some (.live id) → (edit s k f).handles[j]? = some (.live id) := by
  intro hj
  unfold edit
  cases hk : s.handles[k]? with
  | none => exact hj
  | some x =>
    cases x with
    | live i => dsimp only; cases s.ad.sids.get? i <;> exact hj
    | own l =>
      dsimp only
      rw [List.getElem?_set_ne]
      · exact hj
      · rintro rfl; rw [hk] at hj; cases hj

theorem edit_own (s : St) (k : Nat) (f : List Room → List Room) (j : Nat) (l : List Room) (hj : s.handles[j]? = some (.own l)) :
    (edit s k f).handles[j]? = some (.own (if k = j then f l else l)) := by
  have hlt : j < s.handles.length := (List.getElem?_eq_some_iff.mp hj).1
  unfold edit
  by_cases e : k = j
  · subst e
    rw [hj, if_pos rfl]
    simp [hlt]
  · rw [if_neg e]
    cases hk : s.handles[k]? with
    | none => exact hj
    | some x =>
      cases x with
      | live i => dsimp only; cases s.ad.sids.get? i <;> exact hj
      | own l' => dsimp only; rw [List.getElem?_set_ne e]; exact hj

theorem live_step (s : St) (e : Ev) (j : Nat) (id : Sid) (hj : s.handles[j]? = some (.live id)) :
    (step d s e).handles[j]? = some (if e = .call (.delAll id) then .own (roomsOf s.ad id) else .live id) := by
  have hlt : j < s.handles.length := (List.getElem?_eq_some_iff.mp hj).1
  cases e with
  | call op =>
    cases op with
    | addAll i rs => simpa [step] using hj
    | del i rm => simpa [step] using hj
    | delAll i =>
      simp only [step, List.getElem?_map, hj, Option.map_some, detach, contents]
      by_cases e : i = id
      · subst e; simp
      · simp [e, Ne.symm e]
  | take i => simp only [step]; rw [List.getElem?_append_left hlt]; simpa using hj
  | add k r => simpa [step] using edit_handle s k _ j id hj
  | remove k r => simpa [step] using edit_handle s k _ j id hj

theorem own_step (s : St) (e : Ev) (j : Nat) (l : List Room) (r : Room) (hj : s.handles[j]? = some (.own l))
    (h1 : e ≠ .add j r) (h2 : e ≠ .remove j r) : ∃ l', (step d s e).handles[j]? = some (.own l') ∧ (r ∈ l' ↔ r ∈ l) := by
  have hlt : j < s.handles.length := (List.getElem?_eq_some_iff.mp hj).1
  cases e with
  | call op =>
    cases op with
    | addAll i rs => exact ⟨l, by simpa [step] using hj, Iff.rfl⟩
    | del i rm => exact ⟨l, by simpa [step] using hj, Iff.rfl⟩
    | delAll i => exact ⟨l, by simp [step, List.getElem?_map, hj, detach], Iff.rfl⟩
  | take i => exact ⟨l, by simp only [step]; rw [List.getElem?_append_left hlt]; exact hj, Iff.rfl⟩
  | add k r' =>
    refine ⟨_, edit_own s k _ j l hj, ?_⟩
    by_cases e : k = j
    · subst e
      have : r' ≠ r := by rintro rfl; exact h1 rfl
      rw [if_pos rfl, LSet.mem_add]
      exact ⟨fun h => h.resolve_left (Ne.symm this), .inr⟩
    · rw [if_neg e]
  | remove k r' =>
    refine ⟨_, edit_own s k _ j l hj, ?_⟩
    by_cases e : k = j
    · subst e
      have : r' ≠ r := by rintro rfl; exact h2 rfl
      rw [if_pos rfl, LSet.mem_del]
      exact ⟨fun h => h.2, fun h => ⟨Ne.symm this, h⟩⟩
    · rw [if_neg e]

theorem untilGone_snoc_gone (id : String) (h : List Ev) (e : Ev) (hg : .call (.delAll id) ∈ h) :
    untilGone id (h ++ [e]) = untilGone id h := by
  induction h with
  | nil => cases hg
  | cons x h ih =>
    unfold untilGone at *
    by_cases hx : x = .call (.delAll id)
    · simp [hx]
    · rcases List.mem_cons.mp hg with h1 | h1
      · exact absurd h1.symm hx
      · have := ih h1
        rw [List.cons_append, List.takeWhile_cons_of_pos (by simp [hx]), List.takeWhile_cons_of_pos (by simp [hx]), this]

theorem untilGone_all (id : String) (h : List Ev) (hg : .call (.delAll id) ∉ h) : untilGone id h = h := by
  induction h with
  | nil => rfl
  | cons x h ih =>
    have hx : x ≠ .call (.delAll id) := by rintro rfl; exact hg (by simp)
    have := ih fun hm => hg (List.mem_cons_of_mem _ hm)
    unfold untilGone at *
    rw [List.takeWhile_cons_of_pos (by simp [hx]), this]

theorem untilGone_snoc (id : String) (h : List Ev) (e : Ev) (hg : .call (.delAll id) ∉ h) :
    untilGone id (h ++ [e]) = if e = .call (.delAll id) then h else h ++ [e] := by
  by_cases he : e = .call (.delAll id)
  · rw [if_pos he]; subst he
    have h0 := untilGone_all id h hg
    unfold untilGone at *
    rw [List.takeWhile_append, h0]; simp
  · rw [if_neg he]
    exact untilGone_all id _ (by
      intro hm
      rcases List.mem_append.mp hm with h1 | h1
      · exact hg h1
      · exact he (List.mem_singleton.mp h1).symm)

/-- The set taken in `h1 ++ [.take id]` after what `h2` does. -/
theorem taken_live (h1 h2 : List Ev) (id r : String) (j : Nat) (hj : (run d (h1 ++ [.take id])).handles[j]? = some (.live id))
    (hn : NeverEdits d (h1 ++ .take id :: h2) id r) (hk : ∀ e ∈ h2, e ≠ .add j r ∧ e ≠ .remove j r) :
    (.call (.delAll id) ∉ h2 → (run d (h1 ++ .take id :: h2)).handles[j]? = some (.live id)) ∧
    (.call (.delAll id) ∈ h2 → ∃ l, (run d (h1 ++ .take id :: h2)).handles[j]? = some (.own l) ∧
      (r ∈ l ↔ Member (roomCalls (h1 ++ .take id :: untilGone id h2)) id r)) := by
  induction h2 using snocRec with
  | nil => exact ⟨fun _ => hj, fun h => by cases h⟩
  | append_singleton h2 e ih =>
    have hsn : h1 ++ Ev.take id :: (h2 ++ [e]) = (h1 ++ .take id :: h2) ++ [e] := by simp
    rw [hsn] at hn ⊢
    obtain ⟨hn1, -⟩ := never_snoc hn
    obtain ⟨i1, i2⟩ := ih hn1 fun e' he' => hk e' (List.mem_append_left _ he')
    rw [run_snoc]
    obtain ⟨ke1, ke2⟩ := hk e (by simp)
    constructor
    · intro hg
      have hg2 : .call (.delAll id) ∉ h2 := fun hm => hg (List.mem_append_left _ hm)
      have he : e ≠ .call (.delAll id) := by rintro rfl; exact hg (by simp)
      rw [live_step _ _ _ _ (i1 hg2), if_neg he]
    · intro hg
      by_cases hg2 : .call (.delAll id) ∈ h2
      · obtain ⟨l, h3, h4⟩ := i2 hg2
        obtain ⟨l', h5, h6⟩ := own_step (d := d) _ e _ _ r h3 ke1 ke2
        exact ⟨l', h5, by rw [h6, h4, untilGone_snoc_gone _ _ _ hg2]⟩
      · have he : e = .call (.delAll id) := by
          rcases List.mem_append.mp hg with h | h
          · exact absurd h hg2
          · exact (List.mem_singleton.mp h).symm
        refine ⟨_, by rw [live_step _ _ _ _ (i1 hg2), if_pos he], ?_⟩
        rw [mem_roomsOf, (pair_run _ _ _ hn1).2, untilGone_snoc _ _ _ hg2, if_pos he]

theorem taken_own (h1 h2 : List Ev) (r : String) (j : Nat) (l : List Room) (hj : (run d h1).handles[j]? = some (.own l))
    (hk : ∀ e ∈ h2, e ≠ .add j r ∧ e ≠ .remove j r) :
    ∃ l', (run d (h1 ++ h2)).handles[j]? = some (.own l') ∧ (r ∈ l' ↔ r ∈ l) := by
  induction h2 using snocRec with
  | nil => exact ⟨l, by simpa using hj, Iff.rfl⟩
  | append_singleton h2 e ih =>
    obtain ⟨l1, i1, i2⟩ := ih fun e' he' => hk e' (List.mem_append_left _ he')
    rw [← List.append_assoc, run_snoc]
    obtain ⟨ke1, ke2⟩ := hk e (by simp)
    obtain ⟨l', h5, h6⟩ := own_step (d := d) _ e _ _ r i1 ke1 ke2
    exact ⟨l', h5, h6.trans i2⟩

/-! Who has a set in the table -/

theorem seated_snoc (h : List Call) (c : Call) (s : String) :
    Seated (h ++ [c]) s ↔ (∃ rs, c = .join s rs) ∨ (Seated h s ∧ c ≠ .leaveAll s) := by
  constructor
  · rintro ⟨pre, rs, post, e, hl⟩
    rcases List.eq_nil_or_concat post with rfl | ⟨post', x, rfl⟩
    · obtain ⟨-, h2⟩ := List.append_inj' e rfl
      exact .inl ⟨rs, by simpa using h2⟩
    · rw [List.concat_eq_append] at e hl
      have e' : h ++ [c] = (pre ++ .join s rs :: post') ++ [x] := by rw [e]; simp
      obtain ⟨h1, h2⟩ := List.append_inj' e' rfl
      have h2 : c = x := by simpa using h2
      subst h2
      exact .inr ⟨⟨pre, rs, post', h1, fun hm => hl (by simp [hm])⟩, fun hc => hl (by simp [hc])⟩
  · rintro (⟨rs, rfl⟩ | ⟨⟨pre, rs, post, e, hl⟩, hc⟩)
    · exact ⟨h, rs, [], rfl, by simp⟩
    · exact ⟨pre, rs, post ++ [c], by rw [e]; simp, by simp [hl, Ne.symm hc]⟩

theorem call_sids (a : Ad) (op : Op) (s : Sid) :
    (∃ l, (Adapter.step d a op).1.sids.get? s = some l) ↔
      (∃ rs, op.toCall = .join s rs) ∨ ((∃ l, a.sids.get? s = some l) ∧ op.toCall ≠ .leaveAll s) := by
  cases op with
  | addAll id rooms =>
    have hid : ∃ mine, (loadOrStoreSid a id).sids.get? id = some mine := ⟨_, by rw [loadOrStore_sids, if_pos rfl]⟩
    obtain ⟨f1, -, f3⟩ := addFold_has id rooms (loadOrStoreSid a id, []) hid
    by_cases e : id = s
    · subst e
      exact ⟨fun _ => .inl ⟨rooms, rfl⟩, fun _ => f1⟩
    · have : (Adapter.step d a (.addAll id rooms)).1.sids.get? s = a.sids.get? s := by
        show (rooms.foldl (addRoom id) (loadOrStoreSid a id, [])).1.sids.get? s = _
        rw [f3 s (Ne.symm e), loadOrStore_sids, if_neg (Ne.symm e)]
      rw [this]; simp [Op.toCall, e]
  | del id room =>
    simp only [Adapter.step, del, Op.toCall]
    rw [del__sids]
    cases hg : a.sids.get? id with
    | none => simp
    | some l =>
      dsimp only
      rw [FMap.get?_insert]
      by_cases e : id = s
      · subst e; simp [hg]
      · rw [if_neg e]; simp
  | delAll id =>
    simp only [Adapter.step, delAll, Op.toCall]
    cases hg : a.sids.get? id with
    | none =>
      dsimp only
      by_cases e : id = s
      · subst e; simp [hg]
      · simp [e]
    | some l =>
      dsimp only
      rw [(delFold d id l (a, [])).2.1, FMap.get?_erase]
      by_cases e : id = s
      · simp [e]
      · rw [if_neg e]; simp [e]

theorem edit_sids (s : St) (k : Nat) (f : List Room → List Room) (id : Sid) :
    (∃ l, (edit s k f).ad.sids.get? id = some l) ↔ ∃ l, s.ad.sids.get? id = some l := by
  unfold edit
  cases hk : s.handles[k]? with
  | none => exact Iff.rfl
  | some x =>
    cases x with
    | own l => exact Iff.rfl
    | live id' =>
      dsimp only
      cases hg : s.ad.sids.get? id' with
      | none => exact Iff.rfl
      | some l =>
        dsimp only
        rw [FMap.get?_insert]
        by_cases e : id' = id
        · subst e; simp [hg]
        · rw [if_neg e]

theorem seated_run (h : List Ev) (s : String) : (∃ l, (run d h).ad.sids.get? s = some l) ↔ Seated (roomCalls h) s := by
  induction h using snocRec with
  | nil => simp [run, roomCalls, Seated]
  | append_singleton h e ih =>
    rw [run_snoc, calls_snoc]
    cases e with
    | call op =>
      have hc : roomCalls [.call op] = [op.toCall] := by cases op <;> rfl
      rw [hc, seated_snoc, ← ih]
      exact call_sids _ _ _
    | take id => simpa [step, roomCalls] using ih
    | add k r => rw [show roomCalls [Ev.add k r] = [] from rfl, List.append_nil, ← ih]; exact edit_sids _ _ _ _
    | remove k r => rw [show roomCalls [Ev.remove k r] = [] from rfl, List.append_nil, ← ih]; exact edit_sids _ _ _ _

end Verif.RoomSet
