import Verif.Spec.Remote
import Verif.Props.Targeting
import Verif.Lib.ListExtra

/-! # C69: a remote socket stands for exactly the socket with its id -/

namespace Verif.Props
open Verif Verif.Spec Verif.Adapter Verif.Delivery Verif.Remote

theorem remote_snoc (d : Bool) (h : List Remote.Ev) (e : Remote.Ev) : Remote.run d (h ++ [e]) = Remote.step d (Remote.run d h) e := by
  simp [Remote.run]

/-- `I` holds of the ids of sockets, and of no room that a program joins or leaves. -/
structure RInv (I : Sid → Prop) (s : Remote.St) : Prop where
  ok : OK s.n
  fresh : ∀ id ref, s.n.sockets.get? id = some ref → ref < s.next
  own : ∀ id, I id → ∀ x, id ∈ roomsOf s.n.ad x ↔ x = id ∧ Connected s.n x
  remotes : ∀ r ∈ s.remotes, I r.id
  reg : ∀ id, Connected s.n id → I id

theorem sel_only {I : Sid → Prop} {s : Remote.St} (i : RInv I s) (id : Sid) (hid : I id) (x : Sid) :
    Sel s.n [id] [] x ↔ x = id ∧ Connected s.n x := by
  unfold Sel Spec.Selected Spec.Matches
  simp only [List.mem_singleton, List.not_mem_nil, false_and, exists_false, not_false_eq_true, and_true, exists_eq_left, reduceCtorEq, false_or]
  constructor
  · rintro ⟨h1, h2⟩
    exact (i.own id hid x).1 (by simpa using h2)
  · rintro ⟨rfl, h⟩
    exact ⟨h, by simpa using (i.own x hid x).2 ⟨rfl, h⟩⟩

theorem rinv_rooms {I : Sid → Prop} {s : Remote.St} (i : RInv I s) (n' : Nsp) (ok : OK n') (hs : n'.sockets = s.n.sockets)
    (hr : ∀ id, I id → ∀ x, id ∈ roomsOf n'.ad x ↔ id ∈ roomsOf s.n.ad x) : RInv I { s with n := n' } :=
  ⟨ok, fun id ref h => i.fresh id ref (by rw [← hs]; exact h),
   fun id hid x => by
    rw [hr id hid, i.own id hid]
    show _ ↔ x = id ∧ ∃ ref, n'.sockets.get? x = some ref
    rw [hs]; exact Iff.rfl,
   i.remotes, fun id ⟨ref, h⟩ => i.reg id ⟨ref, by rw [← hs]; exact h⟩⟩

theorem rinv_kill {I : Sid → Prop} {s : Remote.St} (i : RInv I s) (n' : Nsp) (ok : OK n') (gone : Sid → Prop)
    (h1 : ∀ x, gone x → ¬ Connected n' x ∧ roomsOf n'.ad x = [])
    (h2 : ∀ x, ¬ gone x → n'.sockets.get? x = s.n.sockets.get? x ∧ ∀ r, r ∈ roomsOf n'.ad x ↔ r ∈ roomsOf s.n.ad x) :
    RInv I { s with n := n' } := by
  have hc : ∀ x, Connected n' x → ¬ gone x ∧ Connected s.n x := by
    intro x hx
    by_cases g : gone x
    · exact absurd hx (h1 x g).1
    · obtain ⟨ref, h⟩ := hx
      exact ⟨g, ref, by rw [← (h2 x g).1]; exact h⟩
  refine ⟨ok, ?_, ?_, i.remotes, fun id h => i.reg id (hc id h).2⟩
  · intro id ref h
    have g := (hc id ⟨ref, h⟩).1
    exact i.fresh id ref (by rw [← (h2 id g).1]; exact h)
  · intro id hid x
    by_cases g : gone x
    · simp only [(h1 x g).2, List.not_mem_nil, false_iff]
      exact fun h => (h1 x g).1 h.2
    · rw [(h2 x g).2, i.own id hid]
      show _ ↔ x = id ∧ ∃ ref, n'.sockets.get? x = some ref
      rw [(h2 x g).1]; exact Iff.rfl

theorem rinv_connect {I : Sid → Prop} {s : Remote.St} (i : RInv I s) (id : Sid) (rooms : List Room) (hid : I id)
    (hr : ∀ r, I r → r ∉ rooms.filter (· ≠ id)) : RInv I (connect s id rooms) := by
  unfold connect
  split
  · exact i
  · rename_i hn
    obtain ⟨a1, a2, a3⟩ := addAll_spec i.ok.inv id rooms
    obtain ⟨b1, b2, b3⟩ := addAll_spec a1 id [id]
    have hg : ∀ x, (s.n.sockets.insert id s.next).get? x = if id = x then some s.next else s.n.sockets.get? x := fun x => by
      rw [FMap.get?_insert]
    have ne : ∀ x ref, s.n.sockets.get? x = some ref → ref ≠ s.next := fun x ref h e => Nat.lt_irrefl _ (e ▸ i.fresh x ref h)
    refine ⟨ok_of_inv b1 ?_ ?_ ?_, ?_, ?_, i.remotes, ?_⟩
    · intro x ref h
      simp only [hg] at h
      split at h
      · rename_i e; cases h; simp [e]
      · simp only [ne x ref h, if_false]; exact i.ok.ownId x ref h
    · intro x ref h
      simp only [hg] at h
      split at h
      · cases h; simp
      · simp only [ne x ref h, if_false]; exact i.ok.mayJoin x ref h
    · intro x ref h
      simp only [hg] at h
      rw [b3, a3]
      split at h
      · rename_i e; exact .inl e.symm
      · exact .inr (.inr (i.ok.known x ref h))
    · intro x ref h
      simp only [hg] at h
      split at h
      · cases h; exact Nat.lt_succ_self _
      · exact Nat.lt_succ_of_lt (i.fresh x ref h)
    · intro r hI x
      simp only [mem_roomsOf b1]
      rw [b2, a2, ← mem_roomsOf i.ok.inv, i.own r hI]
      simp only [Connected, hg, List.mem_singleton]
      by_cases e : id = x
      · subst e
        simp only [if_true, Option.some.injEq, exists_eq', and_true, true_and]
        constructor
        · rintro ((h | h) | h)
          · exact h.1
          · by_cases e : r = id
            · exact e.symm
            · exact absurd (by simpa [e] using h) (hr r hI)
          · exact h.symm
        · exact fun h => .inr h.symm
      · simp [e, Ne.symm e]
    · intro x ⟨ref, h⟩
      simp only [hg] at h
      split at h
      · rename_i e; exact e ▸ hid
      · exact i.reg x ⟨ref, h⟩

theorem rinv_step {I : Sid → Prop} (d : Bool) {s : Remote.St} (i : RInv I s) (e : Remote.Ev) (h1 : ∀ id ∈ idsIn e, I id)
    (h2 : ∀ r, I r → r ∉ roomsIn e) : RInv I (Remote.step d s e) := by
  have bulkJoin : ∀ rooms except f joined, (∀ r, I r → r ∉ joined) →
      RInv I { s with n := addSockets s.n (some { rooms := some rooms, except := some except, flags := f }) joined } := by
    intro rooms except f joined hj
    obtain ⟨k1, k2, k3⟩ := C06_socketsJoin s.n i.ok rooms except joined f
    refine rinv_rooms i _ k1 k2 (fun id hid x => ?_)
    rw [k3]; simp [hj id hid]
  have bulkLeave : ∀ rooms except f left, (∀ r, I r → r ∉ left) →
      RInv I { s with n := delSockets d s.n (some { rooms := some rooms, except := some except, flags := f }) left } := by
    intro rooms except f left hj
    obtain ⟨k1, k2, k3⟩ := C06_socketsLeave d s.n i.ok rooms except left f
    refine rinv_rooms i _ k1 k2 (fun id hid x => ?_)
    rw [k3]; simp [hj id hid]
  have bulkDisconnect : ∀ rooms except f close,
      RInv I { s with n := disconnectSockets d s.n (some { rooms := some rooms, except := some except, flags := f }) close } := by
    intro rooms except f close
    obtain ⟨k1, _, _, _, k5, k6⟩ := C07_disconnectSockets d close s.n i.ok rooms except f
    exact rinv_kill i _ k1 (Sel s.n rooms except) k5 k6
  cases e with
  | connect id rooms => exact rinv_connect i id rooms (h1 id (by simp [idsIn])) h2
  | join ref rooms =>
    refine rinv_rooms i _ (ok_join i.ok rooms ref) ?_ (fun id hid x => ?_)
    · unfold Delivery.join; split <;> rfl
    · unfold Delivery.join
      split
      · obtain ⟨a1, a2, _⟩ := addAll_spec i.ok.inv (s.n.sidOf ref) rooms
        simp only [mem_roomsOf a1, mem_roomsOf i.ok.inv, a2]
        have := h2 id hid
        simp only [roomsIn] at this
        simp [this]
      · exact Iff.rfl
  | leave ref room =>
    refine rinv_rooms i _ (ok_leave i.ok d ref room) rfl (fun id hid x => ?_)
    obtain ⟨a1, a2, _⟩ := del_spec i.ok.inv d (s.n.sidOf ref) room
    simp only [Delivery.leave, mem_roomsOf a1, mem_roomsOf i.ok.inv, a2]
    have := h2 id hid
    simp only [roomsIn, List.mem_singleton] at this
    simp [this]
  | disconnect ref close =>
    simp only [Remote.step]
    split
    · obtain ⟨a1, a2, _⟩ := delAll_spec i.ok.inv d (s.n.sidOf ref)
      refine rinv_kill i _ (ok_kick i.ok d close ref) (· = s.n.sidOf ref) ?_ ?_
      · rintro x rfl
        refine ⟨?_, ?_⟩
        · rintro ⟨r, hr⟩; simp [kick] at hr
        · apply List.eq_nil_iff_forall_not_mem.2
          intro r hr
          exact ((a2 _ r).1 ((mem_roomsOf a1 _ r).1 hr)).2 rfl
      · intro x hx
        refine ⟨FMap.get?_erase_ne (Ne.symm hx), fun r => ?_⟩
        simp only [kick, mem_roomsOf a1, mem_roomsOf i.ok.inv, a2]
        simp [hx]
    · exact i
  | bulkJoin rooms except joined => exact bulkJoin _ _ _ _ h2
  | bulkLeave rooms except left => exact bulkLeave _ _ _ _ h2
  | bulkDisconnect rooms except close => exact bulkDisconnect _ _ _ _
  | fetch rooms except =>
    refine ⟨i.ok, i.fresh, i.own, ?_, i.reg⟩
    intro r hr
    simp only [Remote.step, List.mem_append, List.mem_map] at hr
    rcases hr with hr | ⟨ref, hf, rfl⟩
    · exact i.remotes r hr
    · obtain ⟨ids, ptr, _, k2, k3, k4⟩ := C03_fetchSockets s.n i.ok rooms except (some {})
      rw [opts, k4, List.mem_map] at hf
      obtain ⟨x, hx, rfl⟩ := hf
      have := i.ok.ownId x (ptr x) (k3 x hx)
      simp only [details, this]
      exact i.reg x ⟨_, k3 x hx⟩
  | rJoin k rooms =>
    simp only [Remote.step]
    split
    · exact bulkJoin _ _ _ _ h2
    · exact i
  | rLeave k rooms =>
    simp only [Remote.step]
    split
    · exact bulkLeave _ _ _ _ h2
    · exact i
  | rDisconnect k close =>
    simp only [Remote.step]
    split
    · exact bulkDisconnect _ _ _ _
    · exact i
  | rEmit k p =>
    simp only [Remote.step]
    split
    · rename_i r _
      obtain ⟨ids, ptr, _, _, _, k4⟩ := C03_broadcast s.n i.ok p [r.id] [] (some { expectSingle := true })
      rw [only, k4]
      exact rinv_rooms i _ ⟨i.ok.1, i.ok.2, i.ok.3, i.ok.4, i.ok.5, i.ok.6, i.ok.7, i.ok.8, i.ok.9⟩ rfl (fun _ _ _ => Iff.rfl)
    · exact i

theorem rinv_run (d : Bool) (h : List Remote.Ev) (I : Sid → Prop) (h1 : ∀ e ∈ h, ∀ id ∈ idsIn e, I id)
    (h2 : ∀ e ∈ h, ∀ r, I r → r ∉ roomsIn e) : RInv I (Remote.run d h) := by
  induction h using snocRec with
  | nil =>
    refine ⟨ok_of_inv inv_empty ?_ ?_ ?_, ?_, ?_, ?_, ?_⟩
    all_goals simp [Remote.run, Connected, roomsOf, socketRooms]
  | append_singleton h e ih =>
    rw [remote_snoc]
    exact rinv_step d (ih (fun e he => h1 e (by simp [he])) (fun e he => h2 e (by simp [he]))) e
      (h1 e (by simp)) (h2 e (by simp))

theorem rinv_of (d : Bool) (h : List Remote.Ev) (hd : RoomsAreNoIds h) : RInv (fun id => ∃ e ∈ h, id ∈ idsIn e) (Remote.run d h) :=
  rinv_run d h _ (fun e he _ hid => ⟨e, he, hid⟩) (fun e' he' id ⟨e, he, hid⟩ => hd e he e' he' id hid)

variable (d : Bool) (h : List Remote.Ev)

/-- `FetchSockets` returns one remote socket for each selected socket, with its id and the rooms it is in at that moment; those held
before stay as they were. -/
theorem C69_fetch (hd : RoomsAreNoIds h) (rooms except : List Room) :
    ∃ new, (Remote.run d (h ++ [.fetch rooms except])).remotes = (Remote.run d h).remotes ++ new ∧ (new.map (·.id)).Nodup ∧
      (∀ id, id ∈ new.map (·.id) ↔ Sel (Remote.run d h).n rooms except id) ∧
      ∀ r ∈ new, r.rooms = roomsOf (Remote.run d h).n.ad r.id := by
  have i := rinv_of d h hd
  obtain ⟨ids, ptr, k1, k2, k3, k4⟩ := C03_fetchSockets (Remote.run d h).n i.ok rooms except (some {})
  have hid : ∀ l : List Sid, (∀ x ∈ l, x ∈ ids) → ((l.map ptr).map (details (Remote.run d h).n)).map (·.id) = l := by
    intro l hl
    induction l with
    | nil => rfl
    | cons x l ih =>
      simp only [List.map_cons, ih (fun y hy => hl y (by simp [hy])), details]
      rw [i.ok.ownId x (ptr x) (k3 x (hl x (by simp)))]
  refine ⟨(ids.map ptr).map (details (Remote.run d h).n), ?_, ?_, ?_, ?_⟩
  · rw [remote_snoc]; simp only [Remote.step, opts, k4]
  · rw [hid ids (fun _ h => h)]; exact k1
  · intro id; rw [hid ids (fun _ h => h)]; exact k2 id
  · intro r hr
    obtain ⟨ref, _, rfl⟩ := List.mem_map.1 hr
    rfl

/-- As long as the program joins and leaves no room whose name is the id of a socket, `Join` of a remote socket makes the socket with its
id join the rooms, if it is connected, and changes nothing else. -/
theorem C69_join_partial (hd : RoomsAreNoIds h) (k : Nat) (r : Details) (hk : (Remote.run d h).remotes[k]? = some r) (rooms : List Room)
    (x : Sid) (room : Room) :
    room ∈ roomsOf (Remote.run d (h ++ [.rJoin k rooms])).n.ad x ↔
      room ∈ roomsOf (Remote.run d h).n.ad x ∨ (x = r.id ∧ Connected (Remote.run d h).n x ∧ room ∈ rooms) := by
  have i := rinv_of d h hd
  obtain ⟨_, _, k3⟩ := C06_socketsJoin (Remote.run d h).n i.ok [r.id] [] rooms (some { expectSingle := true })
  rw [remote_snoc]
  simp only [Remote.step, hk, only]
  rw [k3, sel_only i r.id (i.remotes r (List.mem_of_getElem? hk)), and_assoc]

/-- `Leave` of a remote socket likewise. -/
theorem C69_leave_partial (hd : RoomsAreNoIds h) (k : Nat) (r : Details) (hk : (Remote.run d h).remotes[k]? = some r) (rooms : List Room)
    (x : Sid) (room : Room) :
    room ∈ roomsOf (Remote.run d (h ++ [.rLeave k rooms])).n.ad x ↔
      room ∈ roomsOf (Remote.run d h).n.ad x ∧ ¬ (x = r.id ∧ Connected (Remote.run d h).n x ∧ room ∈ rooms) := by
  have i := rinv_of d h hd
  obtain ⟨_, _, k3⟩ := C06_socketsLeave d (Remote.run d h).n i.ok [r.id] [] rooms (some { expectSingle := true })
  rw [remote_snoc]
  simp only [Remote.step, hk, only]
  rw [k3, sel_only i r.id (i.remotes r (List.mem_of_getElem? hk)), and_assoc]

/-- `Disconnect` of a remote socket disconnects the socket with its id and no other. -/
theorem C69_disconnect_partial (hd : RoomsAreNoIds h) (k : Nat) (r : Details) (hk : (Remote.run d h).remotes[k]? = some r) (close : Bool) (x : Sid) :
    (Remote.run d (h ++ [.rDisconnect k close])).n.sockets.get? x = (if x = r.id then none else (Remote.run d h).n.sockets.get? x) ∧
    ∀ room, room ∈ roomsOf (Remote.run d (h ++ [.rDisconnect k close])).n.ad x ↔
      room ∈ roomsOf (Remote.run d h).n.ad x ∧ ¬ (x = r.id ∧ Connected (Remote.run d h).n x) := by
  have i := rinv_of d h hd
  have hI := i.remotes r (List.mem_of_getElem? hk)
  obtain ⟨_, _, _, _, k5, k6⟩ := C07_disconnectSockets d close (Remote.run d h).n i.ok [r.id] [] (some { expectSingle := true })
  rw [remote_snoc]
  simp only [Remote.step, hk, only]
  by_cases hs : Sel (Remote.run d h).n [r.id] [] x
  · have hx := (sel_only i r.id hI x).1 hs
    obtain ⟨k5a, k5b⟩ := k5 x hs
    refine ⟨?_, ?_⟩
    · rw [if_pos hx.1]
      cases e : FMap.get? _ x with
      | none => rfl
      | some ref => exact absurd ⟨ref, e⟩ k5a
    · intro room; rw [k5b]; simp only [List.not_mem_nil, false_iff]; exact fun h' => h'.2 hx
  · have hx : ¬ (x = r.id ∧ Connected (Remote.run d h).n x) := fun h' => hs ((sel_only i r.id hI x).2 h')
    obtain ⟨k6a, k6b⟩ := k6 x hs
    refine ⟨?_, ?_⟩
    · rw [k6a]
      by_cases e : x = r.id
      · rw [if_pos e]
        cases e' : FMap.get? _ x with
        | none => rfl
        | some ref => exact absurd ⟨e, ref, e'⟩ hx
      · rw [if_neg e]
    · intro room; rw [k6b]; simp [hx]

/-- `Emit` of a remote socket sends the packet to the socket with its id, once, if it is connected, and to no other. -/
theorem C69_emit_partial (hd : RoomsAreNoIds h) (k : Nat) (r : Details) (hk : (Remote.run d h).remotes[k]? = some r) (p : Pkt) :
    (Remote.run d (h ++ [.rEmit k p])).n.out = (Remote.run d h).n.out ++
      (match (Remote.run d h).n.sockets.get? r.id with
        | some ref => [(ref, p)]
        | none => []) := by
  have i := rinv_of d h hd
  have hI := i.remotes r (List.mem_of_getElem? hk)
  obtain ⟨ids, ptr, k1, k2, k3, k4⟩ := C03_broadcast (Remote.run d h).n i.ok p [r.id] [] (some { expectSingle := true })
  rw [remote_snoc]
  simp only [Remote.step, hk, only]
  rw [k4]
  have hin : ∀ x, x ∈ ids ↔ x = r.id ∧ Connected (Remote.run d h).n x := fun x => (k2 x).trans (sel_only i r.id hI x)
  congr 1
  cases e : (Remote.run d h).n.sockets.get? r.id with
  | none =>
    cases ids with
    | nil => rfl
    | cons a l =>
      obtain ⟨rfl, ref, h'⟩ := (hin a).1 (by simp)
      rw [e] at h'; cases h'
  | some ref =>
    have hm : r.id ∈ ids := (hin r.id).2 ⟨rfl, ref, e⟩
    cases ids with
    | nil => cases hm
    | cons a l =>
      obtain ⟨rfl, _⟩ := (hin a).1 (by simp)
      have hl : l = [] := by
        cases l with
        | nil => rfl
        | cons b l =>
          obtain ⟨rfl, _⟩ := (hin b).1 (by simp)
          simp at k1
      subst hl
      have := k3 r.id (by simp)
      rw [e] at this
      cases this
      rfl

/-- Hypotheses met: two sockets, a fetch, one goes and comes back under its id. -/
def Demo.remotes : List Remote.Ev :=
  [.connect "a" [], .connect "b" ["x"], .join 0 ["x"], .fetch ["x"] [], .disconnect 0 false, .connect "a" ["y", "a"], .rJoin 0 ["z"]]

example : RoomsAreNoIds Demo.remotes := by unfold RoomsAreNoIds; decide

example : (Remote.run true Demo.remotes).remotes = [{ id := "a", rooms := ["x", "a"] }, { id := "b", rooms := ["b", "x"] }] ∧
    roomsOf (Remote.run true Demo.remotes).n.ad "b" = ["b", "x"] ∧ roomsOf (Remote.run true Demo.remotes).n.ad "a" = ["z", "a", "y"] := by decide

/-- If another socket has joined the room named after the id, `Disconnect` of the remote socket disconnects it too. -/
theorem C69_others_fail : ∃ h r, (Remote.run true h).remotes = [r] ∧ r.id = "a" ∧ (Remote.run true h).n.sockets.get? "b" = some 1 ∧
    (Remote.run true (h ++ [.rDisconnect 0 false])).n.sockets.get? "b" = none :=
  ⟨[.connect "a" [], .connect "b" [], .fetch ["a"] [], .join 1 ["a"]], ⟨"a", ["a"]⟩, by decide⟩

/-- And if the socket has left the room named after its id, the remote socket does nothing to it. -/
theorem C69_left_fail : ∃ h r, (Remote.run true h).remotes = [r] ∧ r.id = "a" ∧ (Remote.run true h).n.sockets.get? "a" = some 0 ∧
    (Remote.run true (h ++ [.rDisconnect 0 true])).n.sockets.get? "a" = some 0 ∧
    (Remote.run true (h ++ [.rJoin 0 ["x"]])).n.ad = (Remote.run true h).n.ad :=
  ⟨[.connect "a" [], .fetch ["a"] [], .leave 0 "a"], ⟨"a", ["a"]⟩, by decide⟩

end Verif.Props
