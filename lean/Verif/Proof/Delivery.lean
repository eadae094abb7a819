import Verif.Model.Delivery
import Verif.Proof.Apply
import Verif.Proof.Rooms
import Verif.Spec.Targeting

/-! # Selections applied to the sockets of a namespace -/

namespace Verif.Delivery
open Verif Verif.Adapter

theorem OK.inv {n : Nsp} (h : OK n) : Inv n.ad :=
  ⟨h.wfRooms, h.wfSids, h.ndRooms, h.ndSids, h.nonempty, h.agree⟩

theorem ok_of_inv {n : Nsp} (h : Inv n.ad)
    (h1 : ∀ s ref, n.sockets.get? s = some ref → n.sidOf ref = s)
    (h2 : ∀ s ref, n.sockets.get? s = some ref → n.canJoin ref = true)
    (h3 : ∀ s ref, n.sockets.get? s = some ref → s ∈ n.ad.sids.keys) : OK n :=
  ⟨h.wfRooms, h.wfSids, h.ndRooms, h.ndSids, h.nonempty, h.agree, h1, h2, h3⟩

theorem mem_roomsOf {a : Ad} (h : Inv a) (s : Sid) (r : Room) : r ∈ roomsOf a s ↔ a.inRoom s r := by
  rw [h.agree]; unfold roomsOf socketRooms Ad.hasRoom
  cases a.sids.get? s <;> simp

theorem local_write (p : Pkt) : LocalCb view (write p) OK where
  inv := fun _ h => h.inv
  pres := fun _ _ _ h _ => ⟨h.1, h.2, h.3, h.4, h.5, h.6, h.7, h.8, h.9⟩
  inRoom := fun _ _ _ _ _ _ _ _ => Iff.rfl
  key := fun _ _ _ _ _ _ _ => Iff.rfl
  sock := fun _ _ _ _ _ _ _ => rfl

theorem ok_join {n : Nsp} (h : OK n) (rooms : List Room) (ref : Nat) : OK (join rooms n ref) := by
  unfold join
  split
  · obtain ⟨i, _, k⟩ := addAll_spec h.inv (n.sidOf ref) rooms
    exact ok_of_inv i h.ownId h.mayJoin (fun s r hs => (k s).2 (.inr (h.known s r hs)))
  · exact h

theorem local_join (rooms : List Room) : LocalCb view (join rooms) OK where
  inv := fun _ h => h.inv
  pres := fun _ _ _ h _ => ok_join h _ _
  inRoom := by
    intro n id ref h hs x hx r
    have hid := h.ownId id ref hs
    simp only [view, join]
    split
    · dsimp only; rw [(addAll_spec h.inv _ rooms).2.1, hid]; simp [hx]
    · exact Iff.rfl
  key := by
    intro n id ref h hs x hx
    have hid := h.ownId id ref hs
    simp only [view, join]
    split
    · dsimp only; rw [(addAll_spec h.inv _ rooms).2.2, hid]; simp [hx]
    · exact Iff.rfl
  sock := by
    intro n id ref h hs x hx
    simp only [view, join]
    split <;> rfl

theorem ok_leave {n : Nsp} (h : OK n) (d : Bool) (ref : Nat) (room : Room) :
    OK (leave d n ref room) := by
  obtain ⟨i, _, k⟩ := del_spec h.inv d (n.sidOf ref) room
  exact ok_of_inv i h.ownId h.mayJoin (fun s r hs => (k s).2 (h.known s r hs))

theorem leaveEach_spec {n : Nsp} (h : OK n) (d : Bool) (rooms : List Room) (ref : Nat) :
    OK (leaveEach d rooms n ref) ∧
    (leaveEach d rooms n ref).sockets = n.sockets ∧
    (leaveEach d rooms n ref).sidOf = n.sidOf ∧
    (leaveEach d rooms n ref).out = n.out ∧
    (∀ s r, (leaveEach d rooms n ref).ad.inRoom s r ↔
      n.ad.inRoom s r ∧ ¬ (s = n.sidOf ref ∧ r ∈ rooms)) ∧
    (∀ s, s ∈ (leaveEach d rooms n ref).ad.sids.keys ↔ s ∈ n.ad.sids.keys) := by
  unfold leaveEach
  induction rooms generalizing n with
  | nil => simp [h]
  | cons room rooms ih =>
    obtain ⟨i1, i2, i3, i4, i5, i6⟩ := ih (ok_leave h d ref room)
    obtain ⟨_, j, k⟩ := del_spec h.inv d (n.sidOf ref) room
    rw [List.foldl_cons]
    refine ⟨i1, i2, i3, i4, ?_, ?_⟩
    · intro s r
      rw [i5]
      show (del d n.ad (n.sidOf ref) room).1.inRoom s r ∧ ¬ (s = n.sidOf ref ∧ r ∈ rooms) ↔ _
      rw [j, List.mem_cons]
      constructor
      · rintro ⟨⟨a, b⟩, c⟩
        refine ⟨a, ?_⟩
        rintro ⟨e, f | f⟩
        · exact b ⟨e, f⟩
        · exact c ⟨e, f⟩
      · rintro ⟨a, b⟩
        exact ⟨⟨a, fun hh => b ⟨hh.1, .inl hh.2⟩⟩, fun hh => b ⟨hh.1, .inr hh.2⟩⟩
    · intro s; rw [i6]; exact k s

theorem local_leaveEach (d : Bool) (rooms : List Room) : LocalCb view (leaveEach d rooms) OK where
  inv := fun _ h => h.inv
  pres := fun _ _ _ h _ => (leaveEach_spec h d rooms _).1
  inRoom := by
    intro n id ref h hs x hx r
    have hid := h.ownId id ref hs
    simp only [view]
    rw [(leaveEach_spec h d rooms ref).2.2.2.2.1, hid]; simp [hx]
  key := by
    intro n id ref h hs x hx
    exact (leaveEach_spec h d rooms ref).2.2.2.2.2 x
  sock := by
    intro n id ref h hs x hx
    simp only [view]; rw [(leaveEach_spec h d rooms ref).2.1]

/-- The ids visited by `apply` are those selected. -/
theorem visited_iff {cb : Nsp → Nat → Nsp} (hl : LocalCb view cb OK) {n : Nsp} (h : OK n)
    (opts : Option Opts) (x : Sid) :
    x ∈ (apply view opts cb n).2 ↔
      Spec.Selected (fun s => ∃ ref, n.sockets.get? s = some ref) (fun s r => r ∈ roomsOf n.ad s)
        (Opts.targets opts) (Opts.excepts opts) x := by
  rw [(apply_spec hl opts n h).2.2.2 x]
  unfold Spec.Selected Spec.Matches
  simp only [mem_roomsOf h.inv, view]
  constructor
  · rintro ⟨a, b, c⟩
    refine ⟨a, ?_, c⟩
    split at b
    · rename_i e; exact .inl e
    · exact .inr b
  · rintro ⟨a, b, c⟩
    refine ⟨a, ?_, c⟩
    split
    · obtain ⟨ref, hr⟩ := a; exact h.known _ _ hr
    · rename_i e
      rcases b with b | b
      · exact absurd b e
      · exact b

/-- Effect of visiting a list of distinct registered ids with `write`. -/
theorem foldl_write (p : Pkt) (ids : List Sid) (n : Nsp) (f : Sid → Nat)
    (hf : ∀ x ∈ ids, n.sockets.get? x = some (f x)) :
    ids.foldl (visit view (write p)) n = { n with out := n.out ++ ids.map (fun x => (f x, p)) } := by
  induction ids generalizing n with
  | nil => simp
  | cons x ids ih =>
    have hx := hf x (by simp)
    rw [List.foldl_cons]
    have : visit view (write p) n x = { n with out := n.out ++ [(f x, p)] } := by
      simp [visit, view, hx, write]
    rw [this, ih]
    · simp
    · intro y hy; exact hf y (by simp [hy])

/-- Effect of visiting with `join`. -/
theorem foldl_join (rooms : List Room) (ids : List Sid) (n : Nsp) (h : OK n)
    (hf : ∀ x ∈ ids, ∃ ref, n.sockets.get? x = some ref) :
    OK (ids.foldl (visit view (join rooms)) n) ∧
    (ids.foldl (visit view (join rooms)) n).sockets = n.sockets ∧
    (∀ s r, (ids.foldl (visit view (join rooms)) n).ad.inRoom s r ↔
      n.ad.inRoom s r ∨ (s ∈ ids ∧ r ∈ rooms)) := by
  induction ids generalizing n with
  | nil => simp [h]
  | cons x ids ih =>
    obtain ⟨ref, hx⟩ := hf x (by simp)
    have hv : visit view (join rooms) n x = join rooms n ref := by simp [visit, view, hx]
    have hcj := h.mayJoin x ref hx
    have hid := h.ownId x ref hx
    have hj : (join rooms n ref).sockets = n.sockets := by unfold join; split <;> rfl
    rw [List.foldl_cons, hv]
    obtain ⟨i1, i2, i3⟩ := ih (join rooms n ref) (ok_join h _ _)
      (fun y hy => by rw [hj]; exact hf y (by simp [hy]))
    refine ⟨i1, i2.trans hj, ?_⟩
    intro s r
    rw [i3]
    have : (join rooms n ref).ad.inRoom s r ↔ n.ad.inRoom s r ∨ (s = x ∧ r ∈ rooms) := by
      unfold join; rw [if_pos hcj]; dsimp only; rw [(addAll_spec h.inv _ rooms).2.1, hid]
    rw [this, List.mem_cons]
    constructor
    · rintro ((a | ⟨a, b⟩) | ⟨a, b⟩)
      · exact .inl a
      · exact .inr ⟨.inl a, b⟩
      · exact .inr ⟨.inr a, b⟩
    · rintro (a | ⟨a | a, b⟩)
      · exact .inl (.inl a)
      · exact .inl (.inr ⟨a, b⟩)
      · exact .inr ⟨a, b⟩

theorem foldl_leave (d : Bool) (rooms : List Room) (ids : List Sid) (n : Nsp) (h : OK n)
    (hf : ∀ x ∈ ids, ∃ ref, n.sockets.get? x = some ref) :
    OK (ids.foldl (visit view (leaveEach d rooms)) n) ∧
    (ids.foldl (visit view (leaveEach d rooms)) n).sockets = n.sockets ∧
    (∀ s r, (ids.foldl (visit view (leaveEach d rooms)) n).ad.inRoom s r ↔
      n.ad.inRoom s r ∧ ¬ (s ∈ ids ∧ r ∈ rooms)) := by
  induction ids generalizing n with
  | nil => simp [h]
  | cons x ids ih =>
    obtain ⟨ref, hx⟩ := hf x (by simp)
    have hv : visit view (leaveEach d rooms) n x = leaveEach d rooms n ref := by simp [visit, view, hx]
    have hid := h.ownId x ref hx
    obtain ⟨e1, e2, _, _, e5, _⟩ := leaveEach_spec h d rooms ref
    rw [List.foldl_cons, hv]
    obtain ⟨i1, i2, i3⟩ := ih (leaveEach d rooms n ref) e1
      (fun y hy => by rw [e2]; exact hf y (by simp [hy]))
    refine ⟨i1, i2.trans e2, ?_⟩
    intro s r
    rw [i3, e5, hid, List.mem_cons]
    constructor
    · rintro ⟨⟨a, b⟩, c⟩
      refine ⟨a, ?_⟩
      rintro ⟨e | e, f⟩
      · exact b ⟨e, f⟩
      · exact c ⟨e, f⟩
    · rintro ⟨a, b⟩
      exact ⟨⟨a, fun hh => b ⟨.inl hh.1, hh.2⟩⟩, fun hh => b ⟨.inr hh.1, hh.2⟩⟩

end Verif.Delivery

namespace Verif.Delivery
open Verif Verif.Adapter

/-- Collecting callbacks that leave the namespace alone. -/
theorem local_collect {β : Type} (f : List β → Nat → List β) :
    LocalCb (σ := Nsp × List β) (ρ := Nat) ⟨fun s => s.1.ad, fun s id => s.1.sockets.get? id⟩
      (fun s ref => (s.1, f s.2 ref)) (fun s => OK s.1) where
  inv := fun _ h => h.inv
  pres := fun _ _ _ h _ => h
  inRoom := fun _ _ _ _ _ _ _ _ => Iff.rfl
  key := fun _ _ _ _ _ _ _ => Iff.rfl
  sock := fun _ _ _ _ _ _ _ => rfl

theorem collect_visited {β : Type} (f : List β → Nat → List β) {n : Nsp} (h : OK n) (b : List β)
    (opts : Option Opts) (x : Sid) :
    x ∈ (apply (σ := Nsp × List β) ⟨fun s => s.1.ad, fun s id => s.1.sockets.get? id⟩ opts
        (fun s ref => (s.1, f s.2 ref)) (n, b)).2 ↔
      Spec.Selected (fun s => ∃ ref, n.sockets.get? s = some ref) (fun s r => r ∈ roomsOf n.ad s)
        (Opts.targets opts) (Opts.excepts opts) x := by
  rw [(apply_spec (local_collect f) opts (n, b) h).2.2.2 x]
  unfold Spec.Selected Spec.Matches
  simp only [mem_roomsOf h.inv]
  constructor
  · rintro ⟨a, b, c⟩
    refine ⟨a, ?_, c⟩
    split at b
    · rename_i e; exact .inl e
    · exact .inr b
  · rintro ⟨a, b, c⟩
    refine ⟨a, ?_, c⟩
    split
    · obtain ⟨ref, hr⟩ := a; exact h.known _ _ hr
    · rename_i e
      rcases b with b | b
      · exact absurd b e
      · exact b

theorem foldl_collect {β : Type} (f : List β → Nat → List β) (ids : List Sid) (n : Nsp) (b : List β)
    (g : Sid → Nat) (hg : ∀ x ∈ ids, n.sockets.get? x = some (g x)) :
    ids.foldl (visit (σ := Nsp × List β) ⟨fun s => s.1.ad, fun s id => s.1.sockets.get? id⟩
      (fun s ref => (s.1, f s.2 ref))) (n, b) = (n, (ids.map g).foldl f b) := by
  induction ids generalizing b with
  | nil => rfl
  | cons x ids ih =>
    have hx := hg x (by simp)
    simp only [List.foldl_cons, List.map_cons]
    rw [show visit (σ := Nsp × List β) ⟨fun s => s.1.ad, fun s id => s.1.sockets.get? id⟩
      (fun s ref => (s.1, f s.2 ref)) (n, b) x = (n, f b (g x)) by simp [visit, hx]]
    exact ih _ (fun y hy => hg y (by simp [hy]))

end Verif.Delivery

namespace Verif.Delivery
open Verif Verif.Adapter

theorem ok_kick {n : Nsp} (h : OK n) (d close : Bool) (ref : Nat) : OK (kick d close n ref) := by
  obtain ⟨i, _, k⟩ := delAll_spec h.inv d (n.sidOf ref)
  refine ok_of_inv i ?_ ?_ ?_
  · intro s r hs
    simp only [kick, FMap.get?_erase] at hs
    split at hs
    · cases hs
    · exact h.ownId s r hs
  · intro s r hs
    simp only [kick, FMap.get?_erase] at hs ⊢
    split at hs
    · cases hs
    · rename_i hne
      have : r ≠ ref := by rintro rfl; exact hne (h.ownId s r hs)
      simp [this, h.mayJoin s r hs]
  · intro s r hs
    simp only [kick, FMap.get?_erase] at hs ⊢
    split at hs
    · cases hs
    · rename_i hne
      exact (k s).2 ⟨h.known s r hs, fun e => hne e.symm⟩

theorem local_kick (d close : Bool) : LocalCb view (kick d close) OK where
  inv := fun _ h => h.inv
  pres := fun _ _ _ h _ => ok_kick h _ _ _
  inRoom := by
    intro n id ref h hs x hx r
    have hid := h.ownId id ref hs
    simp only [view, kick]
    rw [(delAll_spec h.inv d _).2.1, hid]; simp [hx]
  key := by
    intro n id ref h hs x hx
    have hid := h.ownId id ref hs
    simp only [view, kick]
    rw [(delAll_spec h.inv d _).2.2, hid]; simp [hx]
  sock := by
    intro n id ref h hs x hx
    have hid := h.ownId id ref hs
    have : ¬ id = x := fun e => hx e.symm
    simp [view, kick, FMap.get?_erase, hid, this]

theorem foldl_kick (d close : Bool) (ids : List Sid) (n : Nsp) (h : OK n) (nd : ids.Nodup) (f : Sid → Nat)
    (hf : ∀ x ∈ ids, n.sockets.get? x = some (f x)) :
    let n' := ids.foldl (visit view (kick d close)) n
    OK n' ∧ n'.kicked = n.kicked ++ ids.map (fun x => (f x, close)) ∧ n'.out = n.out ∧ n'.sidOf = n.sidOf ∧
    (∀ s, n'.sockets.get? s = if s ∈ ids then none else n.sockets.get? s) ∧
    (∀ r, n'.canJoin r = (n.canJoin r && !(ids.map f).contains r)) ∧
    (∀ s r, n'.ad.inRoom s r ↔ n.ad.inRoom s r ∧ s ∉ ids) := by
  induction ids generalizing n with
  | nil => simp [h]
  | cons x ids ih =>
    have hx := hf x (by simp)
    have hv : visit view (kick d close) n x = kick d close n (f x) := by simp [visit, view, hx]
    have hid := h.ownId x (f x) hx
    have hnd := List.nodup_cons.1 nd
    simp only [List.foldl_cons, hv]
    obtain ⟨i1, i2, i3, i4, i5, i6, i7⟩ := ih (kick d close n (f x)) (ok_kick h d close (f x)) hnd.2
      (fun y hy => by
        have : x ≠ y := by rintro rfl; exact hnd.1 hy
        simp [kick, hid, FMap.get?_erase, this, hf y (by simp [hy])])
    refine ⟨i1, ?_, i3, i4, ?_, ?_, ?_⟩
    · rw [i2]; simp [kick]
    · intro s
      rw [i5]
      by_cases hs : s = x
      · subst hs; simp [kick, hid]
      · have : ¬ x = s := fun e => hs e.symm
        simp [kick, hid, FMap.get?_erase, this, hs]
    · intro r
      rw [i6]
      by_cases hr : r = f x
      · subst hr; simp [kick]
      · simp [kick, hr]
    · intro s r
      rw [i7]
      simp only [kick, (delAll_spec h.inv d _).2.1, hid, List.mem_cons, not_or, and_assoc]

end Verif.Delivery
