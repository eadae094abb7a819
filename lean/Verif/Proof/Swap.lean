import Verif.Spec.Swap
import Verif.Proof.Apply
import Verif.Proof.Delivery
import Verif.Lib.ListExtra

namespace Verif.Swap
open Verif Verif.Adapter Verif.Spec

theorem put_apply {α β : Type} [DecidableEq α] (f : α → β) (a : α) (b : β) (x : α) : put f a b x = if x = a then b else f x := rfl

/-- What holds at every moment. -/
structure J (s : St) : Prop where
  inv : ∀ g, Adapter.Inv (s.tabs g)
  mine : ∀ g id, id ∈ (s.tabs g).sids.keys → s.own id = some g
  open_ : ∀ id, s.reg id = true → s.canJoin id = true
  known : ∀ id g, s.reg id = true → s.own id = some g → id ∈ (s.tabs g).sids.keys
  made : ∀ id, s.canJoin id = true → ∃ g, s.own id = some g
  old : ∀ id g, s.own id = some g → g ≤ s.cur

theorem j_init : J {} := by
  constructor <;> simp [inv_empty, FMap.keys]

theorem join_eq {s : St} {id : Sid} {g : Nat} (ho : s.own id = some g) (hc : s.canJoin id = true) (rs : List Room) :
    join rs s id = { s with tabs := put s.tabs g (addAll (s.tabs g) id rs).1 } := by
  simp [join, ho, hc]

/-- What changes in the tables. -/
structure Only (s s' : St) (id : Sid) (P : Room → Prop → Prop) : Prop where
  j : J s'
  own : s'.own = s.own
  cur : s'.cur = s.cur
  kept : s'.kept = s.kept
  room : ∀ g x r, (s'.tabs g).inRoom x r ↔ if x = id ∧ s.own id = some g then P r ((s.tabs g).inRoom x r) else (s.tabs g).inRoom x r
  key : ∀ g x, x ≠ id → (x ∈ (s'.tabs g).sids.keys ↔ x ∈ (s.tabs g).sids.keys)
  reg : ∀ x, x ≠ id → s'.reg x = s.reg x
  can : ∀ x, x ≠ id → s'.canJoin x = s.canJoin x

theorem inRoom_key {a : Ad} (h : Adapter.Inv a) {x : Sid} {r : Room} (hr : a.inRoom x r) : x ∈ a.sids.keys := by
  obtain ⟨l, h1, _⟩ := (h.agree x r).1 hr
  exact (FMap.mem_keys_iff _ _).2 (by rw [h1]; simp)

theorem join_only {s : St} (j : J s) (rs : List Room) (id : Sid) (hc : s.canJoin id = true) :
    Only s (join rs s id) id (fun r p => p ∨ r ∈ rs) ∧ (join rs s id).reg = s.reg ∧ (join rs s id).canJoin = s.canJoin := by
  obtain ⟨g, ho⟩ := j.made id hc
  rw [join_eq ho hc]
  obtain ⟨i, m, k⟩ := addAll_spec (j.inv g) id rs
  refine ⟨⟨⟨?_, ?_, j.open_, ?_, j.made, j.old⟩, rfl, rfl, rfl, ?_, ?_, fun _ _ => rfl, fun _ _ => rfl⟩, rfl, rfl⟩
  · intro g'; simp only [put_apply]; split
    · exact i
    · exact j.inv g'
  · intro g' x; simp only [put_apply]; split
    · rename_i e; subst e
      rw [k x]; rintro (rfl | h)
      · exact ho
      · exact j.mine _ x h
    · exact j.mine g' x
  · intro x g' hx ho'; simp only [put_apply]; split
    · rename_i e; subst e
      exact (k x).2 (.inr (j.known x _ hx ho'))
    · exact j.known x g' hx ho'
  · intro g' x r; simp only [put_apply, ho]
    by_cases e : g' = g
    · subst e; rw [if_pos rfl, m]
      by_cases ex : x = id <;> simp [ex]
    · rw [if_neg e, if_neg (by rintro ⟨_, h⟩; exact e (Option.some.inj h).symm)]
  · intro g' x hx; simp only [put_apply]; split
    · rename_i e; subst e; rw [k x]; simp [hx]
    · exact Iff.rfl

theorem join_closed {s : St} (rs : List Room) (id : Sid) (hc : s.canJoin id ≠ true) : join rs s id = s := by
  unfold join; split
  · rw [if_neg hc]
  · rfl

theorem leave_only (d : Bool) {s : St} (j : J s) (room : Room) (id : Sid) :
    Only s (leave d s id room) id (fun r p => p ∧ r ≠ room) ∧ (leave d s id room).reg = s.reg ∧
      (leave d s id room).canJoin = s.canJoin := by
  unfold leave
  cases ho : s.own id with
  | none =>
    refine ⟨⟨j, rfl, rfl, rfl, ?_, fun _ _ _ => Iff.rfl, fun _ _ => rfl, fun _ _ => rfl⟩, rfl, rfl⟩
    intro g x r; rw [if_neg (by rintro ⟨_, h⟩; rw [ho] at h; cases h)]
  | some g =>
    obtain ⟨i, m, k⟩ := del_spec (j.inv g) d id room
    refine ⟨⟨⟨?_, ?_, j.open_, ?_, j.made, j.old⟩, rfl, rfl, rfl, ?_, ?_, fun _ _ => rfl, fun _ _ => rfl⟩, rfl, rfl⟩
    · intro g'; simp only [put_apply]; split
      · exact i
      · exact j.inv g'
    · intro g' x; simp only [put_apply]; split
      · rename_i e; subst e; rw [k x]; exact j.mine _ x
      · exact j.mine g' x
    · intro x g' hx ho'; simp only [put_apply]; split
      · rename_i e; subst e; exact (k x).2 (j.known x _ hx ho')
      · exact j.known x g' hx ho'
    · intro g' x r; simp only [put_apply, ho]
      by_cases e : g' = g
      · subst e; rw [if_pos rfl, m]
        by_cases ex : x = id <;> simp [ex]
      · rw [if_neg e, if_neg (by rintro ⟨_, h⟩; exact e (Option.some.inj h).symm)]
    · intro g' x hx; simp only [put_apply]; split
      · rename_i e; subst e; rw [k x]
      · exact Iff.rfl

theorem cleanup_only (d : Bool) {s : St} (j : J s) (id : Sid) :
    Only s (cleanup d s id) id (fun _ _ => False) ∧ (cleanup d s id).reg id = false ∧ (cleanup d s id).canJoin id = false := by
  unfold cleanup
  cases ho : s.own id with
  | none =>
    have hc : s.canJoin id = false := by
      cases h : s.canJoin id with
      | false => rfl
      | true => obtain ⟨g, hg⟩ := j.made id h; rw [ho] at hg; cases hg
    have hr : s.reg id = false := by
      cases h : s.reg id with
      | false => rfl
      | true => have := j.open_ id h; rw [hc] at this; cases this
    refine ⟨⟨j, rfl, rfl, rfl, ?_, fun _ _ _ => Iff.rfl, fun _ _ => rfl, fun _ _ => rfl⟩, hr, hc⟩
    intro g x r; rw [if_neg (by rintro ⟨_, h⟩; rw [ho] at h; cases h)]
  | some g =>
    obtain ⟨i, m, k⟩ := delAll_spec (j.inv g) d id
    refine ⟨⟨⟨?_, ?_, ?_, ?_, ?_, j.old⟩, rfl, rfl, rfl, ?_, ?_, ?_, ?_⟩, by simp [put_apply], by simp [put_apply]⟩
    · intro g'; simp only [put_apply]; split
      · exact i
      · exact j.inv g'
    · intro g' x; simp only [put_apply]; split
      · rename_i e; subst e; rw [k x]; intro h; exact j.mine _ x (by first | exact h.2 | exact h.1)
      · exact j.mine g' x
    · intro x; simp only [put_apply]; split
      · intro h; cases h
      · exact j.open_ x
    · intro x g'; simp only [put_apply]
      split
      · intro h; cases h
      · rename_i hx; intro h ho'; split
        · rename_i e; subst e; rw [k x]; first | exact ⟨hx, j.known x _ h ho'⟩ | exact ⟨j.known x _ h ho', hx⟩
        · exact j.known x g' h ho'
    · intro x; simp only [put_apply]; split
      · intro h; cases h
      · exact j.made x
    · intro g' x r; simp only [put_apply, ho]
      by_cases e : g' = g
      · subst e; rw [if_pos rfl, m]
        by_cases ex : x = id <;> simp [ex]
      · rw [if_neg e, if_neg (by rintro ⟨_, h⟩; exact e (Option.some.inj h).symm)]
    · intro g' x hx; simp only [put_apply]; split
      · rename_i e; subst e; rw [k x]; simp [hx]
      · exact Iff.rfl
    · intro x hx; simp [put_apply, hx]
    · intro x hx; simp [put_apply, hx]

theorem leaves_only (d : Bool) (left : List Room) {s : St} (j : J s) (id : Sid) :
    Only s (left.foldl (fun s r => leave d s id r) s) id (fun r p => p ∧ r ∉ left) ∧
      (left.foldl (fun s r => leave d s id r) s).reg = s.reg ∧ (left.foldl (fun s r => leave d s id r) s).canJoin = s.canJoin := by
  induction left generalizing s with
  | nil =>
    refine ⟨⟨j, rfl, rfl, rfl, ?_, fun _ _ _ => Iff.rfl, fun _ _ => rfl, fun _ _ => rfl⟩, rfl, rfl⟩
    intro g x r; simp
  | cons a left ih =>
    obtain ⟨o1, r1, c1⟩ := leave_only d j a id
    obtain ⟨o2, r2, c2⟩ := ih o1.j
    refine ⟨⟨o2.j, o2.own.trans o1.own, o2.cur.trans o1.cur, o2.kept.trans o1.kept, ?_,
      fun g x hx => (o2.key g x hx).trans (o1.key g x hx), fun x hx => (o2.reg x hx).trans (o1.reg x hx),
      fun x hx => (o2.can x hx).trans (o1.can x hx)⟩, r2.trans r1, c2.trans c1⟩
    intro g x r
    rw [List.foldl_cons, o2.room, o1.own, o1.room]
    split
    · simp only [List.mem_cons, not_or]; constructor
      · rintro ⟨⟨h1, h2⟩, h3⟩; exact ⟨h1, h2, h3⟩
      · rintro ⟨h1, h2, h3⟩; exact ⟨⟨h1, h2⟩, h3⟩
    · exact Iff.rfl

/-- The callback changes only the socket it is called for, and only if it is connected. -/
def Cb (cb : St → Sid → St) (P : Room → Prop → Prop) : Prop := ∀ s id, J s → s.reg id = true → Only s (cb s id) id P

theorem cb_join (rs : List Room) : Cb (join rs) (fun r p => p ∨ r ∈ rs) := fun _ id j h => (join_only j rs id (j.open_ id h)).1

theorem cb_leave (d : Bool) (left : List Room) : Cb (fun s id => left.foldl (fun s r => leave d s id r) s) (fun r p => p ∧ r ∉ left) :=
  fun _ id j _ => (leaves_only d left j id).1

theorem cb_cleanup (d : Bool) : Cb (cleanup d) (fun _ _ => False) := fun _ id j _ => (cleanup_only d j id).1

theorem cb_same : Cb (fun s _ => s) (fun _ p => p) := fun _ _ j _ =>
  ⟨j, rfl, rfl, rfl, fun _ _ _ => by simp, fun _ _ _ => Iff.rfl, fun _ _ => rfl, fun _ _ => rfl⟩

theorem sock_eq {s : St} {g : Nat} {id p : Sid} (h : (view g).sock s id = some p) : s.reg id = true ∧ p = id := by
  simp only [view] at h
  split at h
  · rename_i e; exact ⟨e, (Option.some.inj h).symm⟩
  · cases h

theorem local_cb {cb : St → Sid → St} {P : Room → Prop → Prop} (hc : Cb cb P) (g : Nat) : LocalCb (view g) cb J where
  inv := fun _ j => j.inv g
  pres := by
    intro s id p j h
    obtain ⟨h, rfl⟩ := sock_eq h
    exact (hc s _ j h).j
  inRoom := by
    intro s id p j h x hx r
    obtain ⟨h, rfl⟩ := sock_eq h
    show ((cb s _).tabs g).inRoom x r ↔ _
    rw [(hc s _ j h).room, if_neg (fun e => hx e.1)]; exact Iff.rfl
  key := by
    intro s id p j h x hx
    obtain ⟨h, rfl⟩ := sock_eq h
    exact (hc s _ j h).key g x hx
  sock := by
    intro s id p j h x hx
    obtain ⟨h, rfl⟩ := sock_eq h
    simp only [view, (hc s _ j h).reg x hx]

theorem fold_cb {cb : St → Sid → St} {P : Room → Prop → Prop} (hc : Cb cb P) (g : Nat) (ids : List Sid) (s : St) (j : J s)
    (nd : ids.Nodup) (hr : ∀ x ∈ ids, s.reg x = true) :
    let s' := ids.foldl (visit (view g) cb) s
    J s' ∧ s'.own = s.own ∧ s'.cur = s.cur ∧ s'.kept = s.kept ∧
    (∀ g' x r, (s'.tabs g').inRoom x r ↔ if x ∈ ids ∧ s.own x = some g' then P r ((s.tabs g').inRoom x r) else (s.tabs g').inRoom x r) ∧
    (∀ x, x ∉ ids → s'.reg x = s.reg x ∧ s'.canJoin x = s.canJoin x) := by
  induction ids generalizing s with
  | nil => exact ⟨j, rfl, rfl, rfl, fun _ _ _ => by simp, fun _ _ => ⟨rfl, rfl⟩⟩
  | cons a ids ih =>
    have ha := hr a List.mem_cons_self
    have hv : visit (view g) cb s a = cb s a := by simp [visit, view, ha]
    have o := hc s a j ha
    have nd' := List.nodup_cons.1 nd
    intro s'
    have hs' : s' = ids.foldl (visit (view g) cb) (cb s a) := by simp only [s', List.foldl_cons, hv]
    obtain ⟨k1, k2, k3, k4, k5, k6⟩ := ih (cb s a) o.j nd'.2 (fun x hx => by
      rw [o.reg x (fun e => nd'.1 (e ▸ hx))]; exact hr x (List.mem_cons_of_mem _ hx))
    rw [← hs'] at k1 k2 k3 k4 k5 k6
    refine ⟨k1, k2.trans o.own, k3.trans o.cur, k4.trans o.kept, ?_, ?_⟩
    · intro g' x r
      rw [k5, o.own, o.room]
      by_cases e : x = a
      · subst e
        rw [if_neg (fun h => nd'.1 h.1)]
        simp
      · simp only [e, false_and, if_false, List.mem_cons, false_or]
    · intro x hx
      rw [List.mem_cons, not_or] at hx
      exact ⟨(k6 x hx.2).1.trans (o.reg x hx.1), (k6 x hx.2).2.trans (o.can x hx.1)⟩

theorem mem_rooms {s : St} (j : J s) {id : Sid} {g : Nat} (ho : s.own id = some g) (r : Room) :
    r ∈ rooms s id ↔ (s.tabs g).inRoom id r := by
  have := Delivery.mem_roomsOf (j.inv g) id r
  rw [← this]; unfold rooms; rw [ho]; unfold roomsOf socketRooms
  dsimp only
  cases (s.tabs g).sids.get? id <;> simp

theorem visited {cb : St → Sid → St} {P : Room → Prop → Prop} (hc : Cb cb P) (g : Nat) {s : St} (j : J s) (rs ex : List Room) (x : Sid) :
    x ∈ (apply (view g) (opts rs ex) cb s).2 ↔
      s.own x = some g ∧ Selected (fun x => s.reg x = true) (fun x r => r ∈ rooms s x) rs ex x := by
  rw [(apply_spec (local_cb hc g) (opts rs ex) s j).2.2.2 x]
  have hsock : (∃ p, (view g).sock s x = some p) ↔ s.reg x = true := by
    simp only [view]; split <;> simp_all
  rw [hsock]
  rw [show Opts.targets (opts rs ex) = rs from rfl, show Opts.excepts (opts rs ex) = ex from rfl]
  simp only [Selected, Spec.Matches, view]
  constructor
  · rintro ⟨h1, h2, h3⟩
    have ho : s.own x = some g := by
      by_cases e : rs = []
      · rw [if_pos e] at h2; exact j.mine g x h2
      · rw [if_neg e] at h2; obtain ⟨r, _, h⟩ := h2; exact j.mine g x (inRoom_key (j.inv g) h)
    refine ⟨ho, h1, ?_, ?_⟩
    · by_cases e : rs = []
      · exact .inl e
      · rw [if_neg e] at h2; obtain ⟨r, hr, h⟩ := h2; exact .inr ⟨r, hr, (mem_rooms j ho r).2 h⟩
    · rintro ⟨r, hr, h⟩; exact h3 ⟨r, hr, (mem_rooms j ho r).1 h⟩
  · rintro ⟨ho, h1, h2, h3⟩
    refine ⟨h1, ?_, ?_⟩
    · by_cases e : rs = []
      · rw [if_pos e]; exact j.known x g h1 ho
      · rw [if_neg e]
        rcases h2 with h | ⟨r, hr, h⟩
        · exact absurd h e
        · exact ⟨r, hr, (mem_rooms j ho r).1 h⟩
    · rintro ⟨r, hr, h⟩; exact h3 ⟨r, hr, (mem_rooms j ho r).2 h⟩

/-- A call on many sockets. -/
theorem bulk {cb : St → Sid → St} {P : Room → Prop → Prop} (hc : Cb cb P) (g : Nat) {s : St} (j : J s) (rs ex : List Room) :
    let s' := (apply (view g) (opts rs ex) cb s).1
    let hit := fun x => s.own x = some g ∧ Selected (fun x => s.reg x = true) (fun x r => r ∈ rooms s x) rs ex x
    J s' ∧ s'.own = s.own ∧ s'.cur = s.cur ∧ s'.kept = s.kept ∧
    (∀ x r, (hit x → (r ∈ rooms s' x ↔ P r (r ∈ rooms s x))) ∧ (¬ hit x → (r ∈ rooms s' x ↔ r ∈ rooms s x))) ∧
    (∀ x, ¬ hit x → s'.reg x = s.reg x ∧ s'.canJoin x = s.canJoin x) := by
  intro s' hit
  obtain ⟨h1, nd, _, _⟩ := apply_spec (local_cb hc g) (opts rs ex) s j
  have hv := fun x => visited hc g j rs ex x
  obtain ⟨k1, k2, k3, k4, k5, k6⟩ := fold_cb hc g _ s j nd (fun x hx => ((hv x).1 hx).2.1)
  rw [← h1] at k1 k2 k3 k4 k5 k6
  refine ⟨k1, k2, k3, k4, ?_, fun x hx => k6 x (fun h => hx ((hv x).1 h))⟩
  intro x r
  cases ho : s.own x with
  | none =>
    have e : rooms s' x = [] := by unfold rooms; rw [k2, ho]
    have e' : rooms s x = [] := by unfold rooms; rw [ho]
    refine ⟨fun h => ?_, fun _ => by rw [e, e']⟩
    have := h.1; rw [ho] at this; cases this
  | some g' =>
    rw [mem_rooms k1 (by rw [k2]; exact ho), mem_rooms j ho, k5]
    constructor
    · intro h
      have : g' = g := by have := h.1; rw [ho] at this; exact Option.some.inj this
      subst this
      rw [if_pos ⟨(hv x).2 h, ho⟩]
    · intro h; rw [if_neg (fun hh => h ((hv x).1 hh.1))]

theorem can_fold {cb : St → Sid → St} {P : Room → Prop → Prop} (hc : Cb cb P)
    (hj : ∀ s id, J s → s.reg id = true → ∀ x, (cb s id).canJoin x = true → s.canJoin x = true) (g : Nat) (ids : List Sid) (s : St)
    (j : J s) (x : Sid) (h : (ids.foldl (visit (view g) cb) s).canJoin x = true) : s.canJoin x = true := by
  induction ids generalizing s with
  | nil => exact h
  | cons a ids ih =>
    rw [List.foldl_cons] at h
    by_cases ha : s.reg a = true
    · have hv : visit (view g) cb s a = cb s a := by simp [visit, view, ha]
      rw [hv] at h
      exact hj s a j ha x (ih _ (hc s a j ha).j h)
    · have hv : visit (view g) cb s a = s := by simp [visit, view, ha]
      rw [hv] at h
      exact ih _ j h

theorem can_bulk {cb : St → Sid → St} {P : Room → Prop → Prop} (hc : Cb cb P)
    (hj : ∀ s id, J s → s.reg id = true → ∀ x, (cb s id).canJoin x = true → s.canJoin x = true) (g : Nat) {s : St} (j : J s)
    (rs ex : List Room) (x : Sid) (h : (apply (view g) (opts rs ex) cb s).1.canJoin x = true) : s.canJoin x = true := by
  rw [(apply_spec (local_cb hc g) (opts rs ex) s j).1] at h
  exact can_fold hc hj g _ s j x h

theorem drop_j (d : Bool) {s : St} (j : J s) (id : Sid) :
    J (drop d s id) ∧ (drop d s id).own = s.own ∧ (drop d s id).cur = s.cur ∧ (drop d s id).kept = s.kept ∧
      ∀ x, (drop d s id).canJoin x = true → s.canJoin x = true := by
  unfold drop
  cases ho : s.own id with
  | none => exact ⟨j, rfl, rfl, rfl, fun _ h => h⟩
  | some g =>
    dsimp only
    split
    · have j' : J { s with saved := s.saved ++ [(g, id, rooms s id)] } := ⟨j.inv, j.mine, j.open_, j.known, j.made, j.old⟩
      obtain ⟨o, _, hc⟩ := cleanup_only d j' id
      refine ⟨o.j, o.own, o.cur, o.kept, ?_⟩
      intro x hx
      by_cases e : x = id
      · subst e; rw [hc] at hx; cases hx
      · rw [o.can x e] at hx; exact hx
    · exact ⟨j, rfl, rfl, rfl, fun _ h => h⟩

theorem drops_j (d : Bool) (l : List Sid) {s : St} (j : J s) :
    J (l.foldl (drop d) s) ∧ (l.foldl (drop d) s).own = s.own ∧ (l.foldl (drop d) s).cur = s.cur ∧
      (l.foldl (drop d) s).kept = s.kept ∧ ∀ x, (l.foldl (drop d) s).canJoin x = true → s.canJoin x = true := by
  induction l generalizing s with
  | nil => exact ⟨j, rfl, rfl, rfl, fun _ h => h⟩
  | cons a l ih =>
    obtain ⟨a1, a2, a3, a4, a5⟩ := drop_j d j a
    obtain ⟨b1, b2, b3, b4, b5⟩ := ih a1
    exact ⟨b1, b2.trans a2, b3.trans a3, b4.trans a4, fun x h => a5 x (b5 x h)⟩

/-- What one event does to the adapters everybody has. -/
structure Moves (s s' : St) (e : Ev) : Prop where
  j : J s'
  cur : s'.cur = if e = .setAdapter then s.cur + 1 else s.cur
  own : ∀ id, s'.own id = if e = .create id ∧ s.own id = none then some s.cur else s.own id
  kept : ∀ k, s'.kept k = match e with
    | .keep k' who => if k = k' then via s who else s.kept k
    | _ => s.kept k
  can : ∀ id, s'.canJoin id = true → s.canJoin id = true ∨ s.own id = none

theorem moves (d : Bool) {s : St} (j : J s) (e : Ev) : Moves s (step d s e) e := by
  have plain : ∀ (s' : St) (e : Ev), J s' → s'.own = s.own → s'.cur = s.cur → s'.kept = s.kept →
      (∀ id, s'.canJoin id = true → s.canJoin id = true) → e ≠ .setAdapter → (∀ id, e ≠ .create id) → (∀ k w, e ≠ .keep k w) →
      Moves s s' e := by
    intro s' e j' h1 h2 h3 h4 n1 n2 n3
    refine ⟨j', by rw [if_neg n1, h2], fun id => by rw [if_neg (fun h => n2 id h.1), h1], ?_, fun id h => .inl (h4 id h)⟩
    intro k; rw [h3]; cases e <;> simp_all
  cases e with
  | setAdapter =>
    refine ⟨⟨j.inv, j.mine, j.open_, j.known, j.made, fun id g h => Nat.le_succ_of_le (j.old id g h)⟩, rfl, fun _ => by simp [step], fun _ => rfl,
      fun _ h => .inl h⟩
  | create id =>
    simp only [step]
    cases ho : s.own id with
    | some g =>
      refine ⟨j, rfl, ?_, fun _ => rfl, fun _ h => .inl h⟩
      intro x
      by_cases h : Ev.create id = Ev.create x ∧ s.own x = none
      · obtain ⟨h, h'⟩ := h; cases h; rw [ho] at h'; cases h'
      · rw [if_neg h]
    | none =>
      refine ⟨⟨j.inv, ?_, ?_, ?_, ?_, ?_⟩, rfl, ?_, fun _ => rfl, ?_⟩
      · intro g x h
        have := j.mine g x h
        simp only [put_apply]; split
        · rename_i e; subst e; rw [ho] at this; cases this
        · exact this
      · intro x h; simp only [put_apply]; split
        · rfl
        · exact j.open_ x h
      · intro x g h; simp only [put_apply]; split
        · rename_i e; subst e
          obtain ⟨g', hg⟩ := j.made x (j.open_ x h); rw [ho] at hg; cases hg
        · exact j.known x g h
      · intro x; simp only [put_apply]; split
        · intro _; exact ⟨_, rfl⟩
        · exact j.made x
      · intro x g; simp only [put_apply]; split
        · intro h; cases h; exact Nat.le_refl _
        · exact j.old x g
      · intro x; simp only [put_apply]
        by_cases e : x = id
        · subst e; simp [ho]
        · rw [if_neg e, if_neg]; rintro ⟨h, _⟩; cases h; exact e rfl
      · intro x; simp only [put_apply]; split
        · rename_i e; subst e; intro _; exact .inr ho
        · exact fun h => .inl h
  | connect id =>
    simp only [step]
    split
    · rename_i hc
      obtain ⟨g, ho⟩ := j.made id hc
      -- the room of its id is joined first here: the two orders give the same state
      have e : join [id] { s with reg := put s.reg id true } id = { join [id] s id with reg := put s.reg id true } := by
        rw [join_eq ho hc, join_eq (s := { s with reg := put s.reg id true }) ho hc]
      obtain ⟨o, r, c⟩ := join_only j [id] id hc
      rw [e]
      refine plain _ _ ⟨o.j.inv, o.j.mine, ?_, ?_, o.j.made, o.j.old⟩ o.own o.cur o.kept ?_ (by simp) (by simp) (by simp)
      · intro x h; simp only [put_apply] at h; split at h
        · rename_i e; subst e; show (join [x] s x).canJoin x = true; rw [c]; exact hc
        · exact o.j.open_ x (by rw [r]; exact h)
      · intro x g' h h'
        simp only [put_apply] at h; split at h
        · rename_i e; subst e
          apply inRoom_key (o.j.inv g') (r := x)
          rw [o.room]; rw [show (join [x] s x).own = s.own from o.own] at h'
          rw [if_pos ⟨rfl, h'⟩]; exact .inr List.mem_cons_self
        · exact o.j.known x g' (by rw [r]; exact h) h'
      · intro x h; rw [show ({ join [id] s id with reg := put s.reg id true } : St).canJoin = s.canJoin from c] at h; exact h
    · exact plain _ _ j rfl rfl rfl (fun _ h => h) (by simp) (by simp) (by simp)
  | join id rs =>
    simp only [step]
    by_cases hc : s.canJoin id = true
    · obtain ⟨o, _, c⟩ := join_only j rs id hc
      exact plain _ _ o.j o.own o.cur o.kept (fun x h => by rw [c] at h; exact h) (by simp) (by simp) (by simp)
    · rw [join_closed rs id hc]; exact plain _ _ j rfl rfl rfl (fun _ h => h) (by simp) (by simp) (by simp)
  | leave id r =>
    obtain ⟨o, _, c⟩ := leave_only d j r id
    exact plain _ _ o.j o.own o.cur o.kept (fun x h => by simp only [step] at h; rw [c] at h; exact h) (by simp) (by simp) (by simp)
  | close id =>
    obtain ⟨o, _, c⟩ := cleanup_only d j id
    refine plain _ _ o.j o.own o.cur o.kept ?_ (by simp) (by simp) (by simp)
    intro x hx
    by_cases e : x = id
    · subst e; simp only [step] at hx; rw [c] at hx; cases hx
    · simp only [step] at hx; rw [o.can x e] at hx; exact hx
  | drop id =>
    obtain ⟨a1, a2, a3, a4, a5⟩ := drop_j d j id
    exact plain _ _ a1 a2 a3 a4 a5 (by simp) (by simp) (by simp)
  | keep k who =>
    refine ⟨⟨j.inv, j.mine, j.open_, j.known, j.made, j.old⟩, rfl, fun _ => by simp [step], ?_, fun _ h => .inl h⟩
    intro k'; simp only [step, put_apply]
  | cast who rs ex => exact plain _ _ ⟨j.inv, j.mine, j.open_, j.known, j.made, j.old⟩ rfl rfl rfl (fun _ h => h) (by simp) (by simp) (by simp)
  | bulkJoin who rs ex joined =>
    simp only [step]; split
    · rename_i g hg
      obtain ⟨k1, k2, k3, k4, _, _⟩ := bulk (cb_join joined) g j rs ex
      refine plain _ _ k1 k2 k3 k4 ?_ (by simp) (by simp) (by simp)
      exact can_bulk (cb_join joined) (fun s id j' hr x h => by rw [(join_only j' joined id (j'.open_ id hr)).2.2] at h; exact h) g j rs ex
    · exact plain _ _ j rfl rfl rfl (fun _ h => h) (by simp) (by simp) (by simp)
  | bulkLeave who rs ex left =>
    simp only [step]; split
    · rename_i g hg
      obtain ⟨k1, k2, k3, k4, _, _⟩ := bulk (cb_leave d left) g j rs ex
      refine plain _ _ k1 k2 k3 k4 ?_ (by simp) (by simp) (by simp)
      exact can_bulk (cb_leave d left) (fun s id j _ x h => by rw [(leaves_only d left j id).2.2] at h; exact h) g j rs ex
    · exact plain _ _ j rfl rfl rfl (fun _ h => h) (by simp) (by simp) (by simp)
  | bulkDisconnect who rs ex =>
    simp only [step]; split
    · rename_i g hg
      obtain ⟨k1, k2, k3, k4, _, _⟩ := bulk (cb_cleanup d) g j rs ex
      refine plain _ _ k1 k2 k3 k4 ?_ (by simp) (by simp) (by simp)
      exact can_bulk (cb_cleanup d) (fun s id j _ x h => by
        obtain ⟨o, _, c⟩ := cleanup_only d j id
        by_cases e : x = id
        · subst e; rw [c] at h; cases h
        · rw [o.can x e] at h; exact h) g j rs ex
    · exact plain _ _ j rfl rfl rfl (fun _ h => h) (by simp) (by simp) (by simp)
  | shutdown order =>
    obtain ⟨a1, a2, a3, a4, a5⟩ := drops_j d order j
    exact plain _ _ ⟨a1.inv, a1.mine, a1.open_, a1.known, a1.made, a1.old⟩ a2 a3 a4 a5 (by simp) (by simp) (by simp)

theorem fold_gone (d : Bool) (g : Nat) (ids : List Sid) (s : St) (j : J s) (x : Sid) (h : x ∈ ids ∨ s.reg x ≠ true) :
    (ids.foldl (visit (view g) (cleanup d)) s).reg x ≠ true := by
  induction ids generalizing s with
  | nil => rcases h with h | h
           · cases h
           · exact h
  | cons a ids ih =>
    rw [List.foldl_cons]
    by_cases ha : s.reg a = true
    · have hv : visit (view g) (cleanup d) s a = cleanup d s a := by simp [visit, view, ha]
      obtain ⟨o, r, _⟩ := cleanup_only d j a
      rw [hv]
      apply ih _ o.j
      by_cases e : x = a
      · subst e; right; rw [r]; simp
      · rw [o.reg x e]
        rcases h with h | h
        · rcases List.mem_cons.1 h with h | h
          · exact absurd h e
          · exact .inl h
        · exact .inr h
    · have hv : visit (view g) (cleanup d) s a = s := by simp [visit, view, ha]
      rw [hv]
      apply ih _ j
      rcases h with h | h
      · rcases List.mem_cons.1 h with h | h
        · subst h; exact .inr ha
        · exact .inl h
      · exact .inr h

theorem gone (d : Bool) (g : Nat) {s : St} (j : J s) (rs ex : List Room) {x : Sid} (ho : s.own x = some g)
    (hs : Selected (fun x => s.reg x = true) (fun x r => r ∈ rooms s x) rs ex x) :
    ¬ (apply (view g) (opts rs ex) (cleanup d) s).1.reg x = true := by
  rw [(apply_spec (local_cb (cb_cleanup d) g) (opts rs ex) s j).1]
  exact fold_gone d g _ s j x (.inl ((visited (cb_cleanup d) g j rs ex x).2 ⟨ho, hs⟩))

theorem run_snoc (d : Bool) (h : List Ev) (e : Ev) : run d (h ++ [e]) = step d (run d h) e := by simp [run]

theorem j_run (d : Bool) (h : List Ev) : J (run d h) := by
  induction h using snocRec with
  | nil => exact j_init
  | append_singleton h e ih => rw [run_snoc]; exact (moves d ih e).j

theorem moves_run (d : Bool) (h : List Ev) (e : Ev) : Moves (run d h) (run d (h ++ [e])) e := by
  rw [run_snoc]; exact moves d (j_run d h) e

theorem swaps_snoc (h : List Ev) (e : Ev) : swaps (h ++ [e]) = if e = .setAdapter then swaps h + 1 else swaps h := by
  unfold swaps; rw [List.count_append, List.count_singleton]; split <;> simp_all

theorem cur_run (d : Bool) (h : List Ev) : (run d h).cur = swaps h := by
  induction h using snocRec with
  | nil => rfl
  | append_singleton h e ih => rw [(moves_run d h e).cur, swaps_snoc, ih]

theorem madeUnder_snoc (h : List Ev) (e : Ev) (id : Sid) (g : Nat) :
    MadeUnder (h ++ [e]) id g ↔ MadeUnder h id g ∨ (e = .create id ∧ .create id ∉ h ∧ swaps h = g) := by
  constructor
  · rintro ⟨a, b, hab, h1, h2⟩
    rcases List.eq_nil_or_concat b with rfl | ⟨b', x, rfl⟩
    · obtain ⟨e1, e2⟩ := List.append_inj' hab rfl
      subst e1; cases e2; exact .inr ⟨rfl, h1, h2⟩
    · have : h ++ [e] = (a ++ .create id :: b') ++ [x] := by simpa using hab
      obtain ⟨e1, _⟩ := List.append_inj' this rfl
      exact .inl ⟨a, b', e1, h1, h2⟩
  · rintro (⟨a, b, rfl, h1, h2⟩ | ⟨rfl, h1, h2⟩)
    · exact ⟨a, b ++ [e], by simp, h1, h2⟩
    · exact ⟨h, [], by simp, h1, h2⟩

theorem own_none (d : Bool) (h : List Ev) (id : Sid) : (run d h).own id = none ↔ .create id ∉ h := by
  induction h using snocRec with
  | nil => simp [run]
  | append_singleton h e ih =>
    rw [(moves_run d h e).own, List.mem_append, List.mem_singleton, not_or, ← ih]
    split
    · rename_i hh; simp [hh.1]
    · rename_i hh
      constructor
      · intro h'; exact ⟨h', fun he => hh ⟨he.symm, h'⟩⟩
      · exact fun h' => h'.1

theorem own_run (d : Bool) (h : List Ev) (id : Sid) (g : Nat) : (run d h).own id = some g ↔ MadeUnder h id g := by
  induction h using snocRec with
  | nil => simp [run, MadeUnder]
  | append_singleton h e ih =>
    rw [(moves_run d h e).own, madeUnder_snoc, ← ih, ← own_none d h id, cur_run]
    by_cases hh : e = .create id ∧ (run d h).own id = none
    · rw [if_pos hh]; simp [hh.1, hh.2]
    · rw [if_neg hh]
      constructor
      · exact .inl
      · rintro (h' | ⟨h1, h2, _⟩)
        · exact h'
        · exact absurd ⟨h1, h2⟩ hh

theorem kept_run (d : Bool) (h : List Ev) (k g : Nat) (hk : (run d h).kept k = some g) :
    ∃ h₁ who h₂, h = h₁ ++ .keep k who :: h₂ ∧ (∀ w, .keep k w ∉ h₂) ∧ via (run d h₁) who = some g := by
  induction h using snocRec with
  | nil => simp [run] at hk
  | append_singleton h e ih =>
    rw [(moves_run d h e).kept] at hk
    have old : (∀ w, e ≠ .keep k w) → (run d h).kept k = some g →
        ∃ h₁ who h₂, h ++ [e] = h₁ ++ .keep k who :: h₂ ∧ (∀ w, .keep k w ∉ h₂) ∧ via (run d h₁) who = some g := by
      intro ne hk
      obtain ⟨a, w, b, rfl, h1, h2⟩ := ih hk
      refine ⟨a, w, b ++ [e], by simp, ?_, h2⟩
      intro w' hw
      rcases List.mem_append.1 hw with hw | hw
      · exact h1 w' hw
      · exact ne w' (List.mem_singleton.1 hw).symm
    cases e with
    | keep k' who =>
      dsimp only at hk
      by_cases ek : k = k'
      · subst ek; rw [if_pos rfl] at hk
        exact ⟨h, who, [], by simp, by simp, hk⟩
      · rw [if_neg ek] at hk
        exact old (fun w hw => by cases hw; exact ek rfl) hk
    | _ => exact old (by simp) hk

theorem kept_stays (d : Bool) (h₁ h₂ : List Ev) (k : Nat) (who : Who) (hn : ∀ w, .keep k w ∉ h₂) :
    (run d (h₁ ++ .keep k who :: h₂)).kept k = via (run d h₁) who := by
  induction h₂ using snocRec with
  | nil => rw [(moves_run d h₁ _).kept]; simp
  | append_singleton h₂ e ih =>
    have e1 : h₁ ++ .keep k who :: (h₂ ++ [e]) = (h₁ ++ .keep k who :: h₂) ++ [e] := by simp
    rw [e1, (moves_run d _ e).kept]
    have ih := ih (fun w hw => hn w (List.mem_append_left _ hw))
    cases e with
    | keep k' w =>
      dsimp only
      rw [if_neg (fun ek => hn w (by subst ek; simp)), ih]
    | _ => exact ih

theorem via_run (d : Bool) (h : List Ev) (who : Who) (g : Nat) : via (run d h) who = some g ↔ Through h who g := by
  constructor
  · have : ∀ n (h : List Ev), h.length = n → ∀ who g, via (run d h) who = some g → Through h who g := by
      intro n
      induction n using Nat.strongRecOn with
      | ind n ih =>
        intro h hl who g hv
        cases who with
        | nsp => simp only [via, Option.some.injEq] at hv; rw [← hv, cur_run]; exact .nsp h
        | socket id => exact .socket h id g ((own_run d h id g).1 hv)
        | operator k =>
          obtain ⟨a, w, b, rfl, h1, h2⟩ := kept_run d h k g hv
          exact .operator a w b k g (ih a.length (by simp at hl; omega) a rfl w g h2) h1
    exact this _ h rfl who g
  · intro t
    induction t with
    | nsp h => simp [via, cur_run]
    | socket h id g hm => exact (own_run d h id g).2 hm
    | operator a w b k g _ hn ih => exact (kept_stays d a b k w hn).trans ih

theorem same_run (d : Bool) (h : List Ev) (who : Who) (id : Sid) :
    SameAdapter h who id ↔ ∃ g, via (run d h) who = some g ∧ (run d h).own id = some g := by
  unfold SameAdapter
  simp only [via_run, own_run]

theorem swaps_mono (a b : List Ev) : swaps a ≤ swaps (a ++ b) := by
  unfold swaps; rw [List.count_append]; omega

/-- A socket that is open was open ever since it was made. -/
theorem can_back (d : Bool) (a b : List Ev) (id : Sid) (hm : (run d a).own id ≠ none) (hc : (run d (a ++ b)).canJoin id = true) :
    (run d a).canJoin id = true := by
  induction b using snocRec with
  | nil => simpa using hc
  | append_singleton b e ih =>
    rw [← List.append_assoc] at hc
    rcases (moves_run d (a ++ b) e).can id hc with h | h
    · exact ih h
    · have h1 := (own_none d (a ++ b) id).1 h
      exact absurd ((own_none d a id).2 (fun hh => h1 (List.mem_append_left _ hh))) hm

theorem fold_keeps {cb : St → Sid → St} {Q : St → Prop} (hq : ∀ s id, Q s → Q (cb s id)) (g : Nat) (ids : List Sid) (s : St) (h : Q s) :
    Q (ids.foldl (visit (view g) cb) s) := by
  induction ids generalizing s with
  | nil => exact h
  | cons a ids ih =>
    rw [List.foldl_cons]
    apply ih
    unfold visit; split
    · exact hq _ _ h
    · exact h

theorem apply_keeps {cb : St → Sid → St} {P : Room → Prop → Prop} (hc : Cb cb P) {Q : St → Prop} (hq : ∀ s id, Q s → Q (cb s id))
    (g : Nat) {s : St} (j : J s) (rs ex : List Room) (h : Q s) : Q (apply (view g) (opts rs ex) cb s).1 := by
  rw [(apply_spec (local_cb hc g) (opts rs ex) s j).1]
  exact fold_keeps hq g _ s h

theorem join_frame (rs : List Room) (s : St) (id : Sid) : (join rs s id).saved = s.saved ∧ (join rs s id).closed = s.closed := by
  unfold join; split
  · split <;> exact ⟨rfl, rfl⟩
  · exact ⟨rfl, rfl⟩

theorem leave_frame (d : Bool) (s : St) (id : Sid) (r : Room) : (leave d s id r).saved = s.saved ∧ (leave d s id r).closed = s.closed := by
  unfold leave; split <;> exact ⟨rfl, rfl⟩

theorem leaves_frame (d : Bool) (l : List Room) (s : St) (id : Sid) :
    (l.foldl (fun s r => leave d s id r) s).saved = s.saved ∧ (l.foldl (fun s r => leave d s id r) s).closed = s.closed := by
  induction l generalizing s with
  | nil => exact ⟨rfl, rfl⟩
  | cons a l ih => obtain ⟨h1, h2⟩ := ih (leave d s id a); exact ⟨h1.trans (leave_frame d s id a).1, h2.trans (leave_frame d s id a).2⟩

theorem cleanup_frame (d : Bool) (s : St) (id : Sid) : (cleanup d s id).saved = s.saved ∧ (cleanup d s id).closed = s.closed := by
  unfold cleanup; split <;> exact ⟨rfl, rfl⟩

/-- A session that is saved is that of a socket which is closed by then, in its adapter. -/
structure Sv (s s' : St) : Prop where
  grow : ∃ l, s'.saved = s.saved ++ l ∧ ∀ x ∈ l, s.own x.2.1 = some x.1 ∧ s'.canJoin x.2.1 = false

theorem drop_saved (d : Bool) {s : St} (j : J s) (id : Sid) : Sv s (drop d s id) ∧ (drop d s id).closed = s.closed := by
  unfold drop
  cases ho : s.own id with
  | none => exact ⟨⟨[], by simp, by simp⟩, rfl⟩
  | some g =>
    dsimp only
    split
    · have j' : J { s with saved := s.saved ++ [(g, id, rooms s id)] } := ⟨j.inv, j.mine, j.open_, j.known, j.made, j.old⟩
      obtain ⟨o, _, hc⟩ := cleanup_only d j' id
      obtain ⟨f1, f2⟩ := cleanup_frame d { s with saved := s.saved ++ [(g, id, rooms s id)] } id
      refine ⟨⟨[(g, id, rooms s id)], f1, ?_⟩, f2⟩
      intro x hx; rw [List.mem_singleton] at hx; subst hx; exact ⟨ho, hc⟩
    · exact ⟨⟨[], by simp, by simp⟩, rfl⟩

theorem drops_saved (d : Bool) (l : List Sid) {s : St} (j : J s) :
    Sv s (l.foldl (drop d) s) ∧ (l.foldl (drop d) s).closed = s.closed := by
  induction l generalizing s with
  | nil => exact ⟨⟨[], by simp, by simp⟩, rfl⟩
  | cons a l ih =>
    obtain ⟨⟨l1, e1, k1⟩, c1⟩ := drop_saved d j a
    have jd := drop_j d j a
    obtain ⟨⟨l2, e2, k2⟩, c2⟩ := ih jd.1
    have jl := drops_j d l jd.1
    rw [List.foldl_cons]
    refine ⟨⟨l1 ++ l2, by rw [e2, e1, List.append_assoc], ?_⟩, c2.trans c1⟩
    intro x hx
    rcases List.mem_append.1 hx with hx | hx
    · refine ⟨(k1 x hx).1, ?_⟩
      cases h : (l.foldl (drop d) (drop d s a)).canJoin x.2.1 with
      | false => rfl
      | true => have := jl.2.2.2.2 _ h; rw [(k1 x hx).2] at this; cases this
    · refine ⟨?_, (k2 x hx).2⟩
      have := (k2 x hx).1; rw [jd.2.1] at this; exact this

theorem step_saved (d : Bool) {s : St} (j : J s) (e : Ev) :
    Sv s (step d s e) ∧ (step d s e).closed = s.closed ++ (match e with | .shutdown _ => [s.cur] | _ => []) := by
  have plain : ∀ s' : St, s'.saved = s.saved ∧ s'.closed = s.closed → Sv s s' ∧ s'.closed = s.closed ++ [] := by
    intro s' h; exact ⟨⟨[], by simp [h.1], by simp⟩, by simp [h.2]⟩
  cases e with
  | setAdapter => exact plain _ ⟨rfl, rfl⟩
  | create id => apply plain; simp only [step]; split <;> exact ⟨rfl, rfl⟩
  | connect id =>
    apply plain; simp only [step]; split
    · exact join_frame _ _ _
    · exact ⟨rfl, rfl⟩
  | join id rs => exact plain _ (join_frame _ _ _)
  | leave id r => exact plain _ (leave_frame _ _ _ _)
  | close id => exact plain _ (cleanup_frame _ _ _)
  | drop id => obtain ⟨h1, h2⟩ := drop_saved d j id; exact ⟨h1, by simpa [step] using h2⟩
  | keep k who => exact plain _ ⟨rfl, rfl⟩
  | cast who rs ex => exact plain _ ⟨rfl, rfl⟩
  | bulkJoin who rs ex joined =>
    apply plain; simp only [step]; split
    · exact apply_keeps (cb_join joined) (Q := fun t => t.saved = s.saved ∧ t.closed = s.closed)
        (fun t id h => ⟨(join_frame joined t id).1.trans h.1, (join_frame joined t id).2.trans h.2⟩) _ j rs ex ⟨rfl, rfl⟩
    · exact ⟨rfl, rfl⟩
  | bulkLeave who rs ex left =>
    apply plain; simp only [step]; split
    · exact apply_keeps (cb_leave d left) (Q := fun t => t.saved = s.saved ∧ t.closed = s.closed)
        (fun t id h => ⟨(leaves_frame d left t id).1.trans h.1, (leaves_frame d left t id).2.trans h.2⟩) _ j rs ex ⟨rfl, rfl⟩
    · exact ⟨rfl, rfl⟩
  | bulkDisconnect who rs ex =>
    apply plain; simp only [step]; split
    · exact apply_keeps (cb_cleanup d) (Q := fun t => t.saved = s.saved ∧ t.closed = s.closed)
        (fun t id h => ⟨(cleanup_frame d t id).1.trans h.1, (cleanup_frame d t id).2.trans h.2⟩) _ j rs ex ⟨rfl, rfl⟩
    · exact ⟨rfl, rfl⟩
  | shutdown order =>
    obtain ⟨h1, h2⟩ := drops_saved d order j
    have h3 := drops_j d order j
    exact ⟨⟨h1.grow⟩, by simp only [step]; rw [h2, h3.2.2.1]⟩

theorem saved_run (d : Bool) (h : List Ev) : ∀ x ∈ (run d h).saved, (run d h).own x.2.1 = some x.1 ∧ (run d h).canJoin x.2.1 = false := by
  induction h using snocRec with
  | nil => simp [run]
  | append_singleton h e ih =>
    intro x hx
    have m := moves_run d h e
    obtain ⟨⟨l, e1, k1⟩, _⟩ := step_saved d (j_run d h) e
    rw [run_snoc, e1] at hx
    rcases List.mem_append.1 hx with hx | hx
    · obtain ⟨h1, h2⟩ := ih x hx
      refine ⟨by rw [m.own, if_neg (by rw [h1]; simp), h1], ?_⟩
      cases hc : (run d (h ++ [e])).canJoin x.2.1 with
      | false => rfl
      | true =>
        rcases m.can _ hc with h' | h'
        · rw [h2] at h'; cases h'
        · rw [h1] at h'; cases h'
    · obtain ⟨h1, h2⟩ := k1 x hx
      refine ⟨by rw [m.own, if_neg (by rw [h1]; simp), h1], by rw [run_snoc]; exact h2⟩

theorem saved_mono (d : Bool) (a b : List Ev) : ∃ l, (run d (a ++ b)).saved = (run d a).saved ++ l := by
  induction b using snocRec with
  | nil => exact ⟨[], by simp⟩
  | append_singleton b e ih =>
    obtain ⟨l, hl⟩ := ih
    obtain ⟨⟨l', e1, _⟩, _⟩ := step_saved d (j_run d (a ++ b)) e
    exact ⟨l ++ l', by rw [← List.append_assoc, run_snoc, e1, hl, List.append_assoc]⟩

end Verif.Swap
