import Verif.Proof.RoomRace
import Verif.Spec.RoomSeq

/-! A call of `Model/RoomRace` that nobody interrupts does what the call of `Model/Adapter` does. -/

namespace Verif.RoomRace
open Verif Verif.Spec Verif.World Verif.Adapter

/-- `n` steps of one call. -/
def turns (id : Nat) : Nat → St × PC → St × PC
  | 0, p => p
  | n + 1, p => turns id n (act p.1 id p.2)

def Leads (id : Nat) (p q : St × PC) : Prop := ∃ n, turns id n p = q

theorem turns_add (id n m : Nat) (p : St × PC) : turns id (n + m) p = turns id m (turns id n p) := by
  induction n generalizing p with
  | zero => simp [turns]
  | succ n ih => rw [Nat.succ_add]; exact ih _

theorem Leads.trans {id : Nat} {p q r : St × PC} : Leads id p q → Leads id q r → Leads id p r := by
  rintro ⟨n, rfl⟩ ⟨m, rfl⟩; exact ⟨n + m, turns_add _ _ _ _⟩

theorem Leads.next {id : Nat} {s : St} {pc : PC} {q r : St × PC} (h : act s id pc = q) (h' : Leads id q r) : Leads id (s, pc) r := by
  obtain ⟨n, e⟩ := h'; exact ⟨n + 1, by rw [turns, h]; exact e⟩

theorem Leads.refl {id : Nat} (p : St × PC) : Leads id p p := ⟨0, rfl⟩

theorem turns_done (id n : Nat) (s : St) : turns id n (s, .done) = (s, .done) := by
  induction n with
  | zero => rfl
  | succ n ih => exact ih

/-- There is only one end. -/
theorem turns_unique (id n m : Nat) (p : St × PC) (s s' : St) (h : turns id n p = (s, .done)) (h' : (turns id m p).2 = .done)
    (e : s' = (turns id m p).1) : s' = s := by
  rcases Nat.le_total n m with hl | hl
  · obtain ⟨d, rfl⟩ := Nat.exists_eq_add_of_le hl
    rw [turns_add, h, turns_done] at e; exact e
  · obtain ⟨d, rfl⟩ := Nat.exists_eq_add_of_le hl
    have hm : turns id m p = (s', .done) := Prod.ext e.symm h'
    rw [turns_add, hm, turns_done] at h
    cases h; rfl

theorem act_th (s : St) (id : Nat) (pc : PC) : (act s id pc).1.th = s.th := by
  unfold act
  split <;> (try split) <;> (try rfl) <;> (unfold loadAndDelete; split <;> rfl)

theorem act_put (s : St) (f : Nat → Nat × PC) (id : Nat) (pc : PC) :
    act { s with th := f } id pc = ({ (act s id pc).1 with th := f }, (act s id pc).2) := by
  cases pc with
  | j1 x rs => cases rs <;> rfl
  | a2 l => cases l <;> rfl
  | j0 rs => simp only [act]; cases s.sids id <;> rfl
  | j2 x r rs => simp only [act]; cases s.rooms r <;> rfl
  | d0 r => simp only [act]; cases s.sids id <;> rfl
  | d2 r => simp only [act]; cases s.rooms r <;> rfl
  | e2 r l => simp only [act]; cases s.rooms r <;> rfl
  | a0 => simp only [act]; cases s.sids id <;> rfl
  | d5 r => simp only [act, loadAndDelete]; cases s.rooms r <;> rfl
  | e5 r l => simp only [act, loadAndDelete]; cases s.rooms r <;> rfl
  | _ => rfl

theorem advs (n k id : Nat) (s : St) (f : Nat → Nat × PC) (pc : PC) :
    (List.replicate n (Ev.adv k)).foldl step { s with th := upd f k (id, pc) } =
      { (turns id n (s, pc)).1 with th := upd f k (id, (turns id n (s, pc)).2) } := by
  induction n generalizing s pc with
  | zero => rfl
  | succ n ih =>
    rw [List.replicate_succ, List.foldl_cons, turns]
    have : step { s with th := upd f k (id, pc) } (.adv k) = { (act s id pc).1 with th := upd f k (id, (act s id pc).2) } := by
      have e : upd f k (id, pc) k = (id, pc) := by simp [upd]
      simp only [step, advance, e, act_put]
      have : upd (upd f k (id, pc)) k (id, (act s id pc).2) = upd f k (id, (act s id pc).2) := by
        funext j; unfold upd; split <;> rfl
      rw [this]
    rw [this, ih]

/-! ## The tables -/

variable (ρ : Nat → Room) (σ : Nat → Sid)

/-- The tables have the same contents, and no set is in them twice. -/
structure Same (s : St) (a : Ad) : Prop where
  sids : ∀ id, a.sids.get? (σ id) = (s.sids id).map fun x => (s.sset x).map ρ
  rooms : ∀ r, a.rooms.get? (ρ r) = (s.rooms r).map fun t => (s.rset t).map σ
  sinj : ∀ i j x, s.sids i = some x → s.sids j = some x → i = j
  rinj : ∀ i j x, s.rooms i = some x → s.rooms j = some x → i = j
  sfresh : ∀ i x, s.sids i = some x → x < s.next
  rfresh : ∀ i x, s.rooms i = some x → x < s.next

variable {ρ σ}
variable (hρ : ∀ i j, ρ i = ρ j → i = j) (hσ : ∀ i j, σ i = σ j → i = j)

theorem map_add {f : Nat → String} (hf : ∀ i j, f i = f j → i = j) (l : List Nat) (a : Nat) : (add l a).map f = LSet.add (l.map f) (f a) := by
  have : f a ∈ l.map f ↔ a ∈ l := by
    simp only [List.mem_map]
    exact ⟨fun ⟨b, hb, e⟩ => hf _ _ e ▸ hb, fun h => ⟨a, h, rfl⟩⟩
  unfold add LSet.add
  by_cases h : a ∈ l
  · rw [if_pos h, if_pos (this.2 h)]
  · rw [if_neg h, if_neg (fun h' => h (this.1 h'))]; rfl

theorem map_del {f : Nat → String} (hf : ∀ i j, f i = f j → i = j) (l : List Nat) (a : Nat) : (del l a).map f = LSet.del (l.map f) (f a) := by
  unfold del LSet.del
  rw [List.filter_map]
  congr 1
  apply List.filter_congr
  intro x _
  simp only [Function.comp, decide_eq_decide]
  exact ⟨fun h e => h (hf _ _ e), fun h e => h (by rw [e])⟩

theorem mem_map_inj {f : Nat → String} (hf : ∀ i j, f i = f j → i = j) (l : List Nat) (a : Nat) : f a ∈ l.map f ↔ a ∈ l := by
  simp only [List.mem_map]
  exact ⟨fun ⟨b, hb, e⟩ => hf _ _ e ▸ hb, fun h => ⟨a, h, rfl⟩⟩

include hσ in
theorem same_sset {s : St} {a : Ad} (i : Same ρ σ s a) {id x : Nat} (h : s.sids id = some x) (l : List Nat) :
    Same ρ σ { s with sset := upd s.sset x l } { a with sids := a.sids.insert (σ id) (l.map ρ) } := by
  refine ⟨fun j => ?_, i.rooms, i.sinj, i.rinj, i.sfresh, i.rfresh⟩
  rw [FMap.get?_insert]
  by_cases e : id = j
  · subst e; simp [h, upd]
  · have e' : σ id ≠ σ j := fun h' => e (hσ _ _ h')
    rw [if_neg e', i.sids j]
    cases hj : s.sids j with
    | none => rfl
    | some y =>
      have : y ≠ x := fun h' => e (i.sinj _ _ _ h (h' ▸ hj))
      simp [upd, this]

include hρ in
theorem same_rset {s : St} {a : Ad} (i : Same ρ σ s a) {r t : Nat} (h : s.rooms r = some t) (l : List Nat) :
    Same ρ σ { s with rset := upd s.rset t l } { a with rooms := a.rooms.insert (ρ r) (l.map σ) } := by
  refine ⟨i.sids, fun j => ?_, i.sinj, i.rinj, i.sfresh, i.rfresh⟩
  rw [FMap.get?_insert]
  by_cases e : r = j
  · subst e; simp [h, upd]
  · have e' : ρ r ≠ ρ j := fun h' => e (hρ _ _ h')
    rw [if_neg e', i.rooms j]
    cases hj : s.rooms j with
    | none => rfl
    | some y =>
      have : y ≠ t := fun h' => e (i.rinj _ _ _ h (h' ▸ hj))
      simp [upd, this]

include hσ in
theorem same_newsid {s : St} {a : Ad} (i : Same ρ σ s a) (id : Nat) :
    Same ρ σ { s with sids := upd s.sids id (some s.next), sset := upd s.sset s.next [], next := s.next + 1 }
      { a with sids := a.sids.insert (σ id) [] } := by
  refine ⟨fun j => ?_, i.rooms, ?_, i.rinj, ?_, fun j x h => Nat.lt_succ_of_lt (i.rfresh j x h)⟩
  · rw [FMap.get?_insert]
    by_cases e : id = j
    · subst e; simp [upd]
    · have e' : σ id ≠ σ j := fun h' => e (hσ _ _ h')
      rw [if_neg e', i.sids j]
      simp only [upd, if_neg (Ne.symm e)]
      cases hj : s.sids j with
      | none => rfl
      | some y =>
        have : y ≠ s.next := fun h' => by have := i.sfresh _ _ hj; omega
        simp [this]
  · intro j k x hj hk
    simp only [upd] at hj hk
    split at hj <;> split at hk
    · rename_i h1 h2; rw [h1, h2]
    · cases hj; have := i.sfresh _ _ hk; omega
    · cases hk; have := i.sfresh _ _ hj; omega
    · exact i.sinj _ _ _ hj hk
  · intro j x hj
    simp only [upd] at hj
    show x < s.next + 1
    split at hj
    · cases hj; omega
    · have := i.sfresh _ _ hj; omega

include hρ in
theorem same_newroom {s : St} {a : Ad} (i : Same ρ σ s a) (r : Nat) :
    Same ρ σ { s with rooms := upd s.rooms r (some s.next), rset := upd s.rset s.next [], next := s.next + 1 }
      { a with rooms := a.rooms.insert (ρ r) [] } := by
  refine ⟨i.sids, fun j => ?_, i.sinj, ?_, fun j x h => Nat.lt_succ_of_lt (i.sfresh j x h), ?_⟩
  · rw [FMap.get?_insert]
    by_cases e : r = j
    · subst e; simp [upd]
    · have e' : ρ r ≠ ρ j := fun h' => e (hρ _ _ h')
      rw [if_neg e', i.rooms j]
      simp only [upd, if_neg (Ne.symm e)]
      cases hj : s.rooms j with
      | none => rfl
      | some y =>
        have : y ≠ s.next := fun h' => by have := i.rfresh _ _ hj; omega
        simp [this]
  · intro j k x hj hk
    simp only [upd] at hj hk
    split at hj <;> split at hk
    · rename_i h1 h2; rw [h1, h2]
    · cases hj; have := i.rfresh _ _ hk; omega
    · cases hk; have := i.rfresh _ _ hj; omega
    · exact i.rinj _ _ _ hj hk
  · intro j x hj
    simp only [upd] at hj
    show x < s.next + 1
    split at hj
    · cases hj; omega
    · have := i.rfresh _ _ hj; omega

include hσ in
theorem same_delsid {s : St} {a : Ad} (i : Same ρ σ s a) (id : Nat) :
    Same ρ σ { s with sids := upd s.sids id none } { a with sids := a.sids.erase (σ id) } := by
  refine ⟨fun j => ?_, i.rooms, ?_, i.rinj, ?_, i.rfresh⟩
  · rw [FMap.get?_erase]
    by_cases e : id = j
    · subst e; simp [upd]
    · have e' : σ id ≠ σ j := fun h' => e (hσ _ _ h')
      rw [if_neg e', i.sids j]
      simp only [upd, if_neg (Ne.symm e)]
  · intro j k x hj hk
    simp only [upd] at hj hk
    split at hj <;> split at hk <;> first | cases hj | cases hk | skip
    exact i.sinj _ _ _ hj hk
  · intro j x hj
    simp only [upd] at hj
    split at hj
    · cases hj
    · exact i.sfresh _ _ hj

include hρ in
theorem same_delroom {s : St} {a : Ad} (i : Same ρ σ s a) (r : Nat) (l : List Nat) :
    Same ρ σ { s with rooms := upd s.rooms r none, deleted := l } { a with rooms := a.rooms.erase (ρ r) } := by
  refine ⟨i.sids, fun j => ?_, i.sinj, ?_, i.sfresh, ?_⟩
  · rw [FMap.get?_erase]
    by_cases e : r = j
    · subst e; simp [upd]
    · have e' : ρ r ≠ ρ j := fun h' => e (hρ _ _ h')
      rw [if_neg e', i.rooms j]
      simp only [upd, if_neg (Ne.symm e)]
  · intro j k x hj hk
    simp only [upd] at hj hk
    split at hj <;> split at hk <;> first | cases hj | cases hk | skip
    exact i.rinj _ _ _ hj hk
  · intro j x hj
    simp only [upd] at hj
    split at hj
    · cases hj
    · exact i.rfresh _ _ hj

theorem same_congr {s : St} {a a' : Ad} (i : Same ρ σ s a) (h1 : ∀ k, a'.sids.get? k = a.sids.get? k) (h2 : ∀ k, a'.rooms.get? k = a.rooms.get? k) :
    Same ρ σ s a' := ⟨fun id => by rw [h1]; exact i.sids id, fun r => by rw [h2]; exact i.rooms r, i.sinj, i.rinj, i.sfresh, i.rfresh⟩

theorem Same.congr' {s : St} {a a' : Ad} (i : Same ρ σ s a) (h : a' = a) : Same ρ σ s a' := h ▸ i

/-! ## Joining -/

include hρ hσ in
theorem room_joined {s : St} {a : Ad} (i : Same ρ σ s a) {id x : Nat} (hx : s.sids id = some x) (r : Nat) (rs : List Nat) (evs : List Adapter.Ev) :
    ∃ s', Leads id (s, .j1 x (r :: rs)) (s', .j1 x rs) ∧ Same ρ σ s' (addRoom (σ id) (a, evs) (ρ r)).1 ∧ s'.sids id = some x ∧
      s'.deleted = s.deleted ∧ deletions (addRoom (σ id) (a, evs) (ρ r)).2 = deletions evs := by
  have hm : a.sids.get? (σ id) = some ((s.sset x).map ρ) := by rw [i.sids, hx]; rfl
  have i1 := same_sset hσ i hx (add (s.sset x) r)
  rw [map_add hρ] at i1
  cases hr : s.rooms r with
  | none =>
    have hn : a.rooms.get? (ρ r) = none := by rw [i.rooms, hr]; rfl
    have i2 := same_newroom hρ i1 r
    have i3 := same_rset hρ i2 (r := r) (t := s.next) (by simp [upd]) (add [] id)
    rw [map_add hσ] at i3
    refine ⟨_, ⟨4, ?_⟩, i3.congr' (a' := (addRoom (σ id) (a, evs) (ρ r)).1) ?_, hx, rfl, ?_⟩
    · simp [turns, act, hr, upd]
    · simp [addRoom, hm, hn]
    · simp [addRoom, hm, hn, deletions]
  | some t =>
    have hn : a.rooms.get? (ρ r) = some ((s.rset t).map σ) := by rw [i.rooms, hr]; rfl
    by_cases hi : id ∈ s.rset t
    · refine ⟨_, ⟨3, ?_⟩, i1.congr' (a' := (addRoom (σ id) (a, evs) (ρ r)).1) ?_, hx, rfl, ?_⟩
      · simp [turns, act, hi, hr]
      · simp only [addRoom, hm, hn, if_pos ((mem_map_inj hσ _ _).2 hi)]
      · simp only [addRoom, hm, hn, if_pos ((mem_map_inj hσ _ _).2 hi)]
        simp
    · have i3 := same_rset hρ i1 (r := r) (t := t) hr (add (s.rset t) id)
      rw [map_add hσ] at i3
      refine ⟨_, ⟨4, ?_⟩, i3.congr' (a' := (addRoom (σ id) (a, evs) (ρ r)).1) ?_, hx, rfl, ?_⟩
      · simp [turns, act, hi, hr]
      · simp only [addRoom, hm, hn, if_neg (mt (mem_map_inj hσ _ _).1 hi)]
      · simp only [addRoom, hm, hn, if_neg (mt (mem_map_inj hσ _ _).1 hi)]
        simp [deletions]

include hρ hσ in
theorem rooms_joined {s : St} {a : Ad} (i : Same ρ σ s a) {id x : Nat} (hx : s.sids id = some x) (rs : List Nat) (evs : List Adapter.Ev) :
    ∃ s', Leads id (s, .j1 x rs) (s', .done) ∧ Same ρ σ s' ((rs.map ρ).foldl (addRoom (σ id)) (a, evs)).1 ∧
      s'.deleted = s.deleted ∧ deletions ((rs.map ρ).foldl (addRoom (σ id)) (a, evs)).2 = deletions evs := by
  induction rs generalizing s a evs with
  | nil => exact ⟨s, .next rfl (.refl _), i, rfl, rfl⟩
  | cons r rs ih =>
    obtain ⟨s', h1, h2, h3, h4, h5⟩ := room_joined hρ hσ i hx r rs evs
    obtain ⟨s'', h6, h7, h8, h9⟩ := ih h2 h3 (addRoom (σ id) (a, evs) (ρ r)).2
    exact ⟨s'', h1.trans h6, h7, h8.trans h4, h9.trans h5⟩

/-! ## Leaving -/

include hρ hσ in
/-- `_del`, with the places of `Del`. -/
theorem room_left {s : St} {a : Ad} (i : Same ρ σ s a) (d : Bool) (id r : Nat) :
    ∃ s', Leads id (s, .d2 r) (s', .done) ∧ Same ρ σ s' (del_ d a (ρ r) (σ id)).1 ∧
      s'.deleted.map ρ = s.deleted.map ρ ++ deletions (del_ d a (ρ r) (σ id)).2 ∧ s'.sids = s.sids ∧
      ∀ left, Leads id (s, .e2 r left) (s', .a2 left) := by
  cases hr : s.rooms r with
  | none =>
    have hn : a.rooms.get? (ρ r) = none := by rw [i.rooms, hr]; rfl
    refine ⟨s, .next (by simp [act, hr]) (.refl _), ?_, ?_, rfl, fun left => .next (by simp [act, hr]) (.refl _)⟩
    · simp only [del_, hn]; exact i
    · simp [del_, hn, deletions]
  | some t =>
    have hn : a.rooms.get? (ρ r) = some ((s.rset t).map σ) := by rw [i.rooms, hr]; rfl
    have i1 := same_rset hρ i hr (del (s.rset t) id)
    rw [map_del hσ] at i1
    have hlen : (LSet.del ((s.rset t).map σ) (σ id)).length = 0 ↔ del (s.rset t) id = [] := by
      rw [← map_del hσ, List.length_map, List.length_eq_zero_iff]
    have hev : ∀ b : Bool, deletions (if b = true then [Adapter.Ev.leave (ρ r) (σ id)] else []) = [] := by intro b; cases b <;> rfl
    by_cases he : del (s.rset t) id = []
    · have i2 := same_delroom hρ i1 r (s.deleted ++ [r])
      have hld : loadAndDelete { s with rset := upd s.rset t (del (s.rset t) id) } r =
          { s with rset := upd s.rset t (del (s.rset t) id), rooms := upd s.rooms r none, deleted := s.deleted ++ [r] } := by
        unfold loadAndDelete; simp only [hr]
      refine ⟨{ s with rset := upd s.rset t (del (s.rset t) id), rooms := upd s.rooms r none, deleted := s.deleted ++ [r] },
        ⟨4, ?_⟩, ?_, ?_, rfl, fun left => ⟨4, ?_⟩⟩
      · have e1 : upd s.rset t (del (s.rset t) id) t = [] := by simp [upd, he]
        simp only [turns, act, hr, e1, if_true, hld]
      · simp only [del_, hn, if_pos (hlen.2 he)]
        refine same_congr i2 (fun _ => rfl) (fun k => ?_)
        show FMap.get? (FMap.erase a.rooms (ρ r)) k = FMap.get? (FMap.erase (FMap.insert a.rooms (ρ r) _) (ρ r)) k
        rw [FMap.get?_erase, FMap.get?_erase, FMap.get?_insert]
        by_cases e : ρ r = k
        · rw [if_pos e, if_pos e]
        · rw [if_neg e, if_neg e, if_neg e]
      · simp only [del_, hn, if_pos (hlen.2 he)]
        show List.map ρ (s.deleted ++ [r]) = _
        rw [List.map_append]
        congr 1
        have := hev (deleteResult d (decide (σ id ∈ (s.rset t).map σ)))
        unfold deletions at this ⊢
        rw [List.filterMap_append, this]
        rfl
      · have e1 : upd s.rset t (del (s.rset t) id) t = [] := by simp [upd, he]
        simp only [turns, act, hr, e1, if_true, hld]
    · refine ⟨{ s with rset := upd s.rset t (del (s.rset t) id) }, ⟨3, ?_⟩, ?_, ?_, rfl, fun left => ⟨3, ?_⟩⟩
      · simp [turns, hr, act, upd, he]
      · simp only [del_, hn, if_neg (mt hlen.1 he)]; exact i1
      · simp only [del_, hn, if_neg (mt hlen.1 he), hev, List.append_nil]
      · simp [turns, hr, act, upd, he]

theorem deletions_append (l m : List Adapter.Ev) : deletions (l ++ m) = deletions l ++ deletions m := by simp [deletions]

include hρ hσ in
theorem all_left {s : St} {a : Ad} (i : Same ρ σ s a) (d : Bool) (id : Nat) (rs : List Nat) (evs : List Adapter.Ev) :
    ∃ s' new, Leads id (s, .a2 rs) ({ s' with sids := upd s'.sids id none }, .done) ∧
      Same ρ σ s' ((rs.map ρ).foldl (delLoop d (σ id)) (a, evs)).1 ∧
      ((rs.map ρ).foldl (delLoop d (σ id)) (a, evs)).2 = evs ++ new ∧ s'.deleted.map ρ = s.deleted.map ρ ++ deletions new := by
  induction rs generalizing s a evs with
  | nil => exact ⟨s, [], .next rfl (.refl _), i, by simp, by simp [deletions]⟩
  | cons r rs ih =>
    obtain ⟨s', _, h2, h3, _, h5⟩ := room_left hρ hσ i d id r
    obtain ⟨s'', new, h6, h7, h8, h9⟩ := ih h2 (evs ++ (del_ d a (ρ r) (σ id)).2)
    refine ⟨s'', (del_ d a (ρ r) (σ id)).2 ++ new, .next rfl ((h5 rs).trans h6), h7, ?_, ?_⟩
    · rw [← List.append_assoc]; exact h8
    · rw [h9, h3, deletions_append, List.append_assoc]

include hρ hσ in
/-- A call that nobody interrupts. -/
theorem call_done {s : St} {a : Ad} (i : Same ρ σ s a) (d : Bool) (id : Nat) (c : Call) :
    ∃ s', Leads id (s, c.start) (s', .done) ∧ Same ρ σ s' (atOnce d ρ σ a (id, c)).1 ∧
      s'.deleted.map ρ = s.deleted.map ρ ++ deletions (atOnce d ρ σ a (id, c)).2 := by
  cases c with
  | join rs =>
    cases hx : s.sids id with
    | some x =>
      have hm : a.sids.get? (σ id) = some ((s.sset x).map ρ) := by rw [i.sids, hx]; rfl
      obtain ⟨s', h1, h2, h3, h4⟩ := rooms_joined hρ hσ i hx rs []
      have e : loadOrStoreSid a (σ id) = a := by simp [loadOrStoreSid, hm]
      refine ⟨s', .next (by simp only [Call.start, act, hx]) h1, ?_, ?_⟩
      · simp only [atOnce, addAll, e]; exact h2
      · simp only [atOnce, addAll, e, h3, h4]; simp [deletions]
    | none =>
      have hm : a.sids.get? (σ id) = none := by rw [i.sids, hx]; rfl
      have i1 := same_newsid hσ i id
      obtain ⟨s', h1, h2, h3, h4⟩ := rooms_joined hρ hσ i1 (id := id) (x := s.next) (by simp [upd]) rs []
      have e : loadOrStoreSid a (σ id) = { a with sids := a.sids.insert (σ id) [] } := by simp [loadOrStoreSid, hm]
      refine ⟨s', .next (by simp only [Call.start, act, hx]) h1, ?_, ?_⟩
      · simp only [atOnce, addAll, e]; exact h2
      · simp only [atOnce, addAll, e, h3, h4]; simp [deletions]
  | leave r =>
    cases hx : s.sids id with
    | some x =>
      have hm : a.sids.get? (σ id) = some ((s.sset x).map ρ) := by rw [i.sids, hx]; rfl
      have i1 := same_sset hσ i hx (RoomRace.del (s.sset x) r)
      rw [map_del hρ] at i1
      obtain ⟨s', h1, h2, h3, _⟩ := room_left hρ hσ i1 d id r
      refine ⟨s', .next (q := (s, .d1 x r)) (by simp only [Call.start, act, hx]) (.next rfl h1), ?_, ?_⟩
      · simp only [atOnce, Adapter.del, hm]; exact h2
      · simp only [atOnce, Adapter.del, hm]; exact h3
    | none =>
      have hm : a.sids.get? (σ id) = none := by rw [i.sids, hx]; rfl
      obtain ⟨s', h1, h2, h3, _⟩ := room_left hρ hσ i d id r
      refine ⟨s', .next (by simp only [Call.start, act, hx]) h1, ?_, ?_⟩
      · simp only [atOnce, Adapter.del, hm]; exact h2
      · simp only [atOnce, Adapter.del, hm]; exact h3
  | leaveAll =>
    cases hx : s.sids id with
    | some x =>
      have hm : a.sids.get? (σ id) = some ((s.sset x).map ρ) := by rw [i.sids, hx]; rfl
      obtain ⟨s', new, h1, h2, h3, h4⟩ := all_left hρ hσ i d id (s.sset x) []
      refine ⟨_, .next (q := (s, .a1 x)) (by simp only [Call.start, act, hx]) (.next rfl h1), ?_, ?_⟩
      · simp only [atOnce, delAll, hm]; exact same_delsid hσ h2 id
      · simp only [atOnce, delAll, hm, h3]; exact h4
    | none =>
      have hm : a.sids.get? (σ id) = none := by rw [i.sids, hx]; rfl
      refine ⟨s, .next (by simp only [Call.start, act, hx]) (.refl _), ?_, ?_⟩
      · simp only [atOnce, delAll, hm]; exact i
      · simp [atOnce, delAll, hm, deletions]

theorem same_th {s : St} {a : Ad} (i : Same ρ σ s a) (f : Nat → Nat × PC) : Same ρ σ { s with th := f } a :=
  ⟨i.sids, i.rooms, i.sinj, i.rinj, i.sfresh, i.rfresh⟩

theorem run_call (h : List Ev) (k id : Nat) (c : Call) (n : Nat) (hk : ((run h).th k).2 = .done) :
    run (h ++ .call k id c :: List.replicate n (.adv k)) =
      { (turns id n (run h, c.start)).1 with th := upd (run h).th k (id, (turns id n (run h, c.start)).2) } := by
  have : run (h ++ .call k id c :: List.replicate n (.adv k)) =
      (List.replicate n (Ev.adv k)).foldl step (step (run h) (.call k id c)) := by simp [run]
  rw [this, step, if_pos hk, advs]

/-- Everybody is free between calls made in turn. -/
theorem inTurn_free {h : List Ev} {cs : List (Nat × Call)} (t : RoomsInTurn h cs) (k : Nat) : ((run h).th k).2 = .done := by
  induction t generalizing k with
  | nil => rfl
  | call j id c n t hd ih =>
    rw [run_call _ _ _ _ _ (ih j)] at hd ⊢
    simp only [upd] at hd ⊢
    split
    · simpa using hd
    · exact ih k

include hρ hσ in
theorem inTurn_same (d : Bool) {h : List Ev} {cs : List (Nat × Call)} (t : RoomsInTurn h cs) :
    Same ρ σ (run h) (allAtOnce d ρ σ cs).1 ∧ (run h).deleted.map ρ = deletions (allAtOnce d ρ σ cs).2 := by
  induction t with
  | nil =>
    refine ⟨⟨fun _ => rfl, fun _ => rfl, ?_, ?_, ?_, ?_⟩, rfl⟩ <;> simp [run]
  | @call h cs k id c n t hd ih =>
    obtain ⟨s', ⟨m, h1⟩, h2, h3⟩ := call_done hρ hσ ih.1 d id c
    rw [run_call _ _ _ _ _ (inTurn_free t k)] at hd ⊢
    have e : (turns id n (run h, c.start)).1 = s' := turns_unique id m n _ _ _ h1 (by simpa [upd] using hd) rfl
    rw [e]
    have ea : allAtOnce d ρ σ (cs ++ [(id, c)]) = ((atOnce d ρ σ (allAtOnce d ρ σ cs).1 (id, c)).1,
        (allAtOnce d ρ σ cs).2 ++ (atOnce d ρ σ (allAtOnce d ρ σ cs).1 (id, c)).2) := by
      simp [allAtOnce]
    rw [ea]
    exact ⟨same_th h2 _, by rw [deletions_append, ← ih.2]; exact h3⟩

end Verif.RoomRace
