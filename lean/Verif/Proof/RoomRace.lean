import Verif.Spec.RoomRace
import Verif.Proof.World

namespace Verif.RoomRace
open Verif Verif.Spec Verif.World

theorem mem_add {l : List Nat} {a b : Nat} : b ∈ add l a ↔ b ∈ l ∨ b = a := by
  unfold add; split
  · rename_i h; constructor
    · exact .inl
    · rintro (h' | rfl)
      · exact h'
      · exact h
  · simp [or_comm]

theorem mem_del {l : List Nat} {a b : Nat} : b ∈ del l a ↔ b ∈ l ∧ b ≠ a := by simp [del]

/-- The set of sockets a call is working on, and its room. -/
def PC.held : PC → Option (Nat × Nat)
  | .j3 _ r t _ | .j4 _ r t _ | .d3 r t | .d4 r t | .e3 r t _ | .e4 r t _ => some (r, t)
  | _ => none

structure WF (s : St) : Prop where
  sidLt : ∀ {i x}, s.sids i = some x → x < s.next
  roomLt : ∀ {r t}, s.rooms r = some t → t < s.next
  sidInj : ∀ {i j x}, s.sids i = some x → s.sids j = some x → i = j
  roomInj : ∀ {q r t}, s.rooms q = some t → s.rooms r = some t → q = r
  heldLt : ∀ k {r t}, (s.th k).2.held = some (r, t) → t < s.next
  held : ∀ k {r t q}, (s.th k).2.held = some (r, t) → s.rooms q = some t → q = r

/-- How the tables stand to `w`, what should be after the call, for socket `id` and a room that was not deleted. -/
def rel (s : St) (id r : Nat) (w : Prop) : PC → Prop
  | .j0 rs => (HasRoom s id r ↔ InRoom s id r) ∧ (w ↔ InRoom s id r ∨ r ∈ rs)
  | .j1 x rs => s.sids id = some x ∧ (HasRoom s id r ↔ InRoom s id r) ∧ (w ↔ InRoom s id r ∨ r ∈ rs)
  | .j2 x r0 rs => s.sids id = some x ∧ (r = r0 → HasRoom s id r ∧ w) ∧
      (r ≠ r0 → (HasRoom s id r ↔ InRoom s id r) ∧ (w ↔ InRoom s id r ∨ r ∈ rs))
  | .j3 x r0 t rs | .j4 x r0 t rs => s.sids id = some x ∧ (r = r0 → HasRoom s id r ∧ w ∧ s.rooms r0 = some t) ∧
      (r ≠ r0 → (HasRoom s id r ↔ InRoom s id r) ∧ (w ↔ InRoom s id r ∨ r ∈ rs))
  | .d0 r0 => (HasRoom s id r ↔ InRoom s id r) ∧ (w ↔ InRoom s id r ∧ r ≠ r0)
  | .d1 x r0 => s.sids id = some x ∧ (HasRoom s id r ↔ InRoom s id r) ∧ (w ↔ InRoom s id r ∧ r ≠ r0)
  | .d2 r0 => (r = r0 → ¬ HasRoom s id r ∧ ¬ w) ∧ (r ≠ r0 → (HasRoom s id r ↔ InRoom s id r) ∧ (w ↔ InRoom s id r))
  | .d3 r0 t => (r = r0 → ¬ HasRoom s id r ∧ ¬ w ∧ s.rooms r0 = some t) ∧
      (r ≠ r0 → (HasRoom s id r ↔ InRoom s id r) ∧ (w ↔ InRoom s id r))
  | .d4 _ _ | .d5 _ | .done => (HasRoom s id r ↔ InRoom s id r) ∧ (w ↔ InRoom s id r)
  | .a0 => (HasRoom s id r ↔ InRoom s id r) ∧ ¬ w
  | .a1 x => s.sids id = some x ∧ (HasRoom s id r ↔ InRoom s id r) ∧ ¬ w
  | .a2 left => (InRoom s id r → r ∈ left) ∧ ¬ w
  | .e2 r0 left => (InRoom s id r → r = r0 ∨ r ∈ left) ∧ ¬ w
  | .e3 r0 t left => (InRoom s id r → r = r0 ∨ r ∈ left) ∧ ¬ w ∧ (r = r0 → s.rooms r0 = some t)
  | .e4 _ _ left | .e5 _ left => (InRoom s id r → r ∈ left) ∧ ¬ w

/-- The relation depends only on the tables as seen by the socket. -/
theorem rel_congr {s s' : St} {id r : Nat} {w : Prop} (pc : PC) (h1 : HasRoom s' id r ↔ HasRoom s id r)
    (h2 : InRoom s' id r ↔ InRoom s id r) (h3 : s'.sids id = s.sids id)
    (h4 : ∀ t, s.rooms r = some t → s'.rooms r = some t) : rel s id r w pc → rel s' id r w pc := by
  cases pc <;> simp only [rel, h1, h2, h3] <;> try exact fun h => h
  · rintro ⟨a, b, c⟩
    exact ⟨a, fun e => ⟨(b e).1, (b e).2.1, by rw [← e]; exact h4 _ (by rw [e]; exact (b e).2.2)⟩, c⟩
  · rintro ⟨a, b, c⟩
    exact ⟨a, fun e => ⟨(b e).1, (b e).2.1, by rw [← e]; exact h4 _ (by rw [e]; exact (b e).2.2)⟩, c⟩
  · rintro ⟨b, c⟩
    exact ⟨fun e => ⟨(b e).1, (b e).2.1, by rw [← e]; exact h4 _ (by rw [e]; exact (b e).2.2)⟩, c⟩
  · rintro ⟨a, b, c⟩
    exact ⟨a, b, fun e => by rw [← e]; exact h4 _ (by rw [e]; exact c e)⟩

theorem loadAndDelete_cases (s : St) (r : Nat) :
    loadAndDelete s r = s ∨ (loadAndDelete s r = { s with rooms := upd s.rooms r none, deleted := s.deleted ++ [r] }) := by
  unfold loadAndDelete; split
  · exact .inr rfl
  · exact .inl rfl

/-- What a step of a call for `id` does not change: the tables as seen by another socket, up to deleted rooms. -/
theorem frame {s : St} (wf : WF s) (k : Nat) {id' r : Nat} (hne : id' ≠ (s.th k).1)
    (hsid : ∀ x, (∃ rs, (s.th k).2 = .j1 x rs) ∨ (∃ r, (s.th k).2 = .d1 x r) → ∀ i, s.sids i = some x → i = (s.th k).1)
    (hr : r ∉ (act s (s.th k).1 (s.th k).2).1.deleted) :
    (HasRoom (act s (s.th k).1 (s.th k).2).1 id' r ↔ HasRoom s id' r) ∧
    (InRoom (act s (s.th k).1 (s.th k).2).1 id' r ↔ InRoom s id' r) ∧
    (act s (s.th k).1 (s.th k).2).1.sids id' = s.sids id' ∧
    (∀ t, s.rooms r = some t → (act s (s.th k).1 (s.th k).2).1.rooms r = some t) := by
  generalize hth : s.th k = th at *
  obtain ⟨id, pc⟩ := th
  simp only at *
  have hs : ∀ x y, (∀ i, s.sids i = some x → i = id) → ((∃ z, s.sids id' = some z ∧ r ∈ upd s.sset x y z) ↔ HasRoom s id' r) := by
    intro x y hx
    unfold HasRoom
    constructor
    · rintro ⟨z, h1, h2⟩
      have : z ≠ x := fun e => hne (hx _ (e ▸ h1))
      rw [upd_ne _ _ this] at h2
      exact ⟨z, h1, h2⟩
    · rintro ⟨z, h1, h2⟩
      have : z ≠ x := fun e => hne (hx _ (e ▸ h1))
      exact ⟨z, h1, by rw [upd_ne _ _ this]; exact h2⟩
  have hrs : ∀ (t : Nat) (l : List Nat), (id' ∈ l ↔ id' ∈ s.rset t) →
      ((∃ u, s.rooms r = some u ∧ id' ∈ upd s.rset t l u) ↔ InRoom s id' r) := by
    intro t l hl
    unfold InRoom
    constructor
    · rintro ⟨u, h1, h2⟩
      by_cases e : u = t
      · subst e; rw [upd_same] at h2; exact ⟨u, h1, hl.mp h2⟩
      · rw [upd_ne _ _ e] at h2; exact ⟨u, h1, h2⟩
    · rintro ⟨u, h1, h2⟩
      by_cases e : u = t
      · subst e; exact ⟨u, h1, by rw [upd_same]; exact hl.mpr h2⟩
      · exact ⟨u, h1, by rw [upd_ne _ _ e]; exact h2⟩
  have hLD : ∀ r0, r ∉ (loadAndDelete s r0).deleted →
      (HasRoom (loadAndDelete s r0) id' r ↔ HasRoom s id' r) ∧ (InRoom (loadAndDelete s r0) id' r ↔ InRoom s id' r) ∧
      (loadAndDelete s r0).sids id' = s.sids id' ∧ (∀ t, s.rooms r = some t → (loadAndDelete s r0).rooms r = some t) := by
    intro r0 h
    rcases loadAndDelete_cases s r0 with e | e
    · rw [e]; exact ⟨Iff.rfl, Iff.rfl, rfl, fun _ h => h⟩
    · rw [e] at h ⊢
      have hne : r ≠ r0 := by intro e; apply h; simp [e]
      refine ⟨Iff.rfl, ?_, rfl, fun t ht => ?_⟩
      · unfold InRoom; simp only [upd_ne _ _ hne]
      · simp only [upd_ne _ _ hne]; exact ht
  cases pc with
  | j0 rs =>
    simp only [act]
    split
    · exact ⟨Iff.rfl, Iff.rfl, rfl, fun _ h => h⟩
    · refine ⟨?_, Iff.rfl, upd_ne _ _ hne, fun _ h => h⟩
      unfold HasRoom
      simp only [upd_ne _ _ hne]
      constructor
      · rintro ⟨x, h1, h2⟩
        have := wf.sidLt h1
        rw [upd_ne _ _ (by omega)] at h2
        exact ⟨x, h1, h2⟩
      · rintro ⟨x, h1, h2⟩
        have := wf.sidLt h1
        exact ⟨x, h1, by rw [upd_ne _ _ (by omega)]; exact h2⟩
  | j1 x rs =>
    cases rs with
    | nil => exact ⟨Iff.rfl, Iff.rfl, rfl, fun _ h => h⟩
    | cons r0 rs => exact ⟨hs x _ (hsid x (.inl ⟨_, rfl⟩)), Iff.rfl, rfl, fun _ h => h⟩
  | j2 x r0 rs =>
    simp only [act]
    split
    · exact ⟨Iff.rfl, Iff.rfl, rfl, fun _ h => h⟩
    · rename_i hn
      refine ⟨Iff.rfl, ?_, rfl, ?_⟩
      · unfold InRoom
        constructor
        · rintro ⟨u, h1, h2⟩
          by_cases e : r = r0
          · subst e
            simp only [upd_same] at h1
            cases h1
            simp at h2
          · simp only [upd_ne _ _ e] at h1
            have := wf.roomLt h1
            simp only [upd_ne s.rset [] (show u ≠ s.next by omega)] at h2
            exact ⟨u, h1, h2⟩
        · rintro ⟨u, h1, h2⟩
          by_cases e : r = r0
          · subst e; rw [hn] at h1; cases h1
          · have := wf.roomLt h1
            exact ⟨u, by simp only [upd_ne _ _ e]; exact h1, by simp only [upd_ne s.rset [] (show u ≠ s.next by omega)]; exact h2⟩
      · intro t ht
        have e : r ≠ r0 := by rintro rfl; rw [hn] at ht; cases ht
        simp only [upd_ne _ _ e]; exact ht
  | j3 x r0 t rs => exact ⟨Iff.rfl, Iff.rfl, rfl, fun _ h => h⟩
  | j4 x r0 t rs =>
    refine ⟨Iff.rfl, hrs t _ ?_, rfl, fun _ h => h⟩
    rw [mem_add]; exact ⟨fun h => h.resolve_right hne, .inl⟩
  | d0 r0 => simp only [act]; split <;> exact ⟨Iff.rfl, Iff.rfl, rfl, fun _ h => h⟩
  | d1 x r0 => exact ⟨hs x _ (hsid x (.inr ⟨_, rfl⟩)), Iff.rfl, rfl, fun _ h => h⟩
  | d2 r0 => simp only [act]; split <;> exact ⟨Iff.rfl, Iff.rfl, rfl, fun _ h => h⟩
  | d3 r0 t =>
    refine ⟨Iff.rfl, hrs t _ ?_, rfl, fun _ h => h⟩
    rw [mem_del]; exact ⟨fun h => h.1, fun h => ⟨h, hne⟩⟩
  | d4 r0 t => exact ⟨Iff.rfl, Iff.rfl, rfl, fun _ h => h⟩
  | d5 r0 => exact hLD r0 hr
  | a0 => simp only [act]; split <;> exact ⟨Iff.rfl, Iff.rfl, rfl, fun _ h => h⟩
  | a1 x => exact ⟨Iff.rfl, Iff.rfl, rfl, fun _ h => h⟩
  | a2 left =>
    cases left with
    | nil => refine ⟨?_, Iff.rfl, upd_ne _ _ hne, fun _ h => h⟩; unfold HasRoom; simp only [act, upd_ne _ _ hne]
    | cons r0 left => exact ⟨Iff.rfl, Iff.rfl, rfl, fun _ h => h⟩
  | e2 r0 left => simp only [act]; split <;> exact ⟨Iff.rfl, Iff.rfl, rfl, fun _ h => h⟩
  | e3 r0 t left =>
    refine ⟨Iff.rfl, hrs t _ ?_, rfl, fun _ h => h⟩
    rw [mem_del]; exact ⟨fun h => h.1, fun h => ⟨h, hne⟩⟩
  | e4 r0 t left => exact ⟨Iff.rfl, Iff.rfl, rfl, fun _ h => h⟩
  | e5 r0 left => exact hLD r0 hr
  | done => exact ⟨Iff.rfl, Iff.rfl, rfl, fun _ h => h⟩

/-- A step of a call for `id`, as seen by `id`. -/
theorem local_step {s : St} (wf : WF s) (id : Nat) (pc : PC) {r : Nat} {w : Prop}
    (hheld : ∀ {r0 t q}, pc.held = some (r0, t) → s.rooms q = some t → q = r0)
    (hr : r ∉ (act s id pc).1.deleted) (h : rel s id r w pc) : rel (act s id pc).1 id r w (act s id pc).2 := by
  have hLD : ∀ r0, r ∉ (loadAndDelete s r0).deleted →
      (HasRoom (loadAndDelete s r0) id r ↔ HasRoom s id r) ∧ (InRoom (loadAndDelete s r0) id r ↔ InRoom s id r) := by
    intro r0 h
    rcases loadAndDelete_cases s r0 with e | e
    · rw [e]; exact ⟨Iff.rfl, Iff.rfl⟩
    · rw [e] at h ⊢
      have hne : r ≠ r0 := by intro e; apply h; simp [e]
      exact ⟨Iff.rfl, by unfold InRoom; simp only [upd_ne _ _ hne]⟩
  -- the set of another room is not this one
  have hother : ∀ {r0 t}, pc.held = some (r0, t) → r ≠ r0 → ∀ l,
      ((∃ u, s.rooms r = some u ∧ id ∈ upd s.rset t l u) ↔ InRoom s id r) := by
    intro r0 t hp hne l
    unfold InRoom
    have : ∀ {u}, s.rooms r = some u → u ≠ t := fun hu e => hne (hheld hp (e ▸ hu))
    constructor
    · rintro ⟨u, h1, h2⟩; rw [upd_ne _ _ (this h1)] at h2; exact ⟨u, h1, h2⟩
    · rintro ⟨u, h1, h2⟩; exact ⟨u, h1, by rw [upd_ne _ _ (this h1)]; exact h2⟩
  cases pc with
  | j0 rs =>
    simp only [act]
    split
    · rename_i x hx; exact ⟨hx, h⟩
    · rename_i hx
      refine ⟨by simp, ?_, h.2⟩
      have : ¬ HasRoom s id r := by rintro ⟨x, h1, _⟩; rw [hx] at h1; cases h1
      have hn : ¬ InRoom s id r := fun hi => this (h.1.mpr hi)
      constructor
      · rintro ⟨x, h1, h2⟩
        simp only [upd_same, Option.some.injEq] at h1
        subst h1
        simp at h2
      · intro hi; exact absurd hi hn
  | j1 x rs =>
    cases rs with
    | nil =>
      have h2 := h.2.2
      simp only [List.not_mem_nil, or_false] at h2
      exact ⟨h.2.1, h2⟩
    | cons r0 rs =>
      obtain ⟨hx, h1, h2⟩ := h
      have key : ∀ q, HasRoom { s with sset := upd s.sset x (add (s.sset x) r0) } id q ↔ HasRoom s id q ∨ q = r0 := by
        intro q
        unfold HasRoom
        simp only [hx, Option.some.injEq, exists_eq_left', upd_same, mem_add]
      refine ⟨hx, ?_, ?_⟩
      · rintro rfl; exact ⟨(key r).mpr (.inr rfl), h2.mpr (.inr (by simp))⟩
      · intro hne
        have hk := key r
        simp only [hne, or_false] at hk
        refine ⟨hk.trans h1, h2.trans ?_⟩
        show InRoom s id r ∨ _ ↔ InRoom s id r ∨ _
        simp [hne]
  | j2 x r0 rs =>
    simp only [act]
    obtain ⟨hx, h1, h2⟩ := h
    split
    · rename_i t ht
      exact ⟨hx, fun e => ⟨(h1 e).1, (h1 e).2, ht⟩, h2⟩
    · rename_i hn
      refine ⟨hx, fun e => ⟨(h1 e).1, (h1 e).2, by simp⟩, ?_⟩
      intro hne
      have : InRoom { s with rooms := upd s.rooms r0 (some s.next), rset := upd s.rset s.next [], next := s.next + 1 } id r ↔ InRoom s id r := by
        unfold InRoom
        simp only [upd_ne _ _ hne]
        constructor
        · rintro ⟨u, h1, h2⟩
          have := wf.roomLt h1
          rw [upd_ne _ _ (by omega)] at h2; exact ⟨u, h1, h2⟩
        · rintro ⟨u, h1, h2⟩
          have := wf.roomLt h1
          exact ⟨u, h1, by rw [upd_ne _ _ (by omega)]; exact h2⟩
      exact ⟨(h2 hne).1.trans this.symm, by rw [this]; exact (h2 hne).2⟩
  | j3 x r0 t rs =>
    simp only [act]
    split
    · rename_i hm
      obtain ⟨hx, h1, h2⟩ := h
      by_cases e : r = r0
      · subst e
        have hi : InRoom s id r := ⟨t, (h1 rfl).2.2, hm⟩
        exact ⟨hx, ⟨fun _ => hi, fun _ => (h1 rfl).1⟩, ⟨fun _ => .inl hi, fun _ => (h1 rfl).2.1⟩⟩
      · exact ⟨hx, h2 e⟩
    · exact h
  | j4 x r0 t rs =>
    obtain ⟨hx, h1, h2⟩ := h
    refine ⟨hx, ?_⟩
    by_cases e : r = r0
    · subst e
      have hi : InRoom (act s id (.j4 x r t rs)).1 id r := ⟨t, (h1 rfl).2.2, by simp [act, mem_add]⟩
      exact ⟨⟨fun _ => hi, fun _ => (h1 rfl).1⟩, ⟨fun _ => .inl hi, fun _ => (h1 rfl).2.1⟩⟩
    · have := hother (r0 := r0) (t := t) rfl e (add (s.rset t) id)
      have this : InRoom (act s id (.j4 x r0 t rs)).1 id r ↔ InRoom s id r := this
      exact ⟨(h2 e).1.trans this.symm, (h2 e).2.trans (by rw [this])⟩
  | d0 r0 =>
    simp only [act]
    split
    · rename_i x hx; exact ⟨hx, h⟩
    · rename_i hx
      have hn : ¬ HasRoom s id r := by rintro ⟨x, h1, _⟩; rw [hx] at h1; cases h1
      have hn2 : ¬ InRoom s id r := fun hi => hn (h.1.mpr hi)
      exact ⟨fun _ => ⟨hn, fun hw => hn2 (h.2.mp hw).1⟩, fun hne => ⟨h.1, ⟨fun hw => (h.2.mp hw).1, fun hi => h.2.mpr ⟨hi, hne⟩⟩⟩⟩
  | d1 x r0 =>
    obtain ⟨hx, h1, h2⟩ := h
    have key : ∀ q, HasRoom { s with sset := upd s.sset x (del (s.sset x) r0) } id q ↔ HasRoom s id q ∧ q ≠ r0 := by
      intro q
      unfold HasRoom
      simp only [hx, Option.some.injEq, exists_eq_left', upd_same, mem_del]
    refine ⟨fun e => ⟨fun hh => ((key r).mp hh).2 e, fun hw => (h2.mp hw).2 e⟩, fun hne => ?_⟩
    have hk := key r
    simp only [hne, ne_eq, not_false_eq_true, and_true] at hk
    exact ⟨hk.trans h1, ⟨fun hw => (h2.mp hw).1, fun hi => h2.mpr ⟨hi, hne⟩⟩⟩
  | d2 r0 =>
    simp only [act]
    split
    · rename_i t ht; exact ⟨fun e => ⟨(h.1 e).1, (h.1 e).2, ht⟩, h.2⟩
    · rename_i hn
      by_cases e : r = r0
      · subst e
        have : ¬ InRoom s id r := by rintro ⟨t, h1, _⟩; rw [hn] at h1; cases h1
        exact ⟨⟨fun hh => absurd hh (h.1 rfl).1, fun hi => absurd hi this⟩, ⟨fun hw => absurd hw (h.1 rfl).2, fun hi => absurd hi this⟩⟩
      · exact h.2 e
  | d3 r0 t =>
    by_cases e : r = r0
    · subst e
      have : ¬ InRoom (act s id (.d3 r t)).1 id r := by
        rintro ⟨u, h1, h2⟩
        have h1 : s.rooms r = some u := h1
        rw [(h.1 rfl).2.2] at h1
        cases h1
        simp [act, mem_del] at h2
      exact ⟨⟨fun hh => absurd hh (h.1 rfl).1, fun hi => absurd hi this⟩, ⟨fun hw => absurd hw (h.1 rfl).2.1, fun hi => absurd hi this⟩⟩
    · have this : InRoom (act s id (.d3 r0 t)).1 id r ↔ InRoom s id r := hother (r0 := r0) (t := t) rfl e (del (s.rset t) id)
      exact ⟨(h.2 e).1.trans this.symm, (h.2 e).2.trans this.symm⟩
  | d4 r0 t => simp only [act]; split <;> exact h
  | d5 r0 =>
    obtain ⟨h1, h2⟩ := hLD r0 hr
    exact ⟨h1.trans (h.1.trans h2.symm), h.2.trans h2.symm⟩
  | a0 =>
    simp only [act]
    split
    · rename_i x hx; exact ⟨hx, h⟩
    · rename_i hx
      have hn : ¬ HasRoom s id r := by rintro ⟨x, h1, _⟩; rw [hx] at h1; cases h1
      have hn2 : ¬ InRoom s id r := fun hi => hn (h.1.mpr hi)
      exact ⟨h.1, ⟨fun hw => absurd hw h.2, fun hi => absurd hi hn2⟩⟩
  | a1 x =>
    obtain ⟨hx, h1, h2⟩ := h
    refine ⟨fun hi => ?_, h2⟩
    obtain ⟨y, hy, hm⟩ := h1.mpr hi
    rw [hx] at hy; cases hy
    exact hm
  | a2 left =>
    cases left with
    | nil =>
      have hn : ¬ InRoom s id r := fun hi => by simpa using h.1 hi
      have hn2 : ¬ HasRoom (act s id (.a2 [])).1 id r := by
        rintro ⟨x, h1, _⟩
        simp [act] at h1
      exact ⟨⟨fun hh => absurd hh hn2, fun hi => absurd hi hn⟩, ⟨fun hw => absurd hw h.2, fun hi => absurd hi hn⟩⟩
    | cons r0 left => exact ⟨fun hi => by simpa using h.1 hi, h.2⟩
  | e2 r0 left =>
    simp only [act]
    split
    · rename_i t ht; exact ⟨h.1, h.2, fun _ => ht⟩
    · rename_i hn
      refine ⟨fun hi => ?_, h.2⟩
      rcases h.1 hi with rfl | h'
      · obtain ⟨t, h1, _⟩ := hi; rw [hn] at h1; cases h1
      · exact h'
  | e3 r0 t left =>
    by_cases e : r = r0
    · subst e
      refine ⟨?_, h.2.1⟩
      rintro ⟨u, h1, h2⟩
      have h1 : s.rooms r = some u := h1
      rw [h.2.2 rfl] at h1
      cases h1
      simp [act, mem_del] at h2
    · have this : InRoom (act s id (.e3 r0 t left)).1 id r ↔ InRoom s id r := hother (r0 := r0) (t := t) rfl e (del (s.rset t) id)
      refine ⟨fun hi => ?_, h.2.1⟩
      exact (h.1 (this.mp hi)).resolve_left e
  | e4 r0 t left => simp only [act]; split <;> exact h
  | e5 r0 left =>
    obtain ⟨h1, h2⟩ := hLD r0 hr
    exact ⟨fun hi => h.1 (h2.mp hi), h.2⟩
  | done => exact h

theorem act_next (s : St) (id : Nat) (pc : PC) : s.next ≤ (act s id pc).1.next := by
  have hL : ∀ r, (loadAndDelete s r).next = s.next := fun r => by rcases loadAndDelete_cases s r with e | e <;> rw [e]
  cases pc with
  | j1 x rs => cases rs <;> simp [act]
  | a2 l => cases l <;> simp [act]
  | _ => simp only [act] <;> (try split) <;> simp [hL]

theorem act_deleted (s : St) (id : Nat) (pc : PC) : ∀ r ∈ s.deleted, r ∈ (act s id pc).1.deleted := by
  have hL : ∀ q, ∀ r ∈ s.deleted, r ∈ (loadAndDelete s q).deleted := fun q r h => by
    rcases loadAndDelete_cases s q with e | e <;> rw [e]
    · exact h
    · simp [h]
  cases pc with
  | j1 x rs => cases rs <;> exact fun r h => h
  | a2 l => cases l <;> exact fun r h => h
  | d5 r0 => exact hL r0
  | e5 r0 l => exact hL r0
  | _ => simp only [act] <;> (try split) <;> exact fun r h => h

/-- How a step changes the map of the sockets. -/
theorem act_sids (s : St) (id : Nat) (pc : PC) :
    (act s id pc).1.sids = s.sids ∨ ((act s id pc).1.sids = upd s.sids id (some s.next) ∧ (act s id pc).1.next = s.next + 1) ∨
    (act s id pc).1.sids = upd s.sids id none := by
  have hL : ∀ r, (loadAndDelete s r).sids = s.sids := fun r => by rcases loadAndDelete_cases s r with e | e <;> rw [e]
  cases pc with
  | j0 rs =>
    simp only [act]; split
    · exact .inl rfl
    · exact .inr (.inl ⟨rfl, rfl⟩)
  | j1 x rs => cases rs <;> exact .inl rfl
  | a2 l =>
    cases l with
    | nil => exact .inr (.inr rfl)
    | cons => exact .inl rfl
  | d5 r0 => exact .inl (hL r0)
  | e5 r0 l => exact .inl (hL r0)
  | _ => simp only [act] <;> (try split) <;> first | exact .inl rfl | exact .inl trivial

/-- How a step changes the map of the rooms. -/
theorem act_rooms (s : St) (id : Nat) (pc : PC) :
    (act s id pc).1.rooms = s.rooms ∨
    (∃ x r rs, (act s id pc).1.rooms = upd s.rooms r (some s.next) ∧ (act s id pc).1.next = s.next + 1 ∧
      (act s id pc).2 = .j3 x r s.next rs) ∨
    ∃ r, (act s id pc).1.rooms = upd s.rooms r none := by
  have hL : ∀ r, (loadAndDelete s r).rooms = s.rooms ∨ (loadAndDelete s r).rooms = upd s.rooms r none := fun r => by
    rcases loadAndDelete_cases s r with e | e <;> rw [e]
    · exact .inl rfl
    · exact .inr rfl
  cases pc with
  | j1 x rs => cases rs <;> exact .inl rfl
  | j2 x r rs =>
    simp only [act]; split
    · exact .inl rfl
    · exact .inr (.inl ⟨x, r, rs, rfl, rfl, rfl⟩)
  | a2 l => cases l <;> exact .inl rfl
  | d5 r0 =>
    rcases hL r0 with h | h
    · exact .inl h
    · exact .inr (.inr ⟨r0, h⟩)
  | e5 r0 l =>
    rcases hL r0 with h | h
    · exact .inl h
    · exact .inr (.inr ⟨r0, h⟩)
  | _ => simp only [act] <;> (try split) <;> first | exact .inl rfl | exact .inl trivial

/-- Which set a call holds after a step: the one it held, one just loaded, or one just created. -/
theorem act_held (s : St) (id : Nat) (pc : PC) {r t : Nat} (h : (act s id pc).2.held = some (r, t)) :
    pc.held = some (r, t) ∨ s.rooms r = some t ∨
    (t = s.next ∧ (act s id pc).1.rooms = upd s.rooms r (some s.next) ∧ (act s id pc).1.next = s.next + 1) := by
  cases pc with
  | j0 rs => simp only [act] at h; split at h <;> simp [PC.held] at h
  | j1 x rs => cases rs <;> simp [act, PC.held] at h
  | j2 x r0 rs =>
    simp only [act] at h ⊢
    split at h
    · rename_i u hu
      simp only [PC.held, Option.some.injEq, Prod.mk.injEq] at h
      obtain ⟨rfl, rfl⟩ := h
      exact .inr (.inl hu)
    · rename_i hu
      simp only [PC.held, Option.some.injEq, Prod.mk.injEq] at h
      obtain ⟨rfl, rfl⟩ := h
      rw [hu]
      exact .inr (.inr ⟨rfl, rfl, rfl⟩)
  | j3 x r0 u rs =>
    simp only [act] at h
    split at h
    · simp [PC.held] at h
    · exact .inl h
  | j4 x r0 u rs => simp [act, PC.held] at h
  | d0 r0 => simp only [act] at h; split at h <;> simp [PC.held] at h
  | d1 x r0 => simp [act, PC.held] at h
  | d2 r0 =>
    simp only [act] at h
    split at h
    · rename_i u hu
      simp only [PC.held, Option.some.injEq, Prod.mk.injEq] at h
      obtain ⟨rfl, rfl⟩ := h
      exact .inr (.inl hu)
    · simp [PC.held] at h
  | d3 r0 u => exact .inl h
  | d4 r0 u => simp only [act] at h; split at h <;> simp [PC.held] at h
  | d5 r0 => simp [act, PC.held] at h
  | a0 => simp only [act] at h; split at h <;> simp [PC.held] at h
  | a1 x => simp [act, PC.held] at h
  | a2 l => cases l <;> simp [act, PC.held] at h
  | e2 r0 l =>
    simp only [act] at h
    split at h
    · rename_i u hu
      simp only [PC.held, Option.some.injEq, Prod.mk.injEq] at h
      obtain ⟨rfl, rfl⟩ := h
      exact .inr (.inl hu)
    · simp [PC.held] at h
  | e3 r0 u l => exact .inl h
  | e4 r0 u l => simp only [act] at h; split at h <;> simp [PC.held] at h
  | e5 r0 l => simp [act, PC.held] at h
  | done => simp [act, PC.held] at h

theorem wf_advance {s : St} (wf : WF s) (k : Nat) : WF (advance s k) := by
  have hn := act_next s (s.th k).1 (s.th k).2
  have hs := act_sids s (s.th k).1 (s.th k).2
  have hr := act_rooms s (s.th k).1 (s.th k).2
  have hh := @act_held s (s.th k).1 (s.th k).2
  have hk := @WF.held s wf k
  have hkl := @WF.heldLt s wf k
  unfold advance
  generalize hth : s.th k = th at *
  obtain ⟨id, pc⟩ := th
  simp only at *
  generalize hact : act s id pc = a at *
  obtain ⟨s', pc'⟩ := a
  simp only at *
  refine ⟨?_, ?_, ?_, ?_, ?_, ?_⟩
  · intro i x h
    rcases hs with e | ⟨e, e2⟩ | e
    · simp only [e] at h; have := wf.sidLt h; show x < s'.next; omega
    · simp only [e, upd_apply] at h
      show x < s'.next
      split at h
      · cases h; omega
      · have := wf.sidLt h; omega
    · simp only [e, upd_apply] at h
      show x < s'.next
      split at h
      · cases h
      · have := wf.sidLt h; omega
  · intro r t h
    show t < s'.next
    rcases hr with e | ⟨_, q, _, e, e2, _⟩ | ⟨q, e⟩
    · simp only [e] at h; have := wf.roomLt h; omega
    · simp only [e, upd_apply] at h
      split at h
      · cases h; omega
      · have := wf.roomLt h; omega
    · simp only [e, upd_apply] at h
      split at h
      · cases h
      · have := wf.roomLt h; omega
  · intro i j x h1 h2
    rcases hs with e | ⟨e, e2⟩ | e
    · simp only [e] at h1 h2; exact wf.sidInj h1 h2
    · simp only [e, upd_apply] at h1 h2
      split at h1 <;> split at h2
      · simp_all
      · cases h1; have := wf.sidLt h2; omega
      · cases h2; have := wf.sidLt h1; omega
      · exact wf.sidInj h1 h2
    · simp only [e, upd_apply] at h1 h2
      split at h1 <;> split at h2
      · cases h1
      · cases h1
      · cases h2
      · exact wf.sidInj h1 h2
  · intro q r t h1 h2
    rcases hr with e | ⟨_, p, _, e, e2, _⟩ | ⟨p, e⟩
    · simp only [e] at h1 h2; exact wf.roomInj h1 h2
    · simp only [e, upd_apply] at h1 h2
      split at h1 <;> split at h2
      · simp_all
      · cases h1; have := wf.roomLt h2; omega
      · cases h2; have := wf.roomLt h1; omega
      · exact wf.roomInj h1 h2
    · simp only [e, upd_apply] at h1 h2
      split at h1 <;> split at h2
      · cases h1
      · cases h1
      · cases h2
      · exact wf.roomInj h1 h2
  · intro j r t h
    show t < s'.next
    simp only [upd_apply] at h
    split at h
    · rcases hh h with h' | h' | ⟨h1, _, h3⟩
      · have := hkl h'; omega
      · have := wf.roomLt h'; omega
      · omega
    · have := wf.heldLt j h; omega
  · intro j r t q h h2
    simp only [upd_apply] at h
    have back : ∀ {q t}, s'.rooms q = some t → t < s.next → s.rooms q = some t := by
      intro q t h2 hlt
      rcases hr with e | ⟨_, p, _, e, e2, _⟩ | ⟨p, e⟩
      · rw [e] at h2; exact h2
      · rw [e, upd_apply] at h2
        split at h2
        · cases h2; omega
        · exact h2
      · rw [e, upd_apply] at h2
        split at h2
        · cases h2
        · exact h2
    split at h
    · rcases hh h with h' | h' | ⟨h1, h3, h4⟩
      · exact hk h' (back h2 (hkl h'))
      · exact wf.roomInj (back h2 (wf.roomLt h')) h'
      · simp only [h3, upd_apply] at h2
        split at h2
        · assumption
        · have := wf.roomLt h2; omega
    · exact wf.held j h (back h2 (wf.heldLt j h))

/-- What socket `id` is doing. -/
def Cur (s : St) (id : Nat) (pc : PC) : Prop :=
  (pc ≠ .done ∧ ∃ k, s.th k = (id, pc)) ∨ (pc = .done ∧ ∀ k, (s.th k).1 = id → (s.th k).2 = .done)

structure Inv (s : St) (w : Nat → Nat → Bool) : Prop where
  wf : WF s
  one : ∀ k k', (s.th k).1 = (s.th k').1 → (s.th k).2 ≠ .done → (s.th k').2 ≠ .done → k = k'
  rel : ∀ id pc, Cur s id pc → ∀ r, r ∉ s.deleted → rel s id r (w id r = true) pc

theorem exists_fresh (l : List Nat) : ∃ r, r ∉ l := by
  refine ⟨l.sum + 1, fun h => ?_⟩
  have : ∀ (l : List Nat) x, x ∈ l → x ≤ l.sum := by
    intro l; induction l with
    | nil => intro x h; cases h
    | cons y l ih =>
      intro x h
      rcases List.mem_cons.mp h with rfl | h
      · simp
      · have := ih x h; simp; omega
  have := this l _ h
  omega

theorem inv_advance {s : St} {w : Nat → Nat → Bool} (i : Inv s w) (k : Nat) : Inv (advance s k) w := by
  by_cases hdone : (s.th k).2 = .done
  · have : advance s k = s := by
      have hu : upd s.th k ((s.th k).1, PC.done) = s.th := by
        funext j; rw [upd_apply]; split
        · rename_i e; subst e; rw [← hdone]
        · rfl
      unfold advance; rw [hdone]; simp only [act, hu]
    rw [this]; exact i
  have hcur : Cur s (s.th k).1 (s.th k).2 := .inl ⟨hdone, k, rfl⟩
  have hsid : ∀ x, (∃ rs, (s.th k).2 = .j1 x rs) ∨ (∃ r, (s.th k).2 = .d1 x r) → s.sids (s.th k).1 = some x := by
    intro x hx
    obtain ⟨r, hr⟩ := exists_fresh s.deleted
    have hrel := i.rel _ _ hcur r hr
    rcases hx with ⟨rs, e⟩ | ⟨q, e⟩
    · rw [e] at hrel; exact hrel.1
    · rw [e] at hrel; exact hrel.1
  have hthk : (advance s k).th k = ((s.th k).1, (act s (s.th k).1 (s.th k).2).2) := by simp [advance]
  have hthj : ∀ j, j ≠ k → (advance s k).th j = s.th j := fun j h => by simp [advance, upd_ne _ _ h]
  refine ⟨wf_advance i.wf k, ?_, ?_⟩
  · intro j j' h1 h2 h3
    have fst : ∀ j, ((advance s k).th j).1 = (s.th j).1 := by
      intro j; by_cases e : j = k
      · subst e; rw [hthk]
      · rw [hthj j e]
    have act : ∀ j, ((advance s k).th j).2 ≠ .done → (s.th j).2 ≠ .done := by
      intro j h; by_cases e : j = k
      · subst e; exact hdone
      · rw [hthj j e] at h; exact h
    rw [fst, fst] at h1
    exact i.one j j' h1 (act j h2) (act j' h3)
  · intro id pc hc r hr
    have hr' : r ∉ (act s (s.th k).1 (s.th k).2).1.deleted := hr
    have hrs : r ∉ s.deleted := fun h => hr' (act_deleted _ _ _ r h)
    by_cases hid : id = (s.th k).1
    · subst hid
      have hpc : pc = (act s (s.th k).1 (s.th k).2).2 := by
        rcases hc with ⟨hne, j, hj⟩ | ⟨rfl, hall⟩
        · by_cases e : j = k
          · subst e; rw [hthk] at hj; exact (Prod.mk.inj hj).2.symm
          · rw [hthj j e] at hj
            exact absurd (i.one j k (by rw [hj]) (by rw [hj]; exact hne) hdone) e
        · have := hall k (by rw [hthk]); rw [hthk] at this; exact this.symm
      rw [hpc]
      have := local_step i.wf (s.th k).1 (s.th k).2 (fun h1 h2 => i.wf.held k h1 h2) hr' (i.rel _ _ hcur r hrs)
      exact rel_congr _ Iff.rfl Iff.rfl rfl (fun _ h => h) this
    · have hc' : Cur s id pc := by
        rcases hc with ⟨hne, j, hj⟩ | ⟨rfl, hall⟩
        · have e : j ≠ k := by rintro rfl; rw [hthk] at hj; exact hid (Prod.mk.inj hj).1.symm
          rw [hthj j e] at hj
          exact .inl ⟨hne, j, hj⟩
        · refine .inr ⟨rfl, fun j hj => ?_⟩
          have e : j ≠ k := by rintro rfl; exact hid hj.symm
          have := hall j (by rw [hthj j e]; exact hj)
          rwa [hthj j e] at this
      obtain ⟨f1, f2, f3, f4⟩ := frame i.wf k hid (fun x hx j hj => i.wf.sidInj hj (hsid x hx)) hr'
      exact rel_congr _ f1 f2 f3 f4 (i.rel id pc hc' r hrs)

theorem inv_call {s : St} {w : Nat → Nat → Bool} (i : Inv s w) (k id : Nat) (c : Call) (h1 : (s.th k).2 = .done)
    (h2 : ∀ k', (s.th k').1 = id → (s.th k').2 = .done) (w' : Nat → Nat → Bool)
    (hw : ∀ j r, w' j r = if id = j then (match c with
      | .join rs => decide (r ∈ rs) || w j r
      | .leave r' => decide (r ≠ r') && w j r
      | .leaveAll => false) else w j r) :
    Inv (step s (.call k id c)) w' := by
  have hst : step s (.call k id c) = { s with th := upd s.th k (id, c.start) } := by simp [step, h1]
  rw [hst]
  have hstart : c.start ≠ .done := by cases c <;> simp [Call.start]
  have hheld : c.start.held = none := by cases c <;> rfl
  have hcur : Cur s id .done := .inr ⟨rfl, h2⟩
  refine ⟨⟨i.wf.sidLt, i.wf.roomLt, i.wf.sidInj, i.wf.roomInj, ?_, ?_⟩, ?_, ?_⟩
  · intro j r t h
    simp only [upd_apply] at h
    split at h
    · rw [hheld] at h; cases h
    · exact i.wf.heldLt j h
  · intro j r t q h hq
    simp only [upd_apply] at h
    split at h
    · rw [hheld] at h; cases h
    · exact i.wf.held j h hq
  · intro j j' e1 e2 e3
    simp only [upd_apply] at e1 e2 e3
    by_cases hj : j = k <;> by_cases hj' : j' = k
    · rw [hj, hj']
    · rw [if_neg hj', if_pos hj] at e1
      rw [if_neg hj'] at e3
      exact absurd (h2 j' e1.symm) e3
    · rw [if_neg hj, if_pos hj'] at e1
      rw [if_neg hj] at e2
      exact absurd (h2 j e1) e2
    · rw [if_neg hj, if_neg hj'] at e1
      rw [if_neg hj] at e2
      rw [if_neg hj'] at e3
      exact i.one j j' e1 e2 e3
  · intro j pc hc r hr
    by_cases hj : j = id
    · subst hj
      have hpc : pc = c.start := by
        rcases hc with ⟨hne, q, hq⟩ | ⟨rfl, hall⟩
        · simp only [upd_apply] at hq
          split at hq
          · exact (Prod.mk.inj hq).2.symm
          · have := h2 q (by rw [hq]); rw [hq] at this; exact absurd this hne
        · have := hall k (by simp); simp at this; exact absurd this hstart
      rw [hpc]
      have base := i.rel j .done hcur r hr
      have hwj := hw j r
      rw [if_pos rfl] at hwj
      refine rel_congr (s := s) _ Iff.rfl Iff.rfl rfl (fun _ h => h) ?_
      cases c with
      | join rs =>
        refine ⟨base.1, ?_⟩
        rw [hwj]; simp only [Bool.or_eq_true, decide_eq_true_eq]
        rw [base.2]; exact Or.comm
      | leave r' =>
        refine ⟨base.1, ?_⟩
        rw [hwj]; simp only [Bool.and_eq_true, decide_eq_true_eq]
        rw [base.2]; exact And.comm
      | leaveAll => exact ⟨base.1, by rw [hwj]; simp⟩
    · have hc' : Cur s j pc := by
        rcases hc with ⟨hne, q, hq⟩ | ⟨rfl, hall⟩
        · simp only [upd_apply] at hq
          split at hq
          · exact absurd (Prod.mk.inj hq).1.symm hj
          · exact .inl ⟨hne, q, hq⟩
        · refine .inr ⟨rfl, fun q hq => ?_⟩
          have e : q ≠ k ∨ q = k := by omega
          rcases e with e | e
          · have := hall q (by simp only [upd_ne _ _ e]; exact hq)
            simpa only [upd_ne _ _ e] using this
          · subst e; exact h1
      have hwj := hw j r
      rw [if_neg (fun e => hj e.symm)] at hwj
      rw [hwj]
      exact rel_congr (s := s) _ Iff.rfl Iff.rfl rfl (fun _ h => h) (i.rel j pc hc' r hr)

theorem inv_run (h : List Ev) (ho : OneByOne h) : Inv (run h) (fun id r => shouldBe id r h.reverse) := by
  induction h using snocRec with
  | nil =>
    refine ⟨⟨?_, ?_, ?_, ?_, ?_, ?_⟩, ?_, ?_⟩
    · intro i x h; simp [run] at h
    · intro i x h; simp [run] at h
    · intro i j x h; simp [run] at h
    · intro i j x h; simp [run] at h
    · intro k r t h; simp [run, PC.held] at h
    · intro k r t q h; simp [run, PC.held] at h
    · intro k k' _ h; simp [run] at h
    · intro id pc hc r _
      have hpc : pc = .done := by
        rcases hc with ⟨hne, k, hk⟩ | ⟨h, _⟩
        · simp [run] at hk; exact absurd hk.2.symm hne
        · exact h
      subst hpc
      have h1 : ¬ InRoom (run []) id r := by rintro ⟨t, h, _⟩; simp [run] at h
      have h2 : ¬ HasRoom (run []) id r := by rintro ⟨t, h, _⟩; simp [run] at h
      exact ⟨⟨fun h => absurd h h2, fun h => absurd h h1⟩, ⟨fun h => by simp [shouldBe] at h, fun h => absurd h h1⟩⟩
  | append_singleton h e ih =>
    have hrun : run (h ++ [e]) = step (run h) e := by simp [run]
    rw [hrun, List.reverse_append]
    have i := ih (fun p k id c t hp => ho p k id c (t ++ [e]) (by rw [hp]; simp))
    cases e with
    | adv k => exact inv_advance i k
    | call k id c =>
      obtain ⟨h1, h2⟩ := ho h k id c [] rfl
      refine inv_call i k id c h1 h2 _ ?_
      intro j r
      simp only [List.reverse_cons, List.reverse_nil, List.nil_append, List.cons_append, shouldBe]
      rfl

end Verif.RoomRace
