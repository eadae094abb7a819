import Verif.Spec.JoinRace

/-! # Invariant of `Model/JoinRace` -/

namespace Verif.JoinRace
open Verif Verif.Spec

theorem run_snoc (rooms : List Nat) (h : List Ev) (e : Ev) : run rooms (h ++ [e]) = step (run rooms h) e := by simp [run]

theorem before_snoc (l : List Out) (x a b : Out) : Before (l ++ [x]) a b ↔ Before l a b ∨ (b = x ∧ a ∈ l) := by
  constructor
  · rintro ⟨l₁, l₂, h, ha⟩
    rcases List.eq_nil_or_concat l₂ with rfl | ⟨l₃, y, rfl⟩
    · have := List.append_inj' h rfl
      obtain ⟨rfl, h2⟩ := this
      cases h2
      exact .inr ⟨rfl, ha⟩
    · rw [List.concat_eq_append, ← List.cons_append, ← List.append_assoc] at h
      have := List.append_inj' h rfl
      exact .inl ⟨l₁, l₃, this.1, ha⟩
  · rintro (⟨l₁, l₂, rfl, ha⟩ | ⟨rfl, ha⟩)
    · exact ⟨l₁, l₂ ++ [x], by simp, ha⟩
    · exact ⟨l, [], rfl, ha⟩

theorem mem_addRooms (rs l : List Nat) (r : Nat) : r ∈ addRooms l rs ↔ r ∈ l ∨ r ∈ rs := by
  unfold addRooms
  induction rs generalizing l with
  | nil => simp
  | cons a rs ih =>
    rw [List.foldl_cons, ih]
    split
    · rename_i h; simp only [List.mem_cons]
      constructor
      · rintro (h1 | h1)
        · exact .inl h1
        · exact .inr (.inr h1)
      · rintro (h1 | rfl | h1)
        · exact .inl h1
        · exact .inl h
        · exact .inr h1
    · simp [or_assoc]

/-- A close that has emptied the rooms. -/
def left : PC → Bool
  | .remove | .forbid | .flag | .disconnect | .done true => true
  | _ => false

/-- A close after which no room can be joined. -/
def forbade : PC → Bool
  | .flag | .disconnect | .done true => true
  | _ => false

structure Inv (rooms0 : List Nat) (s : St) : Prop where
  called : ∀ k, Out.called k ∈ s.log → k < s.ths.length
  returned : ∀ k, Out.returned k ∈ s.log → ∃ c b, s.ths[k]? = some (c, PC.done b)
  disconnect : ∀ k, Out.disconnect k ∈ s.log → ∃ b, s.ths[k]? = some (Kind.close b, PC.done true)
  canJoin : s.canJoin = true → ∀ (k : Nat) (b : Bool) (pc : PC), s.ths[k]? = some (Kind.close b, pc) → forbade pc = false
  rooms : ∀ r ∈ s.rooms, (r ∈ rooms0 ∧ ∀ (k : Nat) (b : Bool) (pc : PC), s.ths[k]? = some (Kind.close b, pc) → left pc = false) ∨
    ∃ (i : Nat) (rs : List Nat), s.ths[i]? = some (Kind.join rs, PC.done true) ∧ r ∈ rs ∧
      ∀ (k : Nat) (b : Bool) (pc : PC), s.ths[k]? = some (Kind.close b, pc) → left pc = true →
        Overlap s.log i k ∧ ¬ Before s.log (.returned i) (.handled k)
  admitted : ∀ (i : Nat) (rs : List Nat), s.ths[i]? = some (Kind.join rs, PC.add) →
    ∀ (k : Nat) (b : Bool), s.ths[k]? = some (Kind.close b, PC.done true) → ¬ Before s.log (.returned k) (.called i)

theorem get_set {α} (l : List α) (k j : Nat) (x y : α) (h : l[k]? = some x) : (l.set k y)[j]? = if j = k then some y else l[j]? := by
  by_cases e : j = k
  · subst e; rw [get_set_self h]; simp
  · rw [List.getElem?_set_ne (by omega)]; simp [e]

/-- Entries that a step of call `k` may add to the log. -/
def Entry (k : Nat) (c : Kind) (pc' : PC) (x : Out) : Prop :=
  (x = .returned k ∧ ∃ b, pc' = .done b) ∨ (x = .disconnect k ∧ pc' = .done true ∧ ∃ b, c = .close b) ∨
  x = .disconnecting k ∨ (∃ l, x = .saved k l) ∨ (x = .handled k ∧ pc' = .leaveAll)

theorem before_entries (k : Nat) (c : Kind) (pc' : PC) (l es : List Out) (he : ∀ x ∈ es, Entry k c pc' x) (a : Out) (j : Nat) :
    Before (l ++ es) a (.called j) ↔ Before l a (.called j) := by
  induction es using snocRec with
  | nil => simp
  | append_singleton es x ih =>
    rw [← List.append_assoc, before_snoc, ih (fun x hx => he x (by simp [hx]))]
    have := he x (by simp)
    constructor
    · rintro (h | ⟨rfl, _⟩)
      · exact h
      · rcases this with ⟨h, _⟩ | ⟨h, _⟩ | h | ⟨_, h⟩ | ⟨h, _⟩ <;> cases h
    · exact .inl

theorem before_handled (k : Nat) (c : Kind) (pc' : PC) (l es : List Out) (he : ∀ x ∈ es, Entry k c pc' x) (a : Out) (j : Nat)
    (hj : j = k → pc' ≠ .leaveAll) : Before (l ++ es) a (.handled j) ↔ Before l a (.handled j) := by
  induction es using snocRec with
  | nil => simp
  | append_singleton es x ih =>
    rw [← List.append_assoc, before_snoc, ih (fun x hx => he x (by simp [hx]))]
    have := he x (by simp)
    constructor
    · rintro (h | ⟨rfl, _⟩)
      · exact h
      · rcases this with ⟨h, _⟩ | ⟨h, _⟩ | h | ⟨_, h⟩ | ⟨h, hp⟩ <;> cases h
        exact absurd hp (hj rfl)
    · exact .inl

theorem left_leaveAll (pc : PC) (h : left pc = true) : pc ≠ .leaveAll := by
  rintro rfl; cases h

theorem inv_move {rooms0 : List Nat} {s : St} (i : Inv rooms0 s) {k : Nat} {c : Kind} {pc : PC} (hk : s.ths[k]? = some (c, pc))
    (hpc : ∀ b, pc ≠ .done b) (pc' : PC) (es : List Out) (he : ∀ x ∈ es, Entry k c pc' x) (s' : St)
    (ht : s'.ths = s.ths.set k (c, pc')) (hl : s'.log = s.log ++ es)
    (hj : s'.canJoin = true → s.canJoin = true ∧ ∀ b, c = .close b → forbade pc' = false)
    (hr : ∀ r ∈ s'.rooms, r ∈ s.rooms ∧ (∀ b, c = .close b → left pc' = left pc) ∨
      ∃ rs, c = .join rs ∧ pc = .add ∧ pc' = .done true ∧ r ∈ rs)
    (ha : ∀ rs, c = .join rs → pc' = .add → s.canJoin = true) : Inv rooms0 s' := by
  have hg : ∀ j, s'.ths[j]? = if j = k then some (c, pc') else s.ths[j]? := fun j => by rw [ht]; exact get_set _ _ _ _ _ hk
  have hb : ∀ a j, Before s'.log a (.called j) ↔ Before s.log a (.called j) := fun a j => by
    rw [hl]; exact before_entries k c pc' s.log es he a j
  have ho : ∀ a b, Overlap s'.log a b ↔ Overlap s.log a b := fun a b => by simp [Overlap, hb]
  have hnr : Out.returned k ∉ s.log := fun h => by
    obtain ⟨c', b, h'⟩ := i.returned k h
    rw [hk] at h'; cases h'; exact hpc b rfl
  have hnb : ∀ j, ¬ Before s.log (.returned k) (.called j) := by
    rintro j ⟨l₁, l₂, e, h⟩
    exact hnr (by rw [e]; simp [h])
  constructor
  · intro j h
    rw [ht, List.length_set]
    rw [hl, List.mem_append] at h
    rcases h with h | h
    · exact i.called j h
    · rcases he _ h with ⟨h, _⟩ | ⟨h, _⟩ | h | ⟨_, h⟩ | ⟨h, _⟩ <;> cases h
  · intro j h
    rw [hl, List.mem_append] at h
    rw [hg]
    rcases h with h | h
    · obtain ⟨c', b, h'⟩ := i.returned j h
      by_cases e : j = k
      · subst e; exact absurd h hnr
      · exact ⟨c', b, by simp [e, h']⟩
    · rcases he _ h with ⟨h, b, hb⟩ | ⟨h, _⟩ | h | ⟨_, h⟩ | ⟨h, _⟩ <;> cases h
      exact ⟨c, b, by simp [hb]⟩
  · intro j h
    rw [hl, List.mem_append] at h
    rw [hg]
    rcases h with h | h
    · obtain ⟨b, h'⟩ := i.disconnect j h
      by_cases e : j = k
      · subst e; rw [hk] at h'; cases h'; exact absurd rfl (hpc true)
      · exact ⟨b, by simp [e, h']⟩
    · rcases he _ h with ⟨h, _⟩ | ⟨h, h1, b, h2⟩ | h | ⟨_, h⟩ | ⟨h, _⟩ <;> cases h
      exact ⟨b, by simp [h1, h2]⟩
  · intro hc j b q h
    rw [hg] at h
    obtain ⟨h1, h2⟩ := hj hc
    by_cases e : j = k
    · simp only [e, if_true, Option.some.injEq, Prod.mk.injEq] at h
      rw [← h.2]; exact h2 b h.1
    · simp only [e, if_false] at h
      exact i.canJoin h1 j b q h
  · intro r h
    rcases hr r h with ⟨h1, h2⟩ | ⟨rs, h1, h2, h3, h4⟩
    · rcases i.rooms r h1 with ⟨h3, h4⟩ | ⟨a, rs, h3, h4, h5⟩
      · refine .inl ⟨h3, fun j b q hq => ?_⟩
        rw [hg] at hq
        by_cases e : j = k
        · simp only [e, if_true, Option.some.injEq, Prod.mk.injEq] at hq
          rw [← hq.2, h2 b hq.1]
          exact h4 k b pc (by rw [hk, hq.1])
        · simp only [e, if_false] at hq
          exact h4 j b q hq
      · refine .inr ⟨a, rs, ?_, h4, fun j b q hq hleft => ?_⟩
        · rw [hg]
          by_cases e : a = k
          · subst e; rw [hk] at h3; cases h3; exact absurd rfl (hpc true)
          · simp [e, h3]
        · rw [ho]
          rw [hg] at hq
          by_cases e : j = k
          · simp only [e, if_true, Option.some.injEq, Prod.mk.injEq] at hq
            have hl1 : left pc' = true := by rw [hq.2]; exact hleft
            have hl2 : left pc = true := by rw [← h2 b hq.1]; exact hl1
            rw [e, hl, before_handled k c pc' s.log es he _ _ (fun _ => left_leaveAll _ hl1)]
            exact h5 k b pc (by rw [hk, hq.1]) hl2
          · simp only [e, if_false] at hq
            rw [hl, before_handled k c pc' s.log es he _ _ (fun h => absurd h e)]
            exact h5 j b q hq hleft
    · refine .inr ⟨k, rs, by rw [hg]; simp [h1, h3], h4, fun j b q hq _ => ?_⟩
      rw [ho]
      rw [hg] at hq
      by_cases e : j = k
      · simp [e, h1] at hq
      · simp only [e, if_false] at hq
        rw [hl, before_handled k c pc' s.log es he _ _ (fun h => absurd h e)]
        refine ⟨⟨hnb j, ?_⟩, fun ⟨l₁, l₂, el, hm⟩ => hnr (by rw [el]; simp [hm])⟩
        by_cases hd : q = .done true
        · subst hd
          exact i.admitted k rs (by rw [hk, h1, h2]) j b hq
        · rintro ⟨l₁, l₂, el, hm⟩
          obtain ⟨c', b', h'⟩ := i.returned j (by rw [el]; simp [hm])
          rw [hq] at h'; cases h'
          cases b'
          · rename_i hleft; cases hleft
          · exact hd rfl
  · intro a rs h j b hjj hbf
    rw [hb] at hbf
    rw [hg] at h hjj
    by_cases e : a = k
    · simp only [e, if_true, Option.some.injEq, Prod.mk.injEq] at h
      by_cases e' : j = k
      · rw [e'] at hbf; exact hnb _ hbf
      · simp only [e', if_false] at hjj
        have := i.canJoin (ha rs h.1 h.2) j b _ hjj
        cases this
    · simp only [e, if_false] at h
      by_cases e' : j = k
      · rw [e'] at hbf; exact hnb _ hbf
      · simp only [e', if_false] at hjj
        exact i.admitted a rs h j b hjj hbf

theorem inv_init (rooms0 : List Nat) : Inv rooms0 { rooms := rooms0 } := by
  constructor <;> simp +contextual

theorem inv_call {rooms0 : List Nat} {s : St} (i : Inv rooms0 s) (c : Kind) : Inv rooms0 (step s (.call c)) := by
  have hg : ∀ (j : Nat) (t : Kind × PC), t.2 ≠ .check → (s.ths ++ [(c, PC.check)])[j]? = some t → s.ths[j]? = some t := by
    intro j t ht h
    rw [List.getElem?_append] at h
    split at h
    · exact h
    · have := List.mem_of_getElem? h
      simp at this; subst this; exact absurd rfl ht
  have hg' : ∀ (j : Nat) (t : Kind × PC), s.ths[j]? = some t → (s.ths ++ [(c, PC.check)])[j]? = some t := by
    intro j t h
    rw [List.getElem?_append, if_pos (List.getElem?_eq_some_iff.1 h).1]; exact h
  have hlt : ∀ (j : Nat) (t : Kind × PC), s.ths[j]? = some t → j < s.ths.length := fun j t h => (List.getElem?_eq_some_iff.1 h).1
  have hb : ∀ a (j : Nat) (t : Kind × PC), s.ths[j]? = some t → (Before (s.log ++ [.called s.ths.length]) a (.called j) ↔ Before s.log a (.called j)) := by
    intro a j t h
    rw [before_snoc]
    constructor
    · rintro (h' | ⟨e, _⟩)
      · exact h'
      · cases e; exact absurd (hlt _ _ h) (Nat.lt_irrefl _)
    · exact .inl
  simp only [step]
  constructor
  · intro k h
    simp only [List.mem_append, List.mem_singleton, Out.called.injEq] at h
    simp only [List.length_append, List.length_singleton]
    rcases h with h | h
    · have := i.called k h; omega
    · omega
  · intro k h
    simp only [List.mem_append, List.mem_singleton, reduceCtorEq, or_false] at h
    obtain ⟨c', b, h'⟩ := i.returned k h
    exact ⟨c', b, hg' _ _ h'⟩
  · intro k h
    simp only [List.mem_append, List.mem_singleton, reduceCtorEq, or_false] at h
    obtain ⟨b, h'⟩ := i.disconnect k h
    exact ⟨b, hg' _ _ h'⟩
  · intro hc k b pc h
    by_cases e : pc = .check
    · subst e; rfl
    · exact i.canJoin hc k b pc (hg _ _ e h)
  · intro r hr
    rcases i.rooms r hr with ⟨h1, h2⟩ | ⟨a, rs, h1, h2, h3⟩
    · refine .inl ⟨h1, fun k b pc h => ?_⟩
      by_cases e : pc = .check
      · subst e; rfl
      · exact h2 k b pc (hg _ _ e h)
    · refine .inr ⟨a, rs, hg' _ _ h1, h2, fun k b pc h hl => ?_⟩
      have hk := hg _ _ (by rintro e; simp only at e; subst e; cases hl) h
      have := h3 k b pc hk hl
      have hh : ∀ a, Before (s.log ++ [.called s.ths.length]) a (.handled k) ↔ Before s.log a (.handled k) := by
        intro a; rw [before_snoc]; simp
      simpa only [Overlap, hb _ _ _ hk, hb _ _ _ h1, hh] using this
  · intro a rs h k b hk hbf
    have h1 := hg _ _ (by simp) h
    have h2 := hg _ _ (by simp) hk
    rw [hb _ _ _ h1] at hbf
    exact i.admitted a rs h1 k b h2 hbf

theorem same_set {α} (l : List α) (k : Nat) (x : α) (h : l[k]? = some x) : l.set k x = l := by
  apply List.ext_getElem?
  intro j
  rw [get_set l k j x x h]
  split
  · rename_i e; rw [e, h]
  · rfl

theorem act_done (s : St) (k : Nat) (c : Kind) (b : Bool) : act s k c (.done b) = (s, .done b) := by
  cases c <;> rfl

theorem inv_adv {rooms0 : List Nat} {s : St} (i : Inv rooms0 s) (k : Nat) : Inv rooms0 (step s (.adv k)) := by
  simp only [step, advance]
  split
  · rename_i c pc hk
    by_cases hd : ∃ b, pc = .done b
    · obtain ⟨b, rfl⟩ := hd
      rw [act_done]
      simp only [same_set _ _ _ hk]; exact i
    have hpc : ∀ b, pc ≠ .done b := fun b e => hd ⟨b, e⟩
    have idle : act s k c pc = (s, pc) → Inv rooms0 { (act s k c pc).1 with ths := s.ths.set k (c, (act s k c pc).2) } := by
      intro e; rw [e]; simp only [same_set _ _ _ hk]; exact i
    have hq := i.canJoin
    cases c with
    | join rs =>
      cases pc with
      | check =>
        by_cases h : s.canJoin = true
        · simp only [act, h, if_true]
          exact inv_move i hk hpc .add [] (by simp) _ rfl (by simp) (fun _ => ⟨h, by simp⟩) (fun r hr => .inl ⟨hr, by simp⟩) (fun _ _ _ => h)
        · simp only [act, h]
          exact inv_move i hk hpc (.done false) [.returned k] (by simp [Entry]) _ rfl rfl (fun h' => by simp at h')
            (fun r hr => .inl ⟨hr, by simp⟩) (fun _ _ h' => by cases h')
      | add =>
        simp only [act]
        refine inv_move i hk hpc (.done true) [.returned k] (by simp [Entry]) _ rfl rfl (fun h' => ⟨h', by simp⟩) ?_ (fun _ _ h' => by cases h')
        intro r hr
        rcases (mem_addRooms _ _ _).1 hr with hr | hr
        · exact .inl ⟨hr, by simp⟩
        · exact .inr ⟨rs, rfl, rfl, rfl, hr⟩
      | done b => exact absurd rfl (hpc b)
      | _ => exact idle rfl
    | close b =>
      cases pc with
      | check =>
        by_cases h : s.connected = true
        · simp only [act, h, if_true]
          exact inv_move i hk hpc .disconnecting [] (by simp) _ rfl (by simp) (fun h' => ⟨h', by simp [forbade]⟩)
            (fun r hr => .inl ⟨hr, by simp [left]⟩) (by simp)
        · simp only [act, h]
          exact inv_move i hk hpc (.done false) [.returned k] (by simp [Entry]) _ rfl rfl (fun h' => ⟨h', by simp [forbade]⟩)
            (fun r hr => .inl ⟨hr, by simp [left]⟩) (by simp)
      | disconnecting =>
        exact inv_move i hk hpc .persist [.disconnecting k] (by simp [Entry]) _ rfl rfl (fun h' => ⟨h', by simp [forbade]⟩)
          (fun r hr => .inl ⟨hr, by simp [left]⟩) (by simp)
      | persist =>
        cases b
        · exact inv_move i hk hpc .leaveAll [.handled k] (by simp [Entry]) _ rfl (by simp [act]) (fun h' => ⟨h', by simp [forbade]⟩)
            (fun r hr => .inl ⟨hr, by simp [left]⟩) (by simp)
        · exact inv_move i hk hpc .leaveAll [.handled k, .saved k s.rooms] (by simp [Entry]) _ rfl rfl (fun h' => ⟨h', by simp [forbade]⟩)
            (fun r hr => .inl ⟨hr, by simp [left]⟩) (by simp)
      | leaveAll =>
        exact inv_move i hk hpc .remove [] (by simp) _ rfl (by simp [act]) (fun h' => ⟨h', by simp [forbade]⟩)
          (fun r hr => by simp [act] at hr) (by simp)
      | remove =>
        exact inv_move i hk hpc .forbid [] (by simp) _ rfl (by simp [act]) (fun h' => ⟨h', by simp [forbade]⟩)
          (fun r hr => .inl ⟨hr, by simp [left]⟩) (by simp)
      | forbid =>
        exact inv_move i hk hpc .flag [] (by simp) _ rfl (by simp [act]) (fun h' => by simp [act] at h')
          (fun r hr => .inl ⟨hr, by simp [left]⟩) (by simp)
      | flag =>
        refine inv_move i hk hpc .disconnect [] (by simp) _ rfl (by simp [act]) (fun h' => ?_)
          (fun r hr => .inl ⟨hr, by simp [left]⟩) (by simp)
        have := i.canJoin h' k b _ hk; cases this
      | disconnect =>
        refine inv_move i hk hpc (.done true) [.disconnect k, .returned k] (by simp [Entry]) _ rfl rfl (fun h' => ?_)
          (fun r hr => .inl ⟨hr, by simp [left]⟩) (by simp)
        have := i.canJoin h' k b _ hk; cases this
      | done b' => exact absurd rfl (hpc b')
      | add => exact idle rfl
  · exact i

theorem inv_run (rooms0 : List Nat) (h : List Ev) : Inv rooms0 (run rooms0 h) := by
  induction h using snocRec with
  | nil => exact inv_init rooms0
  | append_singleton h e ih =>
    rw [run_snoc]
    cases e with
    | call c => exact inv_call ih c
    | adv k => exact inv_adv ih k

/-- What is kept as long as nobody else closes. -/
structure Keep (rooms0 : List Nat) (s : St) : Prop where
  free : s.canJoin = false → ∃ (k : Nat) (b : Bool) (pc : PC), s.ths[k]? = some (Kind.close b, pc) ∧ forbade pc = true
  fresh : (∃ (k : Nat) (b : Bool) (pc : PC), s.ths[k]? = some (Kind.close b, pc) ∧ left pc = true) ∨
    (∀ r ∈ rooms0, r ∈ s.rooms) ∧ ∀ (i : Nat) (rs : List Nat), s.ths[i]? = some (Kind.join rs, PC.done true) → ∀ r ∈ rs, r ∈ s.rooms
  refused : ∀ (i : Nat) (rs : List Nat), s.ths[i]? = some (Kind.join rs, PC.done false) →
    ∃ (k : Nat) (b : Bool) (pc : PC), s.ths[k]? = some (Kind.close b, pc) ∧ forbade pc = true
  saved : ∀ k l, Out.saved k l ∈ s.log → (∃ b pc, s.ths[k]? = some (Kind.close b, pc)) ∧
    ((∃ (j : Nat) (b : Bool) (pc : PC), j ≠ k ∧ s.ths[j]? = some (Kind.close b, pc)) ∨
      (∀ r ∈ rooms0, r ∈ l) ∧ ∀ (i : Nat) (rs : List Nat) (pc : PC), s.ths[i]? = some (Kind.join rs, pc) →
        Before s.log (.returned i) (.called k) → ∀ r ∈ rs, r ∈ l)

theorem forbade_left (pc : PC) (h : forbade pc = true) : left pc = true := by
  cases pc with
  | done b => cases b <;> simp_all [forbade, left]
  | _ => simp_all [forbade, left]

theorem keep_move {rooms0 : List Nat} {s : St} (i : Inv rooms0 s) (q : Keep rooms0 s) {k : Nat} {c : Kind} {pc : PC} (hk : s.ths[k]? = some (c, pc))
    (pc' : PC) (es : List Out) (he : ∀ x ∈ es, Entry k c pc' x) (s' : St)
    (ht : s'.ths = s.ths.set k (c, pc')) (hl : s'.log = s.log ++ es)
    (hf : forbade pc = true → forbade pc' = true) (hleft : left pc = true → left pc' = true)
    (hj : s'.canJoin = false → s.canJoin = false ∨ ((∃ b, c = .close b) ∧ forbade pc' = true))
    (hr : ((∃ b, c = .close b) ∧ left pc' = true) ∨ ((∀ r ∈ s.rooms, r ∈ s'.rooms) ∧ ∀ rs, c = .join rs → pc' = .done true → ∀ r ∈ rs, r ∈ s'.rooms))
    (hd : ∀ rs, c = .join rs → pc' = .done false → s.canJoin = false)
    (hs : ∀ l, .saved k l ∈ es → (∃ b, c = .close b) ∧ l = s.rooms ∧ left pc = false) : Keep rooms0 s' := by
  have hg : ∀ j, s'.ths[j]? = if j = k then some (c, pc') else s.ths[j]? := fun j => by rw [ht]; exact get_set _ _ _ _ _ hk
  have hb : ∀ a j, Before s'.log a (.called j) ↔ Before s.log a (.called j) := fun a j => by
    rw [hl]; exact before_entries k c pc' s.log es he a j
  have up : ∀ (f : PC → Bool), (f pc = true → f pc' = true) →
      (∃ (k : Nat) (b : Bool) (pc : PC), s.ths[k]? = some (Kind.close b, pc) ∧ f pc = true) →
      ∃ (k : Nat) (b : Bool) (pc : PC), s'.ths[k]? = some (Kind.close b, pc) ∧ f pc = true := by
    rintro f hf ⟨j, b, p, h1, h2⟩
    by_cases e : j = k
    · subst e; rw [hk] at h1; cases h1
      exact ⟨j, b, pc', by rw [hg]; simp, hf h2⟩
    · exact ⟨j, b, p, by rw [hg]; simp [e, h1], h2⟩
  have isClose : ∀ (j : Nat), (∃ (b : Bool) (pc : PC), s.ths[j]? = some (Kind.close b, pc)) → ∃ (b : Bool) (pc : PC), s'.ths[j]? = some (Kind.close b, pc) := by
    rintro j ⟨b, p, h1⟩
    by_cases e : j = k
    · subst e; rw [hk] at h1; cases h1
      exact ⟨b, pc', by rw [hg]; simp⟩
    · exact ⟨b, p, by rw [hg]; simp [e, h1]⟩
  constructor
  · intro h
    rcases hj h with h | ⟨⟨b, rfl⟩, h⟩
    · exact up forbade hf (q.free h)
    · exact ⟨k, b, pc', by rw [hg]; simp, h⟩
  · rcases hr with ⟨⟨b, rfl⟩, h⟩ | ⟨h1, h2⟩
    · exact .inl ⟨k, b, pc', by rw [hg]; simp, h⟩
    · rcases q.fresh with h | ⟨h3, h4⟩
      · exact .inl (up left hleft h)
      · refine .inr ⟨fun r hr => h1 r (h3 r hr), fun j rs hjj r hr => ?_⟩
        rw [hg] at hjj
        by_cases e : j = k
        · simp only [e, if_true, Option.some.injEq, Prod.mk.injEq] at hjj
          exact h2 rs hjj.1 hjj.2 r hr
        · simp only [e, if_false] at hjj
          exact h1 r (h4 j rs hjj r hr)
  · intro j rs hjj
    rw [hg] at hjj
    by_cases e : j = k
    · simp only [e, if_true, Option.some.injEq, Prod.mk.injEq] at hjj
      exact up forbade hf (q.free (hd rs hjj.1 hjj.2))
    · simp only [e, if_false] at hjj
      exact up forbade hf (q.refused j rs hjj)
  · intro j l h
    rw [hl, List.mem_append] at h
    rcases h with h | h
    · obtain ⟨h1, h2⟩ := q.saved j l h
      refine ⟨isClose j h1, ?_⟩
      rcases h2 with ⟨a, b, p, h3, h4⟩ | ⟨h3, h4⟩
      · obtain ⟨b', p', h5⟩ := isClose a ⟨b, p, h4⟩
        exact .inl ⟨a, b', p', h3, h5⟩
      · refine .inr ⟨h3, fun a rs p ha hbf => ?_⟩
        rw [hb] at hbf
        rw [hg] at ha
        by_cases e : a = k
        · simp only [e, if_true, Option.some.injEq, Prod.mk.injEq] at ha
          rw [e] at hbf
          exact h4 k rs pc (by rw [hk, ha.1]) hbf
        · simp only [e, if_false] at ha
          exact h4 a rs p ha hbf
    · have hjk : j = k := by
        rcases he _ h with ⟨h, _⟩ | ⟨h, _⟩ | h | ⟨_, h⟩ | ⟨h, _⟩ <;> cases h
        rfl
      subst hjk
      obtain ⟨⟨b, rfl⟩, rfl, hlf⟩ := hs l h
      refine ⟨⟨b, pc', by rw [hg]; simp⟩, ?_⟩
      by_cases ho : ∃ (a : Nat) (b : Bool) (pc : PC), a ≠ j ∧ s.ths[a]? = some (Kind.close b, pc)
      · obtain ⟨a, b', p, h3, h4⟩ := ho
        exact .inl ⟨a, b', p, h3, by rw [hg]; simp [h3, h4]⟩
      · right
        have only : ∀ (f : PC → Bool), f pc = false → ¬ ∃ (a : Nat) (b : Bool) (pc : PC), s.ths[a]? = some (Kind.close b, pc) ∧ f pc = true := by
          rintro f hfp ⟨a, b', p, h1, h2⟩
          by_cases e : a = j
          · subst e; rw [hk] at h1; cases h1; rw [hfp] at h2; cases h2
          · exact ho ⟨a, b', p, e, h1⟩
        rcases q.fresh with h3 | ⟨h3, h4⟩
        · exact absurd h3 (only left hlf)
        · refine ⟨h3, fun a rs p ha hbf => ?_⟩
          rw [hb] at hbf
          obtain ⟨l₁, l₂, el, hm⟩ := hbf
          obtain ⟨c', b', h5⟩ := i.returned a (by rw [el]; simp [hm])
          rw [hg] at ha
          have e : a ≠ j := by
            rintro rfl
            simp at ha
          simp only [e, if_false] at ha
          rw [ha] at h5; cases h5
          cases b'
          · exact absurd (q.refused a rs ha) (only forbade (by
              cases hfp : forbade pc with
              | false => rfl
              | true => rw [forbade_left pc hfp] at hlf; cases hlf))
          · exact h4 a rs ha

theorem keep_call {rooms0 : List Nat} {s : St} (i : Inv rooms0 s) (q : Keep rooms0 s) (c : Kind) : Keep rooms0 (step s (.call c)) := by
  have hg : ∀ (j : Nat) (t : Kind × PC), t.2 ≠ .check → (s.ths ++ [(c, PC.check)])[j]? = some t → s.ths[j]? = some t := by
    intro j t ht h
    rw [List.getElem?_append] at h
    split at h
    · exact h
    · have := List.mem_of_getElem? h
      simp at this; subst this; exact absurd rfl ht
  have hg' : ∀ (j : Nat) (t : Kind × PC), s.ths[j]? = some t → (s.ths ++ [(c, PC.check)])[j]? = some t := by
    intro j t h
    rw [List.getElem?_append, if_pos (List.getElem?_eq_some_iff.1 h).1]; exact h
  simp only [step]
  constructor
  · intro h
    obtain ⟨k, b, pc, h1, h2⟩ := q.free h
    exact ⟨k, b, pc, hg' _ _ h1, h2⟩
  · rcases q.fresh with ⟨k, b, pc, h1, h2⟩ | ⟨h1, h2⟩
    · exact .inl ⟨k, b, pc, hg' _ _ h1, h2⟩
    · exact .inr ⟨h1, fun j rs h => h2 j rs (hg _ _ (by simp) h)⟩
  · intro j rs h
    obtain ⟨k, b, pc, h1, h2⟩ := q.refused j rs (hg _ _ (by simp) h)
    exact ⟨k, b, pc, hg' _ _ h1, h2⟩
  · intro k l h
    simp only [List.mem_append, List.mem_singleton, reduceCtorEq, or_false] at h
    obtain ⟨⟨b, pc, h1⟩, h2⟩ := q.saved k l h
    refine ⟨⟨b, pc, hg' _ _ h1⟩, ?_⟩
    rcases h2 with ⟨j, b', pc', h3, h4⟩ | ⟨h3, h4⟩
    · exact .inl ⟨j, b', pc', h3, hg' _ _ h4⟩
    · refine .inr ⟨h3, fun a rs p ha hbf => ?_⟩
      have hlt := (List.getElem?_eq_some_iff.1 h1).1
      rw [before_snoc] at hbf
      rcases hbf with hbf | ⟨e, _⟩
      · have hbf' := hbf
        obtain ⟨l₁, l₂, el, hm⟩ := hbf
        obtain ⟨c', b'', h5⟩ := i.returned a (by rw [el]; simp [hm])
        have h6 := hg' _ _ h5
        rw [ha] at h6; cases h6
        exact h4 a rs _ h5 hbf'
      · cases e; exact absurd hlt (Nat.lt_irrefl _)

theorem keep_adv {rooms0 : List Nat} {s : St} (i : Inv rooms0 s) (q : Keep rooms0 s) (k : Nat) : Keep rooms0 (step s (.adv k)) := by
  simp only [step, advance]
  split
  · rename_i c pc hk
    have idle : act s k c pc = (s, pc) → Keep rooms0 { (act s k c pc).1 with ths := s.ths.set k (c, (act s k c pc).2) } := by
      intro e; rw [e]; simp only [same_set _ _ _ hk]; exact q
    cases c with
    | join rs =>
      cases pc with
      | check =>
        by_cases h : s.canJoin = true
        · simp only [act, h, if_true]
          exact keep_move i q hk .add [] (by simp) _ rfl (by simp) (by simp [forbade]) (by simp [left]) (fun h' => by simp [h] at h')
            (.inr ⟨fun r hr => hr, by simp⟩) (by simp) (by simp)
        · simp only [act, h]
          exact keep_move i q hk (.done false) [.returned k] (by simp [Entry]) _ rfl rfl (by simp [forbade]) (by simp [left])
            (fun _ => .inl (by simpa using h)) (.inr ⟨fun r hr => hr, by simp⟩) (fun _ _ _ => by simpa using h) (by simp)
      | add =>
        simp only [act]
        refine keep_move i q hk (.done true) [.returned k] (by simp [Entry]) _ rfl rfl (by simp [forbade]) (by simp [left]) (fun h' => .inl h')
          (.inr ⟨fun r hr => (mem_addRooms _ _ _).2 (.inl hr), ?_⟩) (by simp) (by simp)
        intro rs' e _ r hr
        cases e
        exact (mem_addRooms _ _ _).2 (.inr hr)
      | _ => exact idle rfl
    | close b =>
      cases pc with
      | check =>
        by_cases h : s.connected = true
        · simp only [act, h, if_true]
          exact keep_move i q hk .disconnecting [] (by simp) _ rfl (by simp) (by simp [forbade]) (by simp [left]) (fun h' => .inl h')
            (.inr ⟨fun r hr => hr, by simp⟩) (by simp) (by simp)
        · simp only [act, h]
          exact keep_move i q hk (.done false) [.returned k] (by simp [Entry]) _ rfl rfl (by simp [forbade]) (by simp [left]) (fun h' => .inl h')
            (.inr ⟨fun r hr => hr, by simp⟩) (by simp) (by simp)
      | disconnecting =>
        exact keep_move i q hk .persist [.disconnecting k] (by simp [Entry]) _ rfl rfl (by simp [forbade]) (by simp [left]) (fun h' => .inl h')
          (.inr ⟨fun r hr => hr, by simp⟩) (by simp) (by simp)
      | persist =>
        cases b
        · exact keep_move i q hk .leaveAll [.handled k] (by simp [Entry]) _ rfl (by simp [act]) (by simp [forbade]) (by simp [left]) (fun h' => .inl h')
            (.inr ⟨fun r hr => hr, by simp⟩) (by simp) (by simp)
        · exact keep_move i q hk .leaveAll [.handled k, .saved k s.rooms] (by simp [Entry]) _ rfl rfl (by simp [forbade]) (by simp [left]) (fun h' => .inl h')
            (.inr ⟨fun r hr => hr, by simp⟩) (by simp) (by simp [left])
      | leaveAll =>
        exact keep_move i q hk .remove [] (by simp) _ rfl (by simp [act]) (by simp [forbade]) (by simp [left]) (fun h' => .inl h')
          (.inl ⟨⟨b, rfl⟩, rfl⟩) (by simp) (by simp)
      | remove =>
        exact keep_move i q hk .forbid [] (by simp) _ rfl (by simp [act]) (by simp [forbade]) (by simp [left]) (fun h' => .inl h')
          (.inl ⟨⟨b, rfl⟩, rfl⟩) (by simp) (by simp)
      | forbid =>
        exact keep_move i q hk .flag [] (by simp) _ rfl (by simp [act]) (by simp [forbade]) (by simp [left]) (fun h' => .inr ⟨⟨b, rfl⟩, rfl⟩)
          (.inl ⟨⟨b, rfl⟩, rfl⟩) (by simp) (by simp)
      | flag =>
        exact keep_move i q hk .disconnect [] (by simp) _ rfl (by simp [act]) (by simp [forbade]) (by simp [left]) (fun h' => .inl h')
          (.inl ⟨⟨b, rfl⟩, rfl⟩) (by simp) (by simp)
      | disconnect =>
        exact keep_move i q hk (.done true) [.disconnect k, .returned k] (by simp [Entry]) _ rfl rfl (by simp [forbade]) (by simp [left]) (fun h' => .inl h')
          (.inl ⟨⟨b, rfl⟩, rfl⟩) (by simp) (by simp)
      | done b' => exact idle rfl
      | add => exact idle rfl
  · exact q

theorem keep_run (rooms0 : List Nat) (h : List Ev) : Keep rooms0 (run rooms0 h) := by
  induction h using snocRec with
  | nil =>
    constructor
    · simp [run]
    · right; simp [run]
    · simp [run]
    · simp [run]
  | append_singleton h e ih =>
    rw [run_snoc]
    cases e with
    | call c => exact keep_call (inv_run rooms0 h) ih c
    | adv k => exact keep_adv (inv_run rooms0 h) ih k

end Verif.JoinRace
