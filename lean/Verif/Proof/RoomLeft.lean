import Verif.Proof.RoomNews

/-! # Never more departures than arrivals are announced -/

namespace Verif.RoomNews
open Verif Verif.Spec
open Verif.World (upd upd_apply upd_ne)
open Verif.RoomRace (act PC WF advance loadAndDelete)

variable [SetLib]

/-- The set of sockets an operation works on. -/
def via (pc : PC) : Nat := match pc.held with
  | some (_, t) => t
  | none => 0

def saidT (s : St) : RoomRace.Ev → List (Nat × News)
  | .adv k => if s.due k = none then (announces s.tab (s.tab.th k).1 (s.tab.th k).2).toList.map (fun e => (via (s.tab.th k).2, e)) else []
  | _ => []

def opsTFrom : St → List RoomRace.Ev → List (Nat × News)
  | _, [] => []
  | s, e :: h => saidT s e ++ opsTFrom (step s e) h

/-- What has become due, with the set of sockets of the operation. -/
def opsT (h : List RoomRace.Ev) : List (Nat × News) := opsTFrom {} h

theorem opsTFrom_append (s : St) (h t : List RoomRace.Ev) : opsTFrom s (h ++ t) = opsTFrom s h ++ opsTFrom (h.foldl step s) t := by
  induction h generalizing s with
  | nil => rfl
  | cons e h ih => simp [opsTFrom, ih]

theorem opsT_snoc (h : List RoomRace.Ev) (e : RoomRace.Ev) : opsT (h ++ [e]) = opsT h ++ saidT (run h) e := by
  simp [opsT, opsTFrom_append, opsTFrom, run]

theorem saidT_map (s : St) (e : RoomRace.Ev) : (saidT s e).map (·.2) = (said s e).map (·.2) := by
  cases e with
  | call k id c => rfl
  | adv k => simp only [saidT, said]; split <;> simp

theorem opsT_map (h : List RoomRace.Ev) : (opsT h).map (·.2) = (ops h).map (·.2) := by
  induction h using snocRec with
  | nil => rfl
  | append_singleton h e ih => rw [opsT_snoc, ops_snoc, List.map_append, List.map_append, ih, saidT_map]

theorem count_split (l : List (Nat × News)) (a : News) (t : Nat) :
    (l.map (·.2)).count a = l.count (t, a) + ((l.filter (fun x => x.1 != t)).map (·.2)).count a := by
  induction l with
  | nil => rfl
  | cons x l ih =>
    obtain ⟨u, b⟩ := x
    by_cases hu : u = t
    · subst hu
      by_cases hb : b = a
      · subst hb; simp [ih]; omega
      · simp [ih, List.count_cons, hb]
    · by_cases hb : b = a
      · subst hb; simp [ih, List.count_cons, hu]; omega
      · simp [ih, List.count_cons, hu, hb]

theorem count_le (a b : News) : ∀ (n : Nat) (l : List (Nat × News)), l.length ≤ n → (∀ t, l.count (t, a) ≤ l.count (t, b)) →
    (l.map (·.2)).count a ≤ (l.map (·.2)).count b := by
  intro n
  induction n with
  | zero => intro l hl _; have : l = [] := List.length_eq_zero_iff.1 (by omega); subst this; simp
  | succ n ih =>
    intro l hl h
    by_cases hm : a ∈ l.map (·.2)
    · obtain ⟨⟨t, a'⟩, hx, rfl⟩ := List.mem_map.1 hm
      rw [count_split l _ t, count_split l b t]
      have hlt : (l.filter (fun x => x.1 != t)).length < l.length := by
        refine List.length_filter_lt_length_iff_exists.2 ⟨_, hx, by simp⟩
      have := ih (l.filter (fun x => x.1 != t)) (by omega) fun u => by
        by_cases hu : u = t
        · subst hu
          rw [List.count_eq_zero.2 (by simp)]; exact Nat.zero_le _
        · rw [List.count_filter (by simpa using hu), List.count_filter (by simpa using hu)]; exact h u
      have := h t
      simp only at *
      omega
    · rw [List.count_eq_zero.2 hm]; exact Nat.zero_le _

/-- Every set of sockets belongs to one room, and whoever is in it has joined the room through it once more than left it. -/
def Owned (s : RoomRace.St) (o : List (Nat × News)) : Prop :=
  ∃ f : Nat → Nat, (∀ k r t, (s.th k).2.held = some (r, t) → f t = r) ∧ (∀ r t, s.rooms r = some t → f t = r) ∧
    ∀ t r i, o.count (t, .left r i) + (if f t = r ∧ i ∈ s.rset t then 1 else 0) ≤ o.count (t, .joined r i)

theorem act_sets (hab : SetLib.absent = false) (s : RoomRace.St) (id : Nat) (pc : PC) :
    ((act s id pc).1.rset = s.rset ∧ (∀ r i, announces s id pc ≠ some (.joined r i)) ∧ (∀ r i, announces s id pc ≠ some (.left r i)) ∧
      ((act s id pc).1.rooms = s.rooms ∨ ∃ q, (act s id pc).1.rooms = upd s.rooms q none)) ∨
    ((act s id pc).1.rset = upd s.rset s.next [] ∧ (∀ r i, announces s id pc ≠ some (.joined r i)) ∧
      (∀ r i, announces s id pc ≠ some (.left r i)) ∧ ∃ r, (act s id pc).1.rooms = upd s.rooms r (some s.next)) ∨
    (∃ r t, pc.held = some (r, t) ∧ (act s id pc).1.rset = upd s.rset t (RoomRace.add (s.rset t) id) ∧
      announces s id pc = some (.joined r id) ∧ (act s id pc).1.rooms = s.rooms) ∨
    (∃ r t, pc.held = some (r, t) ∧ (act s id pc).1.rset = upd s.rset t (RoomRace.del (s.rset t) id) ∧
      announces s id pc = (if id ∈ s.rset t then some (.left r id) else none) ∧ (act s id pc).1.rooms = s.rooms) := by
  have hL : ∀ r, (loadAndDelete s r).rset = s.rset ∧
      ((loadAndDelete s r).rooms = s.rooms ∨ ∃ q, (loadAndDelete s r).rooms = upd s.rooms q none) := fun r => by
    rcases RoomRace.loadAndDelete_cases s r with e | e <;> rw [e]
    · exact ⟨rfl, .inl rfl⟩
    · exact ⟨rfl, .inr ⟨r, rfl⟩⟩
  cases pc with
  | j0 rs => refine .inl ?_; simp only [act, announces]; split <;> exact ⟨rfl, by simp, by simp, .inl rfl⟩
  | j1 x rs => refine .inl ?_; cases rs <;> exact ⟨rfl, by simp [announces], by simp [announces], .inl rfl⟩
  | j2 x r rs =>
    cases h : s.rooms r with
    | some t => refine .inl ?_; simp [act, announces, h]
    | none =>
      refine .inr (.inl ⟨by simp [act, h], by simp [announces, h], by simp [announces, h], r, by simp [act, h]⟩)
  | j4 x r t rs => exact .inr (.inr (.inl ⟨r, t, rfl, rfl, rfl, rfl⟩))
  | d0 r => refine .inl ?_; simp only [act, announces]; split <;> exact ⟨rfl, by simp, by simp, .inl rfl⟩
  | d2 r => refine .inl ?_; simp only [act, announces]; split <;> exact ⟨rfl, by simp, by simp, .inl rfl⟩
  | d3 r t => exact .inr (.inr (.inr ⟨r, t, rfl, rfl, by simp [announces, hab], rfl⟩))
  | d5 r => refine .inl ⟨(hL r).1, ?_, ?_, (hL r).2⟩ <;> simp only [announces] <;> split <;> simp
  | a0 => refine .inl ?_; simp only [act, announces]; split <;> exact ⟨rfl, by simp, by simp, .inl rfl⟩
  | a2 l => refine .inl ?_; cases l <;> exact ⟨rfl, by simp [announces], by simp [announces], .inl rfl⟩
  | e2 r l => refine .inl ?_; simp only [act, announces]; split <;> exact ⟨rfl, by simp, by simp, .inl rfl⟩
  | e3 r t l => exact .inr (.inr (.inr ⟨r, t, rfl, rfl, by simp [announces, hab], rfl⟩))
  | e5 r l => refine .inl ⟨(hL r).1, ?_, ?_, (hL r).2⟩ <;> simp only [announces] <;> split <;> simp
  | _ => refine .inl ?_; exact ⟨rfl, by simp [announces], by simp [announces], .inl rfl⟩

theorem owned_adv (hab : SetLib.absent = false) {s : RoomRace.St} (wf : WF s) {o : List (Nat × News)} (w : Owned s o) (k : Nat) :
    Owned (advance s k) (o ++ (announces s (s.th k).1 (s.th k).2).toList.map (fun e => (via (s.th k).2, e))) := by
  obtain ⟨f, w1, w2, w3⟩ := w
  have hthj : ∀ j, j ≠ k → (advance s k).th j = s.th j := fun j h => by simp [advance, upd_ne _ _ h]
  have hthk : (advance s k).th k = ((s.th k).1, (act s (s.th k).1 (s.th k).2).2) := by simp [advance]
  have hrooms : (advance s k).rooms = (act s (s.th k).1 (s.th k).2).1.rooms := rfl
  have hrset : (advance s k).rset = (act s (s.th k).1 (s.th k).2).1.rset := rfl
  generalize ha : announces s (s.th k).1 (s.th k).2 = a at *
  /- the rooms of the sets -/
  have sets : ∀ g : Nat → Nat, (∀ t, t < s.next → g t = f t) → (∀ r, (act s (s.th k).1 (s.th k).2).1.rooms = upd s.rooms r (some s.next) →
      g s.next = r) → (∀ j r t, ((advance s k).th j).2.held = some (r, t) → g t = r) ∧
      (∀ r t, (advance s k).rooms r = some t → g t = r) := by
    intro g hg hn
    constructor
    · intro j r t hh
      by_cases hj : j = k
      · subst hj
        rw [hthk] at hh
        rcases RoomRace.act_held s (s.th j).1 (s.th j).2 hh with h | h | ⟨h1, h2, h3⟩
        · rw [hg t (wf.heldLt j h)]; exact w1 j r t h
        · rw [hg t (wf.roomLt h)]; exact w2 r t h
        · rw [h1]; exact hn r h2
      · rw [hthj j hj] at hh
        rw [hg t (wf.heldLt j hh)]; exact w1 j r t hh
    · intro r t hr
      rw [hrooms] at hr
      rcases RoomRace.act_rooms s (s.th k).1 (s.th k).2 with h | ⟨x, q, rs, h, _, _⟩ | ⟨q, h⟩
      · rw [h] at hr; rw [hg t (wf.roomLt hr)]; exact w2 r t hr
      · have hq := hn q h
        rw [h, upd_apply] at hr
        split at hr
        · rename_i e; cases hr; rw [e]; exact hq
        · rw [hg t (wf.roomLt hr)]; exact w2 r t hr
      · rw [h, upd_apply] at hr
        split at hr
        · cases hr
        · rw [hg t (wf.roomLt hr)]; exact w2 r t hr
  have keepf : (∀ r, (act s (s.th k).1 (s.th k).2).1.rooms ≠ upd s.rooms r (some s.next)) →
      (∀ j r t, ((advance s k).th j).2.held = some (r, t) → f t = r) ∧ (∀ r t, (advance s k).rooms r = some t → f t = r) :=
    fun h => sets f (fun _ _ => rfl) (fun r hr => absurd hr (h r))
  have notNew : ∀ {R : Nat → Option Nat}, (R = s.rooms ∨ ∃ q, R = upd s.rooms q none) → ∀ r, R ≠ upd s.rooms r (some s.next) := by
    rintro R (rfl | ⟨q, rfl⟩) r h
    · have := congrFun h r
      simp only [upd_apply, if_true] at this
      have := wf.roomLt this; omega
    · have := congrFun h r
      simp only [upd_apply, if_true] at this
      split at this
      · cases this
      · have := wf.roomLt this; omega
  have silent : (∀ r i, a ≠ some (.joined r i)) → (∀ r i, a ≠ some (.left r i)) → ∀ t r i,
      (o ++ a.toList.map (fun e => (via (s.th k).2, e))).count (t, .left r i) = o.count (t, .left r i) ∧
      (o ++ a.toList.map (fun e => (via (s.th k).2, e))).count (t, .joined r i) = o.count (t, .joined r i) := by
    intro h2 h3 t r i
    constructor <;> rw [List.count_append, Nat.add_eq_left, List.count_eq_zero] <;> intro hm <;> simp at hm
    · exact h3 r i hm.1
    · exact h2 r i hm.1
  rcases act_sets hab s (s.th k).1 (s.th k).2 with ⟨h1, h2, h3, h4⟩ | ⟨h1, h2, h3, r0, h4⟩ | ⟨r0, t0, h1, h2, h3, h4⟩ | ⟨r0, t0, h1, h2, h3, h4⟩
  · rw [ha] at h2 h3
    obtain ⟨s1, s2⟩ := keepf (notNew h4)
    refine ⟨f, s1, s2, fun t r i => ?_⟩
    obtain ⟨c1, c2⟩ := silent h2 h3 t r i
    rw [c1, c2, hrset, h1]; exact w3 t r i
  · rw [ha] at h2 h3
    obtain ⟨s1, s2⟩ := sets (upd f s.next r0) (fun t ht => upd_ne _ _ (by omega)) (fun r hr => by
      rw [h4] at hr
      have := congrFun hr r0
      simp only [upd_apply, if_true] at this
      split at this
      · rename_i e; simp [upd_apply, e]
      · have := wf.roomLt this.symm; omega)
    refine ⟨upd f s.next r0, s1, s2, fun t r i => ?_⟩
    obtain ⟨c1, c2⟩ := silent h2 h3 t r i
    have := w3 t r i
    rw [c1, c2, hrset, h1]
    by_cases ht : t = s.next
    · subst ht; simp [upd_apply]; omega
    · simp only [upd_ne _ _ ht]; exact this
  · obtain ⟨s1, s2⟩ := keepf (notNew (.inl h4))
    refine ⟨f, s1, s2, fun t r i => ?_⟩
    have hf := w1 k r0 t0 h1
    have hv : via (s.th k).2 = t0 := by unfold via; rw [h1]
    have hj : a = some (.joined r0 (s.th k).1) := ha.symm.trans h3
    have := w3 t r i
    rw [hrset, h2, hv, hj]
    simp only [Option.toList_some, List.map_cons, List.map_nil, List.count_append]
    have c1 : List.count (t, News.left r i) [(t0, News.joined r0 (s.th k).1)] = 0 := by simp [List.count_cons]
    rw [c1]
    by_cases ht : t = t0
    · subst ht
      by_cases hri : r = r0 ∧ i = (s.th k).1
      · obtain ⟨rfl, rfl⟩ := hri
        have c2 : List.count (t, News.joined r (s.th k).1) [(t, News.joined r (s.th k).1)] = 1 := by simp
        rw [c2]
        have hle : (if f t = r ∧ (s.th k).1 ∈ upd s.rset t (RoomRace.add (s.rset t) (s.th k).1) t then 1 else 0) ≤ 1 := by split <;> omega
        have hle' : o.count (t, .left r (s.th k).1) ≤ o.count (t, .joined r (s.th k).1) := by omega
        omega
      · have e : (f t = r ∧ i ∈ upd s.rset t (RoomRace.add (s.rset t) (s.th k).1) t) ↔ (f t = r ∧ i ∈ s.rset t) := by
          simp only [upd_apply, if_true, RoomRace.mem_add]
          constructor
          · rintro ⟨x, y | y⟩
            · exact ⟨x, y⟩
            · exact absurd ⟨x.symm.trans hf, y⟩ hri
          · rintro ⟨x, y⟩; exact ⟨x, .inl y⟩
        simp only [e]
        omega
    · simp only [upd_ne _ _ ht]
      omega
  · obtain ⟨s1, s2⟩ := keepf (notNew (.inl h4))
    refine ⟨f, s1, s2, fun t r i => ?_⟩
    have hf := w1 k r0 t0 h1
    have hv : via (s.th k).2 = t0 := by unfold via; rw [h1]
    have hj : a = if (s.th k).1 ∈ s.rset t0 then some (.left r0 (s.th k).1) else none := ha.symm.trans h3
    have := w3 t r i
    rw [hrset, h2, hv, hj]
    by_cases hm : (s.th k).1 ∈ s.rset t0
    · simp only [hm, if_true, Option.toList_some, List.map_cons, List.map_nil, List.count_append]
      have c1 : List.count (t, News.joined r i) [(t0, News.left r0 (s.th k).1)] = 0 := by simp [List.count_cons]
      rw [c1]
      by_cases ht : t = t0
      · subst ht
        by_cases hri : r = r0 ∧ i = (s.th k).1
        · obtain ⟨rfl, rfl⟩ := hri
          have c2 : List.count (t, News.left r (s.th k).1) [(t, News.left r (s.th k).1)] = 1 := by simp
          rw [c2]
          have e : ¬ (f t = r ∧ (s.th k).1 ∈ upd s.rset t (RoomRace.del (s.rset t) (s.th k).1) t) := by
            simp [upd_apply, RoomRace.mem_del]
          have e' : f t = r ∧ (s.th k).1 ∈ s.rset t := ⟨hf, hm⟩
          rw [if_pos e'] at this
          rw [if_neg e]
          omega
        · have c2 : List.count (t, News.left r i) [(t, News.left r0 (s.th k).1)] = 0 := by
            rw [List.count_eq_zero]; intro h; simp at h; exact hri h
          rw [c2]
          have e : (f t = r ∧ i ∈ upd s.rset t (RoomRace.del (s.rset t) (s.th k).1) t) ↔ (f t = r ∧ i ∈ s.rset t) := by
            simp only [upd_apply, if_true, RoomRace.mem_del]
            constructor
            · rintro ⟨x, y, _⟩; exact ⟨x, y⟩
            · rintro ⟨x, y⟩; exact ⟨x, y, fun z => hri ⟨x.symm.trans hf, z⟩⟩
          simp only [e]
          omega
      · have c2 : List.count (t, News.left r i) [(t0, News.left r0 (s.th k).1)] = 0 := by
          rw [List.count_eq_zero]; intro h; simp at h; exact ht h.1
        rw [c2]
        simp only [upd_ne _ _ ht]
        omega
    · simp only [hm, if_false, Option.toList_none, List.map_nil, List.append_nil]
      have e : (f t = r ∧ i ∈ upd s.rset t0 (RoomRace.del (s.rset t0) (s.th k).1) t) → (f t = r ∧ i ∈ s.rset t) := by
        rintro ⟨x, y⟩
        refine ⟨x, ?_⟩
        simp only [upd_apply] at y
        split at y
        · rename_i ht; rw [ht]; exact (RoomRace.mem_del.1 y).1
        · exact y
      have : (if f t = r ∧ i ∈ upd s.rset t0 (RoomRace.del (s.rset t0) (s.th k).1) t then 1 else 0) ≤
          (if f t = r ∧ i ∈ s.rset t then 1 else 0) := by
        split
        · rename_i h; simp [e h]
        · exact Nat.zero_le _
      omega

theorem owned_run (hab : SetLib.absent = false) (h : List RoomRace.Ev) : WF (run h).tab ∧ Owned (run h).tab (opsT h) := by
  induction h using snocRec with
  | nil =>
    refine ⟨(RoomRace.wf_own []).1, fun _ => 0, ?_, ?_, ?_⟩
    · intro k r t h; simp [run, RoomRace.PC.held] at h
    · intro r t h; simp [run] at h
    · intro t r i; simp [run, opsT, opsTFrom]
  | append_singleton h e ih =>
    rw [run_snoc, opsT_snoc]
    cases e with
    | adv k =>
      cases hd : (run h).due k with
      | some a =>
        rw [(step_due hd).1]
        simpa [saidT, hd] using ih
      | none =>
        rw [(step_adv hd).1]
        refine ⟨RoomRace.wf_advance ih.1 k, ?_⟩
        simpa [saidT, hd] using owned_adv hab ih.1 ih.2 k
    | call k id c =>
      simp only [saidT, List.append_nil, step]
      split
      · refine ⟨RoomRace.wf_step ih.1 (.call k id c), ?_⟩
        obtain ⟨f, w1, w2, w3⟩ := ih.2
        simp only [RoomRace.step]
        split
        · refine ⟨f, ?_, w2, w3⟩
          intro j r t hh
          simp only [upd_apply] at hh
          split at hh
          · cases c <;> simp [RoomRace.Call.start, RoomRace.PC.held] at hh
          · exact w1 j r t hh
        · exact ⟨f, w1, w2, w3⟩
      · exact ih

theorem left_le (hab : SetLib.absent = false) (h : List RoomRace.Ev) (r i : Nat) : ((ops h).map (·.2)).count (.left r i) ≤ ((ops h).map (·.2)).count (.joined r i) := by
  rw [← opsT_map]
  obtain ⟨f, _, _, w⟩ := (owned_run hab h).2
  exact count_le _ _ _ _ (Nat.le_refl _) fun t => by have := w t r i; omega

end Verif.RoomNews
