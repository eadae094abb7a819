import Verif.Proof.RoomJoins

/-! # One call among others -/

namespace Verif.RoomRace
open Verif Verif.Spec Verif.World

theorem load_same (s : St) (r : Nat) : (loadAndDelete s r).sids = s.sids ∧ (loadAndDelete s r).sset = s.sset ∧
    (loadAndDelete s r).rset = s.rset := by
  rcases loadAndDelete_cases s r with e | e <;> rw [e] <;> exact ⟨rfl, rfl, rfl⟩

/-- The set of sockets the step loaded has no other owner. -/
def SOwn (s : St) (i : Nat) (pc : PC) : Prop := ∀ x, pc.heldS = some x → x < s.next ∧ ∀ j, s.sids j = some x → j = i
def ROwn (s : St) (pc : PC) : Prop := ∀ r t q, pc.held = some (r, t) → s.rooms q = some t → q = r

/-- A step gives a socket a room only if it is one of a call that makes it join the room. -/
theorem act_has_new {s : St} (wf : WF s) (i : Nat) (pc : PC) (o : SOwn s i pc) {id g : Nat}
    (h : HasRoom (act s i pc).1 id g) : HasRoom s id g ∨ (i = id ∧ g ∈ joining pc) := by
  have hL : ∀ r, HasRoom (loadAndDelete s r) id g → HasRoom s id g := fun r ⟨y, h1, h2⟩ => by
    rw [(load_same s r).1] at h1; rw [(load_same s r).2.1] at h2; exact ⟨y, h1, h2⟩
  cases pc with
  | j0 rs =>
    simp only [act] at h
    split at h
    · exact .inl h
    · obtain ⟨y, h1, h2⟩ := h
      simp only [upd_apply] at h1 h2
      split at h1
      · cases h1; simp at h2
      · have := wf.sidLt h1
        rw [if_neg (by omega)] at h2
        exact .inl ⟨y, h1, h2⟩
  | j1 x rs =>
    cases rs with
    | nil => exact .inl h
    | cons r rs =>
      obtain ⟨y, h1, h2⟩ := h
      simp only [act, upd_apply] at h1 h2
      split at h2
      · next e =>
        subst e
        rcases mem_add.1 h2 with h2 | rfl
        · exact .inl ⟨y, h1, h2⟩
        · exact .inr ⟨((o y rfl).2 id h1).symm, by simp [joining]⟩
      · exact .inl ⟨y, h1, h2⟩
  | d1 x r =>
    obtain ⟨y, h1, h2⟩ := h
    simp only [act, upd_apply] at h1 h2
    split at h2
    · next e => subst e; exact .inl ⟨y, h1, (mem_del.1 h2).1⟩
    · exact .inl ⟨y, h1, h2⟩
  | a2 l =>
    cases l with
    | nil =>
      obtain ⟨y, h1, h2⟩ := h
      simp only [act, upd_apply] at h1 h2
      split at h1
      · cases h1
      · exact .inl ⟨y, h1, h2⟩
    | cons => exact .inl h
  | d5 r => exact .inl (hL r h)
  | e5 r l => exact .inl (hL r h)
  | _ => simp only [act] at h; (try split at h) <;> exact .inl h

/-- A step takes a room from a socket only if it is one of a call that may do so. -/
theorem act_has_old {s : St} (wf : WF s) (i : Nat) (pc : PC) (o : SOwn s i pc) {id g : Nat}
    (h : HasRoom s id g) : HasRoom (act s i pc).1 id g ∨ (i = id ∧ mayLeave g pc = true) := by
  have hL : ∀ r, HasRoom (loadAndDelete s r) id g := fun r => by
    obtain ⟨y, h1, h2⟩ := h
    exact ⟨y, by rw [(load_same s r).1]; exact h1, by rw [(load_same s r).2.1]; exact h2⟩
  cases pc with
  | j0 rs =>
    simp only [act]
    split
    · exact .inl h
    · next hn =>
      obtain ⟨y, h1, h2⟩ := h
      have hne : id ≠ i := by rintro rfl; rw [hn] at h1; cases h1
      have := wf.sidLt h1
      exact .inl ⟨y, by simp only [upd_ne _ _ hne]; exact h1, by simp only [upd_apply]; rw [if_neg (by omega)]; exact h2⟩
  | j1 x rs =>
    cases rs with
    | nil => exact .inl h
    | cons r rs =>
      obtain ⟨y, h1, h2⟩ := h
      refine .inl ⟨y, h1, ?_⟩
      simp only [act, upd_apply]
      split
      · next e => subst e; exact mem_add.2 (.inl h2)
      · exact h2
  | d1 x r =>
    obtain ⟨y, h1, h2⟩ := h
    by_cases e : y = x
    · subst e
      have hi := (o y rfl).2 id h1
      by_cases hg : r = g
      · exact .inr ⟨hi.symm, by simp [mayLeave, hg]⟩
      · exact .inl ⟨y, h1, by simp only [act, upd_same]; exact mem_del.2 ⟨h2, fun e => hg e.symm⟩⟩
    · exact .inl ⟨y, h1, by simp only [act, upd_ne _ _ e]; exact h2⟩
  | a2 l =>
    cases l with
    | nil =>
      obtain ⟨y, h1, h2⟩ := h
      by_cases e : id = i
      · exact .inr ⟨e.symm, rfl⟩
      · exact .inl ⟨y, by simp only [act, upd_ne _ _ e]; exact h1, h2⟩
    | cons => exact .inl h
  | d5 r => exact .inl (hL r)
  | e5 r l => exact .inl (hL r)
  | _ => simp only [act]; (try split) <;> exact .inl h

/-- The same for the sets of the rooms. -/
theorem act_in_new {s : St} (wf : WF s) (i : Nat) (pc : PC) (o : ROwn s pc) {id g : Nat}
    (h : InRoom (act s i pc).1 id g) : InRoom s id g ∨ (i = id ∧ g ∈ joining pc) := by
  have hL : ∀ r, InRoom (loadAndDelete s r) id g → InRoom s id g := fun r ⟨y, h1, h2⟩ => by
    rw [(load_same s r).2.2] at h2
    rcases loadAndDelete_cases s r with e | e <;> rw [e] at h1
    · exact ⟨y, h1, h2⟩
    · simp only [upd_apply] at h1
      split at h1
      · cases h1
      · exact ⟨y, h1, h2⟩
  cases pc with
  | j1 x rs => cases rs <;> exact .inl h
  | j2 x r rs =>
    simp only [act] at h
    split at h
    · exact .inl h
    · obtain ⟨y, h1, h2⟩ := h
      simp only [upd_apply] at h1 h2
      split at h1
      · cases h1; simp at h2
      · have := wf.roomLt h1
        rw [if_neg (by omega)] at h2
        exact .inl ⟨y, h1, h2⟩
  | j4 x r t rs =>
    obtain ⟨y, h1, h2⟩ := h
    simp only [act, upd_apply] at h1 h2
    split at h2
    · next e =>
      subst e
      rcases mem_add.1 h2 with h2 | rfl
      · exact .inl ⟨y, h1, h2⟩
      · exact .inr ⟨rfl, by rw [o r y g rfl h1]; simp [joining]⟩
    · exact .inl ⟨y, h1, h2⟩
  | d3 r t =>
    obtain ⟨y, h1, h2⟩ := h
    simp only [act, upd_apply] at h1 h2
    split at h2
    · next e => subst e; exact .inl ⟨y, h1, (mem_del.1 h2).1⟩
    · exact .inl ⟨y, h1, h2⟩
  | e3 r t l =>
    obtain ⟨y, h1, h2⟩ := h
    simp only [act, upd_apply] at h1 h2
    split at h2
    · next e => subst e; exact .inl ⟨y, h1, (mem_del.1 h2).1⟩
    · exact .inl ⟨y, h1, h2⟩
  | a2 l => cases l <;> exact .inl h
  | d5 r => exact .inl (hL r h)
  | e5 r l => exact .inl (hL r h)
  | _ => simp only [act] at h; (try split at h) <;> exact .inl h

/-- A room keeps its set unless it is deleted. -/
theorem act_room_old (s : St) (i : Nat) (pc : PC) {g t : Nat} (h : s.rooms g = some t) :
    (act s i pc).1.rooms g = some t ∨ ((act s i pc).1.rooms g = none ∧ (act s i pc).1.deleted = s.deleted ++ [g]) := by
  have hL : ∀ r, (loadAndDelete s r).rooms g = some t ∨ ((loadAndDelete s r).rooms g = none ∧ (loadAndDelete s r).deleted = s.deleted ++ [g]) := by
    intro r
    rcases loadAndDelete_cases s r with e | e <;> rw [e]
    · exact .inl h
    · by_cases hr : g = r
      · subst hr; exact .inr ⟨by simp, rfl⟩
      · exact .inl (by simp only [upd_ne _ _ hr]; exact h)
  cases pc with
  | j1 x rs => cases rs <;> exact .inl h
  | j2 x r rs =>
    simp only [act]
    split
    · exact .inl h
    · next hn =>
      have : g ≠ r := by rintro rfl; rw [hn] at h; cases h
      exact .inl (by simp only [upd_ne _ _ this]; exact h)
  | a2 l => cases l <;> exact .inl h
  | d5 r => exact hL r
  | e5 r l => exact hL r
  | _ => simp only [act]; (try split) <;> exact .inl h

theorem act_in_old {s : St} (wf : WF s) (i : Nat) (pc : PC) (o : ROwn s pc) {id g : Nat} (h : InRoom s id g) :
    InRoom (act s i pc).1 id g ∨ (i = id ∧ mayLeave g pc = true) ∨ (act s i pc).1.deleted = s.deleted ++ [g] := by
  obtain ⟨t, h1, h2⟩ := h
  rcases act_room_old s i pc h1 with hr | hr
  · have hm : id ∈ (act s i pc).1.rset t ∨ (i = id ∧ mayLeave g pc = true) := by
      have hlt := wf.roomLt h1
      cases pc with
      | j1 x rs => cases rs <;> exact .inl h2
      | j2 x r rs =>
        simp only [act]
        split
        · exact .inl h2
        · exact .inl (by simp only [upd_apply]; rw [if_neg (by omega)]; exact h2)
      | j4 x r u rs =>
        simp only [act, upd_apply]
        split
        · next e => subst e; exact .inl (mem_add.2 (.inl h2))
        · exact .inl h2
      | d3 r u =>
        simp only [act, upd_apply]
        split
        · next e =>
          subst e
          by_cases hi : id = i
          · exact .inr ⟨hi.symm, by rw [o r t g rfl h1]; simp [mayLeave]⟩
          · exact .inl (mem_del.2 ⟨h2, hi⟩)
        · exact .inl h2
      | e3 r u l =>
        simp only [act, upd_apply]
        split
        · next e =>
          subst e
          by_cases hi : id = i
          · exact .inr ⟨hi.symm, rfl⟩
          · exact .inl (mem_del.2 ⟨h2, hi⟩)
        · exact .inl h2
      | a2 l => cases l <;> exact .inl h2
      | d5 r => exact .inl (by show id ∈ (loadAndDelete s r).rset t; rw [(load_same s r).2.2]; exact h2)
      | e5 r l => exact .inl (by show id ∈ (loadAndDelete s r).rset t; rw [(load_same s r).2.2]; exact h2)
      | _ => simp only [act]; (try split) <;> exact .inl h2
    rcases hm with hm | hm
    · exact .inl ⟨t, hr, hm⟩
    · exact .inr (.inl hm)
  · exact .inr (.inr hr.2)

/-- A socket keeps its set unless a call of `DelAll` removes it. -/
theorem act_sid_old (s : St) (i : Nat) (pc : PC) (g : Nat) {id x : Nat} (h : s.sids id = some x) :
    (act s i pc).1.sids id = some x ∨ ((act s i pc).1.sids id = none ∧ i = id ∧ mayLeave g pc = true) := by
  cases pc with
  | j0 rs =>
    simp only [act]
    split
    · exact .inl h
    · next hn =>
      have hne : id ≠ i := by rintro rfl; rw [hn] at h; cases h
      exact .inl (by simp only [upd_ne _ _ hne]; exact h)
  | j1 x rs => cases rs <;> exact .inl h
  | a2 l =>
    cases l with
    | nil =>
      by_cases e : id = i
      · subst e; exact .inr ⟨by simp [act], rfl, rfl⟩
      · exact .inl (by simp only [act, upd_ne _ _ e]; exact h)
    | cons => exact .inl h
  | d5 r => exact .inl (by show (loadAndDelete s r).sids id = _; rw [(load_same s r).1]; exact h)
  | e5 r l => exact .inl (by show (loadAndDelete s r).sids id = _; rw [(load_same s r).1]; exact h)
  | _ => simp only [act]; (try split) <;> exact .inl h

/-! ### A call that joins -/

/-- Where a call is that has not put the socket into room `g` yet. -/
def Jn (s : St) (id g : Nat) : PC → Prop
  | .j0 rs => g ∈ rs
  | .j1 x rs => s.sids id = some x ∧ g ∈ rs
  | .j2 x r rs => s.sids id = some x ∧ (r = g ∧ HasRoom s id g ∨ g ∈ rs)
  | .j3 x r t rs | .j4 x r t rs => s.sids id = some x ∧ (r = g ∧ HasRoom s id g ∧ s.rooms g = some t ∨ g ∈ rs)
  | _ => False

theorem Jn.mono {s s' : St} {id g : Nat} {pc : PC} (h : Jn s id g pc) (h1 : HasRoom s id g → HasRoom s' id g)
    (h2 : ∀ x, s.sids id = some x → s'.sids id = some x) (h3 : ∀ t, s.rooms g = some t → s'.rooms g = some t) : Jn s' id g pc := by
  cases pc <;> simp only [Jn] at h ⊢
  · exact h
  · exact ⟨h2 _ h.1, h.2⟩
  · exact ⟨h2 _ h.1, h.2.imp (fun e => ⟨e.1, h1 e.2⟩) fun e => e⟩
  · exact ⟨h2 _ h.1, h.2.imp (fun e => ⟨e.1, h1 e.2.1, h3 _ e.2.2⟩) fun e => e⟩
  · exact ⟨h2 _ h.1, h.2.imp (fun e => ⟨e.1, h1 e.2.1, h3 _ e.2.2⟩) fun e => e⟩

theorem jn_act {s : St} {id g : Nat} {pc : PC} (h : Jn s id g pc) :
    Jn (act s id pc).1 id g (act s id pc).2 ∨ (HasRoom (act s id pc).1 id g ∧ InRoom (act s id pc).1 id g) := by
  cases pc with
  | j0 rs =>
    simp only [act]
    split
    · next x hx => exact .inl ⟨hx, h⟩
    · exact .inl ⟨by simp, h⟩
  | j1 x rs =>
    obtain ⟨hx, hm⟩ := h
    cases rs with
    | nil => cases hm
    | cons r rs =>
      refine .inl ⟨hx, ?_⟩
      by_cases e : r = g
      · subst e
        exact .inl ⟨rfl, x, hx, by simp only [act, upd_same]; exact mem_add.2 (.inr rfl)⟩
      · rcases List.mem_cons.1 hm with e2 | hm
        · exact absurd e2.symm e
        · exact .inr hm
  | j2 x r rs =>
    obtain ⟨hx, hm⟩ := h
    simp only [act]
    split
    · next t ht =>
      exact .inl ⟨hx, hm.imp (fun e => ⟨e.1, e.2, by rw [← e.1]; exact ht⟩) fun e => e⟩
    · exact .inl ⟨hx, hm.imp (fun e => ⟨e.1, e.2, by rw [← e.1]; simp⟩) fun e => e⟩
  | j3 x r t rs =>
    obtain ⟨hx, hm⟩ := h
    simp only [act]
    split
    · next hi =>
      rcases hm with ⟨_, h2, h3⟩ | hm
      · exact .inr ⟨h2, t, h3, hi⟩
      · exact .inl ⟨hx, hm⟩
    · exact .inl ⟨hx, hm⟩
  | j4 x r t rs =>
    obtain ⟨hx, hm⟩ := h
    rcases hm with ⟨_, h2, h3⟩ | hm
    · exact .inr ⟨h2, t, h3, by simp only [act, upd_same]; exact mem_add.2 (.inr rfl)⟩
    · exact .inl ⟨hx, hm⟩
  | _ => exact h.elim

/-- The call of goroutine `k` will have put the socket into the room, or has. -/
def Entering (s : St) (k id g : Nat) : Prop := ((s.th k).1 = id ∧ Jn s id g (s.th k).2) ∨ (HasRoom s id g ∧ InRoom s id g)

theorem owns {s : St} (wf : WF s) (o : Own s) (k : Nat) : SOwn s (s.th k).1 (s.th k).2 ∧ ROwn s (s.th k).2 :=
  ⟨fun x h => o k x h, fun _ _ _ h1 h2 => wf.held k h1 h2⟩

theorem advance_th (s : St) (k : Nat) : (advance s k).th k = ((s.th k).1, (act s (s.th k).1 (s.th k).2).2) := by simp [advance]
theorem advance_th_ne (s : St) {k j : Nat} (h : j ≠ k) : (advance s k).th j = s.th j := by simp [advance, upd_ne _ _ h]

theorem entering_step {s : St} (wf : WF s) (o : Own s) (e : Ev) {k id g : Nat}
    (hl : ∀ j, (s.th j).1 = id → mayLeave g (s.th j).2 = false) (hd : (step s e).deleted ≠ s.deleted ++ [g])
    (h : Entering s k id g) : Entering (step s e) k id g := by
  cases e with
  | call j i c =>
    simp only [step]
    split
    · next hj =>
      rcases h with ⟨h1, h2⟩ | h
      · have hk : k ≠ j := by rintro rfl; rw [hj] at h2; exact h2
        refine .inl ?_
        simp only [upd_ne _ _ hk]
        exact ⟨h1, h2.mono (fun x => x) (fun _ x => x) fun _ x => x⟩
      · exact .inr h
    · exact h
  | adv j =>
    obtain ⟨so, ro⟩ := owns wf o j
    have hd' : (act s (s.th j).1 (s.th j).2).1.deleted ≠ s.deleted ++ [g] := hd
    have nl : ¬ ((s.th j).1 = id ∧ mayLeave g (s.th j).2 = true) := fun hh => by
      have := hl j hh.1; rw [this] at hh; exact absurd hh.2 (by decide)
    have hH : HasRoom s id g → HasRoom (advance s j) id g := fun hh => (act_has_old wf _ _ so hh).resolve_right nl
    rcases h with ⟨h1, h2⟩ | ⟨h1, h2⟩
    · by_cases hk : k = j
      · subst hk
        have e1 : (act s id (s.th k).2) = act s (s.th k).1 (s.th k).2 := by rw [h1]
        rcases jn_act h2 with h3 | h3
        · refine .inl ?_
          simp only [step]
          rw [advance_th]
          refine ⟨h1, ?_⟩
          rw [e1] at h3
          exact h3.mono (fun x => x) (fun _ x => x) fun _ x => x
        · rw [e1] at h3; exact .inr h3
      · refine .inl ?_
        simp only [step]
        rw [advance_th_ne s hk]
        refine ⟨h1, h2.mono hH (fun x hx => ?_) fun t ht => ?_⟩
        · exact (act_sid_old s _ _ g hx).resolve_right fun hh => nl hh.2
        · exact (act_room_old s _ _ ht).resolve_right fun hh => hd' hh.2
    · exact .inr ⟨hH h1, ((act_in_old wf _ _ ro h2).resolve_right fun hh => hh.elim nl hd')⟩

/-! ### A call that leaves -/

/-- Where a call is that has not taken the socket out of room `g` yet. -/
def Lv (s : St) (id g : Nat) : PC → Prop
  | .d0 r => r = g
  | .d1 x r => r = g ∧ (s.sids id = some x ∨ ¬ HasRoom s id g)
  | .d2 r => r = g ∧ ¬ HasRoom s id g
  | .d3 r t => r = g ∧ ¬ HasRoom s id g ∧ (s.rooms g = some t ∨ ¬ InRoom s id g)
  | _ => False

theorem Lv.mono {s s' : St} {id g : Nat} {pc : PC} (h : Lv s id g pc) (h1 : HasRoom s' id g → HasRoom s id g)
    (h1' : InRoom s' id g → InRoom s id g)
    (h2 : ∀ x, s.sids id = some x → s'.sids id = some x ∨ ¬ HasRoom s' id g)
    (h3 : ∀ t, s.rooms g = some t → s'.rooms g = some t ∨ ¬ InRoom s' id g) : Lv s' id g pc := by
  cases pc <;> simp only [Lv] at h ⊢
  · exact h
  · exact ⟨h.1, h.2.elim (h2 _) fun e => .inr fun x => e (h1 x)⟩
  · exact ⟨h.1, fun x => h.2 (h1 x)⟩
  · exact ⟨h.1, fun x => h.2.1 (h1 x), h.2.2.elim (h3 _) fun e => .inr fun x => e (h1' x)⟩

theorem lv_act {s : St} (wf : WF s) {id g : Nat} {pc : PC} (so : SOwn s id pc) (ro : ROwn s pc) (h : Lv s id g pc) :
    Lv (act s id pc).1 id g (act s id pc).2 ∨ (¬ HasRoom (act s id pc).1 id g ∧ ¬ InRoom (act s id pc).1 id g) := by
  have hn : joining pc = [] := by cases pc <;> first | rfl | exact h.elim
  have hH : ¬ HasRoom s id g → ¬ HasRoom (act s id pc).1 id g := fun h0 h1 => by
    rcases act_has_new wf id pc so h1 with h2 | h2
    · exact h0 h2
    · rw [hn] at h2; cases h2.2
  have hI : ¬ InRoom s id g → ¬ InRoom (act s id pc).1 id g := fun h0 h1 => by
    rcases act_in_new wf id pc ro h1 with h2 | h2
    · exact h0 h2
    · rw [hn] at h2; cases h2.2
  cases pc with
  | d0 r =>
    simp only [act]
    split
    · next x hx => exact .inl ⟨h, .inl hx⟩
    · next hx => exact .inl ⟨h, fun ⟨y, h1, _⟩ => by rw [hx] at h1; cases h1⟩
  | d1 x r =>
    obtain ⟨rfl, hx⟩ := h
    refine .inl ⟨rfl, ?_⟩
    rcases hx with hx | hx
    · rintro ⟨y, h1, h2⟩
      simp only [act] at h1 h2
      rw [hx] at h1
      cases h1
      rw [upd_same] at h2
      exact (mem_del.1 h2).2 rfl
    · exact hH hx
  | d2 r =>
    obtain ⟨rfl, hx⟩ := h
    simp only [act]
    split
    · next t ht => exact .inl ⟨rfl, hx, .inl ht⟩
    · next ht => exact .inr ⟨hx, fun ⟨y, h1, _⟩ => by rw [ht] at h1; cases h1⟩
  | d3 r t =>
    obtain ⟨rfl, hx, ht⟩ := h
    refine .inr ⟨hH hx, ?_⟩
    rcases ht with ht | ht
    · rintro ⟨y, h1, h2⟩
      simp only [act] at h1 h2
      rw [ht] at h1
      cases h1
      rw [upd_same] at h2
      exact (mem_del.1 h2).2 rfl
    · exact hI ht
  | _ => exact h.elim

/-- The call of goroutine `k` will have taken the socket out of the room, or has. -/
def Leaving (s : St) (k id g : Nat) : Prop := ((s.th k).1 = id ∧ Lv s id g (s.th k).2) ∨ (¬ HasRoom s id g ∧ ¬ InRoom s id g)

theorem leaving_step {s : St} (wf : WF s) (o : Own s) (e : Ev) {k id g : Nat}
    (hl : ∀ j, (s.th j).1 = id → g ∉ joining (s.th j).2)
    (h : Leaving s k id g) : Leaving (step s e) k id g := by
  cases e with
  | call j i c =>
    simp only [step]
    split
    · next hj =>
      rcases h with ⟨h1, h2⟩ | h
      · have hk : k ≠ j := by rintro rfl; rw [hj] at h2; exact h2
        refine .inl ?_
        simp only [upd_ne _ _ hk]
        exact ⟨h1, h2.mono (fun x => x) (fun x => x) (fun _ x => .inl x) fun _ x => .inl x⟩
      · exact .inr h
    · exact h
  | adv j =>
    obtain ⟨so, ro⟩ := owns wf o j
    have nl : ¬ ((s.th j).1 = id ∧ g ∈ joining (s.th j).2) := fun hh => hl j hh.1 hh.2
    have hH : HasRoom (advance s j) id g → HasRoom s id g := fun hh => (act_has_new wf _ _ so hh).resolve_right nl
    have hI : InRoom (advance s j) id g → InRoom s id g := fun hh => (act_in_new wf _ _ ro hh).resolve_right nl
    rcases h with ⟨h1, h2⟩ | ⟨h1, h2⟩
    · by_cases hk : k = j
      · subst hk
        rw [h1] at so
        have e1 : (act s id (s.th k).2) = act s (s.th k).1 (s.th k).2 := by rw [h1]
        rcases lv_act wf so ro h2 with h3 | h3
        · refine .inl ?_
          simp only [step]
          rw [advance_th]
          refine ⟨h1, ?_⟩
          rw [e1] at h3
          exact h3.mono (fun x => x) (fun x => x) (fun _ x => .inl x) fun _ x => .inl x
        · rw [e1] at h3; exact .inr h3
      · refine .inl ?_
        simp only [step]
        rw [advance_th_ne s hk]
        refine ⟨h1, h2.mono hH hI (fun x hx => ?_) fun t ht => ?_⟩
        · rcases act_sid_old s (s.th j).1 (s.th j).2 g hx with h3 | h3
          · exact .inl h3
          · exact .inr fun ⟨y, h4, _⟩ => by rw [show (advance s j).sids id = none from h3.1] at h4; cases h4
        · rcases act_room_old s (s.th j).1 (s.th j).2 ht with h3 | h3
          · exact .inl h3
          · exact .inr fun ⟨y, h4, _⟩ => by rw [show (advance s j).rooms g = none from h3.1] at h4; cases h4
    · exact .inr ⟨fun x => h1 (hH x), fun x => h2 (hI x)⟩

/-! ### A call that leaves all rooms -/

/-- Where a call is that has not taken the socket out of all rooms yet; seen from room `g`. -/
def Ga (s : St) (id g : Nat) : PC → Prop
  | .a0 => InRoom s id g → HasRoom s id g
  | .a1 x => s.sids id = some x ∧ (InRoom s id g → HasRoom s id g)
  | .a2 left | .e4 _ _ left | .e5 _ left => InRoom s id g → g ∈ left
  | .e2 r left => InRoom s id g → g = r ∨ g ∈ left
  | .e3 r t left => (InRoom s id g → g = r ∨ g ∈ left) ∧ (r = g → s.rooms g = some t ∨ ¬ InRoom s id g)
  | _ => False

theorem Ga.mono {s s' : St} {id g : Nat} {pc : PC} (h : Ga s id g pc) (h1 : HasRoom s id g → HasRoom s' id g)
    (h1' : InRoom s' id g → InRoom s id g) (h2 : ∀ x, s.sids id = some x → s'.sids id = some x)
    (h3 : ∀ t, s.rooms g = some t → s'.rooms g = some t ∨ ¬ InRoom s' id g) : Ga s' id g pc := by
  cases pc <;> simp only [Ga] at h ⊢
  · exact fun x => h1 (h (h1' x))
  · exact ⟨h2 _ h.1, fun x => h1 (h.2 (h1' x))⟩
  · exact fun x => h (h1' x)
  · exact fun x => h (h1' x)
  · exact ⟨fun x => h.1 (h1' x), fun e => (h.2 e).elim (h3 _) fun n => .inr fun x => n (h1' x)⟩
  · exact fun x => h (h1' x)
  · exact fun x => h (h1' x)

theorem ga_act {s : St} (wf : WF s) {id g : Nat} {pc : PC} (ro : ROwn s pc) (h : Ga s id g pc) :
    Ga (act s id pc).1 id g (act s id pc).2 ∨ (¬ HasRoom (act s id pc).1 id g ∧ ¬ InRoom (act s id pc).1 id g) := by
  have hn : joining pc = [] := by cases pc <;> first | rfl | exact h.elim
  have hI : InRoom (act s id pc).1 id g → InRoom s id g := fun h1 => by
    rcases act_in_new wf id pc ro h1 with h2 | h2
    · exact h2
    · rw [hn] at h2; cases h2.2
  cases pc with
  | a0 =>
    simp only [act]
    split
    · next x hx => exact .inl ⟨hx, h⟩
    · next hx =>
      have : ¬ HasRoom s id g := fun ⟨y, h1, _⟩ => by rw [hx] at h1; cases h1
      exact .inr ⟨this, fun x => this (h x)⟩
  | a1 x =>
    refine .inl fun hi => ?_
    obtain ⟨y, h1, h2⟩ := h.2 hi
    rw [h.1] at h1
    cases h1
    exact h2
  | a2 l =>
    cases l with
    | nil =>
      exact .inr ⟨fun ⟨y, h1, _⟩ => by simp [act] at h1, fun x => by cases h x⟩
    | cons r l => exact .inl fun x => List.mem_cons.1 (h x)
  | e2 r l =>
    simp only [act]
    split
    · next t ht => exact .inl ⟨h, fun e => .inl (by rw [← e]; exact ht)⟩
    · next ht =>
      refine .inl fun x => ?_
      rcases h x with rfl | h
      · obtain ⟨y, h1, _⟩ := x; rw [ht] at h1; cases h1
      · exact h
  | e3 r t l =>
    refine .inl fun x => ?_
    rcases h.1 (hI x) with e | h'
    · subst e
      rcases h.2 rfl with ht | ht
      · obtain ⟨y, h1, h2⟩ := x
        simp only [act] at h1 h2
        rw [ht] at h1
        cases h1
        rw [upd_same] at h2
        exact absurd rfl (mem_del.1 h2).2
      · exact absurd (hI x) ht
    · exact h'
  | e4 r t l =>
    simp only [act]
    split <;> exact .inl h
  | e5 r l => exact .inl fun x => h (hI x)
  | _ => exact h.elim

/-- The call of goroutine `k` will have taken the socket out of all rooms, or has. -/
def Clearing (s : St) (k id g : Nat) : Prop := ((s.th k).1 = id ∧ Ga s id g (s.th k).2) ∨ (¬ HasRoom s id g ∧ ¬ InRoom s id g)

theorem clearing_step {s : St} (wf : WF s) (o : Own s) (e : Ev) {k id g : Nat}
    (hl : ∀ j, (s.th j).1 = id → (j ≠ k → (s.th j).2 = .done) ∧ g ∉ joining (s.th j).2)
    (h : Clearing s k id g) : Clearing (step s e) k id g := by
  cases e with
  | call j i c =>
    simp only [step]
    split
    · next hj =>
      rcases h with ⟨h1, h2⟩ | h
      · have hk : k ≠ j := by rintro rfl; rw [hj] at h2; exact h2
        refine .inl ?_
        simp only [upd_ne _ _ hk]
        exact ⟨h1, h2.mono (fun x => x) (fun x => x) (fun _ x => x) fun _ x => .inl x⟩
      · exact .inr h
    · exact h
  | adv j =>
    obtain ⟨so, ro⟩ := owns wf o j
    have nl : ¬ ((s.th j).1 = id ∧ g ∈ joining (s.th j).2) := fun hh => (hl j hh.1).2 hh.2
    have hI : InRoom (advance s j) id g → InRoom s id g := fun hh => (act_in_new wf _ _ ro hh).resolve_right nl
    rcases h with ⟨h1, h2⟩ | ⟨h1, h2⟩
    · by_cases hk : k = j
      · subst hk
        have e1 : (act s id (s.th k).2) = act s (s.th k).1 (s.th k).2 := by rw [h1]
        rcases ga_act wf ro h2 with h3 | h3
        · refine .inl ?_
          simp only [step]
          rw [advance_th]
          refine ⟨h1, ?_⟩
          rw [e1] at h3
          exact h3.mono (fun x => x) (fun x => x) (fun _ x => x) fun _ x => .inl x
        · rw [e1] at h3; exact .inr h3
      · have ml : ¬ ((s.th j).1 = id ∧ mayLeave g (s.th j).2 = true) := fun hh => by
          have h3 := (hl j hh.1).1 fun e => hk e.symm
          have h4 := hh.2
          rw [h3] at h4
          cases h4
        refine .inl ?_
        simp only [step]
        rw [advance_th_ne s hk]
        refine ⟨h1, h2.mono (fun hh => (act_has_old wf _ _ so hh).resolve_right ml) hI (fun x hx => ?_) fun t ht => ?_⟩
        · exact (act_sid_old s _ _ g hx).resolve_right fun hh => ml hh.2
        · rcases act_room_old s (s.th j).1 (s.th j).2 ht with h3 | h3
          · exact .inl h3
          · exact .inr fun ⟨y, h4, _⟩ => by rw [show (advance s j).rooms g = none from h3.1] at h4; cases h4
    · exact .inr ⟨fun x => h1 ((act_has_new wf _ _ so x).resolve_right nl), fun x => h2 (hI x)⟩

/-! ### Over the time of the call -/

theorem run_snoc (h : List Ev) (e : Ev) : run (h ++ [e]) = step (run h) e := by simp [run]

theorem through_ind {p : List Ev} {k id : Nat} {c : Call} {q : List Ev} {P : St → Prop} (hP : Throughout p k id c q P) (I : St → Prop)
    (h0 : I (step (run p) (.call k id c)))
    (hs : ∀ s e, WF s → Own s → P s → P (step s e) → I s → I (step s e)) : I (run (p ++ .call k id c :: q)) := by
  induction q using snocRec with
  | nil => rw [run_snoc]; exact h0
  | append_singleton q e ih =>
    have e1 : p ++ .call k id c :: (q ++ [e]) = (p ++ .call k id c :: q) ++ [e] := by simp
    have ih := ih (fun q₁ q₂ h => hP q₁ (q₂ ++ [e]) (by rw [h, List.append_assoc]))
    have hP1 := hP q [e] rfl
    have hP2 := hP (q ++ [e]) [] (by simp)
    rw [e1] at hP2 ⊢
    rw [run_snoc] at hP2 ⊢
    obtain ⟨wf, o⟩ := wf_own (p ++ .call k id c :: q)
    exact hs _ e wf o hP1 hP2 ih

end Verif.RoomRace
