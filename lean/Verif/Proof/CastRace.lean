import Verif.Spec.CastRace
import Verif.Proof.RoomRace

namespace Verif.CastRace
open Verif Verif.Spec Verif.World

theorem run_snoc (h : List Ev) (e : Ev) : run (h ++ [e]) = step (run h) e := by
  simp [run, List.foldl_append]

/-! ### The sets of the rooms -/

/-- Every set of sockets belongs to one room: the one it was made for. -/
structure Own (own : Nat → Nat) (s : RoomRace.St) : Prop where
  room : ∀ {r t}, s.rooms r = some t → t < s.next ∧ own t = r
  held : ∀ k {r t}, (s.th k).2.held = some (r, t) → t < s.next ∧ own t = r

theorem own_step {own : Nat → Nat} {s : RoomRace.St} (o : Own own s) (e : RoomRace.Ev) :
    ∃ own', Own own' (RoomRace.step s e) ∧ (∀ t, t < s.next → own' t = own t) ∧ s.next ≤ (RoomRace.step s e).next := by
  cases e with
  | call k id c =>
    refine ⟨own, ?_, fun _ _ => rfl, ?_⟩
    · simp only [RoomRace.step]
      split
      · refine ⟨o.room, ?_⟩
        intro k' r t h
        simp only [upd] at h
        split at h
        · cases c <;> simp [RoomRace.Call.start, RoomRace.PC.held] at h
        · exact o.held k' h
      · exact o
    · simp only [RoomRace.step]; split <;> exact Nat.le_refl _
  | adv k =>
    have hn : s.next ≤ (RoomRace.step s (.adv k)).next := RoomRace.act_next s _ _
    have hheld : ∀ k' r t, ((RoomRace.step s (.adv k)).th k').2.held = some (r, t) → (s.th k').2.held = some (r, t) ∨
        s.rooms r = some t ∨ (t = s.next ∧ (RoomRace.step s (.adv k)).rooms = upd s.rooms r (some s.next) ∧
          (RoomRace.step s (.adv k)).next = s.next + 1) := by
      intro k' r t h
      simp only [RoomRace.step, RoomRace.advance, upd] at h
      split at h
      · next hk =>
        rw [hk]
        exact RoomRace.act_held s _ _ h
      · exact .inl h
    rcases RoomRace.act_rooms s (s.th k).1 (s.th k).2 with h | ⟨x, r0, rs, h, hnx, _⟩ | ⟨r0, h⟩
    · have h' : (RoomRace.step s (.adv k)).rooms = s.rooms := h
      refine ⟨own, ⟨?_, ?_⟩, fun _ _ => rfl, hn⟩
      · intro r t hr
        rw [h'] at hr
        exact ⟨Nat.lt_of_lt_of_le (o.room hr).1 hn, (o.room hr).2⟩
      · intro k' r t hh
        rcases hheld k' r t hh with g | g | ⟨g1, g2, _⟩
        · exact ⟨Nat.lt_of_lt_of_le (o.held k' g).1 hn, (o.held k' g).2⟩
        · exact ⟨Nat.lt_of_lt_of_le (o.room g).1 hn, (o.room g).2⟩
        · exfalso
          have : s.rooms r = some s.next := by rw [← h', g2]; simp [upd]
          exact absurd (o.room this).1 (Nat.lt_irrefl _)
    · have h' : (RoomRace.step s (.adv k)).rooms = upd s.rooms r0 (some s.next) := h
      have hnx' : (RoomRace.step s (.adv k)).next = s.next + 1 := hnx
      refine ⟨upd own s.next r0, ⟨?_, ?_⟩, ?_, hn⟩
      · intro r t hr
        rw [h'] at hr
        simp only [upd] at hr ⊢
        split at hr
        · next hrr => cases hr; simp [hrr, hnx']
        · have := o.room hr
          have hne : t ≠ s.next := by omega
          rw [if_neg hne, hnx']
          exact ⟨by omega, this.2⟩
      · intro k' r t hh
        rw [hnx']
        rcases hheld k' r t hh with g | g | ⟨g1, g2, _⟩
        · have := o.held k' g
          have hne : t ≠ s.next := by omega
          simp only [upd, if_neg hne]
          exact ⟨by omega, this.2⟩
        · have := o.room g
          have hne : t ≠ s.next := by omega
          simp only [upd, if_neg hne]
          exact ⟨by omega, this.2⟩
        · subst g1
          have : r = r0 := by
            have e : (upd s.rooms r (some s.next)) r0 = (upd s.rooms r0 (some s.next)) r0 := by rw [← g2, h']
            simp only [upd, if_true] at e
            by_cases hr : r0 = r
            · exact hr.symm
            · rw [if_neg hr] at e
              exact absurd (o.room e).1 (Nat.lt_irrefl _)
          simp [upd, this]
      · intro t ht
        have hne : t ≠ s.next := by omega
        simp [upd, hne]
    · have h' : (RoomRace.step s (.adv k)).rooms = upd s.rooms r0 none := h
      refine ⟨own, ⟨?_, ?_⟩, fun _ _ => rfl, hn⟩
      · intro r t hr
        rw [h'] at hr
        simp only [upd] at hr
        split at hr
        · cases hr
        · exact ⟨Nat.lt_of_lt_of_le (o.room hr).1 hn, (o.room hr).2⟩
      · intro k' r t hh
        rcases hheld k' r t hh with g | g | ⟨g1, g2, _⟩
        · exact ⟨Nat.lt_of_lt_of_le (o.held k' g).1 hn, (o.held k' g).2⟩
        · exact ⟨Nat.lt_of_lt_of_le (o.room g).1 hn, (o.room g).2⟩
        · exfalso
          have e : (upd s.rooms r (some s.next)) r = (upd s.rooms r0 none) r := by rw [← g2, h']
          simp only [upd, if_true] at e
          by_cases hr : r = r0
          · rw [if_pos hr] at e; cases e
          · rw [if_neg hr] at e
            exact absurd (o.room e.symm).1 (Nat.lt_irrefl _)

/-- Who comes into a set: a socket that is joining. -/
theorem rset_step (s : RoomRace.St) (e : RoomRace.Ev) (id t : Nat) (h : id ∈ (RoomRace.step s e).rset t) :
    id ∈ s.rset t ∨ ∃ k x r rs, s.th k = (id, .j4 x r t rs) := by
  cases e with
  | call k i c => simp only [RoomRace.step] at h; split at h <;> exact .inl h
  | adv k =>
    have hL : ∀ r, (RoomRace.loadAndDelete s r).rset = s.rset := fun r => by
      rcases RoomRace.loadAndDelete_cases s r with e | e <;> rw [e]
    have h' : id ∈ (RoomRace.act s (s.th k).1 (s.th k).2).1.rset t := h
    cases hpc : (s.th k).2 with
    | j0 rs => rw [hpc] at h'; simp only [RoomRace.act] at h'; split at h' <;> exact .inl h'
    | j1 x rs => rw [hpc] at h'; cases rs <;> exact .inl h'
    | j2 x r rs =>
      rw [hpc] at h'; simp only [RoomRace.act] at h'
      split at h'
      · exact .inl h'
      · simp only [upd] at h'
        split at h'
        · cases h'
        · exact .inl h'
    | j4 x r u rs =>
      rw [hpc] at h'
      simp only [RoomRace.act, upd] at h'
      split at h'
      · next htu =>
        rcases RoomRace.mem_add.1 h' with h' | h'
        · exact .inl (htu ▸ h')
        · exact .inr ⟨k, x, r, rs, by rw [h', htu]; exact Prod.ext rfl hpc⟩
      · exact .inl h'
    | d3 r u =>
      rw [hpc] at h'
      simp only [RoomRace.act, upd] at h'
      split at h'
      · next htu => exact .inl (htu ▸ (RoomRace.mem_del.1 h').1)
      · exact .inl h'
    | e3 r u l =>
      rw [hpc] at h'
      simp only [RoomRace.act, upd] at h'
      split at h'
      · next htu => exact .inl (htu ▸ (RoomRace.mem_del.1 h').1)
      · exact .inl h'
    | d5 r => rw [hpc] at h'; simp only [RoomRace.act, hL] at h'; exact .inl h'
    | e5 r l => rw [hpc] at h'; simp only [RoomRace.act, hL] at h'; exact .inl h'
    | a2 l => rw [hpc] at h'; cases l <;> exact .inl h'
    | d0 r => rw [hpc] at h'; simp only [RoomRace.act] at h'; split at h' <;> exact .inl h'
    | d2 r => rw [hpc] at h'; simp only [RoomRace.act] at h'; split at h' <;> exact .inl h'
    | a0 => rw [hpc] at h'; simp only [RoomRace.act] at h'; split at h' <;> exact .inl h'
    | e2 r l => rw [hpc] at h'; simp only [RoomRace.act] at h'; split at h' <;> exact .inl h'
    | _ => rw [hpc] at h'; exact .inl h'

/-- A room keeps its set as long as it exists. -/
theorem rooms_step {own : Nat → Nat} {s : RoomRace.St} (o : Own own s) (e : RoomRace.Ev) {r t : Nat} (h : s.rooms r = some t)
    (h' : ∃ u, (RoomRace.step s e).rooms r = some u) : (RoomRace.step s e).rooms r = some t := by
  cases e with
  | call k i c => simp only [RoomRace.step]; split <;> exact h
  | adv k =>
    cases hpc : (s.th k).2 with
    | j2 x q rs =>
      have e : RoomRace.step s (.adv k) = RoomRace.advance s k := rfl
      rw [e, RoomRace.advance, hpc]
      simp only [RoomRace.act]
      split
      · exact h
      · next hq =>
        simp only [upd]
        split
        · next hrq => rw [hrq, hq] at h; cases h
        · exact h
    | j1 x rs =>
      have e : RoomRace.step s (.adv k) = RoomRace.advance s k := rfl
      rw [e, RoomRace.advance, hpc]
      cases rs <;> exact h
    | a2 l =>
      have e : RoomRace.step s (.adv k) = RoomRace.advance s k := rfl
      rw [e, RoomRace.advance, hpc]
      cases l <;> exact h
    | _ =>
      rcases RoomRace.act_rooms s (s.th k).1 (s.th k).2 with g | ⟨x, r0, rs, g, _, g3⟩ | ⟨r0, g⟩
      · exact (congrFun g r).trans h
      · exfalso
        rw [hpc] at g3
        revert g3
        simp only [RoomRace.act]; (try split) <;> simp
      · obtain ⟨u, hu⟩ := h'
        have hu' := (congrFun g r).symm.trans hu
        have e : (RoomRace.step s (.adv k)).rooms r = upd s.rooms r0 none r := congrFun g r
        rw [e]
        simp only [upd] at hu' ⊢
        split at hu'
        · cases hu'
        · next hr => rw [if_neg hr]; exact h

/-! ### The broadcast -/

/-- The set the broadcast is about to read, and its room. -/
def PC.holds : PC → Option (Nat × Nat)
  | .xk q t _ _ _ | .rk q t _ _ _ => some (q, t)
  | _ => none

structure Base (s : St) : Prop where
  own : ∃ own, Own own s.tab ∧ ∀ q t, s.pc.holds = some (q, t) → t < s.tab.next ∧ own t = q
  callers : ∀ k, (s.tab.th k).2 ≠ .done → (s.tab.th k).1 ∈ s.known
  known : ∀ i x, s.tab.sids i = some x → i ∈ s.known

theorem act_tab (s : St) (pc : PC) : (act s pc).1.tab = s.tab ∧ (act s pc).1.reg = s.reg ∧ (act s pc).1.known = s.known := by
  unfold act
  repeat' split
  all_goals exact ⟨rfl, rfl, rfl⟩

theorem act_holds (s : St) (pc : PC) {q t : Nat} (h : (act s pc).2.holds = some (q, t)) : s.tab.rooms q = some t := by
  unfold act at h
  repeat' split at h
  all_goals (first | (simp [PC.holds] at h; done) | skip)
  all_goals
    simp only [PC.holds, Option.some.injEq, Prod.mk.injEq] at h
    obtain ⟨rfl, rfl⟩ := h
    assumption

theorem base_step {s : St} (b : Base s) (e : Ev) : Base (step s e) := by
  obtain ⟨⟨own, o, hc⟩, b2, b3⟩ := b
  cases e with
  | room e =>
    obtain ⟨own', o', ho, hn⟩ := own_step o e
    refine ⟨⟨own', o', ?_⟩, ?_, ?_⟩
    · intro q t h
      have := hc q t h
      exact ⟨Nat.lt_of_lt_of_le this.1 hn, by rw [ho t this.1]; exact this.2⟩
    · intro k hk
      cases e with
      | call k0 id c =>
        simp only [step, RoomRace.step] at hk ⊢
        split at hk
        · next hd =>
          simp only [if_pos hd, upd] at hk ⊢
          split
          · simp
          · next hkk =>
            rw [if_neg hkk] at hk
            simp [b2 k hk]
        · next hd => simp only [if_neg hd]; simp [b2 k hk]
      | adv k0 =>
        simp only [step, RoomRace.step, RoomRace.advance, upd] at hk ⊢
        split
        · next hkk =>
          rw [if_pos hkk] at hk
          apply b2
          intro hd
          simp [hd, RoomRace.act] at hk
        · next hkk =>
          rw [if_neg hkk] at hk
          exact b2 k hk
    · intro i x hx
      cases e with
      | call k0 id c =>
        simp only [step, RoomRace.step] at hx ⊢
        split at hx <;> simp [b3 i x hx]
      | adv k0 =>
        have hx' : (RoomRace.act s.tab (s.tab.th k0).1 (s.tab.th k0).2).1.sids i = some x := hx
        show i ∈ s.known
        rcases RoomRace.act_sids s.tab (s.tab.th k0).1 (s.tab.th k0).2 with g | ⟨g, _⟩ | g
        · rw [g] at hx'; exact b3 i x hx'
        · by_cases hd : (s.tab.th k0).2 = .done
          · rw [hd] at hx'; exact b3 i x hx'
          · rw [g] at hx'
            simp only [upd] at hx'
            split at hx'
            · next hi => rw [hi]; exact b2 k0 hd
            · exact b3 i x hx'
        · rw [g] at hx'
          simp only [upd] at hx'
          split at hx'
          · cases hx'
          · exact b3 i x hx'
  | connect i => exact ⟨⟨own, o, hc⟩, b2, b3⟩
  | disconnect i => exact ⟨⟨own, o, hc⟩, b2, b3⟩
  | cast a b c =>
    simp only [step]
    split
    · exact ⟨⟨own, o, by intro q t h; simp [PC.holds] at h⟩, b2, b3⟩
    · exact ⟨⟨own, o, hc⟩, b2, b3⟩
  | adv =>
    obtain ⟨h1, h2, h3⟩ := act_tab s s.pc
    refine ⟨⟨own, by simp only [step]; rw [h1]; exact o, ?_⟩, by simp only [step]; rw [h1, h3]; exact b2,
      by simp only [step]; rw [h1, h3]; exact b3⟩
    intro q t h
    simp only [step]
    rw [h1]
    exact o.room (act_holds s s.pc h)

theorem base_run (h : List Ev) : Base (run h) := by
  induction h using snocRec with
  | nil =>
    refine ⟨⟨fun _ => 0, ⟨?_, ?_⟩, ?_⟩, ?_, ?_⟩
    · intro r t h; simp [run] at h
    · intro k r t h; simp [run, RoomRace.PC.held] at h
    · intro q t h; simp [run, PC.holds] at h
    · intro k h; simp [run] at h
    · intro i x h; simp [run] at h
  | append_singleton h e ih => rw [run_snoc]; exact base_step ih e

/-- What an event other than a step of the broadcast or the beginning of one may change. -/
theorem env_step (s : St) (e : Ev) (h1 : e ≠ .adv) (h2 : ∀ a b c, e ≠ .cast a b c) :
    (step s e).pc = s.pc ∧ (step s e).sent = s.sent ∧ (step s e).order = s.order ∧
    (∀ id t, id ∈ (step s e).tab.rset t → id ∈ s.tab.rset t ∨ ∃ k x r rs, s.tab.th k = (id, .j4 x r t rs)) := by
  cases e with
  | room e => exact ⟨rfl, rfl, rfl, fun id t h => rset_step s.tab e id t h⟩
  | connect i => exact ⟨rfl, rfl, rfl, fun _ _ h => .inl h⟩
  | disconnect i => exact ⟨rfl, rfl, rfl, fun _ _ h => .inl h⟩
  | cast a b c => exact absurd rfl (h2 a b c)
  | adv => exact absurd rfl h1

/-- A socket that is not near the room of a set the broadcast holds does not come into it. -/
theorem far {s : St} (b : Base s) (e : Ev) (h1 : e ≠ .adv) (h2 : ∀ a b c, e ≠ .cast a b c) {q t id : Nat}
    (hh : s.pc.holds = some (q, t)) (hn : ¬ NearRoom s.tab id q) (hi : id ∉ s.tab.rset t) : id ∉ (step s e).tab.rset t := by
  intro hc
  obtain ⟨own, o, ho⟩ := b.own
  rcases (env_step s e h1 h2).2.2.2 id t hc with h | ⟨k, x, r, rs, h⟩
  · exact hi h
  · have h3 := o.held k (r := r) (t := t) (by rw [h]; rfl)
    have h4 := ho q t hh
    refine hn (.inr ⟨k, by rw [h], ?_⟩)
    rw [h, ← h4.2, h3.2]
    simp [joining]

/-- A room somebody is in the whole time keeps its set. -/
theorem kept {s : St} (b : Base s) (e : Ev) {q t id : Nat} (hr : s.tab.rooms q = some t) (hn : InRoom (step s e).tab id q) :
    (step s e).tab.rooms q = some t := by
  obtain ⟨own, o, _⟩ := b.own
  obtain ⟨u, hu, _⟩ := hn
  cases e with
  | room e => exact rooms_step o e hr ⟨u, hu⟩
  | connect i => exact hr
  | disconnect i => exact hr
  | cast a b c => simp only [step]; split <;> exact hr
  | adv => simp only [step]; rw [(act_tab s s.pc).1]; exact hr

/-- Induction over the time of the call. -/
theorem whole_ind {p : List Ev} {rooms except order : List Nat} {q : List Ev} (hp : (run p).pc = .idle)
    (ho : ∀ a b c, .cast a b c ∉ q) {P : RoomRace.St → (Nat → Bool) → Prop} (hP : Meanwhile p rooms except order q P) (I : St → Prop)
    (h0 : I (step (run p) (.cast rooms except order)))
    (hs : ∀ s e, Base s → (∀ a b c, e ≠ .cast a b c) → P s.tab s.reg → P (step s e).tab (step s e).reg → I s → I (step s e)) :
    I (run (p ++ .cast rooms except order :: q)) := by
  induction q using snocRec with
  | nil => rw [run_snoc]; exact h0
  | append_singleton q e ih =>
    have e1 : p ++ .cast rooms except order :: (q ++ [e]) = (p ++ .cast rooms except order :: q) ++ [e] := by simp
    have ih := ih (fun a b c h => ho a b c (by simp [h]))
      (fun q₁ q₂ h => hP q₁ (q₂ ++ [e]) (by rw [h, List.append_assoc]))
    have hP1 := hP q [e] rfl
    have hP2 := hP (q ++ [e]) [] (by simp)
    rw [e1] at hP2 ⊢
    rw [run_snoc] at hP2 ⊢
    exact hs _ e (base_run _) (fun a b c h => ho a b c (by simp [h])) hP1 hP2 ih

/-- A step calls the callback at most once, and nothing else changes who was reached. -/
theorem sent_step (s : St) (e : Ev) (he : ∀ a b c, e ≠ .cast a b c) :
    (step s e).sent = s.sent ∨ (e = .adv ∧ ∃ id, (step s e).sent = s.sent ++ [id]) := by
  cases e with
  | room e => exact .inl rfl
  | connect i => exact .inl rfl
  | disconnect i => exact .inl rfl
  | cast a b c => exact absurd rfl (he a b c)
  | adv =>
    have : (act s s.pc).1.sent = s.sent ∨ ∃ id, (act s s.pc).1.sent = s.sent ++ [id] := by
      unfold act
      repeat' split
      all_goals first | exact .inl rfl | exact .inr ⟨_, rfl⟩
    exact this.imp (fun h => h) fun h => ⟨rfl, h⟩

theorem sent_mono {s : St} {e : Ev} (he : ∀ a b c, e ≠ .cast a b c) {id : Nat} (h : id ∈ s.sent) : id ∈ (step s e).sent := by
  rcases sent_step s e he with g | ⟨_, i, g⟩ <;> rw [g]
  · exact h
  · exact List.mem_append_left _ h

/-- Induction over the time until the socket is reached. -/
theorem until_ind {p : List Ev} {rooms except order : List Nat} {q : List Ev} {id : Nat} (hp : (run p).pc = .idle)
    (ho : ∀ a b c, .cast a b c ∉ q) {P : RoomRace.St → (Nat → Bool) → Prop} (hP : UntilReached p rooms except order q id P) (I : St → Prop)
    (h0 : I (step (run p) (.cast rooms except order)))
    (hs : ∀ s e, Base s → (∀ a b c, e ≠ .cast a b c) → P s.tab s.reg → P (step s e).tab (step s e).reg → I s → I (step s e)) :
    id ∈ (run (p ++ .cast rooms except order :: q)).sent ∨ I (run (p ++ .cast rooms except order :: q)) := by
  induction q using snocRec with
  | nil => rw [run_snoc]; exact .inr h0
  | append_singleton q e ih =>
    have e1 : p ++ .cast rooms except order :: (q ++ [e]) = (p ++ .cast rooms except order :: q) ++ [e] := by simp
    have he : ∀ a b c, e ≠ .cast a b c := fun a b c h => ho a b c (by simp [h])
    have ih := ih (fun a b c h => ho a b c (by simp [h]))
      (fun q₁ q₂ h => hP q₁ (q₂ ++ [e]) (by rw [h, List.append_assoc]))
    have hP1 := hP q [e] rfl
    have hP2 := hP (q ++ [e]) [] (by simp)
    rw [e1] at hP2 ⊢
    rw [run_snoc] at hP2 ⊢
    by_cases hm : id ∈ (step (run (p ++ .cast rooms except order :: q)) e).sent
    · exact .inl hm
    · have hm1 : id ∉ (run (p ++ .cast rooms except order :: q)).sent := fun h => hm (sent_mono he h)
      exact .inr (hs _ e (base_run _) he (hP1 hm1) (hP2 hm) (ih.resolve_left hm1))

theorem meanwhile_until {p : List Ev} {rooms except order : List Nat} {q : List Ev} {P : RoomRace.St → (Nat → Bool) → Prop}
    (h : Meanwhile p rooms except order q P) (id : Nat) : UntilReached p rooms except order q id P :=
  fun q₁ q₂ e _ => h q₁ q₂ e

theorem cast_start {s : St} (h : s.pc = .idle) (rooms except order : List Nat) :
    step s (.cast rooms except order) = { s with pc := .x except rooms [], order := order, sent := [] } := by
  simp [step, h]

end Verif.CastRace
