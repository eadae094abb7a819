import Verif.Proof.CastRaceLoop

/-! # C74: broadcasts while other things happen -/

namespace Verif.Props
open Verif Verif.Spec Verif.CastRace Verif.CastRaceLoop

/-- Part of C74.  Whatever happens meanwhile, nobody is reached twice. -/
theorem C74_once (p : List CastRace.Ev) (rooms except order : List Nat) (q : List CastRace.Ev) (w : Whole p rooms except order q) :
    (sentTo p rooms except order q).Nodup := by
  have := whole_ind (rooms := rooms) (except := except) (order := order) w.begins w.one (P := fun _ _ => True) (fun _ _ _ => trivial) Once
    (by rw [cast_start w.begins]; rfl) (fun s e _ he _ _ h => once_step e he h)
  unfold Once at this
  rw [w.ends] at this
  exact this

/-- Part of C74.  Whatever happens meanwhile, a socket that, until it is reached, is in the namespace and in one of the rooms broadcast to
all the time, and at no time in an excepted room or about to join one, is reached once. -/
theorem C74_reached_partial (p : List CastRace.Ev) (rooms except order : List Nat) (q : List CastRace.Ev)
    (w : Whole p rooms except order q) (id r : Nat) (hr : r ∈ rooms)
    (hin : UntilReached p rooms except order q id (fun s reg => InRoom s id r ∧ reg id = true ∧ ∀ x ∈ except, ¬ NearRoom s id x)) :
    (sentTo p rooms except order q).count id = 1 := by
  have hn := C74_once p rooms except order q w
  rcases until_ind (order := order) w.begins w.one hin (fun s => ExFree id except s ∧ Coming id r s)
    (by rw [cast_start w.begins]; exact ⟨⟨fun _ h => h, by simp⟩, hr⟩)
    (fun s e b he h1 h2 h => ⟨exFree_step b e he h1.2.2 h.1, coming_step b e he h1.1 h2.1 h1.2.1 h.1 h.2⟩) with hc | this
  · exact count_one hn hc
  · have hc := this.2
    unfold Coming at hc
    rw [w.ends] at hc
    exact count_one hn hc

/-- Part of C74.  The same for a broadcast to everybody: the socket must have its entry in the adapter and be in the namespace all
the time until it is reached. -/
theorem C74_all_partial (p : List CastRace.Ev) (except order : List Nat) (q : List CastRace.Ev) (w : Whole p [] except order q) (id : Nat)
    (hin : UntilReached p [] except order q id
      (fun s reg => (s.sids id).isSome = true ∧ reg id = true ∧ ∀ x ∈ except, ¬ NearRoom s id x)) :
    (sentTo p [] except order q).count id = 1 := by
  have hn := C74_once p [] except order q w
  rcases until_ind (order := order) w.begins w.one hin (fun s => ExFree id except s ∧ ComingAll id s)
    (by rw [cast_start w.begins]; exact ⟨⟨fun _ h => h, by simp⟩, rfl⟩)
    (fun s e b he h1 _ h => ⟨exFree_step b e he h1.2.2 h.1, comingAll_step b e he h1.1 h1.2.1 h.1 h.2⟩) with hc | this
  · exact count_one hn hc
  · have hc := this.2
    unfold ComingAll at hc
    rw [w.ends] at hc
    exact count_one hn hc

/-- Part of C74.  A socket that at no time is in one of the rooms broadcast to, or about to join one, is not reached. -/
theorem C74_elsewhere_partial (p : List CastRace.Ev) (rooms except order : List Nat) (q : List CastRace.Ev)
    (w : Whole p rooms except order q) (hr : rooms ≠ []) (id : Nat)
    (hout : Meanwhile p rooms except order q (fun s _ => ∀ r ∈ rooms, ¬ NearRoom s id r)) :
    id ∉ sentTo p rooms except order q :=
  (whole_ind (order := order) w.begins w.one hout (Elsewhere id rooms)
    (by rw [cast_start w.begins]; exact ⟨by simp, hr, fun _ h => h⟩)
    (fun _ e b he h1 _ h => elsewhere_step b e he h1 h)).1

/-- Part of C74.  A socket that is in one of the excepted rooms all the time is not reached. -/
theorem C74_excepted_partial (p : List CastRace.Ev) (rooms except order : List Nat) (q : List CastRace.Ev)
    (w : Whole p rooms except order q) (id x : Nat) (hx : x ∈ except)
    (hin : Meanwhile p rooms except order q (fun s _ => InRoom s id x)) :
    id ∉ sentTo p rooms except order q :=
  (whole_ind (order := order) w.begins w.one hin (Barred id x)
    (by rw [cast_start w.begins]; exact ⟨by simp, .inl hx⟩)
    (fun _ e b he h1 h2 h => barred_step b e he h1 h2 h)).1

/-- Part of C74.  A socket that is not in the namespace at any time of the call is not reached. -/
theorem C74_absent (p : List CastRace.Ev) (rooms except order : List Nat) (q : List CastRace.Ev) (w : Whole p rooms except order q)
    (id : Nat) (hout : Meanwhile p rooms except order q (fun _ reg => reg id = false)) :
    id ∉ sentTo p rooms except order q :=
  whole_ind (order := order) w.begins w.one hout (fun s => id ∉ s.sent)
    (by rw [cast_start w.begins]; simp)
    (fun _ e _ he h1 _ h => absent_step e he h1 h)

/-- Part of C74.  A socket that at no time has an entry in the adapter (it has not joined its own room yet, or has left all) is not reached by
a broadcast to everybody. -/
theorem C74_unknown (p : List CastRace.Ev) (except order : List Nat) (q : List CastRace.Ev) (w : Whole p [] except order q)
    (id : Nat) (hout : Meanwhile p [] except order q (fun s _ => (s.sids id).isSome = false)) :
    id ∉ sentTo p [] except order q :=
  (whole_ind (order := order) w.begins w.one hout (PassedOver id)
    (by rw [cast_start w.begins]; exact ⟨by simp, rfl⟩)
    (fun _ e _ he h1 _ h => passedOver_step e he h1 h)).1

/-- Part of C74, and C03 on these tables.  When nothing happens meanwhile and no call of the adapter is half way, exactly the sockets that
are selected are reached, each once: those of the namespace that are in one of the rooms, or have an entry if no room is given, and in no
excepted room. -/
theorem C74_alone (p : List CastRace.Ev) (rooms except order : List Nat) (q : List CastRace.Ev) (w : Whole p rooms except order q)
    (hq : ∀ e ∈ q, e = .adv) (hquiet : Quiet (CastRace.run p).tab) (id : Nat) :
    (id ∈ sentTo p rooms except order q ↔ (CastRace.run p).reg id = true ∧
      (if rooms = [] then ((CastRace.run p).tab.sids id).isSome = true else ∃ r ∈ rooms, InRoom (CastRace.run p).tab id r) ∧
      ∀ x ∈ except, ¬ InRoom (CastRace.run p).tab id x) ∧ (sentTo p rooms except order q).count id ≤ 1 := by
  have hall : ∀ P : RoomRace.St → (Nat → Bool) → Prop, P (CastRace.run p).tab (CastRace.run p).reg → Meanwhile p rooms except order q P := by
    intro P hP q₁ q₂ e
    obtain ⟨h1, h2⟩ := adv_tables p rooms except order q₁ fun e' he' => hq e' (by rw [e]; exact List.mem_append_left _ he')
    rw [h1, h2]; exact hP
  have near : ∀ x, NearRoom (CastRace.run p).tab id x → InRoom (CastRace.run p).tab id x := by
    rintro x (h | ⟨k, _, h⟩)
    · exact h
    · rw [hquiet k] at h; cases h
  refine ⟨⟨fun hm => ⟨?_, ?_, ?_⟩, ?_⟩, List.nodup_iff_count.1 (C74_once p rooms except order q w) id⟩
  · cases hr : (CastRace.run p).reg id with
    | true => rfl
    | false => exact absurd hm (C74_absent p rooms except order q w id (hall _ hr))
  · split
    · rename_i hr
      subst hr
      cases hs : ((CastRace.run p).tab.sids id).isSome with
      | true => rfl
      | false => exact absurd hm (C74_unknown p except order q w id (hall _ hs))
    · rename_i hr
      refine Classical.byContradiction fun hno => ?_
      exact C74_elsewhere_partial p rooms except order q w hr id (hall _ fun r hr' hn => hno ⟨r, hr', near r hn⟩) hm
  · intro x hx hin
    exact C74_excepted_partial p rooms except order q w id x hx (hall _ hin) hm
  · rintro ⟨h1, h2, h3⟩
    have hpos : (sentTo p rooms except order q).count id = 1 := by
      split at h2
      · rename_i hr
        subst hr
        exact C74_all_partial p except order q w id (meanwhile_until (hall _ ⟨h2, h1, fun x hx hn => h3 x hx (near x hn)⟩) id)
      · obtain ⟨r, hr, hin⟩ := h2
        exact C74_reached_partial p rooms except order q w id r hr (meanwhile_until (hall _ ⟨hin, h1, fun x hx hn => h3 x hx (near x hn)⟩) id)
    exact List.count_pos_iff.1 (by omega)

/-- What "in the namespace" means above: the socket was connected, and not disconnected since. -/
theorem C74_present (h : List CastRace.Ev) (id : Nat) : (CastRace.run h).reg id = true ↔ Present h id := by
  induction h using snocRec with
  | nil => simp [CastRace.run, Present]
  | append_singleton h e ih =>
    have hs : CastRace.run (h ++ [e]) = CastRace.step (CastRace.run h) e := by simp [CastRace.run]
    have keep : e ≠ .connect id → e ≠ .disconnect id → (Present (h ++ [e]) id ↔ Present h id) := by
      intro h1 h2
      constructor
      · rintro ⟨a, b, hab, hb⟩
        rcases List.eq_nil_or_concat b with rfl | ⟨b', x, rfl⟩
        · have := List.append_inj_right' hab rfl
          simp at this; exact absurd this h1
        · have e1 : h ++ [e] = (a ++ .connect id :: b') ++ [x] := by simpa using hab
          have := List.append_inj_left' e1 rfl
          exact ⟨a, b', this, fun hm => hb (by simp [hm])⟩
      · rintro ⟨a, b, rfl, hb⟩
        exact ⟨a, b ++ [e], by simp, by simp [hb, Ne.symm h2]⟩
    rw [hs]
    cases e with
    | connect j =>
      by_cases hj : id = j
      · subst hj
        simp only [CastRace.step, World.upd, if_true, true_iff]
        exact ⟨h, [], rfl, by simp⟩
      · rw [keep (by simp [Ne.symm hj]) (by simp), ← ih]
        simp [CastRace.step, World.upd, hj]
    | disconnect j =>
      by_cases hj : id = j
      · subst hj
        have : ¬ Present (h ++ [.disconnect id]) id := by
          rintro ⟨a, b, hab, hb⟩
          rcases List.eq_nil_or_concat b with rfl | ⟨b', x, rfl⟩
          · have := List.append_inj_right' hab rfl
            simp at this
          · have e1 : h ++ [.disconnect id] = (a ++ .connect id :: b') ++ [x] := by simpa using hab
            have := List.append_inj_right' e1 rfl
            simp at this
            exact hb (by simp [this])
        simp [this, CastRace.step, World.upd]
      · rw [keep (by simp) (by simp [Ne.symm hj]), ← ih]
        simp [CastRace.step, World.upd, hj]
    | room r => rw [keep (by simp) (by simp), ← ih]; rfl
    | cast a b c =>
      rw [keep (by simp) (by simp), ← ih]
      simp only [CastRace.step]; split <;> rfl
    | adv =>
      rw [keep (by simp) (by simp), ← ih]
      have : ∀ (s : CastRace.St) (pc : CastRace.PC), (CastRace.act s pc).1.reg = s.reg := by
        intro s pc
        unfold CastRace.act
        split <;> (try rfl) <;> split <;> (try rfl) <;> split <;> rfl
      simp only [CastRace.step, this]

namespace Demo
/-- Socket `id` joins `rs`, in goroutine `id`, without interruption. -/
def joinEv (id : Nat) (rs : List Nat) : List CastRace.Ev :=
  .room (.call id id (.join rs)) :: List.replicate (2 + 4 * rs.length) (.room (.adv id))

/-- Socket `id` leaves `r`. -/
def leaveEv (id r : Nat) : List CastRace.Ev :=
  .room (.call id id (.leave r)) :: List.replicate 6 (.room (.adv id))

/-- Sockets 1 and 2 are connected and in room 7. -/
def twoIn : List CastRace.Ev := [.connect 1, .connect 2] ++ joinEv 1 [7] ++ joinEv 2 [7]

/-- While the broadcast to 7 except 8 is under way, socket 2 leaves room 7 and socket 1 joins room 9. -/
def busy : List CastRace.Ev := [.adv, .adv] ++ leaveEv 2 7 ++ [.adv] ++ joinEv 1 [9] ++ [.adv, .adv, .adv, .adv, .adv]
end Demo

/-- The hypotheses of `C74_reached_partial` are met: socket 1 is reached though it joins and socket 2 leaves meanwhile. -/
theorem demo_busy : Whole Demo.twoIn [7] [8] [] Demo.busy ∧
    UntilReached Demo.twoIn [7] [8] [] Demo.busy 1 (fun s reg => InRoom s 1 7 ∧ reg 1 = true ∧ ∀ x ∈ [8], ¬ NearRoom s 1 x) ∧
    sentTo Demo.twoIn [7] [8] [] Demo.busy = [1] := by
  refine ⟨⟨by decide, by decide, by simp [Demo.busy, Demo.leaveEv, Demo.joinEv]⟩, meanwhile_until (meanwhile_of _ _ _ _ _ _ ?_) 1, by decide⟩
  intro n hn
  refine ⟨?_, ?_, ?_⟩
  · revert n; decide
  · revert n; decide
  · intro x hx
    simp at hx
    subst hx
    refine far_of 3 _ ?_ 1 8 ?_ ?_
    · revert n; decide
    · revert n; decide
    · revert n; decide

example := demo_busy

/-- Those of `C74_all_partial` and of `C74_excepted_partial`: a broadcast to everybody except room 8, while socket 1 joins room 9 and
socket 2 is in room 8. -/
theorem demo_everybody : Whole (Demo.twoIn ++ Demo.joinEv 2 [8]) [] [8] [2] (Demo.joinEv 1 [9] ++ List.replicate 6 .adv) ∧
    UntilReached (Demo.twoIn ++ Demo.joinEv 2 [8]) [] [8] [2] (Demo.joinEv 1 [9] ++ List.replicate 6 .adv) 1
      (fun s reg => (s.sids 1).isSome = true ∧ reg 1 = true ∧ ∀ x ∈ [8], ¬ NearRoom s 1 x) ∧
    Meanwhile (Demo.twoIn ++ Demo.joinEv 2 [8]) [] [8] [2] (Demo.joinEv 1 [9] ++ List.replicate 6 .adv) (fun s _ => InRoom s 2 8) ∧
    sentTo (Demo.twoIn ++ Demo.joinEv 2 [8]) [] [8] [2] (Demo.joinEv 1 [9] ++ List.replicate 6 .adv) = [1] := by
  refine ⟨⟨by decide, by decide, by simp [Demo.joinEv]⟩, meanwhile_until (meanwhile_of _ _ _ _ _ _ ?_) 1, meanwhile_of _ _ _ _ _ _ (by decide), by decide⟩
  intro n hn
  refine ⟨?_, ?_, ?_⟩
  · revert n; decide
  · revert n; decide
  · intro x hx
    simp at hx
    subst hx
    refine far_of 3 _ ?_ 1 8 ?_ ?_
    · revert n; decide
    · revert n; decide
    · revert n; decide

example := demo_everybody

/-- Those of `C74_elsewhere_partial` and of `C74_absent`: socket 2 is in another room than the one broadcast to, socket 3 in that
room and not in the namespace. -/
example : Whole (Demo.twoIn ++ Demo.joinEv 3 [9]) [9] [] [] (Demo.joinEv 2 [8] ++ List.replicate 6 .adv) ∧
    Meanwhile (Demo.twoIn ++ Demo.joinEv 3 [9]) [9] [] [] (Demo.joinEv 2 [8] ++ List.replicate 6 .adv)
      (fun s _ => ∀ r ∈ [9], ¬ NearRoom s 2 r) ∧
    Meanwhile (Demo.twoIn ++ Demo.joinEv 3 [9]) [9] [] [] (Demo.joinEv 2 [8] ++ List.replicate 6 .adv)
      (fun s reg => InRoom s 3 9 ∧ reg 3 = false) := by
  refine ⟨⟨by decide, by decide, by simp [Demo.joinEv]⟩, meanwhile_of _ _ _ _ _ _ ?_, meanwhile_of _ _ _ _ _ _ (by decide)⟩
  intro n hn x hx
  simp at hx
  subst hx
  refine far_of 4 _ ?_ 2 9 ?_ ?_
  · revert n; decide
  · revert n; decide
  · revert n; decide

/-- Those of `C74_alone` and of `C74_unknown`: socket 1 is reached by a broadcast to everybody, 4 is in the namespace and has no entry. -/
example : Whole (.connect 4 :: Demo.twoIn ++ Demo.joinEv 2 [8]) [] [8] [2] (List.replicate 6 .adv) ∧
    ((CastRace.run (.connect 4 :: Demo.twoIn ++ Demo.joinEv 2 [8])).tab.sids 4).isSome = false ∧
    sentTo (.connect 4 :: Demo.twoIn ++ Demo.joinEv 2 [8]) [] [8] [2] (List.replicate 6 .adv) = [1] :=
  ⟨⟨by decide, by decide, by simp⟩, by decide, by decide⟩

/-- A socket that is in one of two rooms at every moment, but moves from the second to the first, is missed by a broadcast to
both. -/
theorem C74_moved_fails :
    ¬ ∀ (p : List CastRace.Ev) (rooms except order : List Nat) (q : List CastRace.Ev) (id : Nat), Whole p rooms except order q →
      Meanwhile p rooms except order q
        (fun s reg => (∃ r ∈ rooms, InRoom s id r) ∧ reg id = true ∧ ∀ x ∈ except, ¬ NearRoom s id x) →
      id ∈ sentTo p rooms except order q := by
  intro hall
  have := hall Demo.twoIn [8, 7] [] [] ([.adv, .adv] ++ Demo.joinEv 1 [8] ++ Demo.leaveEv 1 7 ++ List.replicate 6 .adv) 1
    ⟨by decide, by decide, by simp [Demo.joinEv, Demo.leaveEv]⟩
    (meanwhile_of _ _ _ _ _ _ (by
      intro n hn
      refine ⟨?_, ?_, by simp⟩
      · revert n; decide
      · revert n; decide))
  exact absurd this (by decide)

/-- A socket that joins the excepted room and then the room broadcast to, so that at no moment it is in the second without being in
the first, is reached. -/
theorem C74_except_fails :
    ¬ ∀ (p : List CastRace.Ev) (rooms except order : List Nat) (q : List CastRace.Ev) (id : Nat), Whole p rooms except order q →
      Meanwhile p rooms except order q (fun s _ => ∀ r ∈ rooms, InRoom s id r → ∃ x ∈ except, InRoom s id x) →
      id ∉ sentTo p rooms except order q := by
  intro hall
  refine hall Demo.twoIn [9] [8] [] ([.adv] ++ Demo.joinEv 1 [8] ++ Demo.joinEv 1 [9] ++ List.replicate 6 .adv) 1
    ⟨by decide, by decide, by simp [Demo.joinEv]⟩
    (meanwhile_of _ _ _ _ _ _ (by
      intro n hn
      revert n; decide)) (by decide)

end Verif.Props
