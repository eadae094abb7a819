import Verif.Proof.Adapter

/-! # `apply` visits exactly the selected sockets, once each, also with a callback that changes
the tables it iterates over -/

namespace Verif.Adapter
open Verif

section
variable {σ ρ : Type} (V : View σ ρ) (cb : σ → ρ → σ)

/-- Calling the callback for one id, if the socket is there. -/
def visit (s : σ) (id : Sid) : σ :=
  match V.sock s id with
  | some p => cb s p
  | none => s

/-- The callback, when called for the socket registered under `id`, affects no other socket's
memberships or registration, and keeps the invariant `I`. -/
structure LocalCb (I : σ → Prop) : Prop where
  inv : ∀ s, I s → Inv (V.ad s)
  pres : ∀ s id p, I s → V.sock s id = some p → I (cb s p)
  inRoom : ∀ s id p, I s → V.sock s id = some p → ∀ x, x ≠ id → ∀ r,
    ((V.ad (cb s p)).inRoom x r ↔ (V.ad s).inRoom x r)
  key : ∀ s id p, I s → V.sock s id = some p → ∀ x, x ≠ id →
    (x ∈ (V.ad (cb s p)).sids.keys ↔ x ∈ (V.ad s).sids.keys)
  sock : ∀ s id p, I s → V.sock s id = some p → ∀ x, x ≠ id → V.sock (cb s p) x = V.sock s x

/-- Sockets outside `ids` are as they were in `s0`. -/
def Unaffected (I : σ → Prop) (s0 : σ) (ids : List Sid) (s : σ) : Prop :=
  I s ∧ ∀ x, x ∉ ids →
    (∀ r, (V.ad s).inRoom x r ↔ (V.ad s0).inRoom x r) ∧
    (x ∈ (V.ad s).sids.keys ↔ x ∈ (V.ad s0).sids.keys) ∧
    V.sock s x = V.sock s0 x

variable {V cb}

theorem unaffected_step {I : σ → Prop} (hl : LocalCb V cb I) {s0 s : σ} {ids : List Sid} {id : Sid}
    {p : ρ} (hu : Unaffected V I s0 ids s) (hs : V.sock s id = some p) :
    Unaffected V I s0 (ids ++ [id]) (cb s p) := by
  refine ⟨hl.pres s id p hu.1 hs, ?_⟩
  intro x hx
  simp only [List.mem_append, List.mem_singleton, not_or] at hx
  obtain ⟨h1, h2, h3⟩ := hu.2 x hx.1
  refine ⟨fun r => ?_, ?_, ?_⟩
  · rw [hl.inRoom s id p hu.1 hs x hx.2, h1]
  · rw [hl.key s id p hu.1 hs x hx.2, h2]
  · rw [hl.sock s id p hu.1 hs x hx.2, h3]

theorem applyIds_spec {I : σ → Prop} (hl : LocalCb V cb I) (except : List Sid) (s0 : σ)
    (l : List Sid) (s : σ) (ids : List Sid) (hu : Unaffected V I s0 ids s) (hnd : ids.Nodup) :
    ∃ new, (applyIds V cb except l (s, ids)).2 = ids ++ new ∧
      (applyIds V cb except l (s, ids)).1 = new.foldl (visit V cb) s ∧
      (ids ++ new).Nodup ∧
      Unaffected V I s0 (ids ++ new) (applyIds V cb except l (s, ids)).1 ∧
      (∀ x ∈ new, x ∈ l ∧ x ∉ except ∧ ∃ p, V.sock s0 x = some p) ∧
      (∀ x ∈ l, x ∉ except → (∃ p, V.sock s0 x = some p) → x ∈ ids ++ new) := by
  induction l generalizing s ids with
  | nil =>
    refine ⟨[], by simp [applyIds], by simp [applyIds], by simpa using hnd,
      by simpa [applyIds] using hu, by simp, by simp⟩
  | cons id l ih =>
    unfold applyIds
    by_cases hc : id ∈ ids ∨ id ∈ except
    · simp only [hc, if_true]
      obtain ⟨new, h1, h2, h3, h4, h5, h6⟩ := ih s ids hu hnd
      refine ⟨new, h1, h2, h3, h4, ?_, ?_⟩
      · intro x hx; obtain ⟨a, b, c⟩ := h5 x hx; exact ⟨List.mem_cons_of_mem _ a, b, c⟩
      · intro x hx hne hp
        rcases List.mem_cons.1 hx with rfl | hx
        · rcases hc with hc | hc
          · exact List.mem_append_left _ hc
          · exact absurd hc hne
        · exact h6 x hx hne hp
    · simp only [hc, if_false]
      have hc' := not_or.1 hc
      have hsock : V.sock s id = V.sock s0 id := (hu.2 id hc'.1).2.2
      cases hs : V.sock s id with
      | none =>
        dsimp only
        obtain ⟨new, h1, h2, h3, h4, h5, h6⟩ := ih s ids hu hnd
        refine ⟨new, h1, h2, h3, h4, ?_, ?_⟩
        · intro x hx; obtain ⟨a, b, c⟩ := h5 x hx; exact ⟨List.mem_cons_of_mem _ a, b, c⟩
        · intro x hx hne hp
          rcases List.mem_cons.1 hx with rfl | hx
          · obtain ⟨p, hp⟩ := hp; rw [← hsock, hs] at hp; exact absurd hp (by simp)
          · exact h6 x hx hne hp
      | some p =>
        dsimp only
        have hnd' : (ids ++ [id]).Nodup := by
          rw [List.nodup_append]
          refine ⟨hnd, by simp, ?_⟩
          intro a ha b hb; rw [List.mem_singleton.1 hb]; rintro rfl; exact hc'.1 ha
        obtain ⟨new, h1, h2, h3, h4, h5, h6⟩ := ih (cb s p) (ids ++ [id])
          (unaffected_step hl hu hs) hnd'
        refine ⟨id :: new, ?_, ?_, ?_, ?_, ?_, ?_⟩
        · rw [h1]; simp
        · rw [h2]; simp [visit, hs]
        · simpa using h3
        · simpa using h4
        · intro x hx
          rcases List.mem_cons.1 hx with rfl | hx
          · exact ⟨by simp, hc'.2, p, by rw [← hsock, hs]⟩
          · obtain ⟨a, b, c⟩ := h5 x hx; exact ⟨List.mem_cons_of_mem _ a, b, c⟩
        · intro x hx hne hp
          rcases List.mem_cons.1 hx with rfl | hx
          · simp
          · simpa using h6 x hx hne hp

theorem applyRooms_spec {I : σ → Prop} (hl : LocalCb V cb I) (except : List Sid) (s0 : σ)
    (rs : List Room) (s : σ) (ids : List Sid) (hu : Unaffected V I s0 ids s) (hnd : ids.Nodup) :
    ∃ new, (applyRooms V cb except rs (s, ids)).2 = ids ++ new ∧
      (applyRooms V cb except rs (s, ids)).1 = new.foldl (visit V cb) s ∧
      (ids ++ new).Nodup ∧
      Unaffected V I s0 (ids ++ new) (applyRooms V cb except rs (s, ids)).1 ∧
      (∀ x ∈ new, (∃ r ∈ rs, (V.ad s0).inRoom x r) ∧ x ∉ except ∧ ∃ p, V.sock s0 x = some p) ∧
      (∀ x, (∃ r ∈ rs, (V.ad s0).inRoom x r) → x ∉ except → (∃ p, V.sock s0 x = some p) →
        x ∈ ids ++ new) := by
  induction rs generalizing s ids with
  | nil =>
    refine ⟨[], by simp [applyRooms], by simp [applyRooms], by simpa using hnd,
      by simpa [applyRooms] using hu, by simp, by simp⟩
  | cons r rs ih =>
    unfold applyRooms
    cases hg : (V.ad s).rooms.get? r with
    | none =>
      dsimp only
      obtain ⟨new, h1, h2, h3, h4, h5, h6⟩ := ih s ids hu hnd
      refine ⟨new, h1, h2, h3, h4, ?_, ?_⟩
      · intro x hx; obtain ⟨⟨r', a, a'⟩, b, c⟩ := h5 x hx
        exact ⟨⟨r', List.mem_cons_of_mem _ a, a'⟩, b, c⟩
      · rintro x ⟨r', hr', hin⟩ hne hp
        rcases List.mem_cons.1 hr' with rfl | hr'
        · by_cases hx : x ∈ ids
          · exact List.mem_append_left _ hx
          · have := ((hu.2 x hx).1 r').2 hin
            obtain ⟨l, hl1, _⟩ := this
            rw [hg] at hl1; exact absurd hl1 (by simp)
        · exact h6 x ⟨r', hr', hin⟩ hne hp
    | some l =>
      dsimp only
      obtain ⟨n1, a1, a2, a3, a4, a5, a6⟩ := applyIds_spec hl except s0 l s ids hu hnd
      have heq : applyIds V cb except l (s, ids) = (n1.foldl (visit V cb) s, ids ++ n1) :=
        Prod.ext a2 a1
      rw [heq] at a4 ⊢
      obtain ⟨n2, b1, b2, b3, b4, b5, b6⟩ := ih _ (ids ++ n1) a4 a3
      refine ⟨n1 ++ n2, ?_, ?_, ?_, ?_, ?_, ?_⟩
      · rw [b1, List.append_assoc]
      · rw [b2, List.foldl_append]
      · simpa [List.append_assoc] using b3
      · simpa [List.append_assoc] using b4
      · intro x hx
        rcases List.mem_append.1 hx with hx | hx
        · obtain ⟨c1, c2, c3⟩ := a5 x hx
          have hxn : x ∉ ids := by
            rw [List.nodup_append] at a3
            intro hc; exact a3.2.2 x hc x hx rfl
          exact ⟨⟨r, by simp, ((hu.2 x hxn).1 r).1 ⟨l, hg, c1⟩⟩, c2, c3⟩
        · obtain ⟨⟨r', a, a'⟩, b, c⟩ := b5 x hx
          exact ⟨⟨r', List.mem_cons_of_mem _ a, a'⟩, b, c⟩
      · rintro x ⟨r', hr', hin⟩ hne hp
        rw [← List.append_assoc]
        rcases List.mem_cons.1 hr' with rfl | hr'
        · by_cases hx : x ∈ ids
          · simp [hx]
          · obtain ⟨l', hl1, hl2⟩ := ((hu.2 x hx).1 r').2 hin
            rw [hg] at hl1; cases hl1
            exact List.mem_append_left _ (a6 x hl2 hne hp)
        · exact b6 x ⟨r', hr', hin⟩ hne hp

theorem applyAll_spec {I : σ → Prop} (hl : LocalCb V cb I) (except : List Sid) (s0 : σ)
    (l : List Sid) (s : σ) (ids : List Sid) (hu : Unaffected V I s0 ids s)
    (hnd : (ids ++ l).Nodup) :
    ∃ new, (applyAll V cb except l (s, ids)).2 = ids ++ new ∧
      (applyAll V cb except l (s, ids)).1 = new.foldl (visit V cb) s ∧
      new.Nodup ∧
      Unaffected V I s0 (ids ++ new) (applyAll V cb except l (s, ids)).1 ∧
      (∀ x, x ∈ new ↔ x ∈ l ∧ x ∈ (V.ad s0).sids.keys ∧ x ∉ except ∧ ∃ p, V.sock s0 x = some p) := by
  induction l generalizing s ids with
  | nil =>
    refine ⟨[], by simp [applyAll], by simp [applyAll], by simp, by simpa [applyAll] using hu, by simp⟩
  | cons id l ih =>
    have hidn : id ∉ ids := by
      rw [List.nodup_append] at hnd
      intro hc; exact hnd.2.2 id hc id (by simp) rfl
    have hidl : id ∉ l := by
      rw [List.nodup_append] at hnd
      exact (List.nodup_cons.1 hnd.2.1).1
    have hndl : (ids ++ l).Nodup := by
      rw [List.nodup_append] at hnd ⊢
      exact ⟨hnd.1, (List.nodup_cons.1 hnd.2.1).2, fun a ha b hb => hnd.2.2 a ha b (by simp [hb])⟩
    obtain ⟨hu1, hu2, hu3⟩ := hu.2 id hidn
    have skip : (id ∉ (V.ad s0).sids.keys ∨ id ∈ except ∨ ¬ ∃ p, V.sock s0 id = some p) →
        ∃ new, (applyAll V cb except l (s, ids)).2 = ids ++ new ∧
          (applyAll V cb except l (s, ids)).1 = new.foldl (visit V cb) s ∧ new.Nodup ∧
          Unaffected V I s0 (ids ++ new) (applyAll V cb except l (s, ids)).1 ∧
          (∀ x, x ∈ new ↔ x ∈ id :: l ∧ x ∈ (V.ad s0).sids.keys ∧ x ∉ except ∧
            ∃ p, V.sock s0 x = some p) := by
      intro hskip
      obtain ⟨new, h1, h2, h3, h4, h5⟩ := ih s ids hu hndl
      refine ⟨new, h1, h2, h3, h4, ?_⟩
      intro x; rw [h5]
      constructor
      · rintro ⟨a, b⟩; exact ⟨by simp [a], b⟩
      · rintro ⟨a, b, c, e⟩
        rcases List.mem_cons.1 a with rfl | a
        · rcases hskip with h | h | h
          · exact absurd b h
          · exact absurd h c
          · exact absurd e h
        · exact ⟨a, b, c, e⟩
    unfold applyAll
    cases hg : (V.ad s).sids.get? id with
    | none =>
      dsimp only
      apply skip; left; rw [← hu2, FMap.mem_keys_iff, hg]; simp
    | some rs =>
      dsimp only
      by_cases he : id ∈ except
      · simp only [he, if_true]; exact skip (.inr (.inl he))
      · simp only [he, if_false]
        cases hs : V.sock s id with
        | none =>
          dsimp only
          apply skip; right; right; rw [← hu3, hs]; simp
        | some p =>
          dsimp only
          have hndl' : ((ids ++ [id]) ++ l).Nodup := by simpa using hnd
          obtain ⟨new, h1, h2, h3, h4, h5⟩ := ih (cb s p) (ids ++ [id])
            (unaffected_step hl hu hs) hndl'
          refine ⟨id :: new, by rw [h1]; simp, by rw [h2]; simp [visit, hs], ?_, by simpa using h4, ?_⟩
          · rw [List.nodup_cons]; refine ⟨?_, h3⟩
            intro hc; exact hidl ((h5 id).1 hc).1
          · intro x
            rw [List.mem_cons, h5, List.mem_cons]
            constructor
            · rintro (rfl | ⟨a, b⟩)
              · refine ⟨.inl rfl, ?_, he, p, by rw [← hu3, hs]⟩
                rw [← hu2, FMap.mem_keys_iff]; exact ⟨_, hg⟩
              · exact ⟨.inr a, b⟩
            · rintro ⟨rfl | a, b⟩
              · exact .inl rfl
              · exact .inr ⟨a, b⟩

theorem mem_computeExcept (a : Ad) (ex : Option (List Room)) (x : Sid) :
    x ∈ computeExceptSids a ex ↔ ∃ rs, ex = some rs ∧ ∃ r ∈ rs, a.inRoom x r := by
  unfold computeExceptSids
  cases ex with
  | none => simp
  | some rs =>
    dsimp only
    have gen : ∀ acc : List Sid, x ∈ rs.foldl (exceptStep a) acc ↔ x ∈ acc ∨ ∃ r ∈ rs, a.inRoom x r := by
      induction rs with
      | nil => simp
      | cons r rs ih =>
        intro acc
        rw [List.foldl_cons, ih]
        have : x ∈ exceptStep a acc r ↔ x ∈ acc ∨ a.inRoom x r := by
          unfold Ad.inRoom exceptStep
          cases h : a.rooms.get? r <;> simp
        rw [this]
        simp only [List.mem_cons, exists_eq_or_imp, or_assoc]
    rw [gen]; simp

/-- The rooms a nil or empty `Rooms` option stands for. -/
def Opts.targets (o : Option Opts) : List Room :=
  match o with
  | some o => o.rooms.getD []
  | none => []

/-- The excepted rooms. -/
def Opts.excepts (o : Option Opts) : List Room :=
  match o with
  | some o => o.except.getD []
  | none => []

/-- `apply`: visits exactly the selected sockets once each, and its effect is that of calling the
callback for them one after the other. -/
theorem apply_spec {I : σ → Prop} (hl : LocalCb V cb I) (opts : Option Opts) (s : σ) (hI : I s) :
    (apply V opts cb s).1 = (apply V opts cb s).2.foldl (visit V cb) s ∧
    (apply V opts cb s).2.Nodup ∧
    Unaffected V I s (apply V opts cb s).2 (apply V opts cb s).1 ∧
    (∀ x, x ∈ (apply V opts cb s).2 ↔
      (∃ p, V.sock s x = some p) ∧
      (if Opts.targets opts = [] then x ∈ (V.ad s).sids.keys
       else ∃ r ∈ Opts.targets opts, (V.ad s).inRoom x r) ∧
      ¬ ∃ r ∈ Opts.excepts opts, (V.ad s).inRoom x r) := by
  have hu : Unaffected V I s [] s := ⟨hI, fun x _ => ⟨fun _ => Iff.rfl, Iff.rfl, rfl⟩⟩
  have hex : ∀ x, x ∈ computeExceptSids (V.ad s) (normOpts opts).except ↔
      ∃ r ∈ Opts.excepts opts, (V.ad s).inRoom x r := by
    intro x; rw [mem_computeExcept]
    cases opts with
    | none => simp [Opts.excepts, normOpts]
    | some o => cases h : o.except <;> simp [Opts.excepts, normOpts, h]
  have htg : (normOpts opts).rooms.getD [] =
      Opts.targets opts := by
    cases opts <;> rfl
  unfold apply
  dsimp only
  generalize hcomp : computeExceptSids (V.ad s) _ = ex at *
  have allCase : Opts.targets opts = [] →
      (applyAll V cb ex (V.ad s).sids.keys (s, [])).1 =
        (applyAll V cb ex (V.ad s).sids.keys (s, [])).2.foldl (visit V cb) s ∧
      (applyAll V cb ex (V.ad s).sids.keys (s, [])).2.Nodup ∧
      Unaffected V I s (applyAll V cb ex (V.ad s).sids.keys (s, [])).2
        (applyAll V cb ex (V.ad s).sids.keys (s, [])).1 ∧
      (∀ x, x ∈ (applyAll V cb ex (V.ad s).sids.keys (s, [])).2 ↔
        (∃ p, V.sock s x = some p) ∧
        (if Opts.targets opts = [] then x ∈ (V.ad s).sids.keys
         else ∃ r ∈ Opts.targets opts, (V.ad s).inRoom x r) ∧
        ¬ ∃ r ∈ Opts.excepts opts, (V.ad s).inRoom x r) := by
    intro ht
    obtain ⟨new, h1, h2, h3, h4, h5⟩ := applyAll_spec hl ex s (V.ad s).sids.keys s [] hu
      (by rw [List.nil_append]; exact (hl.inv s hI).wfSids)
    simp only [List.nil_append] at h1 h4
    rw [h1, h2]
    refine ⟨rfl, h3, by rw [← h2]; exact h4, ?_⟩
    intro x
    rw [h5, ht, if_pos rfl, ← hex]
    constructor
    · rintro ⟨_, b, c, e⟩; exact ⟨e, b, c⟩
    · rintro ⟨e, b, c⟩; exact ⟨b, b, c, e⟩
  split
  · rename_i r rs hrs
    have ht : Opts.targets opts = r :: rs := by rw [← htg, hrs]; rfl
    obtain ⟨new, h1, h2, h3, h4, h5, h6⟩ := applyRooms_spec hl ex s (r :: rs) s [] hu List.nodup_nil
    simp only [List.nil_append] at h1 h3 h4 h6
    rw [h1, h2]
    refine ⟨rfl, h3, by rw [← h2]; exact h4, ?_⟩
    intro x
    rw [ht, if_neg (by simp), ← hex]
    constructor
    · intro hx; obtain ⟨a, b, c⟩ := h5 x hx; exact ⟨c, a, b⟩
    · rintro ⟨a, b, c⟩; exact h6 x b c a
  · rename_i hrs
    apply allCase
    rw [← htg]
    generalize (normOpts opts).rooms = x at hrs
    cases x with
    | none => rfl
    | some l => cases l with
      | nil => rfl
      | cons r rs => exact absurd rfl (hrs r rs)

end

end Verif.Adapter
