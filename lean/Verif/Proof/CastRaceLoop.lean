import Verif.Proof.CastRace
import Verif.Lib.ListExtra

namespace Verif.CastRaceLoop
open Verif Verif.Spec Verif.CastRace

/-! ### Invariants of the loop -/

/-- The socket is not taken for one in an excepted room. -/
def ExFree (id : Nat) (except : List Nat) (s : CastRace.St) : Prop :=
  match s.pc with
  | .x ex _ acc => (∀ q ∈ ex, q ∈ except) ∧ id ∉ acc
  | .xk q t ex _ acc => q ∈ except ∧ (∀ q ∈ ex, q ∈ except) ∧ id ∉ acc ∧ id ∉ s.tab.rset t
  | .r _ acc _ | .rk _ _ _ acc _ | .ri _ _ acc _ | .all _ acc => id ∉ acc
  | .idle => True

theorem exFree_step {id : Nat} {except : List Nat} {s : CastRace.St} (b : Base s) (e : CastRace.Ev) (he : ∀ a b c, e ≠ .cast a b c)
    (hn : ∀ q ∈ except, ¬ NearRoom s.tab id q) (h : ExFree id except s) : ExFree id except (CastRace.step s e) := by
  by_cases ha : e = .adv
  · subst ha
    have htab := (act_tab s s.pc).1
    unfold ExFree at h ⊢
    simp only [CastRace.step, htab]
    cases hpc : s.pc with
    | idle => simp [CastRace.act]
    | x ex rooms acc =>
      rw [hpc] at h
      cases ex with
      | nil => cases rooms <;> simp [CastRace.act] <;> exact h.2
      | cons q ex =>
        simp only [CastRace.act]
        cases hq : s.tab.rooms q with
        | none => exact ⟨fun x hx => h.1 x (by simp [hx]), h.2⟩
        | some t =>
          refine ⟨h.1 q (by simp), fun x hx => h.1 x (by simp [hx]), h.2, ?_⟩
          intro hc
          exact hn q (h.1 q (by simp)) (.inl ⟨t, hq, hc⟩)
    | xk q t ex rooms acc =>
      rw [hpc] at h
      simp only [CastRace.act]
      exact ⟨h.2.1, by simp [h.2.2.1, h.2.2.2]⟩
    | r rooms acc done =>
      rw [hpc] at h
      cases rooms with
      | nil => simp [CastRace.act]
      | cons q rooms => simp only [CastRace.act]; cases s.tab.rooms q <;> exact h
    | rk q t rooms acc done => rw [hpc] at h; exact h
    | ri keys rooms acc done =>
      rw [hpc] at h
      cases keys with
      | nil => exact h
      | cons i keys =>
        simp only [CastRace.act]
        by_cases h1 : i ∈ done ∨ i ∈ acc
        · rw [if_pos h1]; exact h
        · rw [if_neg h1]
          by_cases h2 : s.reg i = true
          · rw [if_pos h2]; exact h
          · rw [if_neg h2]; exact h
    | all keys acc =>
      rw [hpc] at h
      cases keys with
      | nil => simp [CastRace.act]
      | cons i keys =>
        simp only [CastRace.act]
        by_cases h1 : (s.tab.sids i).isSome = true ∧ i ∉ acc ∧ s.reg i = true
        · rw [if_pos h1]; exact h
        · rw [if_neg h1]; exact h
  · obtain ⟨h1, _, _, _⟩ := env_step s e ha he
    unfold ExFree at h ⊢
    rw [h1]
    cases hpc : s.pc with
    | xk q t ex rooms acc =>
      rw [hpc] at h
      exact ⟨h.1, h.2.1, h.2.2.1, far b e ha he (q := q) (by rw [hpc]; rfl) (hn q h.1) h.2.2.2⟩
    | _ => rw [hpc] at h; exact h

/-- The socket has been reached, or will be through room `r`. -/
def Coming (id r : Nat) (s : CastRace.St) : Prop :=
  match s.pc with
  | .x _ rooms _ | .xk _ _ _ rooms _ => r ∈ rooms
  | .r rooms _ done => (∀ i ∈ done, i ∈ s.sent) ∧ (r ∈ rooms ∨ id ∈ s.sent)
  | .rk q t rooms _ done => (∀ i ∈ done, i ∈ s.sent) ∧ (r ∈ rooms ∨ id ∈ s.sent ∨ (q = r ∧ s.tab.rooms q = some t))
  | .ri keys rooms _ done => (∀ i ∈ done, i ∈ s.sent) ∧ (r ∈ rooms ∨ id ∈ s.sent ∨ id ∈ keys)
  | .all _ _ => False
  | .idle => id ∈ s.sent

theorem coming_step {id r : Nat} {except : List Nat} {s : CastRace.St} (b : Base s) (e : CastRace.Ev) (he : ∀ a b c, e ≠ .cast a b c)
    (hin : InRoom s.tab id r) (hin' : InRoom (CastRace.step s e).tab id r) (hreg : s.reg id = true) (hx : ExFree id except s)
    (h : Coming id r s) : Coming id r (CastRace.step s e) := by
  by_cases ha : e = .adv
  · subst ha
    have htab := (act_tab s s.pc).1
    unfold ExFree at hx
    unfold Coming at h ⊢
    simp only [CastRace.step, htab]
    cases hpc : s.pc with
    | idle => rw [hpc] at h; exact h
    | x ex rooms acc =>
      rw [hpc] at h
      cases ex with
      | nil =>
        cases rooms with
        | nil => cases h
        | cons q rooms => exact ⟨by simp, .inl h⟩
      | cons q ex => simp only [CastRace.act]; cases s.tab.rooms q <;> exact h
    | xk q t ex rooms acc => rw [hpc] at h; exact h
    | r rooms acc done =>
      rw [hpc] at h
      obtain ⟨h1, h2⟩ := h
      cases rooms with
      | nil => exact h2.resolve_left (by simp)
      | cons q rooms =>
        simp only [CastRace.act]
        cases hq : s.tab.rooms q with
        | none =>
          refine ⟨h1, ?_⟩
          rcases h2 with h2 | h2
          · rcases List.mem_cons.1 h2 with h2 | h2
            · obtain ⟨t, ht, _⟩ := hin
              rw [h2, hq] at ht; cases ht
            · exact .inl h2
          · exact .inr h2
        | some t =>
          refine ⟨h1, ?_⟩
          rcases h2 with h2 | h2
          · rcases List.mem_cons.1 h2 with h2 | h2
            · exact .inr (.inr ⟨h2.symm, hq⟩)
            · exact .inl h2
          · exact .inr (.inl h2)
    | rk q t rooms acc done =>
      rw [hpc] at h
      refine ⟨h.1, ?_⟩
      rcases h.2 with h2 | h2 | ⟨h2, h3⟩
      · exact .inl h2
      · exact .inr (.inl h2)
      · obtain ⟨u, hu1, hu2⟩ := hin
        subst h2
        rw [h3] at hu1
        cases hu1
        exact .inr (.inr hu2)
    | ri keys rooms acc done =>
      rw [hpc] at h hx
      obtain ⟨h1, h2⟩ := h
      cases keys with
      | nil =>
        refine ⟨h1, ?_⟩
        rcases h2 with h2 | h2 | h2
        · exact .inl h2
        · exact .inr h2
        · cases h2
      | cons i keys =>
        simp only [CastRace.act]
        by_cases hi : i ∈ done ∨ i ∈ acc
        · rw [if_pos hi]
          refine ⟨h1, ?_⟩
          rcases h2 with h2 | h2 | h2
          · exact .inl h2
          · exact .inr (.inl h2)
          · rcases List.mem_cons.1 h2 with h2 | h2
            · subst h2
              exact .inr (.inl (h1 _ (hi.resolve_right hx)))
            · exact .inr (.inr h2)
        · rw [if_neg hi]
          by_cases g166 : s.reg i = true
          · rw [if_pos g166]
            refine ⟨?_, ?_⟩
            · intro j hj
              rcases List.mem_append.1 hj with hj | hj
              · exact List.mem_append.2 (.inl (h1 j hj))
              · exact List.mem_append.2 (.inr hj)
            · rcases h2 with h2 | h2 | h2
              · exact .inl h2
              · exact .inr (.inl (List.mem_append.2 (.inl h2)))
              · rcases List.mem_cons.1 h2 with h2 | h2
                · exact .inr (.inl (by simp [h2]))
                · exact .inr (.inr h2)
          · have hreg' := g166; rw [if_neg g166]
            refine ⟨h1, ?_⟩
            rcases h2 with h2 | h2 | h2
            · exact .inl h2
            · exact .inr (.inl h2)
            · rcases List.mem_cons.1 h2 with h2 | h2
              · subst h2; exact absurd hreg hreg'
              · exact .inr (.inr h2)
    | all keys acc => rw [hpc] at h; exact h.elim
  · obtain ⟨h1, h2, _, _⟩ := env_step s e ha he
    unfold Coming at h ⊢
    rw [h1, h2]
    cases hpc : s.pc with
    | rk q t rooms acc done =>
      rw [hpc] at h
      refine ⟨h.1, ?_⟩
      rcases h.2 with h3 | h3 | ⟨h3, h4⟩
      · exact .inl h3
      · exact .inr (.inl h3)
      · exact .inr (.inr ⟨h3, kept b e h4 (h3 ▸ hin')⟩)
    | _ => rw [hpc] at h; exact h

/-- Nobody is reached twice. -/
def Once (s : CastRace.St) : Prop :=
  match s.pc with
  | .x _ _ _ | .xk _ _ _ _ _ => s.sent = []
  | .r _ _ done | .rk _ _ _ _ done | .ri _ _ _ done => s.sent = done ∧ s.sent.Nodup
  | .all keys _ => keys.Nodup ∧ s.sent.Nodup ∧ ∀ a ∈ keys, a ∉ s.sent
  | .idle => s.sent.Nodup

theorem mem_once {l : List Nat} {a : Nat} : a ∈ once l ↔ a ∈ l := by
  induction l with
  | nil => simp [once]
  | cons b l ih =>
    simp only [once, List.mem_cons, List.mem_filter, ih]
    by_cases h : a = b <;> simp [h]

theorem nodup_once (l : List Nat) : (once l).Nodup := by
  induction l with
  | nil => simp [once]
  | cons b l ih =>
    simp only [once, List.nodup_cons]
    exact ⟨by simp, ih.filter _⟩

theorem nodup_snoc {l : List Nat} {a : Nat} (h : l.Nodup) (ha : a ∉ l) : (l ++ [a]).Nodup := by
  rw [List.nodup_append]
  refine ⟨h, by simp, ?_⟩
  intro x hx y hy
  simp at hy
  subst hy
  rintro rfl
  exact ha hx

theorem once_step {s : CastRace.St} (e : CastRace.Ev) (he : ∀ a b c, e ≠ .cast a b c) (h : Once s) : Once (CastRace.step s e) := by
  by_cases ha : e = .adv
  · subst ha
    unfold Once at h ⊢
    simp only [CastRace.step]
    cases hpc : s.pc with
    | idle => rw [hpc] at h; exact h
    | x ex rooms acc =>
      rw [hpc] at h
      have h' : s.sent = [] := h
      cases ex with
      | nil =>
        cases rooms with
        | nil => exact ⟨nodup_once _, by show s.sent.Nodup; rw [h']; simp, by intro a _; show a ∉ s.sent; rw [h']; simp⟩
        | cons q rooms => exact ⟨h, by show s.sent.Nodup; rw [h']; simp⟩
      | cons q ex => simp only [CastRace.act]; cases s.tab.rooms q <;> exact h
    | xk q t ex rooms acc => rw [hpc] at h; exact h
    | r rooms acc done =>
      rw [hpc] at h
      cases rooms with
      | nil => exact h.2
      | cons q rooms => simp only [CastRace.act]; cases s.tab.rooms q <;> exact h
    | rk q t rooms acc done => rw [hpc] at h; exact h
    | ri keys rooms acc done =>
      rw [hpc] at h
      cases keys with
      | nil => exact h
      | cons i keys =>
        simp only [CastRace.act]
        by_cases g260 : i ∈ done ∨ i ∈ acc
        · rw [if_pos g260]
          exact h
        · have hi := g260; rw [if_neg g260]
          by_cases g263 : s.reg i = true
          · rw [if_pos g263]
            refine ⟨by show s.sent ++ [i] = done ++ [i]; rw [h.1], nodup_snoc h.2 ?_⟩
            rw [h.1]
            exact fun hc => hi (.inl hc)
          · rw [if_neg g263]
            exact h
    | all keys acc =>
      rw [hpc] at h
      obtain ⟨h1, h2, h3⟩ := h
      cases keys with
      | nil => exact h2
      | cons i keys =>
        have h1' := List.nodup_cons.1 h1
        simp only [CastRace.act]
        by_cases g276 : (s.tab.sids i).isSome = true ∧ i ∉ acc ∧ s.reg i = true
        · rw [if_pos g276]
          refine ⟨h1'.2, nodup_snoc h2 (h3 i (by simp)), ?_⟩
          intro a haK hc
          rcases List.mem_append.1 hc with hc | hc
          · exact h3 a (by simp [haK]) hc
          · simp at hc; subst hc; exact h1'.1 haK
        · rw [if_neg g276]
          exact ⟨h1'.2, h2, fun a haK => h3 a (by simp [haK])⟩
  · obtain ⟨h1, h2, _, _⟩ := env_step s e ha he
    unfold Once at h ⊢
    rw [h1, h2]
    exact h

/-- The socket is not found in the rooms broadcast to. -/
def Elsewhere (id : Nat) (R : List Nat) (s : CastRace.St) : Prop :=
  id ∉ s.sent ∧ match s.pc with
  | .x _ rooms _ | .xk _ _ _ rooms _ => rooms ≠ [] ∧ ∀ q ∈ rooms, q ∈ R
  | .r rooms _ _ => ∀ q ∈ rooms, q ∈ R
  | .rk q t rooms _ _ => q ∈ R ∧ (∀ q ∈ rooms, q ∈ R) ∧ id ∉ s.tab.rset t
  | .ri keys rooms _ _ => (∀ q ∈ rooms, q ∈ R) ∧ id ∉ keys
  | .all _ _ => False
  | .idle => True

theorem elsewhere_step {id : Nat} {R : List Nat} {s : CastRace.St} (b : Base s) (e : CastRace.Ev) (he : ∀ a b c, e ≠ .cast a b c)
    (hn : ∀ q ∈ R, ¬ NearRoom s.tab id q) (h : Elsewhere id R s) : Elsewhere id R (CastRace.step s e) := by
  by_cases ha : e = .adv
  · subst ha
    have htab := (act_tab s s.pc).1
    unfold Elsewhere at h ⊢
    simp only [CastRace.step, htab]
    cases hpc : s.pc with
    | idle => exact ⟨h.1, trivial⟩
    | x ex rooms acc =>
      rw [hpc] at h
      cases ex with
      | nil =>
        cases rooms with
        | nil => exact absurd rfl h.2.1
        | cons q rooms => exact ⟨h.1, h.2.2⟩
      | cons q ex => simp only [CastRace.act]; cases s.tab.rooms q <;> exact h
    | xk q t ex rooms acc => rw [hpc] at h; exact h
    | r rooms acc done =>
      rw [hpc] at h
      cases rooms with
      | nil => exact ⟨h.1, trivial⟩
      | cons q rooms =>
        simp only [CastRace.act]
        cases hq : s.tab.rooms q with
        | none => exact ⟨h.1, fun x hx => h.2 x (by simp [hx])⟩
        | some t =>
          refine ⟨h.1, h.2 q (by simp), fun x hx => h.2 x (by simp [hx]), ?_⟩
          intro hc
          exact hn q (h.2 q (by simp)) (.inl ⟨t, hq, hc⟩)
    | rk q t rooms acc done => rw [hpc] at h; exact ⟨h.1, h.2.2.1, h.2.2.2⟩
    | ri keys rooms acc done =>
      rw [hpc] at h
      cases keys with
      | nil => exact ⟨h.1, h.2.1⟩
      | cons i keys =>
        have hk : id ∉ keys := fun hc => h.2.2 (by simp [hc])
        simp only [CastRace.act]
        by_cases g1 : i ∈ done ∨ i ∈ acc
        · rw [if_pos g1]; exact ⟨h.1, h.2.1, hk⟩
        · rw [if_neg g1]
          by_cases g2 : s.reg i = true
          · rw [if_pos g2]
            refine ⟨?_, h.2.1, hk⟩
            intro hc
            rcases List.mem_append.1 hc with hc | hc
            · exact h.1 hc
            · simp at hc; exact h.2.2 (by simp [hc])
          · rw [if_neg g2]; exact ⟨h.1, h.2.1, hk⟩
    | all keys acc => rw [hpc] at h; exact h.2.elim
  · obtain ⟨h1, h2, _, _⟩ := env_step s e ha he
    unfold Elsewhere at h ⊢
    rw [h1, h2]
    refine ⟨h.1, ?_⟩
    have h := h.2
    cases hpc : s.pc with
    | rk q t rooms acc done =>
      rw [hpc] at h
      exact ⟨h.1, h.2.1, far b e ha he (q := q) (by rw [hpc]; rfl) (hn q h.1) h.2.2⟩
    | _ => rw [hpc] at h; exact h

/-- The socket is taken for one in an excepted room. -/
def Barred (id x : Nat) (s : CastRace.St) : Prop :=
  id ∉ s.sent ∧ match s.pc with
  | .x ex _ acc => x ∈ ex ∨ id ∈ acc
  | .xk q t ex _ acc => x ∈ ex ∨ id ∈ acc ∨ (q = x ∧ s.tab.rooms q = some t)
  | .r _ acc _ | .rk _ _ _ acc _ | .ri _ _ acc _ | .all _ acc => id ∈ acc
  | .idle => True

theorem barred_step {id x : Nat} {s : CastRace.St} (b : Base s) (e : CastRace.Ev) (he : ∀ a b c, e ≠ .cast a b c)
    (hin : InRoom s.tab id x) (hin' : InRoom (CastRace.step s e).tab id x) (h : Barred id x s) : Barred id x (CastRace.step s e) := by
  by_cases ha : e = .adv
  · subst ha
    have htab := (act_tab s s.pc).1
    unfold Barred at h ⊢
    simp only [CastRace.step, htab]
    cases hpc : s.pc with
    | idle => exact ⟨h.1, trivial⟩
    | x ex rooms acc =>
      rw [hpc] at h
      obtain ⟨h1, h2⟩ := h
      cases ex with
      | nil => cases rooms <;> exact ⟨h1, h2.resolve_left (by simp)⟩
      | cons q ex =>
        simp only [CastRace.act]
        cases hq : s.tab.rooms q with
        | none =>
          refine ⟨h1, ?_⟩
          rcases h2 with h2 | h2
          · rcases List.mem_cons.1 h2 with h2 | h2
            · obtain ⟨t, ht, _⟩ := hin
              rw [h2, hq] at ht; cases ht
            · exact .inl h2
          · exact .inr h2
        | some t =>
          refine ⟨h1, ?_⟩
          rcases h2 with h2 | h2
          · rcases List.mem_cons.1 h2 with h2 | h2
            · exact .inr (.inr ⟨h2.symm, hq⟩)
            · exact .inl h2
          · exact .inr (.inl h2)
    | xk q t ex rooms acc =>
      rw [hpc] at h
      refine ⟨h.1, ?_⟩
      rcases h.2 with h2 | h2 | ⟨h2, h3⟩
      · exact .inl h2
      · exact .inr (List.mem_append.2 (.inl h2))
      · obtain ⟨u, hu1, hu2⟩ := hin
        subst h2
        rw [h3] at hu1
        cases hu1
        exact .inr (List.mem_append.2 (.inr hu2))
    | r rooms acc done =>
      rw [hpc] at h
      cases rooms with
      | nil => exact ⟨h.1, trivial⟩
      | cons q rooms => simp only [CastRace.act]; cases s.tab.rooms q <;> exact h
    | rk q t rooms acc done => rw [hpc] at h; exact h
    | ri keys rooms acc done =>
      rw [hpc] at h
      cases keys with
      | nil => exact h
      | cons i keys =>
        simp only [CastRace.act]
        by_cases g419 : i ∈ done ∨ i ∈ acc
        · rw [if_pos g419]
          exact h
        · have hi := g419; rw [if_neg g419]
          by_cases g422 : s.reg i = true
          · rw [if_pos g422]
            refine ⟨?_, h.2⟩
            intro hc
            rcases List.mem_append.1 hc with hc | hc
            · exact h.1 hc
            · simp at hc; subst hc; exact hi (.inr h.2)
          · rw [if_neg g422]
            exact h
    | all keys acc =>
      rw [hpc] at h
      cases keys with
      | nil => exact ⟨h.1, trivial⟩
      | cons i keys =>
        simp only [CastRace.act]
        by_cases g435 : (s.tab.sids i).isSome = true ∧ i ∉ acc ∧ s.reg i = true
        · have hi := g435; rw [if_pos g435]
          refine ⟨?_, h.2⟩
          intro hc
          rcases List.mem_append.1 hc with hc | hc
          · exact h.1 hc
          · simp at hc; subst hc; exact hi.2.1 h.2
        · rw [if_neg g435]
          exact h
  · obtain ⟨h1, h2, _, _⟩ := env_step s e ha he
    unfold Barred at h ⊢
    rw [h1, h2]
    refine ⟨h.1, ?_⟩
    have h := h.2
    cases hpc : s.pc with
    | xk q t ex rooms acc =>
      rw [hpc] at h
      rcases h with h3 | h3 | ⟨h3, h4⟩
      · exact .inl h3
      · exact .inr (.inl h3)
      · exact .inr (.inr ⟨h3, kept b e h4 (h3 ▸ hin')⟩)
    | _ => rw [hpc] at h; exact h

/-- Without rooms: the socket has been reached or will be. -/
def ComingAll (id : Nat) (s : CastRace.St) : Prop :=
  match s.pc with
  | .x _ rooms _ | .xk _ _ _ rooms _ => rooms = []
  | .all keys _ => id ∈ keys ∨ id ∈ s.sent
  | .idle => id ∈ s.sent
  | _ => False

theorem comingAll_step {id : Nat} {except : List Nat} {s : CastRace.St} (b : Base s) (e : CastRace.Ev)
    (he : ∀ a b c, e ≠ .cast a b c) (hsid : (s.tab.sids id).isSome) (hreg : s.reg id = true) (hx : ExFree id except s)
    (h : ComingAll id s) : ComingAll id (CastRace.step s e) := by
  by_cases ha : e = .adv
  · subst ha
    unfold ExFree at hx
    unfold ComingAll at h ⊢
    simp only [CastRace.step]
    cases hpc : s.pc with
    | idle => rw [hpc] at h; exact h
    | x ex rooms acc =>
      rw [hpc] at h
      have h' : rooms = [] := h
      subst h'
      cases ex with
      | nil =>
        left
        rw [mem_once, List.mem_filter]
        obtain ⟨y, hy⟩ := Option.isSome_iff_exists.1 hsid
        exact ⟨List.mem_append.2 (.inr (b.known id y hy)), hsid⟩
      | cons q ex => simp only [CastRace.act]; cases s.tab.rooms q <;> rfl
    | xk q t ex rooms acc => rw [hpc] at h; exact h
    | r rooms acc done => rw [hpc] at h; exact h.elim
    | rk q t rooms acc done => rw [hpc] at h; exact h.elim
    | ri keys rooms acc done => rw [hpc] at h; exact h.elim
    | all keys acc =>
      rw [hpc] at h hx
      cases keys with
      | nil => exact h.resolve_left (by simp)
      | cons i keys =>
        simp only [CastRace.act]
        by_cases g496 : (s.tab.sids i).isSome = true ∧ i ∉ acc ∧ s.reg i = true
        · rw [if_pos g496]
          rcases h with h | h
          · rcases List.mem_cons.1 h with h | h
            · exact .inr (by simp [h])
            · exact .inl h
          · exact .inr (List.mem_append.2 (.inl h))
        · have hi := g496; rw [if_neg g496]
          rcases h with h | h
          · rcases List.mem_cons.1 h with h | h
            · subst h; exact absurd ⟨hsid, hx, hreg⟩ hi
            · exact .inl h
          · exact .inr h
  · obtain ⟨h1, h2, _, _⟩ := env_step s e ha he
    unfold ComingAll at h ⊢
    rw [h1, h2]
    exact h

/-- The socket is not in the namespace. -/
theorem absent_step {id : Nat} {s : CastRace.St} (e : CastRace.Ev) (he : ∀ a b c, e ≠ .cast a b c) (hreg : s.reg id = false)
    (h : id ∉ s.sent) : id ∉ (CastRace.step s e).sent := by
  by_cases ha : e = .adv
  · subst ha
    simp only [CastRace.step]
    unfold CastRace.act
    repeat' split
    all_goals first | exact h | skip
    · next hi =>
      intro hc
      rcases List.mem_append.1 hc with hc | hc
      · exact h hc
      · simp at hc; subst hc; simp [hreg] at hi
    · next hi =>
      intro hc
      rcases List.mem_append.1 hc with hc | hc
      · exact h hc
      · simp at hc; subst hc; simp [hreg] at hi
  · rw [(env_step s e ha he).2.1]; exact h

theorem count_one {l : List Nat} {a : Nat} (hn : l.Nodup) (h : a ∈ l) : l.count a = 1 := by
  have h1 : 0 < l.count a := List.count_pos_iff.2 h
  have h2 : l.count a ≤ 1 := List.nodup_iff_count.1 hn a
  omega

/-! ### Checking a given history -/

/-- A decidable form of `Meanwhile`. -/
theorem meanwhile_of (p : List CastRace.Ev) (rooms except order : List Nat) (q : List CastRace.Ev)
    (P : RoomRace.St → (Nat → Bool) → Prop)
    (h : ∀ n, n < q.length + 1 → P (CastRace.run (p ++ .cast rooms except order :: q.take n)).tab
      (CastRace.run (p ++ .cast rooms except order :: q.take n)).reg) : Meanwhile p rooms except order q P := by
  intro q₁ q₂ hq
  have e : q.take q₁.length = q₁ := by rw [hq]; simp
  have := h q₁.length (by rw [hq]; simp; omega)
  rwa [e] at this

theorem inRoom_iff (s : RoomRace.St) (id r : Nat) : InRoom s id r ↔ (match s.rooms r with | some t => decide (id ∈ s.rset t) | none => false) = true := by
  unfold InRoom
  cases s.rooms r <;> simp

instance (s : RoomRace.St) (id r : Nat) : Decidable (InRoom s id r) := decidable_of_iff _ (inRoom_iff s id r).symm

/-- The calls of a history are made by goroutines below `n`. -/
def below (n : Nat) (h : List CastRace.Ev) : Bool :=
  h.all fun e => match e with
    | .room (.call k _ _) => decide (k < n)
    | _ => true

theorem below_run (n : Nat) (h : List CastRace.Ev) (hb : below n h = true) (k : Nat) (hk : n ≤ k) :
    ((CastRace.run h).tab.th k).2 = .done := by
  induction h using snocRec with
  | nil => rfl
  | append_singleton h e ih =>
    simp only [below, List.all_append, Bool.and_eq_true] at hb
    have ih := ih hb.1
    rw [CastRace.run_snoc]
    cases e with
    | room e =>
      cases e with
      | call k0 id c =>
        have hk0 : k0 < n := by simpa using hb.2
        simp only [CastRace.step, RoomRace.step]
        split
        · have : k ≠ k0 := by omega
          simp [World.upd, this, ih]
        · exact ih
      | adv k0 =>
        simp only [CastRace.step, RoomRace.step, RoomRace.advance, World.upd]
        split
        · next hkk => rw [← hkk, ih]; rfl
        · exact ih
    | connect i => exact ih
    | disconnect i => exact ih
    | cast a b c => simp only [CastRace.step]; split <;> exact ih
    | adv => simp only [CastRace.step]; rw [(act_tab _ _).1]; exact ih

theorem far_of (n : Nat) (h : List CastRace.Ev) (hb : below n h = true) (id r : Nat) (h1 : ¬ InRoom (CastRace.run h).tab id r)
    (h2 : ∀ k, k < n → ((CastRace.run h).tab.th k).1 = id → r ∉ joining ((CastRace.run h).tab.th k).2) :
    ¬ NearRoom (CastRace.run h).tab id r := by
  rintro (h | ⟨k, hk1, hk2⟩)
  · exact h1 h
  · by_cases hk : k < n
    · exact h2 k hk hk1 hk2
    · rw [below_run n _ hb k (by omega)] at hk2
      cases hk2

/-- A broadcast to everybody that has not reached socket `id`. -/
def PassedOver (id : Nat) (s : CastRace.St) : Prop :=
  id ∉ s.sent ∧ match s.pc with
    | .x _ rooms _ | .xk _ _ _ rooms _ => rooms = []
    | .all _ _ | .idle => True
    | _ => False

theorem passedOver_step {id : Nat} {s : CastRace.St} (e : CastRace.Ev) (he : ∀ a b c, e ≠ .cast a b c) (hn : (s.tab.sids id).isSome = false)
    (h : PassedOver id s) : PassedOver id (CastRace.step s e) := by
  by_cases ha : e = .adv
  · subst ha
    obtain ⟨h1, h2⟩ := h
    unfold PassedOver
    simp only [CastRace.step]
    cases hpc : s.pc with
    | idle => exact ⟨h1, trivial⟩
    | x ex rooms acc =>
      rw [hpc] at h2
      have h2' : rooms = [] := h2
      subst h2'
      cases ex with
      | nil => exact ⟨h1, trivial⟩
      | cons q ex => simp only [CastRace.act]; cases s.tab.rooms q <;> exact ⟨h1, rfl⟩
    | xk q t ex rooms acc => rw [hpc] at h2; exact ⟨h1, h2⟩
    | all keys acc =>
      cases keys with
      | nil => exact ⟨h1, trivial⟩
      | cons i keys =>
        simp only [CastRace.act]
        split
        · rename_i hi
          refine ⟨?_, trivial⟩
          intro hc
          rcases List.mem_append.1 hc with hc | hc
          · exact h1 hc
          · simp at hc; subst hc; rw [hn] at hi; cases hi.1
        · exact ⟨h1, trivial⟩
    | _ => rw [hpc] at h2; exact h2.elim
  · obtain ⟨h1, h2, h3⟩ := env_step s e ha he
    unfold PassedOver; rw [h1, h2]; exact h

theorem adv_tables (p : List CastRace.Ev) (rooms except order : List Nat) (q : List CastRace.Ev) (hq : ∀ e ∈ q, e = .adv) :
    (CastRace.run (p ++ .cast rooms except order :: q)).tab = (CastRace.run p).tab ∧
    (CastRace.run (p ++ .cast rooms except order :: q)).reg = (CastRace.run p).reg := by
  have hact : ∀ (s : CastRace.St) (pc : CastRace.PC), (CastRace.act s pc).1.tab = s.tab ∧ (CastRace.act s pc).1.reg = s.reg := by
    intro s pc
    unfold CastRace.act
    split <;> (try exact ⟨rfl, rfl⟩) <;> split <;> (try exact ⟨rfl, rfl⟩) <;> split <;> exact ⟨rfl, rfl⟩
  induction q using snocRec with
  | nil =>
    have : CastRace.run (p ++ [.cast rooms except order]) = CastRace.step (CastRace.run p) (.cast rooms except order) := by simp [CastRace.run]
    rw [this]; simp only [CastRace.step]; split <;> exact ⟨rfl, rfl⟩
  | append_singleton q e ih =>
    have he := hq e (by simp)
    subst he
    have : CastRace.run (p ++ .cast rooms except order :: (q ++ [.adv])) =
        CastRace.step (CastRace.run (p ++ .cast rooms except order :: q)) .adv := by simp [CastRace.run]
    rw [this]
    have ih := ih fun e he => hq e (by simp [he])
    simp only [CastRace.step]
    exact ⟨(hact _ _).1.trans ih.1, (hact _ _).2.trans ih.2⟩

end Verif.CastRaceLoop
