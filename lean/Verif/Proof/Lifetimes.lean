import Verif.Spec.Lifetimes
import Verif.Proof.RoomCalls

namespace Verif.Lifetimes
open Verif Verif.Spec Verif.World

theorem run_snoc (k : Kind) (h : List Op) (o : Op) : run k (h ++ [o]) = step (run k h) o := by simp [run]

/-- What `change` has done to one adapter. -/
theorem change_get (f : Adp → Adp) (idem : ∀ a, f (f a) = f a) (adps : List Adp) (l : List (Nat × Nat)) (i : Nat) :
    (change f adps l)[i]? = if i ∈ l.map (·.2) then adps[i]?.map f else adps[i]? := by
  induction l generalizing adps with
  | nil => simp [change]
  | cons x l ih =>
    have hc : change f adps (x :: l) = change f (match adps[x.2]? with | some a => adps.set x.2 (f a) | none => adps) l := rfl
    rw [hc, ih]
    cases hx : adps[x.2]? with
    | none =>
      simp only [List.map_cons, List.mem_cons]
      by_cases hi : i = x.2
      · subst hi; simp [hx]
      · simp only [hi, false_or]
    | some a =>
      obtain ⟨hl, _⟩ := List.getElem?_eq_some_iff.1 hx
      simp only [List.map_cons, List.mem_cons]
      by_cases hi : i = x.2
      · subst hi
        rw [List.getElem?_set_self hl]
        simp [hx, idem]
      · rw [List.getElem?_set_ne (fun h => hi h.symm)]
        simp only [hi, false_or]

theorem shut_idem (a : Adp) : shut (shut a) = shut a := by unfold shut; split <;> simp_all
theorem send_idem (a : Adp) : send (send a) = send a := by unfold send; split <;> simp_all

theorem initAll_adps (k : Kind) (l : List (Nat × Nat)) (adps : List Adp) :
    (initAll k adps l).1 = adps ++ List.replicate l.length (make k) := by
  induction l generalizing adps with
  | nil => simp [initAll]
  | cons x l ih => simp [initAll, ih, List.replicate_succ]

theorem initAll_nsps (k : Kind) (l : List (Nat × Nat)) (adps : List Adp) (i : Nat) :
    (∃ n, (n, i) ∈ (initAll k adps l).2) ↔ adps.length ≤ i ∧ i < adps.length + l.length := by
  induction l generalizing adps with
  | nil => simp [initAll]
  | cons x l ih =>
    have := ih (adps ++ [make k])
    simp only [List.length_append, List.length_singleton] at this
    simp only [initAll, List.mem_cons, Prod.mk.injEq, List.length_cons]
    constructor
    · rintro ⟨n, ⟨_, rfl⟩ | h⟩
      · omega
      · have := this.1 ⟨n, h⟩; omega
    · intro h
      by_cases hi : i = adps.length
      · exact ⟨x.1, .inl ⟨rfl, hi⟩⟩
      · obtain ⟨n, hn⟩ := this.2 (by omega)
        exact ⟨n, .inr hn⟩

/-- Without recovery, and if adapters are replaced only while idle. -/
structure Tidy (s : St) : Prop where
  builder : s.builder ≠ .recovery
  kind : ∀ (i : Nat) a, s.adps[i]? = some a → a.kind ≠ .recovery ∧ (a.kind = .plain → ¬ Busy a)
  used : ∀ (i : Nat) a, s.adps[i]? = some a → Busy a → InUse s i

theorem tidy_step (s : St) (o : Op) (t : Tidy s) (ho : o ≠ .use .recovery)
    (idle : ∀ k, o = .use k → ∀ i, InUse s i → ∀ a, s.adps[i]? = some a → ¬ Busy a) : Tidy (step s o) := by
  have mk : ∀ k, k ≠ .recovery → (make k).kind ≠ .recovery ∧ ((make k).kind = .plain → ¬ Busy (make k)) := by
    intro k hk; cases k <;> simp [make, Busy] at *
  cases o with
  | use k =>
    have hk : k ≠ .recovery := fun h => ho (by rw [h])
    have hnew : ∀ (i : Nat) a, (initAll k s.adps s.nsps).1[i]? = some a →
        s.adps[i]? = some a ∨ (s.adps.length ≤ i ∧ i < s.adps.length + s.nsps.length ∧ a = make k) := by
      intro i a ha
      rw [initAll_adps] at ha
      by_cases hi : i < s.adps.length
      · rw [List.getElem?_append_left hi] at ha; exact .inl ha
      · rw [List.getElem?_append_right (by omega), List.getElem?_replicate] at ha
        split at ha
        · exact .inr ⟨by omega, by omega, by cases ha; rfl⟩
        · cases ha
    refine ⟨hk, fun i a ha => ?_, fun i a ha hb => ?_⟩
    · rcases hnew i a ha with h | ⟨_, _, rfl⟩
      · exact t.kind i a h
      · exact mk k hk
    · rcases hnew i a ha with h | ⟨h1, h2, rfl⟩
      · exact absurd hb (idle k rfl i (t.used i a h hb) a h)
      · exact (initAll_nsps k s.nsps s.adps i).2 ⟨h1, h2⟩
  | of n =>
    simp only [step]; split
    · exact t
    · have hnew : ∀ (i : Nat) a, (s.adps ++ [make s.builder])[i]? = some a → s.adps[i]? = some a ∨ (i = s.adps.length ∧ a = make s.builder) := by
        intro i a ha
        rcases Nat.lt_trichotomy i s.adps.length with hi | hi | hi
        · rw [List.getElem?_append_left hi] at ha; exact .inl ha
        · subst hi; rw [List.getElem?_concat_length] at ha; cases ha; exact .inr ⟨rfl, rfl⟩
        · rw [List.getElem?_eq_none (by simp; omega)] at ha; cases ha
      refine ⟨t.builder, fun i a ha => ?_, fun i a ha hb => ?_⟩
      · rcases hnew i a ha with h | ⟨_, rfl⟩
        · exact t.kind i a h
        · exact mk _ t.builder
      · rcases hnew i a ha with h | ⟨rfl, rfl⟩
        · obtain ⟨m, hm⟩ := t.used i a h hb
          exact ⟨m, List.mem_append_left _ hm⟩
        · exact ⟨n, by simp⟩
  | publish n =>
    refine ⟨t.builder, fun i a ha => ?_, fun i a ha hb => ?_⟩
    · simp only [step] at ha
      rw [change_get send send_idem] at ha
      split at ha
      · cases hx : s.adps[i]? with
        | none => simp [hx] at ha
        | some b =>
          simp only [hx, Option.map_some, Option.some.injEq] at ha; subst ha
          have := t.kind i b hx
          unfold send; split
          · rename_i hk; simp [hk]
          · exact this
      · exact t.kind i a ha
    · simp only [step] at ha
      rw [change_get send send_idem] at ha
      split at ha
      · rename_i hm
        simp only [List.mem_map, List.mem_filter] at hm
        obtain ⟨x, ⟨hx, _⟩, rfl⟩ := hm
        exact ⟨x.1, hx⟩
      · exact t.used i a ha hb
  | remove n =>
    refine ⟨t.builder, fun i a ha => ?_, fun i a ha hb => ?_⟩
    · simp only [step] at ha
      rw [change_get shut shut_idem] at ha
      split at ha
      · cases hx : s.adps[i]? with
        | none => simp [hx] at ha
        | some b =>
          simp only [hx, Option.map_some, Option.some.injEq] at ha; subst ha
          have := t.kind i b hx
          unfold shut; split
          · rename_i hk; simp [hk]
          · exact this
      · exact t.kind i a ha
    · simp only [step] at ha
      rw [change_get shut shut_idem] at ha
      split at ha
      · cases hx : s.adps[i]? with
        | none => simp [hx] at ha
        | some b =>
          simp only [hx, Option.map_some, Option.some.injEq] at ha; subst ha
          exfalso
          have := t.kind i b hx
          unfold shut at hb; split at hb
          · simp [Busy] at hb
          · obtain ⟨k, c, d⟩ := b; cases k <;> simp_all
      · rename_i hm
        obtain ⟨m, hm'⟩ := t.used i a ha hb
        refine ⟨m, ?_⟩
        simp only [step, List.mem_filter, decide_eq_true_eq]
        refine ⟨hm', fun hmn => hm ?_⟩
        simp only [List.mem_map, List.mem_filter]
        exact ⟨(m, i), ⟨hm', by simpa using hmn⟩, rfl⟩
  | close =>
    refine ⟨t.builder, fun i a ha => ?_, fun i a ha hb => ?_⟩
    · simp only [step] at ha
      rw [change_get shut shut_idem] at ha
      split at ha
      · cases hx : s.adps[i]? with
        | none => simp [hx] at ha
        | some b =>
          simp only [hx, Option.map_some, Option.some.injEq] at ha; subst ha
          have := t.kind i b hx
          unfold shut; split
          · rename_i hk; simp [hk]
          · exact this
      · exact t.kind i a ha
    · simp only [step] at ha
      rw [change_get shut shut_idem] at ha
      split at ha
      · rename_i hm
        simp only [List.mem_map] at hm
        obtain ⟨x, hx, rfl⟩ := hm
        exact ⟨x.1, hx⟩
      · exact t.used i a ha hb

theorem tidy_run (k : Kind) (h : List Op) (hk : k ≠ .recovery) (hu : .use .recovery ∉ h) (sw : SwapsIdle k h) : Tidy (run k h) := by
  induction h using snocRec with
  | nil => exact ⟨hk, fun i a ha => by simp [run] at ha, fun i a ha => by simp [run] at ha⟩
  | append_singleton h o ih =>
    rw [run_snoc]
    refine tidy_step _ o (ih (fun hm => hu (List.mem_append_left _ hm)) fun h₁ k' hp => sw h₁ k' (hp.trans (List.prefix_append h [o]))) ?_ ?_
    · rintro rfl; exact hu (by simp)
    · rintro k' rfl i hi a ha
      exact sw h k' (List.prefix_refl _) i hi a ha

/-- After `Close` the adapters in use are idle, unless they have recovery. -/
theorem closed_idle (s : St) (t : Tidy s) (i : Nat) (a : Adp) (ha : (step s .close).adps[i]? = some a) : ¬ Busy a := by
  intro hb
  simp only [step] at ha
  rw [change_get shut shut_idem] at ha
  cases hx : s.adps[i]? with
  | none => simp [hx] at ha
  | some b =>
    have hk := t.kind i b hx
    by_cases hm : i ∈ s.nsps.map (·.2)
    · rw [if_pos hm] at ha
      simp only [hx, Option.map_some, Option.some.injEq] at ha; subst ha
      unfold shut at hb; split at hb
      · simp [Busy] at hb
      · obtain ⟨k, c, d⟩ := b; cases k <;> simp_all
    · rw [if_neg hm, hx] at ha; cases ha
      obtain ⟨n, hn⟩ := t.used i _ hx hb
      exact hm (List.mem_map.2 ⟨(n, i), hn, rfl⟩)

/-- An adapter with recovery is left as it is by everything. -/
theorem recovery_step (s : St) (o : Op) (i : Nat) (a : Adp) (ha : s.adps[i]? = some a) (hr : a.kind = .recovery) :
    (step s o).adps[i]? = some a := by
  obtain ⟨hl, _⟩ := List.getElem?_eq_some_iff.1 ha
  cases o with
  | use k => simp only [step]; rw [initAll_adps, List.getElem?_append_left hl]; exact ha
  | of n =>
    simp only [step]; split
    · exact ha
    · rw [List.getElem?_append_left hl]; exact ha
  | publish n => simp only [step]; rw [change_get send send_idem, ha]; split <;> simp [send, hr]
  | remove n => simp only [step]; rw [change_get shut shut_idem, ha]; split <;> simp [shut, hr]
  | close => simp only [step]; rw [change_get shut shut_idem, ha]; split <;> simp [shut, hr]

theorem recovery_run (k : Kind) (h t : List Op) (i : Nat) (a : Adp) (ha : (run k h).adps[i]? = some a) (hr : a.kind = .recovery) :
    (run k (h ++ t)).adps[i]? = some a := by
  induction t using snocRec with
  | nil => simpa using ha
  | append_singleton t o ih => rw [← List.append_assoc, run_snoc]; exact recovery_step _ o i a ih hr

theorem change_kind (f : Adp → Adp) (idem : ∀ a, f (f a) = f a) (same : ∀ a, (f a).kind = .recovery → f a = a) (adps : List Adp)
    (l : List (Nat × Nat)) (h : ∀ a ∈ adps, a.kind = .recovery → a = make .recovery) :
    ∀ a ∈ change f adps l, a.kind = .recovery → a = make .recovery := by
  intro a ha hk
  obtain ⟨i, hi⟩ := List.getElem?_of_mem ha
  rw [change_get f idem] at hi
  split at hi
  · cases hx : adps[i]? with
    | none => simp [hx] at hi
    | some b =>
      simp only [hx, Option.map_some, Option.some.injEq] at hi; subst hi
      have hs := same b hk
      rw [hs] at hk ⊢
      exact h b (List.mem_of_getElem? hx) hk
  · exact h a (List.mem_of_getElem? hi) hk

theorem recovery_made (k : Kind) (h : List Op) : ∀ a ∈ (run k h).adps, a.kind = .recovery → a = make .recovery := by
  induction h using snocRec with
  | nil => intro a ha; simp [run] at ha
  | append_singleton h o ih =>
    rw [run_snoc]
    have mk : ∀ k', (make k').kind = .recovery → make k' = make .recovery := by intro k' h; cases k' <;> simp [make] at *
    have s1 : ∀ a, (shut a).kind = .recovery → shut a = a := by intro a h; unfold shut at *; split at h <;> simp_all
    have s2 : ∀ a, (send a).kind = .recovery → send a = a := by intro a h; unfold send at *; split at h <;> simp_all
    cases o with
    | use k' =>
      intro a ha hk
      simp only [step, initAll_adps, List.mem_append] at ha
      rcases ha with ha | ha
      · exact ih a ha hk
      · rw [List.eq_of_mem_replicate ha] at hk ⊢; exact mk _ hk
    | of n =>
      intro a ha hk
      simp only [step] at ha; split at ha
      · exact ih a ha hk
      · simp only [List.mem_append, List.mem_singleton] at ha
        rcases ha with ha | rfl
        · exact ih a ha hk
        · exact mk _ hk
    | publish n => exact change_kind send send_idem s2 _ _ ih
    | remove n => exact change_kind shut shut_idem s1 _ _ ih
    | close => exact change_kind shut shut_idem s1 _ _ ih

/-- Namespaces that come and go. -/
def comeAndGo : Nat → List Op
  | 0 => []
  | n + 1 => comeAndGo n ++ [.of n, .remove n]

theorem come_and_go (n : Nat) : (run .recovery (comeAndGo n)).nsps = [] ∧ (run .recovery (comeAndGo n)).builder = .recovery ∧
    (run .recovery (comeAndGo n)).adps = List.replicate n (make .recovery) := by
  induction n with
  | zero => simp [comeAndGo, run]
  | succ n ih =>
    obtain ⟨h1, h2, h3⟩ := ih
    have : run .recovery (comeAndGo (n + 1)) = step (step (run .recovery (comeAndGo n)) (.of n)) (.remove n) := by simp [comeAndGo, run]
    rw [this]
    generalize run .recovery (comeAndGo n) = s at *
    obtain ⟨b, as, ns⟩ := s
    simp only at h1 h2 h3; subst h1 h2 h3
    have e1 : step ⟨.recovery, List.replicate n (make .recovery), []⟩ (.of n) =
        ⟨.recovery, List.replicate n (make .recovery) ++ [make .recovery], [(n, n)]⟩ := by simp [step]
    rw [e1]
    refine ⟨by simp [step], rfl, ?_⟩
    simp only [step]
    refine List.ext_getElem? fun i => ?_
    rw [change_get shut shut_idem, List.replicate_succ', ← List.replicate_succ']
    have hs : ∀ x : Option Adp, (∀ a, x = some a → a = make .recovery) → x.map shut = x := by
      intro x hx; cases x with
      | none => rfl
      | some a => rw [hx a rfl]; rfl
    split
    · refine hs _ fun a ha => ?_
      exact List.eq_of_mem_replicate (List.mem_of_getElem? ha)
    · rfl

end Verif.Lifetimes
