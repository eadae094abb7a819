import Verif.Spec.Acks

/-! # Invariant of the id counter -/

namespace Verif.Ids
open Verif

structure Inv (s : St) : Prop where
  count : s.ids.toNat = s.threads.countP (fun t => t.id.isSome)
  range : ∀ (k : Nat) (t : Thread) (id : BitVec 64), s.threads[k]? = some t → t.id = some id →
    id.toNat ≤ s.ids.toNat
  distinct : ∀ (i j : Nat) (t u : Thread) (id : BitVec 64), s.threads[i]? = some t → s.threads[j]? = some u →
    t.id = some id → u.id = some id → i = j
  owner : ∀ (sock : Nat) (id : BitVec 64) (k : Nat), s.acks.get? (sock, id) = some k →
    ∃ t, s.threads[k]? = some t ∧ t.id = some id

theorem inv_init : Inv {} := by constructor <;> simp

theorem get_set {s : St} {k : Nat} {t x : Thread} (hk : s.threads[k]? = some t) (i : Nat) :
    (s.threads.set k x)[i]? = if k = i then some x else s.threads[i]? := by
  have hlt : k < s.threads.length := (List.getElem?_eq_some_iff.1 hk).1
  rw [List.getElem?_set]
  by_cases hi : k = i
  · simp [hi, hi ▸ hlt]
  · simp [hi]

theorem inv_step {s : St} (h : Inv s) (e : Ev) (hb : (step s e).threads.length < 2 ^ 64) :
    Inv (step s e) := by
  cases e with
  | request socks =>
    have key : ∀ (k : Nat) (t : Thread) (id : BitVec 64),
        (s.threads ++ [({ todo := socks } : Thread)])[k]? = some t → t.id = some id →
        s.threads[k]? = some t := by
      intro k t id hk hid
      rw [List.getElem?_append] at hk
      split at hk
      · exact hk
      · rcases List.getElem?_eq_some_iff.1 hk with ⟨h1, h2⟩
        simp at h2
        rw [← h2] at hid; simp at hid
    constructor
    · simp only [step, List.countP_append]; rw [h.count]; simp
    · intro k t id hk hid; exact h.range k t id (key k t id hk hid) hid
    · intro i j t u id hi hj ht hu
      exact h.distinct i j t u id (key i t id hi ht) (key j u id hj hu) ht hu
    · intro sock id k hk
      obtain ⟨t, ht, hid⟩ := h.owner sock id k hk
      refine ⟨t, ?_, hid⟩
      have hlt : k < s.threads.length := (List.getElem?_eq_some_iff.1 ht).1
      simp only [step, List.getElem?_append_left hlt]; exact ht
  | adv k =>
    simp only [step] at hb ⊢
    cases hk : s.threads[k]? with
    | none => exact h
    | some t =>
      rw [hk] at hb
      have hlt : k < s.threads.length := (List.getElem?_eq_some_iff.1 hk).1
      have hget : s.threads[k] = t := (List.getElem?_eq_some_iff.1 hk).2
      simp only [advThread] at hb ⊢
      cases hid : t.id with
      | none =>
        rw [hid] at hb
        simp only [List.length_set] at hb
        have hcnt : s.threads.countP (fun t => t.id.isSome) < s.threads.length := by
          rw [List.countP_eq_length_filter]
          apply Nat.lt_of_le_of_ne (List.length_filter_le _ _)
          intro he
          have := List.length_filter_eq_length_iff.1 he t (List.mem_iff_getElem?.2 ⟨k, hk⟩)
          rw [hid] at this; simp at this
        have hto : (s.ids + 1).toNat = s.ids.toNat + 1 := by
          rw [BitVec.toNat_add]
          have := h.count
          have h1 : (1 : BitVec 64).toNat = 1 := rfl
          rw [h1]
          omega
        constructor
        · show (s.ids + 1).toNat = List.countP _ (s.threads.set k _)
          rw [hto, h.count, List.countP_set hlt, hget, hid]
          simp
        · intro i u id hi hu
          simp only [get_set hk] at hi
          show id.toNat ≤ (s.ids + 1).toNat
          rw [hto]
          by_cases hki : k = i
          · simp only [hki, if_true] at hi
            cases hi; have hu' := Option.some.inj hu; rw [← hu', hto]; omega
          · simp only [hki, if_false] at hi
            have := h.range i u id hi hu; omega
        · intro i j u v id hi hj hu hv
          simp only [get_set hk] at hi hj
          by_cases hki : k = i <;> by_cases hkj : k = j
          · omega
          · simp only [hki, hkj, if_true] at hi hj
            cases hi; have hu' := Option.some.inj hu
            subst hki
            simp only [hkj, if_false] at hj
            have := h.range j v id hj hv
            rw [← hu', hto] at this; omega
          · simp only [hki, hkj, if_true] at hi hj
            cases hj; have hv' := Option.some.inj hv
            subst hkj
            simp only [hki, if_false] at hi
            have := h.range i u id hi hu
            rw [← hv', hto] at this; omega
          · simp only [hki, hkj, if_false] at hi hj
            exact h.distinct i j u v id hi hj hu hv
        · intro sock id i hi
          obtain ⟨u, hu, hui⟩ := h.owner sock id i hi
          simp only [get_set hk]
          by_cases hki : k = i
          · subst hki; rw [hk] at hu; cases hu; rw [hid] at hui; simp at hui
          · simp only [hki, if_false]; exact ⟨u, hu, hui⟩
      | some id0 =>
        cases htodo : t.todo with
        | nil => exact h
        | cons sock rest =>
          simp only []
          have keep : ∀ (i : Nat) (u : Thread) (id : BitVec 64),
              (s.threads.set k { todo := rest, id := some id0 })[i]? = some u → u.id = some id →
              ∃ u', s.threads[i]? = some u' ∧ u'.id = some id := by
            intro i u id hi hu
            rw [get_set hk] at hi
            by_cases hki : k = i
            · simp only [hki, if_true] at hi; cases hi
              exact ⟨t, hki ▸ hk, by rw [hid]; exact hu⟩
            · simp only [hki, if_false] at hi; exact ⟨u, hi, hu⟩
          constructor
          · show s.ids.toNat = List.countP _ (s.threads.set k _)
            rw [h.count, List.countP_set hlt, hget, hid]
            have : 0 < s.threads.countP (fun t => t.id.isSome) :=
              List.countP_pos_iff.2 ⟨t, List.mem_iff_getElem?.2 ⟨k, hk⟩, by simp [hid]⟩
            simp; omega
          · intro i u id hi hu
            obtain ⟨u', h1, h2⟩ := keep i u id hi hu
            exact h.range i u' id h1 h2
          · intro i j u v id hi hj hu hv
            obtain ⟨u', h1, h2⟩ := keep i u id hi hu
            obtain ⟨v', h3, h4⟩ := keep j v id hj hv
            exact h.distinct i j u' v' id h1 h3 h2 h4
          · intro sk id i hi
            simp only [FMap.get?_insert] at hi
            simp only [get_set hk]
            split at hi
            · rename_i he
              cases hi
              simp at he
              exact ⟨_, by simp; rfl, by rw [← he.2]⟩
            · obtain ⟨u, hu, hui⟩ := h.owner sk id i hi
              by_cases hki : k = i
              · subst hki; rw [hk] at hu; cases hu
                exact ⟨_, by simp; rfl, by rw [← hid]; exact hui⟩
              · simp only [hki, if_false]; exact ⟨u, hu, hui⟩

theorem threads_mono (s : St) (e : Ev) : s.threads.length ≤ (step s e).threads.length := by
  cases e with
  | request => simp [step]
  | adv k =>
    simp only [step]
    split
    · simp only [advThread]; split
      · simp
      · split <;> simp
    · exact Nat.le_refl _

theorem threads_fold (h : List Ev) (s : St) : s.threads.length ≤ (h.foldl step s).threads.length := by
  induction h generalizing s with
  | nil => exact Nat.le_refl _
  | cons e h ih => exact Nat.le_trans (threads_mono s e) (ih _)

theorem inv_fold (h : List Ev) (s : St) (hi : Inv s) (hb : (h.foldl step s).threads.length < 2 ^ 64) :
    Inv (h.foldl step s) := by
  induction h generalizing s with
  | nil => exact hi
  | cons e h ih =>
    exact ih _ (inv_step hi e (Nat.lt_of_le_of_lt (threads_fold h _) hb)) hb

/-- Number of requests in a schedule. -/
theorem threads_run (h : List Ev) (s : St) :
    (h.foldl step s).threads.length =
      s.threads.length + Spec.requests h := by
  induction h generalizing s with
  | nil => simp [Spec.requests]
  | cons e h ih =>
    rw [List.foldl_cons, ih]
    cases e with
    | request l => simp [step, Spec.requests, List.countP_cons, Spec.isRequest]; omega
    | adv k =>
      have : (step s (.adv k)).threads.length = s.threads.length := by
        simp only [step]
        split
        · simp only [advThread]; split
          · simp
          · split <;> simp
        · rfl
      rw [this]; simp [Spec.requests, Spec.isRequest]

/-- A drawn id never changes. -/
theorem id_kept (h : List Ev) (s : St) (k : Nat) (t : Thread) (id : BitVec 64) (hk : s.threads[k]? = some t)
    (ht : t.id = some id) : ∃ t', (h.foldl step s).threads[k]? = some t' ∧ t'.id = some id := by
  induction h generalizing s t with
  | nil => exact ⟨t, hk, ht⟩
  | cons e h ih =>
    rw [List.foldl_cons]
    have : ∃ t', (step s e).threads[k]? = some t' ∧ t'.id = some id := by
      cases e with
      | request l =>
        refine ⟨t, ?_, ht⟩
        simp only [step]
        rw [List.getElem?_append_left (List.getElem?_eq_some_iff.1 hk).1]; exact hk
      | adv j =>
        simp only [step]
        cases hj : s.threads[j]? with
        | none => exact ⟨t, hk, ht⟩
        | some u =>
          simp only [advThread]
          by_cases hjk : j = k
          · subst hjk
            rw [hk] at hj; cases hj
            simp only [ht]
            split
            · exact ⟨t, hk, ht⟩
            · rename_i rest _
              refine ⟨{ t with todo := rest }, ?_, ht⟩
              simp only
              rw [get_set hk]; simp [ht]
          · split
            · refine ⟨t, ?_, ht⟩
              simp only; rw [get_set hj]; simp [hjk, hk]
            · split
              · exact ⟨t, hk, ht⟩
              · refine ⟨t, ?_, ht⟩
                simp only; rw [get_set hj]; simp [hjk, hk]
    obtain ⟨t', h1, h2⟩ := this
    exact ih _ t' h1 h2

end Verif.Ids
