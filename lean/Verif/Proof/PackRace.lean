import Verif.Spec.PackRace
import Verif.Lib.ListExtra
import Verif.Proof.Once

namespace Verif.PackRace
open Verif Verif.Spec

theorem run_snoc (M : Nat) (h : List Ev) (e : Ev) : run M (h ++ [e]) = step M (run M h) e := by simp [run]

theorem step_now (M : Nat) (s : St) (e : Ev) : s.now ≤ (step M s e).now := by
  cases e with
  | tick d => simp [step]
  | cast => simp [step]
  | timer => simp [step]
  | adv k =>
    simp only [step]; split
    · rename_i a _; cases a <;> exact Nat.le_refl _
    · exact Nat.le_refl _

theorem now_prefix (M : Nat) {p h : List Ev} (hp : p <+: h) : (run M p).now ≤ (run M h).now := by
  obtain ⟨q, rfl⟩ := hp
  induction q using snocRec with
  | nil => simp
  | append_singleton q e ih => rw [← List.append_assoc, run_snoc]; exact Nat.le_trans ih (step_now M _ e)

/-! ### What `prune` does -/

theorem prune_suffix (M start : Nat) : ∀ l, prune M start l <:+ l
  | [] => List.suffix_refl _
  | p :: ps => by
    simp only [prune]
    split
    · exact (prune_suffix M start ps).trans (List.suffix_cons p ps)
    · split
      · exact List.suffix_cons p ps
      · exact List.suffix_refl _

theorem prune_clean (M start : Nat) : ∀ l, ∀ x ∈ prune M start l, ¬ x.2 + M < start
  | [] => by simp [prune]
  | p :: ps => by
    simp only [prune]
    split
    · exact prune_clean M start ps
    · rename_i hn
      simp only [List.any_eq_true, decide_eq_true_eq, not_exists, not_and] at hn
      split
      · exact fun x hx => hn x hx
      · intro x hx
        rcases List.mem_cons.1 hx with rfl | hx
        · assumption
        · exact hn x hx

/-- Only what is old or stands before something old goes. -/
theorem prune_kept (M start : Nat) (R : Nat × Nat → Nat × Nat → Prop) (x : Nat × Nat) (self : ¬ x.2 + M < start)
    (hR : ∀ y, R x y → ¬ y.2 + M < start) : ∀ l, l.Pairwise R → x ∈ l → x ∈ prune M start l
  | [], _, hx => by cases hx
  | p :: ps, hp, hx => by
    rw [List.pairwise_cons] at hp
    simp only [prune]
    split
    · rename_i ha
      rcases List.mem_cons.1 hx with rfl | hx
      · simp only [List.any_eq_true, decide_eq_true_eq] at ha
        obtain ⟨y, hy, hy'⟩ := ha
        exact absurd hy' (hR y (hp.1 y hy))
      · exact prune_kept M start R x self hR ps hp.2 hx
    · split
      · rcases List.mem_cons.1 hx with rfl | hx
        · contradiction
        · exact hx
      · exact hx

/-! ### Where the goroutines come from -/

theorem stays (M : Nat) {s : St} {n : Nat} {a : Task} (h : s.tasks[n]? = some a) {e : Ev} (he : e ≠ .adv n) : (step M s e).tasks[n]? = some a := by
  cases e with
  | tick d => exact h
  | cast => exact Once.app_left h
  | timer => exact Once.app_left h
  | adv k =>
    have hk : n ≠ k := fun e => he (by rw [e])
    simp only [step]; split
    · exact Once.set_other h hk
    · exact h

theorem stays_run (M : Nat) (p q : List Ev) {n : Nat} {a : Task} (h : (run M p).tasks[n]? = some a) (hq : .adv n ∉ q) :
    (run M (p ++ q)).tasks[n]? = some a := by
  induction q using snocRec with
  | nil => simpa using h
  | append_singleton q e ih =>
    rw [← List.append_assoc, run_snoc]
    have hq' := hq
    simp only [List.mem_append, List.mem_singleton, not_or] at hq'
    exact stays M (ih hq'.1) fun e => hq'.2 e.symm

/-- Storing a packet, as a step. -/
theorem stored_step (M : Nat) (h : List Ev) (n t : Nat) (hs : PackStored M h n t) :
    ∃ h', h = h' ++ [.adv n] ∧ (run M h').tasks[n]? = some (.push t) := by
  obtain ⟨a, b, rfl, ht, rfl, hb⟩ := hs
  refine ⟨a ++ .adv n :: b, rfl, ?_⟩
  rw [show a ++ Ev.adv n :: b = (a ++ [.adv n]) ++ b by simp]
  refine stays_run M _ b ?_ hb
  rw [run_snoc]
  simp only [step, ht, act]
  exact Once.set_self ht

structure Inv (M : Nat) (h : List Ev) (s : St) : Prop where
  push : ∀ n t, s.tasks[n]? = some (.push t) →
    ∃ a b, h = a ++ .adv n :: b ∧ (run M a).tasks[n]? = some .stamp ∧ t = (run M a).now ∧ .adv n ∉ b
  splice : ∀ (k : Nat) start, s.tasks[k]? = some (.splice start) → start ≤ s.now
  old : ∀ x ∈ s.packets, x.2 ≤ s.now
  done : ∀ x ∈ s.packets, s.tasks[x.1]? = some .stored

theorem inv_step (M : Nat) (h : List Ev) (s : St) (e : Ev) (hs : s = run M h) (I : Inv M h s) : Inv M (h ++ [e]) (step M s e) := by
  have hmono := step_now M s e
  have keep : ∀ n t, (e ≠ .adv n) → s.tasks[n]? = some (.push t) →
      ∃ a b, h ++ [e] = a ++ .adv n :: b ∧ (run M a).tasks[n]? = some .stamp ∧ t = (run M a).now ∧ .adv n ∉ b := by
    intro n t hne hn
    obtain ⟨a, b, h1, h2, h3, h4⟩ := I.push n t hn
    refine ⟨a, b ++ [e], by simp [h1], h2, h3, ?_⟩
    simp only [List.mem_append, List.mem_singleton, not_or]
    exact ⟨h4, fun he => hne he.symm⟩
  cases e with
  | tick d =>
    exact ⟨fun n t hn => keep n t (by simp) hn, fun k start hk => Nat.le_trans (I.splice k start hk) hmono,
      fun x hx => Nat.le_trans (I.old x hx) hmono, I.done⟩
  | cast =>
    refine ⟨?_, ?_, I.old, fun x hx => Once.app_left (I.done x hx)⟩
    · intro n t hn
      rcases Once.get_snoc hn with hn | ⟨_, hn⟩
      · exact keep n t (by simp) hn
      · cases hn
    · intro k start hk
      rcases Once.get_snoc hk with hk | ⟨_, hk⟩
      · exact I.splice k start hk
      · cases hk
  | timer =>
    refine ⟨?_, ?_, I.old, fun x hx => Once.app_left (I.done x hx)⟩
    · intro n t hn
      rcases Once.get_snoc hn with hn | ⟨_, hn⟩
      · exact keep n t (by simp) hn
      · cases hn
    · intro k start hk
      rcases Once.get_snoc hk with hk | ⟨_, hk⟩
      · exact I.splice k start hk
      · cases hk
  | adv j =>
    simp only [step]
    split
    · rename_i a ha
      have hset : ∀ {n : Nat} {b : Task}, (s.tasks.set j (act M s j a).2)[n]? = some b → (n = j ∧ b = (act M s j a).2) ∨ (n ≠ j ∧ s.tasks[n]? = some b) :=
        fun h => Once.get_set' h
      refine ⟨?_, ?_, ?_, ?_⟩
      · intro n t hn
        rcases hset hn with ⟨rfl, hn⟩ | ⟨hne, hn⟩
        · cases a <;> simp only [act] at hn <;> try (cases hn; done)
          simp only [Task.push.injEq] at hn
          subst hs
          exact ⟨h, [], rfl, ha, hn, by simp⟩
        · exact keep n t (fun e => hne (by cases e; rfl)) hn
      · intro k start hk
        have hnow : (act M s j a).1.now = s.now := by cases a <;> rfl
        show start ≤ (act M s j a).1.now
        rw [hnow]
        rcases hset hk with ⟨rfl, hk⟩ | ⟨hne, hk⟩
        · cases a <;> simp only [act] at hk <;> try (cases hk; done)
          simp only [Task.splice.injEq] at hk
          omega
        · exact I.splice k start hk
      · intro x hx
        have hnow : (act M s j a).1.now = s.now := by cases a <;> rfl
        show x.2 ≤ (act M s j a).1.now
        rw [hnow]
        cases a <;> simp only [act] at hx <;> try exact I.old x hx
        · rename_i t
          rcases List.mem_append.1 hx with hx | hx
          · exact I.old x hx
          · simp only [List.mem_singleton] at hx
            subst hx
            obtain ⟨a, b, h1, h2, h3, h4⟩ := I.push j t ha
            have := now_prefix M (show a <+: h from ⟨_, h1.symm⟩)
            subst hs
            simp only; omega
        · exact I.old x ((prune_suffix _ _ _).subset hx)
      · intro x hx
        have old : x ∈ s.packets → (s.tasks.set j (act M s j a).2)[x.1]? = some .stored := by
          intro hx
          have hd := I.done x hx
          by_cases hj : x.1 = j
          · rw [hj] at hd ⊢
            rw [ha] at hd; cases hd
            exact Once.set_self ha
          · exact Once.set_other hd hj
        cases a <;> simp only [act] at hx <;> try exact old hx
        · rename_i t
          rcases List.mem_append.1 hx with hx | hx
          · exact old hx
          · simp only [List.mem_singleton] at hx
            subst hx
            exact Once.set_self ha
        · exact old ((prune_suffix _ _ _).subset hx)
    · rename_i hj
      refine ⟨?_, I.splice, I.old, I.done⟩
      intro n t hn
      exact keep n t (fun e => by cases e; rw [hj] at hn; cases hn) hn

theorem inv_run (M : Nat) (h : List Ev) : Inv M h (run M h) := by
  induction h using snocRec with
  | nil => exact ⟨by simp [run], by simp [run], by simp [run], by simp [run]⟩
  | append_singleton h e ih => rw [run_snoc]; exact inv_step M h _ e rfl ih

theorem push_stored (M : Nat) (h : List Ev) (n t : Nat) (hn : (run M h).tasks[n]? = some (.push t)) : PackStored M (h ++ [.adv n]) n t := by
  obtain ⟨a, b, h1, h2, h3, h4⟩ := (inv_run M h).push n t hn
  exact ⟨a, b, by rw [h1], h2, h3, h4⟩

/-- If packets are stored soon, their times are nearly in order. -/
theorem ordered (M d : Nat) (h : List Ev) (pr : PackPrompt M d h) : (run M h).packets.Pairwise fun x y => x.2 ≤ y.2 + d := by
  induction h using snocRec with
  | nil => simp [run]
  | append_singleton h e ih =>
    have ih := ih fun h₁ hp => pr h₁ (hp.trans (List.prefix_append _ _))
    rw [run_snoc]
    cases e with
    | tick d => exact ih
    | cast => exact ih
    | timer => exact ih
    | adv j =>
      simp only [step]
      split
      · rename_i a ha
        cases a <;> simp only [act] <;> try exact ih
        · rename_i t
          rw [List.pairwise_append]
          refine ⟨ih, by simp, ?_⟩
          intro x hx y hy
          simp only [List.mem_singleton] at hy
          subst hy
          have h1 := (inv_run M h).old x hx
          have h2 := pr _ (List.prefix_refl _) j t (push_stored M h j t ha)
          have h3 := step_now M (run M h) (.adv j)
          rw [run_snoc] at h2
          simp only; omega
        · exact ih.sublist (prune_suffix _ _ _).sublist
      · exact ih

/-- The step that stores a packet. -/
theorem stored_mem (M : Nat) (h : List Ev) (n t : Nat) (hs : PackStored M h n t) : (n, t) ∈ (run M h).packets := by
  obtain ⟨h', rfl, hn⟩ := stored_step M h n t hs
  rw [run_snoc]
  simp [step, hn, act]

theorem kept (M d : Nat) (p q : List Ev) (n t : Nat) (pr : PackPrompt M d (p ++ q)) (hs : PackStored M p n t)
    (young : (run M (p ++ q)).now + d ≤ t + M) : (n, t) ∈ (run M (p ++ q)).packets := by
  induction q using snocRec with
  | nil => simpa using stored_mem M p n t hs
  | append_singleton q e ih =>
    rw [← List.append_assoc] at young pr ⊢
    have hmono := now_prefix M (show p ++ q <+: p ++ q ++ [e] from List.prefix_append _ _)
    have pr' : PackPrompt M d (p ++ q) := fun h₁ hp => pr h₁ (hp.trans (List.prefix_append _ _))
    have ih := ih pr' (by omega)
    rw [run_snoc]
    cases e with
    | tick d => exact ih
    | cast => exact ih
    | timer => exact ih
    | adv j =>
      simp only [step]
      split
      · rename_i a ha
        cases a <;> simp only [act] <;> try exact ih
        · exact List.mem_append_left _ ih
        · rename_i start
          have hst := (inv_run M (p ++ q)).splice j start ha
          refine prune_kept M start _ (n, t) (by simp only; omega) (fun y hy => ?_) _ (ordered M d _ pr') ih
          simp only at hy; omega
      · exact ih

/-- A packet that is stored and gone does not come back. -/
theorem gone (M : Nat) (h : List Ev) (e : Ev) (n : Nat) (hd : (run M h).tasks[n]? = some .stored) (hn : n ∉ keptPackets (run M h)) :
    (run M (h ++ [e])).tasks[n]? = some .stored ∧ n ∉ keptPackets (run M (h ++ [e])) := by
  rw [run_snoc]
  refine ⟨?_, ?_⟩
  · by_cases he : e = .adv n
    · subst he; simp only [step, hd, act]; exact Once.set_self hd
    · exact stays M hd he
  · cases e with
    | tick d => exact hn
    | cast => exact hn
    | timer => exact hn
    | adv j =>
      simp only [step]
      split
      · rename_i a ha
        cases a <;> simp only [act, keptPackets] at hn ⊢ <;> try exact hn
        · simp only [List.map_append, List.mem_append, not_or]
          refine ⟨hn, ?_⟩
          simp only [List.map_cons, List.map_nil, List.mem_singleton]
          intro e; subst e; rw [hd] at ha; cases ha
        · intro hm
          obtain ⟨x, hx, e⟩ := List.mem_map.1 hm
          exact hn (List.mem_map.2 ⟨x, (prune_suffix _ _ _).subset hx, e⟩)
      · exact hn

/-- After a packet has been stored it is in the list with its time, or gone. -/
theorem stored_after (M : Nat) (p q : List Ev) (n t : Nat) (hs : PackStored M p n t) :
    (run M (p ++ q)).tasks[n]? = some .stored ∧ ∀ x ∈ (run M (p ++ q)).packets, x.1 = n → x.2 = t := by
  induction q using snocRec with
  | nil =>
    obtain ⟨h', rfl, hn⟩ := stored_step M p n t hs
    rw [List.append_nil, run_snoc]
    simp only [step, hn, act]
    refine ⟨Once.set_self hn, ?_⟩
    intro x hx e
    rcases List.mem_append.1 hx with hx | hx
    · have := (inv_run M h').done x hx
      rw [e, hn] at this; cases this
    · simp only [List.mem_singleton] at hx; subst hx; rfl
  | append_singleton q e ih =>
    rw [← List.append_assoc, run_snoc]
    refine ⟨?_, ?_⟩
    · by_cases he : e = .adv n
      · subst he; simp only [step, ih.1, act]; exact Once.set_self ih.1
      · exact stays M ih.1 he
    · cases e with
      | tick d => exact ih.2
      | cast => exact ih.2
      | timer => exact ih.2
      | adv j =>
        simp only [step]
        split
        · rename_i a ha
          cases a <;> simp only [act] <;> try exact ih.2
          · intro x hx e
            rcases List.mem_append.1 hx with hx | hx
            · exact ih.2 x hx e
            · simp only [List.mem_singleton] at hx; subst hx
              simp only at e; subst e; rw [ih.1] at ha; cases ha
          · exact fun x hx => ih.2 x ((prune_suffix _ _ _).subset hx)
        · exact ih.2

/-- Where the timer function that started after `p` is, and what it has done to an old packet. -/
theorem cleaning (M : Nat) (p q : List Ev) (n t : Nat) (h₁ : List Ev) (hp : h₁ <+: p) (hs : PackStored M h₁ n t) (old : t + M < (run M p).now) :
    (run M (p ++ .timer :: q)).tasks[(run M p).tasks.length]? = some .clean ∨
    (∃ start, (run M (p ++ .timer :: q)).tasks[(run M p).tasks.length]? = some (.splice start) ∧ t + M < start) ∨
    ((run M (p ++ .timer :: q)).tasks[(run M p).tasks.length]? = some .cleaned ∧ n ∉ keptPackets (run M (p ++ .timer :: q))) := by
  generalize hk : (run M p).tasks.length = k
  induction q using snocRec with
  | nil => left; rw [run_snoc]; simp only [step]; rw [← hk]; simp
  | append_singleton q e ih =>
    have e1 : run M (p ++ .timer :: (q ++ [e])) = step M (run M (p ++ .timer :: q)) e := by rw [← run_snoc]; simp
    have hst : (run M (p ++ .timer :: q)).tasks[n]? = some .stored ∧ ∀ x ∈ (run M (p ++ .timer :: q)).packets, x.1 = n → x.2 = t := by
      obtain ⟨r, rfl⟩ := hp
      have := stored_after M h₁ (r ++ .timer :: q) n t hs
      rwa [← List.append_assoc] at this
    have hnow : (run M p).now ≤ (run M (p ++ .timer :: q)).now := now_prefix M (List.prefix_append _ _)
    by_cases he : e = .adv k
    · subst he
      rw [e1]
      rcases ih with h | ⟨start, h, hlt⟩ | ⟨h, hn⟩
      · right; left
        simp only [step, h, act]
        exact ⟨_, Once.set_self h, by omega⟩
      · right; right
        simp only [step, h, act]
        refine ⟨Once.set_self h, ?_⟩
        intro hm
        obtain ⟨x, hx, e⟩ := List.mem_map.1 hm
        have h1 := prune_clean M start _ x hx
        have h2 := hst.2 x ((prune_suffix _ _ _).subset hx) e
        omega
      · right; right
        have := gone M (p ++ .timer :: q) (.adv k) n hst.1 hn
        rw [run_snoc] at this
        refine ⟨?_, this.2⟩
        simp only [step, h, act]; exact Once.set_self h
    · rw [e1]
      rcases ih with h | ⟨start, h, hlt⟩ | ⟨h, hn⟩
      · exact .inl (stays M h he)
      · exact .inr (.inl ⟨start, stays M h he, hlt⟩)
      · have := gone M (p ++ .timer :: q) e n hst.1 hn
        rw [run_snoc] at this
        exact .inr (.inr ⟨stays M h he, this.2⟩)

theorem nodup_run (M : Nat) (h : List Ev) : (keptPackets (run M h)).Nodup := by
  induction h using snocRec with
  | nil => simp [run, keptPackets]
  | append_singleton h e ih =>
    rw [run_snoc]
    cases e with
    | tick d => exact ih
    | cast => exact ih
    | timer => exact ih
    | adv j =>
      simp only [step]
      split
      · rename_i a ha
        cases a <;> simp only [act, keptPackets] at ih ⊢ <;> try exact ih
        · simp only [List.map_append, List.map_cons, List.map_nil]
          rw [List.nodup_append]
          refine ⟨ih, by simp, ?_⟩
          intro x hx y hy
          simp only [List.mem_singleton] at hy
          subst hy
          obtain ⟨z, hz, rfl⟩ := List.mem_map.1 hx
          intro e
          have := (inv_run M h).done z hz
          rw [e, ha] at this; cases this
        · exact ih.sublist ((prune_suffix _ _ _).sublist.map _)
      · exact ih

theorem pair_suffix {l l' : List Nat} {n m : Nat} (hs : l' <:+ l) (nd : l.Nodup) (hp : [n, m].Sublist l) (hn : n ∈ l') : [n, m].Sublist l' := by
  obtain ⟨x, rfl⟩ := hs
  obtain ⟨l₁, l₂, e, h1, h2⟩ := List.sublist_append_iff.1 hp
  cases l₁ with
  | nil => rw [e]; exact h2
  | cons a l₁ =>
    simp only [List.cons_append, List.cons.injEq] at e
    have : n ∈ x := by rw [e.1]; exact h1.subset (by simp)
    exact absurd rfl ((List.nodup_append.1 nd).2.2 n this n hn)

/-- While a packet is kept, all that are stored after it are kept as well, behind it. -/
theorem behind (M : Nat) (p q r : List Ev) (n m t u : Nat) (hn : PackStored M p n t) (hm : PackStored M (p ++ q) m u) (hq : q ≠ [])
    (hk : n ∈ keptPackets (run M (p ++ q ++ r))) : [n, m].Sublist (keptPackets (run M (p ++ q ++ r))) := by
  induction r using snocRec with
  | nil =>
    rw [List.append_nil] at hk ⊢
    obtain ⟨h', e, hn'⟩ := stored_step M (p ++ q) m u hm
    have hne : n ≠ m := by
      rintro rfl
      obtain ⟨q', e', rfl⟩ : ∃ q' e', q = q' ++ [e'] := by
        rcases List.eq_nil_or_concat q with h | ⟨q', e', h⟩
        · exact absurd h hq
        · exact ⟨q', e', by simpa using h⟩
      rw [← List.append_assoc] at e
      have := List.append_inj_left' e rfl
      rw [← this, (stored_after M p q' n t hn).1] at hn'
      cases hn'
    rw [e, run_snoc] at hk ⊢
    simp only [step, hn', act, keptPackets, List.map_append, List.map_cons, List.map_nil] at hk ⊢
    rcases List.mem_append.1 hk with hk | hk
    · exact List.Sublist.append (List.singleton_sublist.2 hk) (List.Sublist.refl [m])
    · simp at hk; exact absurd hk hne
  | append_singleton r e ih =>
    rw [← List.append_assoc] at hk ⊢
    have hd := (stored_after M p (q ++ r) n t hn).1
    rw [← List.append_assoc] at hd
    have hbefore : n ∈ keptPackets (run M (p ++ q ++ r)) := Classical.byContradiction fun h => (gone M _ e n hd h).2 hk
    have ih := ih hbefore
    rw [run_snoc] at hk ⊢
    cases e with
    | tick d => exact ih
    | cast => exact ih
    | timer => exact ih
    | adv j =>
      simp only [step] at hk ⊢
      split
      · rename_i a ha
        rw [ha] at hk
        cases a <;> simp only [act] at hk ⊢ <;> try exact ih
        · simp only [keptPackets, List.map_append] at ih ⊢
          exact ih.trans (List.sublist_append_left _ _)
        · rename_i start
          exact pair_suffix ((prune_suffix M start _).map _) (nodup_run M _) ih hk
      · exact ih

theorem packStores_snoc (M : Nat) (q : List Ev) (e : Ev) : ∀ p, packStores M p (q ++ [e]) = packStores M p q ++ packStores M (p ++ q) [e] := by
  induction q with
  | nil => intro p; simp [packStores]
  | cons a q ih =>
    intro p
    cases a <;> simp [packStores, ih, List.append_assoc]

/-- A suffix with `n` in it of a list in which `n` is once. -/
theorem split_suffix {l l' pre rest : List Nat} {n : Nat} (hs : l' <:+ l) (nd : l.Nodup) (hl : l = pre ++ n :: rest) (hn : n ∈ l') :
    ∃ pre', l' = pre' ++ n :: rest := by
  obtain ⟨x, rfl⟩ := hs
  obtain ⟨a, b, rfl⟩ := List.append_of_mem hn
  refine ⟨a, ?_⟩
  have e : (x ++ a) ++ n :: b = pre ++ n :: rest := by rw [← hl]; simp
  have nd' : ((x ++ a) ++ n :: b).Nodup := by simpa using nd
  have h1 : n ∉ x ++ a := fun h => (List.nodup_append.1 nd').2.2 n h n (by simp) rfl
  have h2 : n ∉ pre := fun h => by rw [e] at nd'; exact (List.nodup_append.1 nd').2.2 n h n (by simp) rfl
  have key : ∀ (u v : List Nat), n ∉ u → n ∉ v → u ++ n :: b = v ++ n :: rest → b = rest := by
    intro u
    induction u with
    | nil =>
      intro v _ hv e
      cases v with
      | nil => simpa using e
      | cons y v => simp only [List.nil_append, List.cons_append, List.cons.injEq] at e; exact absurd (by simp [e.1]) hv
    | cons y u ih =>
      intro v hu hv e
      cases v with
      | nil => simp only [List.nil_append, List.cons_append, List.cons.injEq] at e; exact absurd (by simp [e.1]) hu
      | cons z v =>
        simp only [List.cons_append, List.cons.injEq] at e
        exact ih v (fun h => hu (by simp [h])) (fun h => hv (by simp [h])) e.2
  rw [key _ _ h1 h2 e]

/-- While a packet is kept, just what has been stored after it is kept behind it. -/
theorem exact (M : Nat) (p q : List Ev) (n t : Nat) (hn : PackStored M p n t) (hk : n ∈ keptPackets (run M (p ++ q))) :
    ∃ pre, keptPackets (run M (p ++ q)) = pre ++ n :: packStores M p q := by
  induction q using snocRec with
  | nil =>
    obtain ⟨h', rfl, hn'⟩ := stored_step M p n t hn
    rw [List.append_nil, run_snoc]
    simp only [step, hn', act, keptPackets, List.map_append, List.map_cons, List.map_nil, packStores]
    exact ⟨_, rfl⟩
  | append_singleton q e ih =>
    rw [← List.append_assoc] at hk ⊢
    have hd := (stored_after M p q n t hn).1
    obtain ⟨pre, ih⟩ := ih (Classical.byContradiction fun h => (gone M _ e n hd h).2 hk)
    rw [packStores_snoc]
    rw [run_snoc] at hk ⊢
    cases e with
    | tick d => exact ⟨pre, by simpa [packStores, step, keptPackets] using ih⟩
    | cast => exact ⟨pre, by simpa [packStores, step, keptPackets] using ih⟩
    | timer => exact ⟨pre, by simpa [packStores, step, keptPackets] using ih⟩
    | adv j =>
      simp only [step, packStores] at hk ⊢
      cases ha : (run M (p ++ q)).tasks[j]? with
      | none => exact ⟨pre, by simpa using ih⟩
      | some a =>
        simp only [ha] at hk
        cases a with
        | stamp => exact ⟨pre, by simpa [act, keptPackets] using ih⟩
        | stored => exact ⟨pre, by simpa [act, keptPackets] using ih⟩
        | clean => exact ⟨pre, by simpa [act, keptPackets] using ih⟩
        | cleaned => exact ⟨pre, by simpa [act, keptPackets] using ih⟩
        | push t =>
          refine ⟨pre, ?_⟩
          simp only [act, keptPackets, List.map_append] at ih ⊢
          simp [ih]
        | splice start =>
          obtain ⟨pre', h⟩ := split_suffix ((prune_suffix M start _).map _) (nodup_run M _) ih hk
          exact ⟨pre', by simpa [act, keptPackets] using h⟩

end Verif.PackRace
