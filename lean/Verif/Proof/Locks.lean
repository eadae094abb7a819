import Verif.Spec.Locks
import Verif.Proof.World

/-! # Calls that send return -/

namespace Verif.Locks
open Verif Verif.World Verif.Spec

/-- Steps a call has still to make. -/
def Fr.work : Fr → Nat
  | .next todo => 1 + (todo.map (·.2 + 2)).sum
  | .writing _ n todo => n + 2 + (todo.map (·.2 + 2)).sum

def work (s : St) : Nat := (s.ths.map fun l => (l.map Fr.work).sum).sum

theorem sum_set_fr (l : List (List Fr)) (k : Nat) (a b : List Fr) (h : l[k]? = some a) :
    ((l.set k b).map fun l => (l.map Fr.work).sum).sum + (a.map Fr.work).sum =
      (l.map fun l => (l.map Fr.work).sum).sum + (b.map Fr.work).sum := by
  induction l generalizing k with
  | nil => simp at h
  | cons x l ih =>
    cases k with
    | zero =>
      simp at h; subst h
      simp; omega
    | succ k =>
      simp at h
      have := ih k h
      simp only [List.set_cons_succ, List.map_cons, List.sum_cons]
      omega

/-- A turn does nothing, or is one step less to do. -/
theorem adv_work (s : St) (k : Nat) : step s (.adv k) = s ∨ work (step s (.adv k)) + 1 = work s := by
  simp only [step]
  split
  · rename_i f rest h
    have key : ∀ b, work { s with ths := s.ths.set k b } + (f.work + (rest.map Fr.work).sum) = work s + (b.map Fr.work).sum := by
      intro b
      have := sum_set_fr s.ths k (f :: rest) b h
      simpa [work] using this
    cases f with
    | next todo =>
      cases todo with
      | nil => right; have := key rest; simp [act, Fr.work] at this ⊢; omega
      | cons x todo =>
        obtain ⟨c, n⟩ := x
        simp only [act]
        split
        · exact .inl rfl
        · right; have := key (.writing c n todo :: rest); simp [Fr.work, work] at this ⊢; omega
    | writing c n todo =>
      cases n with
      | zero => right; have := key (.next todo :: rest); simp [act, Fr.work, work] at this ⊢; omega
      | succ n => right; have := key (.writing c n todo :: rest); simp [act, Fr.work] at this ⊢; omega
  · exact .inl rfl

/-- The clients a call has still to write to, or is writing to. -/
def Fr.wants : Fr → List Nat
  | .next todo => todo.map (·.1)
  | .writing c _ todo => c :: todo.map (·.1)

/-- What a call wants comes after what the calls around it have locked. -/
def Up (rank : Nat → Nat) : List Fr → Prop
  | [] => True
  | f :: rest => (∀ d ∈ f.wants, ∀ c n t, .writing c n t ∈ rest → rank c < rank d) ∧ Up rank rest

/-- Whoever has locked a mutex is writing, and goes up. -/
structure Inv (rank : Nat → Nat) (s : St) : Prop where
  held : ∀ (c : Nat), s.lock c = true → ∃ (k : Nat) (l : List Fr) (n : Nat) (t : List (Nat × Nat)), s.ths[k]? = some l ∧ .writing c n t ∈ l
  up : ∀ (k : Nat) (l : List Fr), s.ths[k]? = some l → Up rank l

theorem set_get {l : List (List Fr)} {k i : Nat} {a b x : List Fr} (h : l[k]? = some a) (hx : (l.set k b)[i]? = some x) :
    (i = k ∧ x = b) ∨ (i ≠ k ∧ l[i]? = some x) := by
  have hlt : k < l.length := (List.getElem?_eq_some_iff.1 h).1
  rw [List.getElem?_set] at hx
  split at hx
  · rename_i e; subst e; simp [hlt] at hx; exact .inl ⟨rfl, hx.symm⟩
  · rename_i e; exact .inr ⟨fun h => e h.symm, hx⟩

/-- Goroutine `k` is in other calls afterwards, and has given up no mutex that is still locked. -/
theorem Inv.set {rank : Nat → Nat} {s : St} (i : Inv rank s) (k : Nat) (a b : List Fr) (lock : Nat → Bool) (ha : s.ths[k]? = some a)
    (hb : Up rank b) (keep : ∀ d, lock d = true → (∃ n t, .writing d n t ∈ b) ∨ s.lock d = true ∧ ∀ n t, .writing d n t ∈ a → ∃ n t, .writing d n t ∈ b) :
    Inv rank { s with ths := s.ths.set k b, lock := lock } := by
  have hlt := (List.getElem?_eq_some_iff.1 ha).1
  refine ⟨?_, ?_⟩
  · intro d hd
    rcases keep d hd with ⟨n, t, hm⟩ | ⟨hs, hm⟩
    · exact ⟨k, b, n, t, List.getElem?_set_self hlt, hm⟩
    · obtain ⟨j, l, n, t, hj, hw⟩ := i.held d hs
      by_cases e : k = j
      · subst e; rw [ha] at hj; cases hj
        obtain ⟨n, t, hm⟩ := hm n t hw
        exact ⟨k, b, n, t, List.getElem?_set_self hlt, hm⟩
      · exact ⟨j, l, n, t, by show (s.ths.set k b)[j]? = _; rw [List.getElem?_set_ne e]; exact hj, hw⟩
  · intro j l hl
    rcases set_get ha hl with ⟨_, rfl⟩ | ⟨_, hl⟩
    · exact hb
    · exact i.up j l hl

theorem inv_step {rank : Nat → Nat} {s : St} (i : Inv rank s) (e : Ev)
    (he : ∀ k p c n t rest, e = .callback k p → s.ths[k]? = some (.writing c n t :: rest) → ∀ x ∈ p, rank c < rank x.1) :
    Inv rank (step s e) := by
  cases e with
  | call p =>
    refine ⟨?_, ?_⟩
    · intro c hc
      obtain ⟨k, l, n, t, h, hm⟩ := i.held c hc
      exact ⟨k, l, n, t, by simp only [step]; rw [List.getElem?_append_left (List.getElem?_eq_some_iff.1 h).1]; exact h, hm⟩
    · intro k l h
      simp only [step, List.getElem?_append] at h
      split at h
      · exact i.up k l h
      · obtain ⟨h1, h2⟩ := List.getElem?_eq_some_iff.1 h
        simp at h2; subst h2; simp [Up]
  | adv k =>
    simp only [step]
    split
    · rename_i f rest h
      have hu := i.up k _ h
      cases f with
      | next todo =>
        cases todo with
        | nil =>
          refine i.set k _ rest s.lock h hu.2 (fun d hd => .inr ⟨hd, fun n t hm => ?_⟩)
          simp at hm; exact ⟨n, t, hm⟩
        | cons x todo =>
          obtain ⟨c, n⟩ := x
          simp only [act]
          split
          · exact i
          · refine i.set k _ _ _ h ⟨fun d hd => hu.1 d (by simpa [Fr.wants] using hd), hu.2⟩ (fun d hd => ?_)
            simp only [upd_apply] at hd
            split at hd
            · rename_i e; subst e; exact .inl ⟨n, todo, by simp⟩
            · exact .inr ⟨hd, fun m t hm => ⟨m, t, by simp at hm; simp [hm]⟩⟩
      | writing c n todo =>
        cases n with
        | succ n =>
          refine i.set k _ _ _ h ⟨fun d hd => hu.1 d (by simpa [Fr.wants] using hd), hu.2⟩ (fun d hd => .inr ⟨hd, fun m t hm => ?_⟩)
          simp at hm
          rcases hm with ⟨rfl, _, _⟩ | hm
          · exact ⟨n, todo, by simp⟩
          · exact ⟨m, t, by simp [hm]⟩
        | zero =>
          refine i.set k _ _ _ h ⟨fun d hd => hu.1 d (by simp only [Fr.wants] at hd ⊢; exact List.mem_cons_of_mem _ hd), hu.2⟩ (fun d hd => ?_)
          simp only [upd_apply] at hd
          split at hd
          · cases hd
          · rename_i e
            refine .inr ⟨hd, fun m t hm => ⟨m, t, ?_⟩⟩
            simp at hm
            rcases hm with ⟨e', _, _⟩ | hm
            · exact absurd e' e
            · simp [hm]
    · exact i
  | callback k p =>
    simp only [step]
    split
    · rename_i c n todo rest h
      have hu := i.up k _ h
      have hc := he k p c _ todo rest rfl h
      refine i.set k _ _ s.lock h ⟨?_, hu⟩ (fun d hd => .inr ⟨hd, fun m t hm => ⟨m, t, List.mem_cons_of_mem _ hm⟩⟩)
      intro d hd c' n' t' hm
      simp only [Fr.wants, List.mem_map] at hd
      obtain ⟨x, hx, rfl⟩ := hd
      rcases List.mem_cons.1 hm with e | hm
      · cases e; exact hc x hx
      · exact Nat.lt_trans (hu.1 c (by simp [Fr.wants]) _ _ _ hm) (hc x hx)
    · exact i

theorem inv_advs {rank : Nat → Nat} (h : List Ev) (hr : ∀ e ∈ h, ∃ k, e = .adv k) (s : St) (i : Inv rank s) : Inv rank (h.foldl step s) := by
  induction h generalizing s with
  | nil => exact i
  | cons e h ih =>
    obtain ⟨j, rfl⟩ := hr e (by simp)
    exact ih (fun e he => hr e (by simp [he])) _ (inv_step i _ (fun k p c n t rest e => by cases e))

theorem inv_run {rank : Nat → Nat} (h : List Ev) (hn : Climbs rank h) : Inv rank (run h) := by
  induction h using snocRec with
  | nil => exact ⟨by simp [run], by simp [run]⟩
  | append_singleton h e ih =>
    have : run (h ++ [e]) = step (run h) e := by simp [run]
    rw [this]
    refine inv_step (ih fun a k p b c n t rest e' hw => hn a k p (b ++ [e]) c n t rest (by simp [e']) hw) e ?_
    rintro k p c n t rest rfl hw
    exact hn h k p [] c n t rest rfl hw

/-- What a goroutine is about to lock, as a number. -/
def wish (rank : Nat → Nat) : List Fr → Nat
  | .next ((c, _) :: _) :: _ => rank c
  | _ => 0

theorem wish_le (rank : Nat → Nat) (T : List (List Fr)) (l : List Fr) (h : l ∈ T) : wish rank l ≤ (T.map (wish rank)).sum := by
  induction T with
  | nil => cases h
  | cons x T ih =>
    simp only [List.map_cons, List.sum_cons]
    rcases List.mem_cons.1 h with rfl | h
    · omega
    · have := ih h; omega

/-- Whoever has not returned waits for somebody who can go on. -/
theorem someone {rank : Nat → Nat} {s : St} (i : Inv rank s) (k : Nat) (hk : k < s.ths.length) (hb : ¬ Back s k) :
    ∃ j, j < s.ths.length ∧ work (step s (.adv j)) + 1 = work s := by
  have go : ∀ (j : Nat) (l : List Fr), s.ths[j]? = some l → step s (.adv j) ≠ s → ∃ j, j < s.ths.length ∧ work (step s (.adv j)) + 1 = work s :=
    fun j l hj hne => ⟨j, (List.getElem?_eq_some_iff.1 hj).1, (adv_work s j).resolve_left hne⟩
  have len : ∀ (f : Fr) (r : List Fr), ¬ r = f :: r := fun f r e => by have := congrArg List.length e; simp at this
  have main : ∀ (m k : Nat) (l : List Fr), s.ths[k]? = some l → l ≠ [] → (s.ths.map (wish rank)).sum - wish rank l = m →
      ∃ j, j < s.ths.length ∧ work (step s (.adv j)) + 1 = work s := by
    intro m
    induction m using Nat.strongRecOn with
    | ind m ih =>
      intro k l hl hne hm
      have hlt := (List.getElem?_eq_some_iff.1 hl).1
      cases l with
      | nil => exact absurd rfl hne
      | cons f rest =>
        cases f with
        | writing c n t =>
          refine go k _ hl fun heq => ?_
          have h2 := congrArg (fun s => s.ths[k]?) heq
          cases n <;> (simp only [step, hl, act, List.getElem?_set_self hlt] at h2; simp at h2)
        | next todo =>
          cases todo with
          | nil =>
            refine go k _ hl fun heq => ?_
            have h2 := congrArg (fun s => s.ths[k]?) heq
            simp only [step, hl, act, List.getElem?_set_self hlt, Option.some.injEq] at h2
            exact len _ _ h2
          | cons x todo =>
            obtain ⟨c, n⟩ := x
            cases hc : s.lock c with
            | false =>
              refine go k _ hl fun heq => ?_
              have h2 := congrArg (fun s => s.ths[k]?) heq
              simp only [step, hl, act, hc, Bool.false_eq_true, if_false, List.getElem?_set_self hlt] at h2; simp at h2
            | true =>
              obtain ⟨j, l, n', t, hj, hw⟩ := i.held c hc
              have hlt' := (List.getElem?_eq_some_iff.1 hj).1
              have up := i.up j l hj
              cases l with
              | nil => cases hw
              | cons g rest' =>
                cases g with
                | writing c' n'' t' =>
                  refine go j _ hj fun heq => ?_
                  have h2 := congrArg (fun s => s.ths[j]?) heq
                  cases n'' <;> (simp only [step, hj, act, List.getElem?_set_self hlt'] at h2; simp at h2)
                | next todo' =>
                  cases todo' with
                  | nil =>
                    refine go j _ hj fun heq => ?_
                    have h2 := congrArg (fun s => s.ths[j]?) heq
                    simp only [step, hj, act, List.getElem?_set_self hlt', Option.some.injEq] at h2
                    exact len _ _ h2
                  | cons y todo' =>
                    obtain ⟨d, n''⟩ := y
                    have hw' : Fr.writing c n' t ∈ rest' := by simpa using hw
                    have hr : rank c < rank d := up.1 d (by simp [Fr.wants]) c n' t hw'
                    have hle := wish_le rank s.ths _ (List.mem_of_getElem? hj)
                    simp only [wish] at hm hle
                    exact ih ((s.ths.map (wish rank)).sum - rank d) (by omega) j _ hj (by simp) rfl
  have hsome : s.ths[k]? = some s.ths[k] := List.getElem?_eq_getElem hk
  exact main _ k _ hsome (fun e => hb (by rw [Back, hsome, e])) rfl

theorem advs_length (r : List Ev) (hr : ∀ e ∈ r, ∃ k, e = .adv k) (s : St) : (r.foldl step s).ths.length = s.ths.length := by
  induction r generalizing s with
  | nil => rfl
  | cons e r ih =>
    obtain ⟨k, rfl⟩ := hr e (by simp)
    simp only [List.foldl_cons]
    rw [ih (fun e he => hr e (by simp [he]))]
    simp only [step]
    split
    · rename_i f rest _
      cases f with
      | next todo =>
        cases todo with
        | nil => simp [act]
        | cons x todo => simp only [act]; split <;> simp
      | writing c n t => cases n <;> simp [act]
    · rfl

theorem advs_work (r : List Ev) (hr : ∀ e ∈ r, ∃ k, e = .adv k) (s : St) : work (r.foldl step s) ≤ work s := by
  induction r generalizing s with
  | nil => exact Nat.le_refl _
  | cons e r ih =>
    obtain ⟨k, rfl⟩ := hr e (by simp)
    refine Nat.le_trans (ih (fun e he => hr e (by simp [he])) _) ?_
    rcases adv_work s k with h | h
    · rw [h]; exact Nat.le_refl _
    · omega

/-- If some turn of the round would be a step, the round does something. -/
theorem round_works (r : List Ev) (hr : ∀ e ∈ r, ∃ k, e = .adv k) (s : St) (j : Nat) (hj : .adv j ∈ r)
    (hs : work (step s (.adv j)) + 1 = work s) : work (r.foldl step s) + 1 ≤ work s := by
  induction r generalizing s with
  | nil => cases hj
  | cons e r ih =>
    obtain ⟨k, rfl⟩ := hr e (by simp)
    have hr' : ∀ e ∈ r, ∃ k, e = .adv k := fun e he => hr e (by simp [he])
    simp only [List.foldl_cons]
    rcases adv_work s k with h | h
    · rw [h]
      rcases List.mem_cons.1 hj with e | hm
      · cases e; rw [h] at hs; omega
      · exact ih hr' s hm hs
    · have := advs_work r hr' (step s (.adv k))
      omega

theorem rounds_end (rank : Nat → Nat) (n : Nat) : ∀ (rounds : List (List Ev)) (s : St), Inv rank s → s.ths.length = n → (∀ r ∈ rounds, Round n r) →
    work s ≤ rounds.length → ∀ k < n, Back (rounds.flatten.foldl step s) k := by
  intro rounds
  induction rounds with
  | nil =>
    intro s i hl _ hw k hk
    simp only [List.flatten_nil, List.foldl_nil]
    refine Classical.byContradiction fun hb => ?_
    obtain ⟨j, _, h⟩ := someone i k (hl ▸ hk) hb
    simp at hw
    omega
  | cons r rounds ih =>
    intro s i hl hr hw k hk
    simp only [List.flatten_cons, List.foldl_append]
    have hrd := hr r (by simp)
    have hi' : Inv rank (r.foldl step s) := inv_advs r hrd.2 s i
    refine ih _ hi' (by rw [advs_length r hrd.2]; exact hl) (fun r' hr' => hr r' (by simp [hr'])) ?_ k hk
    by_cases hz : ∀ k < n, Back s k
    · have h0 : work s = 0 := by
        have : ∀ l ∈ s.ths, l = [] := by
          intro l hm
          obtain ⟨j, hj, rfl⟩ := List.mem_iff_getElem.1 hm
          have := hz j (hl ▸ hj)
          simp only [Back, List.getElem?_eq_getElem hj, Option.some.injEq] at this
          exact this
        simp only [work]
        generalize s.ths = T at this
        induction T with
        | nil => rfl
        | cons x T ihT => simp [this x (by simp), ihT (fun l hl => this l (by simp [hl]))]
      have := advs_work r hrd.2 s
      omega
    · simp only [Classical.not_forall] at hz
      obtain ⟨k', hk', hb⟩ := hz
      obtain ⟨j, hj, h⟩ := someone i k' (hl ▸ hk') hb
      have := round_works r hrd.2 s j (hrd.1 j (hl ▸ hj)) h
      simp only [List.length_cons] at hw
      omega

/-- Goroutine 0 waits for itself. -/
structure Stuck (s : St) : Prop where
  top : s.ths[0]? = some [.next [(0, 1)], .writing 0 1 []]
  locked : s.lock 0 = true
  others : ∀ (k : Nat) (l : List Fr), k ≠ 0 → s.ths[k]? = some l → ∀ c n td, .writing c n td ∈ l → c ≠ 0

theorem Stuck.set {s : St} (h : Stuck s) (k : Nat) (hk : k ≠ 0) (a b : List Fr) (ha : s.ths[k]? = some a)
    (hb : ∀ c n td, .writing c n td ∈ b → c ≠ 0) (lock : Nat → Bool) (hl : lock 0 = true) :
    Stuck { s with ths := s.ths.set k b, lock := lock } := by
  refine ⟨?_, hl, ?_⟩
  · show (s.ths.set k b)[0]? = _
    rw [List.getElem?_set_ne hk]; exact h.top
  · intro j l hj hl
    rcases set_get ha hl with ⟨_, rfl⟩ | ⟨_, hl⟩
    · exact hb
    · exact h.others j l hj hl

theorem stuck_step {s : St} (h : Stuck s) (e : Ev) : Stuck (step s e) := by
  cases e with
  | call p =>
    refine ⟨?_, h.locked, ?_⟩
    · simp only [step]
      rw [List.getElem?_append_left (List.getElem?_eq_some_iff.1 h.top).1]; exact h.top
    · intro k l hk hl c n td hm
      simp only [step, List.getElem?_append] at hl
      split at hl
      · exact h.others k l hk hl c n td hm
      · obtain ⟨h1, h2⟩ := List.getElem?_eq_some_iff.1 hl
        simp at h2; subst h2; simp at hm
  | adv k =>
    simp only [step]
    split
    · rename_i f rest hf
      by_cases hk : k = 0
      · subst hk
        rw [h.top] at hf
        simp at hf
        obtain ⟨rfl, rfl⟩ := hf
        simp [act, h.locked]
        exact h
      · have hall := h.others k _ hk hf
        have hrest : ∀ c n td, .writing c n td ∈ rest → c ≠ 0 := fun c n td hm => hall c n td (by simp [hm])
        cases f with
        | next todo =>
          cases todo with
          | nil => exact h.set k hk _ rest hf hrest s.lock h.locked
          | cons x todo =>
            obtain ⟨c, n⟩ := x
            simp only [act]
            split
            · exact h
            · rename_i hc
              have hc0 : c ≠ 0 := by rintro rfl; exact hc h.locked
              refine h.set k hk _ _ hf ?_ _ (by rw [upd_ne _ _ hc0.symm]; exact h.locked)
              intro d m td hm
              rcases List.mem_cons.1 hm with e | hm
              · cases e; exact hc0
              · exact hrest d m td hm
        | writing c n todo =>
          have hc0 : c ≠ 0 := hall c n todo (by simp)
          cases n with
          | succ n =>
            refine h.set k hk _ _ hf ?_ s.lock h.locked
            intro d m td hm
            rcases List.mem_cons.1 hm with e | hm
            · cases e; exact hc0
            · exact hrest d m td hm
          | zero =>
            refine h.set k hk _ _ hf ?_ _ (by rw [upd_ne _ _ hc0.symm]; exact h.locked)
            intro d m td hm
            rcases List.mem_cons.1 hm with e | hm
            · cases e
            · exact hrest d m td hm
    · exact h
  | callback k p =>
    simp only [step]
    split
    · rename_i c n todo rest hf
      by_cases hk : k = 0
      · subst hk
        rw [h.top] at hf
        simp at hf
      · refine h.set k hk _ _ hf ?_ s.lock h.locked
        intro d m td hm
        rcases List.mem_cons.1 hm with e | hm
        · cases e
        · exact h.others k _ hk hf d m td hm
    · exact h

theorem stuck_fold (t : List Ev) (s : St) (h : Stuck s) : Stuck (t.foldl step s) := by
  induction t generalizing s with
  | nil => exact h
  | cons e t ih => exact ih _ (stuck_step h e)

/-- Whoever wants to write to client 0 then waits with it. -/
theorem waits_step {s : St} (h : Stuck s) (k n : Nat) (p : List (Nat × Nat)) (hk : s.ths[k]? = some [.next ((0, n) :: p)]) (e : Ev) :
    (step s e).ths[k]? = some [.next ((0, n) :: p)] := by
  have hlt := (List.getElem?_eq_some_iff.1 hk).1
  cases e with
  | call q => simp only [step]; rw [List.getElem?_append_left hlt]; exact hk
  | adv j =>
    simp only [step]
    split
    · rename_i f rest hf
      by_cases hj : j = k
      · subst hj
        rw [hk] at hf
        simp at hf
        obtain ⟨rfl, rfl⟩ := hf
        simp only [act, h.locked, if_true]
        exact hk
      · cases f with
        | next todo =>
          cases todo with
          | nil => simp only [act]; rw [List.getElem?_set_ne hj]; exact hk
          | cons x todo =>
            simp only [act]
            split
            · exact hk
            · simp only []; rw [List.getElem?_set_ne hj]; exact hk
        | writing c m todo => cases m <;> simp only [act] <;> rw [List.getElem?_set_ne hj] <;> exact hk
    · exact hk
  | callback j q =>
    simp only [step]
    split
    · rename_i c m todo rest hf
      have hj : j ≠ k := by rintro rfl; rw [hk] at hf; simp at hf
      simp only []
      rw [List.getElem?_set_ne hj]; exact hk
    · exact hk

theorem waits_fold (t : List Ev) (s : St) (h : Stuck s) (k n : Nat) (p : List (Nat × Nat)) (hk : s.ths[k]? = some [.next ((0, n) :: p)]) :
    (t.foldl step s).ths[k]? = some [.next ((0, n) :: p)] := by
  induction t generalizing s with
  | nil => exact hk
  | cons e t ih => exact ih _ (stuck_step h e) (waits_step h k n p hk e)

/-- Goroutines 0 and 1 wait for each other. -/
structure Crossed (s : St) : Prop where
  zero : s.ths[0]? = some [.next [(1, 1)], .writing 0 1 []]
  one : s.ths[1]? = some [.next [(0, 1)], .writing 1 1 []]
  lock0 : s.lock 0 = true
  lock1 : s.lock 1 = true
  others : ∀ (k : Nat) (l : List Fr), 1 < k → s.ths[k]? = some l → ∀ c n td, .writing c n td ∈ l → 1 < c

theorem Crossed.set {s : St} (h : Crossed s) (k : Nat) (hk : 1 < k) (a b : List Fr) (ha : s.ths[k]? = some a)
    (hb : ∀ c n td, .writing c n td ∈ b → 1 < c) (lock : Nat → Bool) (h0 : lock 0 = true) (h1 : lock 1 = true) :
    Crossed { s with ths := s.ths.set k b, lock := lock } := by
  refine ⟨?_, ?_, h0, h1, ?_⟩
  · show (s.ths.set k b)[0]? = _
    rw [List.getElem?_set_ne (by omega)]; exact h.zero
  · show (s.ths.set k b)[1]? = _
    rw [List.getElem?_set_ne (by omega)]; exact h.one
  · intro j l hj hl
    rcases set_get ha hl with ⟨_, rfl⟩ | ⟨_, hl⟩
    · exact hb
    · exact h.others j l hj hl

theorem crossed_step {s : St} (h : Crossed s) (e : Ev) : Crossed (step s e) := by
  cases e with
  | call p =>
    refine ⟨?_, ?_, h.lock0, h.lock1, ?_⟩
    · simp only [step]
      rw [List.getElem?_append_left (List.getElem?_eq_some_iff.1 h.zero).1]; exact h.zero
    · simp only [step]
      rw [List.getElem?_append_left (List.getElem?_eq_some_iff.1 h.one).1]; exact h.one
    · intro k l hk hl c n td hm
      simp only [step, List.getElem?_append] at hl
      split at hl
      · exact h.others k l hk hl c n td hm
      · obtain ⟨h1, h2⟩ := List.getElem?_eq_some_iff.1 hl
        simp at h2; subst h2; simp at hm
  | adv k =>
    simp only [step]
    split
    · rename_i f rest hf
      by_cases hk : 1 < k
      · have hall := h.others k _ hk hf
        have hrest : ∀ c n td, .writing c n td ∈ rest → 1 < c := fun c n td hm => hall c n td (by simp [hm])
        cases f with
        | next todo =>
          cases todo with
          | nil => exact h.set k hk _ rest hf hrest s.lock h.lock0 h.lock1
          | cons x todo =>
            obtain ⟨c, n⟩ := x
            simp only [act]
            split
            · exact h
            · rename_i hc
              have hc0 : c ≠ 0 := by rintro rfl; exact hc h.lock0
              have hc1 : c ≠ 1 := by rintro rfl; exact hc h.lock1
              refine h.set k hk _ _ hf ?_ _ (by rw [upd_ne _ _ hc0.symm]; exact h.lock0) (by rw [upd_ne _ _ hc1.symm]; exact h.lock1)
              intro d m td hm
              rcases List.mem_cons.1 hm with e | hm
              · cases e; omega
              · exact hrest d m td hm
        | writing c n todo =>
          have hc : 1 < c := hall c n todo (by simp)
          cases n with
          | succ n =>
            refine h.set k hk _ _ hf ?_ s.lock h.lock0 h.lock1
            intro d m td hm
            rcases List.mem_cons.1 hm with e | hm
            · cases e; exact hc
            · exact hrest d m td hm
          | zero =>
            refine h.set k hk _ _ hf ?_ _ (by rw [upd_ne _ _ (by omega)]; exact h.lock0) (by rw [upd_ne _ _ (by omega)]; exact h.lock1)
            intro d m td hm
            rcases List.mem_cons.1 hm with e | hm
            · cases e
            · exact hrest d m td hm
      · rcases (by omega : k = 0 ∨ k = 1) with rfl | rfl
        · rw [h.zero] at hf
          simp at hf
          obtain ⟨rfl, rfl⟩ := hf
          simp [act, h.lock1]
          exact h
        · rw [h.one] at hf
          simp at hf
          obtain ⟨rfl, rfl⟩ := hf
          simp [act, h.lock0]
          exact h
    · exact h
  | callback k p =>
    simp only [step]
    split
    · rename_i c n todo rest hf
      by_cases hk : 1 < k
      · refine h.set k hk _ _ hf ?_ s.lock h.lock0 h.lock1
        intro d m td hm
        rcases List.mem_cons.1 hm with e | hm
        · cases e
        · exact h.others k _ hk hf d m td hm
      · rcases (by omega : k = 0 ∨ k = 1) with rfl | rfl
        · rw [h.zero] at hf; simp at hf
        · rw [h.one] at hf; simp at hf
    · exact h

theorem crossed_fold (t : List Ev) (s : St) (h : Crossed s) : Crossed (t.foldl step s) := by
  induction t generalizing s with
  | nil => exact h
  | cons e t ih => exact ih _ (crossed_step h e)

end Verif.Locks

