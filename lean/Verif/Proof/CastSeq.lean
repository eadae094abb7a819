import Verif.Proof.CastRace
import Verif.Spec.CastSeq

/-! A broadcast of `Model/CastRace` during which nothing else happens does what `apply` of `Model/Adapter` does. -/

namespace Verif.CastRace
open Verif Verif.Spec Verif.World

/-- `n` steps of the broadcast. -/
def advs : Nat → St → St
  | 0, s => s
  | n + 1, s => advs n (step s .adv)

def Leads (s s' : St) : Prop := ∃ n, advs n s = s'

theorem advs_add (n m : Nat) (s : St) : advs (n + m) s = advs m (advs n s) := by
  induction n generalizing s with
  | zero => simp [advs]
  | succ n ih => rw [Nat.succ_add]; exact ih _

theorem Leads.refl (s : St) : Leads s s := ⟨0, rfl⟩

theorem Leads.trans {s t u : St} : Leads s t → Leads t u → Leads s u := by
  rintro ⟨n, rfl⟩ ⟨m, rfl⟩; exact ⟨n + m, advs_add _ _ _⟩

theorem Leads.next {s t : St} (h : Leads (step s .adv) t) : Leads s t := by
  obtain ⟨n, e⟩ := h; exact ⟨n + 1, e⟩

theorem advs_run (n : Nat) (s : St) : (List.replicate n Ev.adv).foldl step s = advs n s := by
  induction n generalizing s with
  | zero => rfl
  | succ n ih => simpa [List.replicate_succ, advs] using ih _

theorem advs_idle (n : Nat) (s : St) (h : s.pc = .idle) : advs n s = s := by
  induction n with
  | zero => rfl
  | succ n ih =>
    have : step s .adv = s := by
      have e : (act s s.pc) = (s, .idle) := by rw [h]; rfl
      simp only [step, e]
      rw [← h]
    rw [advs, this]; exact ih

theorem advs_unique {n m : Nat} {s : St} (h : (advs n s).pc = .idle) (h' : (advs m s).pc = .idle) : advs n s = advs m s := by
  rcases Nat.le_total n m with hl | hl
  · obtain ⟨d, rfl⟩ := Nat.exists_eq_add_of_le hl
    rw [advs_add, advs_idle _ _ h]
  · obtain ⟨d, rfl⟩ := Nat.exists_eq_add_of_le hl
    rw [advs_add, advs_idle _ _ h']

theorem once_nodup {l : List Nat} (h : l.Nodup) : once l = l := by
  induction l with
  | nil => rfl
  | cons a l ih =>
    obtain ⟨h1, h2⟩ := List.nodup_cons.1 h
    simp only [once, ih h2, List.cons.injEq, true_and]
    exact List.filter_eq_self.2 fun x hx => by simpa using fun e : x = a => h1 (e ▸ hx)

theorem once_append (l m : List Nat) : once (l ++ m) = once l ++ (once m).filter (fun x => decide (x ∉ l)) := by
  induction l with
  | nil => simp [once]; exact (List.filter_eq_self.2 (by simp)).symm
  | cons a l ih =>
    simp only [List.cons_append, once, ih, List.filter_append, List.filter_filter, List.cons_append, List.cons.injEq, true_and]
    congr 1
    apply List.filter_congr
    intro x _
    by_cases h1 : x = a <;> by_cases h2 : x ∈ l <;> simp [h1, h2]

theorem mem_once {l : List Nat} {x : Nat} (h : x ∈ once l) : x ∈ l := by
  induction l with
  | nil => exact h
  | cons a l ih =>
    rcases List.mem_cons.1 h with h | h
    · exact h ▸ List.mem_cons_self
    · exact List.mem_cons_of_mem _ (ih (List.mem_filter.1 h).1)

theorem once_cover {l m : List Nat} (h : l.Nodup) (hm : ∀ x ∈ m, x ∈ l) : once (l ++ m) = l := by
  rw [once_append, once_nodup h, List.filter_eq_nil_iff.2, List.append_nil]
  intro x hx
  simpa using hm x (mem_once hx)

variable {τ : Type} {ρ : Nat → Room} {σ : Nat → Sid} {V : Adapter.View Unit τ}

theorem adv_eq (s : St) (pc : PC) : step { s with pc := pc } .adv = { (act { s with pc := pc } pc).1 with pc := (act { s with pc := pc } pc).2 } := rfl

/-- The rooms to leave out. -/
theorem leads_x (hσ : ∀ i j, σ i = σ j → i = j) {s : St} (A : SameTables ρ σ V s) (ex rooms : List Nat) (acc : List Nat) (a : List Sid)
    (ha : ∀ id, σ id ∈ a ↔ id ∈ acc) :
    ∃ acc', Leads { s with pc := .x ex rooms acc } { s with pc := .x [] rooms acc' } ∧
      ∀ id, σ id ∈ (ex.map ρ).foldl (Adapter.exceptStep (V.ad ())) a ↔ id ∈ acc' := by
  induction ex generalizing acc a with
  | nil => exact ⟨acc, .refl _, ha⟩
  | cons q ex ih =>
    simp only [List.map_cons, List.foldl_cons, Adapter.exceptStep, A.rooms]
    cases hq : s.tab.rooms q with
    | none =>
      obtain ⟨acc', h1, h2⟩ := ih acc a ha
      refine ⟨acc', .next ?_, by simpa using h2⟩
      rw [adv_eq]; simp only [act, hq]; exact h1
    | some t =>
      obtain ⟨acc', h1, h2⟩ := ih (acc ++ s.tab.rset t) (LSet.addAll a ((s.tab.rset t).map σ)) (by
        intro id
        rw [LSet.mem_addAll, ha, List.mem_append, List.mem_map]
        constructor
        · rintro (h | ⟨j, hj, e⟩)
          · exact .inl h
          · exact .inr (hσ _ _ e ▸ hj)
        · rintro (h | h)
          · exact .inl h
          · exact .inr ⟨id, h, rfl⟩)
      refine ⟨acc', .next ?_, by simpa using h2⟩
      rw [adv_eq]; simp only [act, hq]
      refine .next ?_
      rw [adv_eq]; simp only [act]; exact h1

theorem mem_map_inj (hσ : ∀ i j, σ i = σ j → i = j) (l : List Nat) (id : Nat) : σ id ∈ l.map σ ↔ id ∈ l := by
  rw [List.mem_map]
  exact ⟨fun ⟨j, hj, e⟩ => hσ _ _ e ▸ hj, fun h => ⟨id, h, rfl⟩⟩

/-- The sockets of one room. -/
theorem leads_ri (hσ : ∀ i j, σ i = σ j → i = j) {s : St} (A : SameTables ρ σ V s) (keys rooms acc done : List Nat) (a : List Sid)
    (ha : ∀ id, σ id ∈ a ↔ id ∈ acc) :
    ∃ done', Leads { s with pc := .ri keys rooms acc done, sent := done } { s with pc := .r rooms acc done', sent := done' } ∧
      Adapter.applyIds V (fun s _ => s) a (keys.map σ) ((), done.map σ) = ((), done'.map σ) := by
  induction keys generalizing done with
  | nil => exact ⟨done, .next (.refl _), rfl⟩
  | cons id keys ih =>
    simp only [List.map_cons, Adapter.applyIds, mem_map_inj hσ, ha]
    by_cases hd : id ∈ done ∨ id ∈ acc
    · obtain ⟨d', h1, h2⟩ := ih done
      refine ⟨d', .next ?_, by rw [if_pos hd]; exact h2⟩
      simp only [step, act, if_pos hd]; exact h1
    · have hr := A.reg id
      cases hs : V.sock () (σ id) with
      | none =>
        rw [hs] at hr
        obtain ⟨d', h1, h2⟩ := ih done
        refine ⟨d', .next ?_, by rw [if_neg hd]; exact h2⟩
        simp only [step, act, if_neg hd, ← hr]; exact h1
      | some x =>
        rw [hs] at hr
        obtain ⟨d', h1, h2⟩ := ih (done ++ [id])
        refine ⟨d', .next ?_, by rw [if_neg hd]; simpa using h2⟩
        simp only [step, act, if_neg hd, ← hr, Option.isSome_some, if_true]; exact h1

/-- The rooms. -/
theorem leads_r (hσ : ∀ i j, σ i = σ j → i = j) {s : St} (A : SameTables ρ σ V s) (rooms acc done : List Nat) (a : List Sid)
    (ha : ∀ id, σ id ∈ a ↔ id ∈ acc) :
    ∃ done', Leads { s with pc := .r rooms acc done, sent := done } { s with pc := .idle, sent := done' } ∧
      Adapter.applyRooms V (fun s _ => s) a (rooms.map ρ) ((), done.map σ) = ((), done'.map σ) := by
  induction rooms generalizing done with
  | nil => exact ⟨done, .next (.refl _), rfl⟩
  | cons q rooms ih =>
    simp only [List.map_cons, Adapter.applyRooms, A.rooms]
    cases hq : s.tab.rooms q with
    | none =>
      obtain ⟨d', h1, h2⟩ := ih done
      refine ⟨d', .next ?_, by simpa using h2⟩
      simp only [step, act, hq]; exact h1
    | some t =>
      obtain ⟨d1, h1, h2⟩ := leads_ri hσ A (s.tab.rset t) rooms acc done a ha
      obtain ⟨d', h3, h4⟩ := ih d1
      refine ⟨d', .next ?_, by simp only [Option.map_some, h2]; exact h4⟩
      simp only [step, act, hq]
      refine .next ?_
      simp only [step, act]
      exact h1.trans h3

/-- All sockets. -/
theorem leads_all {s : St} (A : SameTables ρ σ V s) (keys acc done : List Nat) (a : List Sid)
    (ha : ∀ id, σ id ∈ a ↔ id ∈ acc) :
    ∃ done', Leads { s with pc := .all keys acc, sent := done } { s with pc := .idle, sent := done' } ∧
      Adapter.applyAll V (fun s _ => s) a (keys.map σ) ((), done.map σ) = ((), done'.map σ) := by
  induction keys generalizing done with
  | nil => exact ⟨done, .next (.refl _), rfl⟩
  | cons id keys ih =>
    simp only [List.map_cons, Adapter.applyAll, ha]
    have hi := A.sids id
    have hr := A.reg id
    by_cases hc : (s.tab.sids id).isSome ∧ id ∉ acc ∧ s.reg id
    · obtain ⟨d', h1, h2⟩ := ih (done ++ [id])
      refine ⟨d', .next ?_, ?_⟩
      · simp only [step, act, if_pos hc]; exact h1
      · obtain ⟨c1, c2, c3⟩ := hc
        rw [c1] at hi; rw [c3] at hr
        obtain ⟨x, hx⟩ := Option.isSome_iff_exists.1 hi
        obtain ⟨y, hy⟩ := Option.isSome_iff_exists.1 hr
        simp only [hx, hy, if_neg c2]
        simpa using h2
    · obtain ⟨d', h1, h2⟩ := ih done
      refine ⟨d', .next ?_, ?_⟩
      · simp only [step, act, if_neg hc]; exact h1
      · cases hx : (V.ad ()).sids.get? (σ id) with
        | none => exact h2
        | some x =>
          by_cases c2 : id ∈ acc
          · simp only [if_pos c2]; exact h2
          · cases hy : V.sock () (σ id) with
            | none => simp only [if_neg c2]; exact h2
            | some y =>
              rw [hx] at hi; rw [hy] at hr
              exact absurd ⟨hi.symm, c2, hr.symm⟩ hc

/-- The whole broadcast. -/
theorem leads_cast (hσ : ∀ i j, σ i = σ j → i = j) {s : St} (A : SameTables ρ σ V s) (hp : s.pc = .idle) (rooms except order : List Nat)
    (hk : (V.ad ()).sids.keys = order.map σ) (hw : (V.ad ()).sids.WF) :
    ∃ s', Leads (step s (.cast rooms except order)) s' ∧ s'.pc = .idle ∧
      s'.sent.map σ = (Adapter.apply V (some { rooms := some (rooms.map ρ), except := some (except.map ρ) }) (fun s _ => s) ()).2 := by
  have A' : SameTables ρ σ V { s with order := order, sent := [] } := ⟨A.rooms, A.sids, A.reg⟩
  obtain ⟨acc, h1, h2⟩ := leads_x hσ A' except rooms [] [] (by simp)
  rw [cast_start hp]
  cases rooms with
  | nil =>
    have hn : order.Nodup := by
      have : (order.map σ).Nodup := hk ▸ hw
      exact List.Pairwise.of_map σ (fun a b h e => h (e ▸ rfl)) this
    have hi : ∀ i, (s.tab.sids i).isSome → i ∈ order := by
      intro i h
      rw [← A.sids] at h
      have : σ i ∈ (V.ad ()).sids.keys := (FMap.mem_keys_isSome _ _).2 h
      rw [hk] at this
      exact (mem_map_inj hσ _ _).1 this
    have ho : ∀ i ∈ order, (s.tab.sids i).isSome := by
      intro i h
      rw [← A.sids]
      exact (FMap.mem_keys_isSome _ _).1 (hk ▸ (mem_map_inj hσ _ _).2 h)
    have e : once ((order ++ s.known).filter fun i => (s.tab.sids i).isSome) = order := by
      rw [List.filter_append, List.filter_eq_self.2 ho]
      exact once_cover hn fun x hx => hi x (by simpa using (List.mem_filter.1 hx).2)
    obtain ⟨d', h3, h4⟩ := leads_all A' order acc [] _ h2
    refine ⟨{ s with pc := .idle, order := order, sent := d' }, h1.trans (.next ?_), rfl, ?_⟩
    · rw [adv_eq]; simp only [act, e]; exact h3
    · simp only [Adapter.apply, Adapter.normOpts, Adapter.computeExceptSids, List.map_nil, hk]
      rw [show ((), ([] : List Sid)) = ((), [].map σ) from rfl, h4]
  | cons r rooms =>
    obtain ⟨d', h3, h4⟩ := leads_r hσ A' (r :: rooms) acc [] _ h2
    refine ⟨{ s with pc := .idle, order := order, sent := d' }, h1.trans (.next ?_), rfl, ?_⟩
    · rw [adv_eq]; simp only [act]; exact h3
    · simp only [Adapter.apply, Adapter.normOpts, Adapter.computeExceptSids, List.map_cons]
      rw [show ((), ([] : List Sid)) = ((), [].map σ) from rfl]
      simp only [List.map_cons] at h4
      rw [h4]

end Verif.CastRace
