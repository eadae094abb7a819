import Verif.Proof.DynRace

namespace Verif.DynRace
open Verif Verif.Spec Verif.World

def Turn (s : St) : Prop := ∀ i j,
  (looking (s.pc i) = true → looking (s.pc j) = true → i = j) ∧
  (leaving (s.pc i) = true → looking (s.pc j) = false) ∧
  (cleaning (s.pc i) = true → entering (s.pc j) = false)

structure Ord (s : St) : Prop where
  reg : ∀ n, s.reg = some n → (s.nsp n).child = true ∧ n ∈ s.children
  gate : ∀ k n, s.pc k = .gate n ∨ s.pc k = .enter n → s.reg = some n
  socks : ∀ k n, k ∈ (s.nsp n).socks → s.reg = some n
  clean : ∀ k n, s.pc k = .close n ∨ s.pc k = .unreg n → (s.nsp n).socks = [] ∧ (s.reg = some n ∨ s.reg = none)
  look : ∀ k, s.pc k = .look → s.reg ≠ none
  leave : ∀ k n, s.pc k = .remove n ∨ s.pc k = .test n → s.reg = some n ∨ s.reg = none
  never1 : ∀ k, s.pc k ≠ .plain
  never2 : ∀ k, s.pc k ≠ .make true
  never3 : ∀ k n, s.pc k ≠ .store n true
  make : ∀ k, s.pc k = .make false → s.reg = none
  store : ∀ k n, s.pc k = .store n false → s.reg = none ∧ (s.nsp n).isOpen = true ∧ n ∈ s.children ∧ ∀ j, s.pc j ≠ .unchild n
  unchild : ∀ k n, s.pc k = .unchild n → s.reg ≠ some n

set_option maxHeartbeats 2000000 in
theorem ord_step (c : Cfg) (s : St) (e : Ev) (B : Base c s) (T : Turn s) (O : Ord s) : Ord (step c s e) := by
  obtain ⟨h1, h2, h3, h4, h5, h0, n1, n2, n3, h7, h8, h9⟩ := O
  obtain ⟨b1, b2, b3, b4, b5, b6, b7, b8, b9⟩ := B
  cases e with
  | connect k => simp only [step]; split <;> (constructor <;> (try simp only [upd_apply]) <;> grind)
  | leave k => simp only [step]; split <;> (constructor <;> (try simp only [upd_apply]) <;> grind)
  | adv k =>
    simp only [step]
    have hk := b1 k
    have t1 : looking (s.pc k) = true → ∀ j, looking (s.pc j) = true → k = j := fun h j => (T k j).1 h
    have t2 : leaving (s.pc k) = true → ∀ j, looking (s.pc j) = false := fun h j => (T k j).2.1 h
    have t2' : cleaning (s.pc k) = true → ∀ j, entering (s.pc j) = false := fun h j => (T k j).2.2 h
    have t3 : looking (s.pc k) = true → ∀ j, leaving (s.pc j) = false := fun h j => by
      cases hc : leaving (s.pc j) with
      | false => rfl
      | true => have := (T j k).2.1 hc; simp_all
    have t3' : entering (s.pc k) = true → ∀ j, cleaning (s.pc j) = false := fun h j => by
      cases hc : cleaning (s.pc j) with
      | false => rfl
      | true => have := (T j k).2.2 hc; simp_all
    have u1 : ∀ k n, s.pc k = .unchild n → n < s.next := fun k n h => b1 k n (by simp [h, about])
    have u2 : ∀ k n v, s.pc k = .store n v → n < s.next := fun k n v h => b1 k n (by simp [h, about])
    have u3 : ∀ k n, s.pc k = .close n → n < s.next := fun k n h => b1 k n (by simp [h, about])
    have u4 : ∀ k n, s.pc k = .unreg n → n < s.next := fun k n h => b1 k n (by simp [h, about])
    cases hq : s.pc k with
    | idle | inside n | gone => simp only [act]; constructor <;> (try simp only [upd_apply]) <;> grind
    | load | check =>
      simp only [act]; cases hr : s.reg <;> simp only [Option.isSome] <;> (constructor <;> (try simp only [upd_apply]) <;> grind)
    | plain => exact absurd hq (n1 k)
    | make v =>
      cases v with
      | true => exact absurd hq (n2 k)
      | false =>
        have t1 := t1 (by simp [hq, looking])
        have t3 := t3 (by simp [hq, looking])
        have := h7 k hq
        simp only [act]; constructor <;> (try simp only [upd_apply]) <;> grind [looking, leaving]
    | store n v =>
      cases v with
      | true => exact absurd hq (n3 k n)
      | false =>
        have t1 := t1 (by simp [hq, looking])
        have t3 := t3 (by simp [hq, looking])
        have := b9 k n _ hq
        obtain ⟨_, _, _, _⟩ := h8 k n hq
        simp only [act]; constructor <;> (try simp only [upd_apply]) <;> grind [looking, leaving]
    | look =>
      have := h5 k hq
      simp only [act]; cases hr : s.reg with
      | none => exact absurd hr this
      | some m => simp only; constructor <;> (try simp only [upd_apply]) <;> grind
    | gate n =>
      have := h2 k n (.inl hq)
      simp only [act]; constructor <;> (try simp only [upd_apply]) <;> grind
    | enter n =>
      have t3' := t3' (by simp [hq, entering])
      have := h2 k n (.inr hq)
      simp only [act]; constructor <;> (try simp only [upd_apply]) <;> grind [cleaning]
    | remove n => simp only [act]; constructor <;> (try simp only [upd_apply]) <;> grind
    | test n =>
      have := h0 k n (.inr hq)
      simp only [act]; split <;> (constructor <;> (try simp only [upd_apply]) <;> grind)
    | close n =>
      have t2 := t2 (by simp [hq, leaving])
      have t2' := t2' (by simp [hq, cleaning])
      have := h4 k n (.inl hq)
      simp only [act]; constructor <;> (try simp only [upd_apply]) <;> grind [looking]
    | unreg n =>
      have t2 := t2 (by simp [hq, leaving])
      have t2' := t2' (by simp [hq, cleaning])
      have := h4 k n (.inr hq)
      simp only [act]; constructor <;> (try simp only [upd_apply]) <;> grind [looking, entering]
    | unchild n =>
      have := h9 k n hq
      simp only [act]; constructor <;> (try simp only [upd_apply]) <;> grind

/-- Somebody will see to it that the namespace is removed. -/
def resp (n : Nat) : Pc → Bool
  | .look => true
  | .gate m | .enter m | .inside m | .remove m | .test m | .close m | .unreg m => m == n
  | _ => false

structure Care (s : St) : Prop where
  closed : ∀ n, s.reg = some n → (s.nsp n).isOpen = false → ∃ k, s.pc k = .unreg n
  kids : ∀ n ∈ s.children, s.reg = some n ∨ ∃ k, s.pc k = .store n false ∨ s.pc k = .unchild n
  resp : ∀ n, s.reg = some n → ∃ k, resp n (s.pc k) = true

/-- Whether the step of client `k` leaves alone what is said of the others. -/
theorem pc_other {c : Cfg} {s : St} {j k : Nat} (h : j ≠ k) : (step c s (.adv k)).pc j = s.pc j := by
  simp [step, upd_ne _ _ h]

theorem pc_self (c : Cfg) (s : St) (k : Nat) : (step c s (.adv k)).pc k = (act c s k (s.pc k)).2 := by
  simp [step, upd_same]

theorem care_step (c : Cfg) (hc : c.cleanup = true) (s : St) (e : Ev) (B : Base c s) (O : Ord s) (C : Care s) : Care (step c s e) := by
  obtain ⟨h1, h2, h3⟩ := C
  cases e with
  | connect k =>
    simp only [step]; split
    · rename_i hk
      have keep : ∀ j, s.pc j ≠ .idle → upd s.pc k .load j = s.pc j := fun j hj => by
        by_cases h : j = k
        · subst h; exact absurd hk hj
        · exact upd_ne _ _ h
      refine ⟨?_, ?_, ?_⟩
      · intro n hr ho; obtain ⟨j, hj⟩ := h1 n hr ho; exact ⟨j, by simp only [keep j (by simp [hj]), hj]⟩
      · intro n hn; rcases h2 n hn with h | ⟨j, hj⟩
        · exact .inl h
        · exact .inr ⟨j, by simp only [keep j (by rcases hj with hj | hj <;> simp [hj]), hj]⟩
      · intro n hr; obtain ⟨j, hj⟩ := h3 n hr
        exact ⟨j, by simp only [keep j (by rintro h; simp [h, DynRace.resp] at hj), hj]⟩
    · exact ⟨h1, h2, h3⟩
  | leave k =>
    have key : ∀ m, s.pc k = .inside m ∨ s.pc k = .enter m → Care { s with pc := upd s.pc k (.remove m) } := by
      intro m hk
      refine ⟨?_, ?_, ?_⟩
      · intro n hr ho; obtain ⟨j, hj⟩ := h1 n hr ho
        have : j ≠ k := by rintro rfl; simp [hj] at hk
        exact ⟨j, by simp only [upd_ne _ _ this, hj]⟩
      · intro n hn; rcases h2 n hn with h | ⟨j, hj⟩
        · exact .inl h
        · have : j ≠ k := by rintro rfl; rcases hj with hj | hj <;> simp [hj] at hk
          exact .inr ⟨j, by simp only [upd_ne _ _ this, hj]⟩
      · intro n hr; obtain ⟨j, hj⟩ := h3 n hr
        by_cases h : j = k
        · subst h
          refine ⟨j, ?_⟩
          simp only [upd_same]
          rcases hk with hk | hk <;> simpa [hk, DynRace.resp] using hj
        · exact ⟨j, by simp only [upd_ne _ _ h, hj]⟩
    simp only [step]; split
    · rename_i m hm; exact key m (.inl hm)
    · rename_i m hm; exact key m (.inr hm)
    · exact ⟨h1, h2, h3⟩
  | adv k =>
    refine ⟨?_, ?_, ?_⟩
    · -- closed
      intro n hr ho
      by_cases hcl : s.pc k = .close n
      · exact ⟨k, by rw [pc_self, hcl]; rfl⟩
      · have old : s.reg = some n ∧ (s.nsp n).isOpen = false := by
          clear h1 h2 h3
          cases hq : s.pc k with
          | store m v =>
            simp only [step, hq, act] at hr ho
            cases hr
            cases v with
            | true => exact absurd hq (O.never3 k n)
            | false => have := (O.store k n hq).2.1; simp [this] at ho
          | plain => exact absurd hq (O.never1 k)
          | make v =>
            simp only [step, hq, act, upd_apply] at hr ho
            refine ⟨hr, ?_⟩
            have := B.reg n hr
            rw [if_neg (by omega)] at ho; exact ho
          | look => simp only [step, hq, act] at hr ho; cases hx : s.reg <;> simp_all
          | close m =>
            have hne : n ≠ m := by rintro rfl; exact hcl hq
            simp only [step, hq, act, upd_ne _ _ hne] at hr ho
            exact ⟨hr, ho⟩
          | enter m | remove m =>
            simp only [step, hq, act, upd_apply] at hr ho
            refine ⟨hr, ?_⟩
            split at ho
            · rename_i h; subst h; exact ho
            · exact ho
          | unreg m => simp only [step, hq, act] at hr; cases hr
          | _ => simp only [step, hq, act] at hr ho; exact ⟨hr, ho⟩
        obtain ⟨j, hj⟩ := h1 n old.1 old.2
        by_cases h : j = k
        · subst h; simp only [step, hj, act] at hr; cases hr
        · exact ⟨j, by rw [pc_other h, hj]⟩
    · -- children
      intro n hn
      by_cases hm : ∃ v, s.pc k = .make v ∧ n = s.next
      · obtain ⟨v, hv, rfl⟩ := hm
        cases v with
        | true => exact absurd hv (O.never2 k)
        | false => exact .inr ⟨k, .inl (by rw [pc_self, hv]; rfl)⟩
      · have old : n ∈ s.children := by
          cases hq : s.pc k with
          | make v =>
            simp only [step, hq, act, List.mem_append, List.mem_singleton] at hn
            rcases hn with hn | hn
            · exact hn
            · exact absurd ⟨v, hq, hn⟩ hm
          | unchild m => simp only [step, hq, act, List.mem_filter] at hn; exact hn.1
          | look => simp only [step, hq, act] at hn; cases hx : s.reg <;> simp_all
          | _ => simp only [step, hq, act] at hn; exact hn
        rcases h2 n old with h | ⟨j, hj⟩
        · cases hq : s.pc k with
          | unreg m =>
            have := O.clean k m (.inr hq)
            rw [h] at this
            rcases this.2 with e | e <;> cases e
            exact .inr ⟨k, .inr (by rw [pc_self, hq]; rfl)⟩
          | store m v =>
            cases v with
            | true => exact absurd hq (O.never3 k m)
            | false => have := (O.store k m hq).1; rw [h] at this; cases this
          | plain => exact absurd hq (O.never1 k)
          | look => left; simp only [step, hq, act, h]
          | _ => left; simp only [step, hq, act]; exact h
        · by_cases hjk : j = k
          · subst hjk
            rcases hj with hj | hj
            · left; simp only [step, hj, act]
            · simp only [step, hj, act, List.mem_filter] at hn; simp at hn
          · exact .inr ⟨j, by rw [pc_other hjk]; exact hj⟩
    · -- somebody
      intro n hr
      by_cases hs : ∃ v, s.pc k = .store n v
      · obtain ⟨v, hv⟩ := hs
        cases v with
        | true => exact absurd hv (O.never3 k n)
        | false => exact ⟨k, by rw [pc_self, hv]; rfl⟩
      · have old : s.reg = some n := by
          cases hq : s.pc k with
          | store m v => simp only [step, hq, act] at hr; cases hr; exact absurd ⟨v, hq⟩ hs
          | plain => exact absurd hq (O.never1 k)
          | look => simp only [step, hq, act] at hr; cases hx : s.reg <;> simp_all
          | unreg m => simp only [step, hq, act] at hr; cases hr
          | _ => simp only [step, hq, act] at hr; exact hr
        obtain ⟨j, hj⟩ := h3 n old
        by_cases hjk : j = k
        · subst hjk
          cases hq : s.pc j with
          | look => exact ⟨j, by rw [pc_self, hq]; simp [act, old, DynRace.resp]⟩
          | gate m =>
            refine ⟨j, ?_⟩
            rw [pc_self, hq]
            simp only [hq, DynRace.resp] at hj
            simp only [act]; split <;> simpa [DynRace.resp] using hj
          | enter m | inside m =>
            refine ⟨j, ?_⟩
            rw [pc_self, hq]
            simp only [hq, DynRace.resp] at hj
            simpa [act, DynRace.resp] using hj
          | remove m =>
            simp only [hq, DynRace.resp, beq_iff_eq] at hj
            subst hj
            refine ⟨j, ?_⟩
            rw [pc_self, hq]
            simp [act, (O.reg m old).1, hc, DynRace.resp]
          | test m =>
            simp only [hq, DynRace.resp, beq_iff_eq] at hj
            subst hj
            by_cases he : (s.nsp m).socks = []
            · exact ⟨j, by rw [pc_self, hq]; simp [act, he, DynRace.resp]⟩
            · obtain ⟨i, hi⟩ := List.exists_mem_of_ne_nil _ he
              have hi' := B.sock i m hi
              have : i ≠ j := by rintro rfl; simp [hq] at hi'
              refine ⟨i, ?_⟩
              rw [pc_other this]
              rcases hi' with h | h <;> simp [h, DynRace.resp]
          | close m =>
            refine ⟨j, ?_⟩
            rw [pc_self, hq]
            simp only [hq, DynRace.resp] at hj
            simpa [act, DynRace.resp] using hj
          | unreg m => simp only [step, hq, act] at hr; cases hr
          | _ => simp [hq, DynRace.resp] at hj
        · exact ⟨j, by rw [pc_other hjk]; exact hj⟩

theorem ord_run (c : Cfg) (h : List Ev) (ht : DynInTurn c h) : Ord (run c h) := by
  induction h using snocRec with
  | nil => constructor <;> simp [run]
  | append_singleton h e ih =>
    rw [run_snoc]
    exact ord_step c _ e (base_run c h) (ht h [e] rfl) (ih fun h₁ h₂ he => ht h₁ (h₂ ++ [e]) (by simp [he]))

theorem care_run (c : Cfg) (hc : c.cleanup = true) (h : List Ev) (ht : DynInTurn c h) : Care (run c h) := by
  induction h using snocRec with
  | nil => constructor <;> simp [run]
  | append_singleton h e ih =>
    have ht' : DynInTurn c h := fun h₁ h₂ he => ht h₁ (h₂ ++ [e]) (by simp [he])
    rw [run_snoc]
    exact care_step c hc _ e (base_run c h) (ord_run c h ht') (ih ht')

/-- The steps that are left for a client, at most. -/
def rank : Pc → Nat
  | .load => 13
  | .check => 12
  | .make false => 11
  | .store _ false => 10
  | .look => 9
  | .make true => 8
  | .store _ true => 7
  | .plain => 7
  | .gate _ => 6
  | .remove _ => 5
  | .test _ => 4
  | .close _ => 3
  | .unreg _ => 2
  | .unchild _ => 1
  | .enter _ => 1
  | .inside _ | .gone | .idle => 0

/-- A client that is on the way out. -/
def outward : Pc → Bool
  | .remove _ | .test _ | .close _ | .unreg _ | .unchild _ | .gone => true
  | _ => false

theorem rank_act (c : Cfg) (s : St) (k : Nat) (pc : Pc) :
    rank (act c s k pc).2 ≤ rank pc - 1 ∧ ((act c s k pc).2 = .idle → pc = .idle) ∧
    (outward (act c s k pc).2 = true → outward pc = true ∨ c.admit k = false) := by
  cases pc with
  | look => cases h : s.reg <;> cases hr : c.regex <;> simp [act, h, hr, rank, outward]
  | load | check => cases h : s.reg <;> simp [act, h, rank, outward]
  | make v => cases v <;> simp [act, rank, outward]
  | store n v => cases v <;> simp [act, rank, outward]
  | gate n =>
    cases h1 : (s.nsp n).child <;> cases h2 : c.admit k <;> simp [act, h1, h2, rank, outward]
  | remove n => simp only [act]; split <;> simp [rank, outward]
  | test n => simp only [act]; split <;> simp [rank, outward]
  | _ => simp [act, rank, outward]

theorem rank_run (c : Cfg) (p : List Ev) (k : Nat) (q : List Ev) (fresh : (run c p).pc k = .idle) (stays : .leave k ∉ q) :
    rank ((run c (p ++ .connect k :: q)).pc k) ≤ 13 - q.count (.adv k) ∧ (run c (p ++ .connect k :: q)).pc k ≠ .idle ∧
    (outward ((run c (p ++ .connect k :: q)).pc k) = true → c.admit k = false) := by
  induction q using snocRec with
  | nil => rw [run_snoc]; simp [step, fresh, upd_same, rank, outward]
  | append_singleton q e ih =>
    obtain ⟨h1, h2, h3⟩ := ih fun h => stays (by simp [h])
    have hr : run c (p ++ .connect k :: (q ++ [e])) = step c (run c (p ++ .connect k :: q)) e := by simp [run]
    rw [hr]
    generalize run c (p ++ .connect k :: q) = s at *
    by_cases he : e = .adv k
    · subst he
      obtain ⟨r1, r2, r3⟩ := rank_act c s k (s.pc k)
      rw [pc_self]
      refine ⟨by simp [List.count_append]; omega, fun h => h2 (r2 h), fun h => ?_⟩
      rcases r3 h with h | h
      · exact h3 h
      · exact h
    · have hpc : (step c s e).pc k = s.pc k := by
        cases e with
        | connect j =>
          simp only [step]; split
          · rename_i hj
            have : k ≠ j := by rintro rfl; exact h2 hj
            simp [upd_ne _ _ this]
          · rfl
        | adv j => exact pc_other (fun h => he (by rw [h]))
        | leave j =>
          have : k ≠ j := by rintro rfl; exact stays (by simp)
          simp only [step]; split <;> simp [upd_ne _ _ this]
      rw [hpc, List.count_append, show List.count (.adv k) [e] = 0 by simp [he]]
      exact ⟨h1, h2, h3⟩

theorem idle_run (c : Cfg) (h : List Ev) (k : Nat) (hk : .connect k ∉ h) : (run c h).pc k = .idle := by
  induction h using snocRec with
  | nil => rfl
  | append_singleton h e ih =>
    have ih := ih fun h => hk (by simp [h])
    rw [run_snoc]
    cases e with
    | connect j =>
      have : k ≠ j := by rintro rfl; exact hk (by simp)
      simp only [step]; split
      · simp [upd_ne _ _ this, ih]
      · exact ih
    | adv j =>
      by_cases h : k = j
      · subst h; rw [pc_self, ih]; rfl
      · rw [pc_other h]; exact ih
    | leave j =>
      simp only [step]
      by_cases h : k = j
      · subst h; simp [ih]
      · split <;> simp [upd_ne _ _ h, ih]

end Verif.DynRace
