import Verif.Spec.FamilyRace
import Verif.Proof.DynTurn

namespace Verif.FamilyRace
open Verif Verif.Spec Verif.World

theorem run_snoc (c : DynRace.Cfg) (h : List Ev) (e : Ev) : run c (h ++ [e]) = step c (run c h) e := by simp [run]

theorem act_dyn (s : St) : (act s).dyn = s.dyn := by unfold act; split <;> rfl

theorem run_dyn (c : DynRace.Cfg) (h : List Ev) : (run c h).dyn = DynRace.run c (dynPart h) := by
  induction h using snocRec with
  | nil => rfl
  | append_singleton h e ih =>
    rw [run_snoc]
    cases e with
    | dyn e =>
      rw [show dynPart (h ++ [.dyn e]) = dynPart h ++ [e] by simp [dynPart], DynRace.run_snoc, ← ih]; rfl
    | emit => rw [show dynPart (h ++ [.emit]) = dynPart h by simp [dynPart], ← ih]; simp only [step]; split <;> rfl
    | adv => rw [show dynPart (h ++ [.adv]) = dynPart h by simp [dynPart], ← ih]; exact act_dyn _

/-- The client is or has been in a namespace, or was refused: it will enter none. -/
def past : DynRace.Pc → Bool
  | .inside _ | .remove _ | .test _ | .close _ | .unreg _ | .unchild _ | .gone => true
  | _ => false

/-- The namespaces still to be dealt with. -/
def PC.todo : PC → List Nat
  | .loop l => l
  | _ => []

/-- What holds of the tables. -/
structure Tab (s : DynRace.St) : Prop where
  kidsNodup : s.children.Nodup
  kidsChild : ∀ n ∈ s.children, (s.nsp n).child = true
  socksNodup : ∀ n, (s.nsp n).socks.Nodup

set_option maxHeartbeats 1000000 in
theorem tab_step (c : DynRace.Cfg) (s : DynRace.St) (e : DynRace.Ev) (B : DynRace.Base c s) (T : Tab s) : Tab (DynRace.step c s e) := by
  obtain ⟨t1, t2, t3⟩ := T
  have b3 := B.kids
  have b5 := B.sock
  have b4 := B.blank
  cases e with
  | connect k => simp only [DynRace.step]; split <;> exact ⟨t1, t2, t3⟩
  | leave k => simp only [DynRace.step]; split <;> exact ⟨t1, t2, t3⟩
  | adv k =>
    simp only [DynRace.step]
    cases hk : s.pc k with
    | make v =>
      refine ⟨?_, ?_, ?_⟩ <;> simp only [DynRace.act, upd_apply]
      · rw [List.nodup_append]; grind
      · grind
      · grind
    | plain => refine ⟨?_, ?_, ?_⟩ <;> simp only [DynRace.act, upd_apply] <;> grind
    | enter n =>
      refine ⟨?_, ?_, ?_⟩ <;> simp only [DynRace.act, upd_apply]
      · exact t1
      · grind
      · intro m; split
        · rename_i e; subst e
          show ((s.nsp m).socks ++ [k]).Nodup
          rw [List.nodup_append]; grind
        · exact t3 m
    | remove n =>
      refine ⟨?_, ?_, ?_⟩ <;> simp only [DynRace.act, upd_apply]
      · exact t1
      · grind
      · intro m; split
        · exact List.Pairwise.filter _ (t3 n)
        · exact t3 m
    | close n => refine ⟨?_, ?_, ?_⟩ <;> simp only [DynRace.act, upd_apply] <;> grind
    | unchild n =>
      refine ⟨?_, ?_, ?_⟩ <;> simp only [DynRace.act]
      · exact List.Pairwise.filter _ t1
      · intro m hm; exact t2 m (List.mem_filter.1 hm).1
      · exact t3
    | look => simp only [DynRace.act]; split <;> exact ⟨t1, t2, t3⟩
    | _ => exact ⟨t1, t2, t3⟩

theorem tab_run (c : DynRace.Cfg) (h : List DynRace.Ev) : Tab (DynRace.run c h) := by
  induction h using snocRec with
  | nil => constructor <;> simp [DynRace.run]
  | append_singleton h e ih => rw [DynRace.run_snoc]; exact tab_step c _ e (DynRace.base_run c h) ih

/-- A namespace stays a child, and who is past does not come into a namespace. -/
theorem dyn_keeps (c : DynRace.Cfg) (s : DynRace.St) (e : DynRace.Ev) (B : DynRace.Base c s) :
    (∀ n, n < s.next → ((DynRace.step c s e).nsp n).child = (s.nsp n).child) ∧ s.next ≤ (DynRace.step c s e).next ∧
    (∀ k, past (s.pc k) = true → past ((DynRace.step c s e).pc k) = true ∧
      ∀ n, k ∈ ((DynRace.step c s e).nsp n).socks → k ∈ (s.nsp n).socks) := by
  have b1 := B.pcs
  cases e with
  | connect j =>
    simp only [DynRace.step]; split
    · refine ⟨fun _ _ => rfl, Nat.le_refl _, fun k hk => ⟨?_, fun _ h => h⟩⟩
      simp only [upd_apply]; split
      · next e => subst e; simp_all [past]
      · exact hk
    · exact ⟨fun _ _ => rfl, Nat.le_refl _, fun k hk => ⟨hk, fun _ h => h⟩⟩
  | leave j =>
    simp only [DynRace.step]
    split
    all_goals
      refine ⟨fun _ _ => rfl, Nat.le_refl _, fun k hk => ⟨?_, fun _ h => h⟩⟩
      first
        | exact hk
        | (simp only [upd_apply]; split
           · rfl
           · exact hk)
  | adv j =>
    have hj := b1 j
    simp only [DynRace.step]
    cases hp : s.pc j with
    | look =>
      simp only [DynRace.act]
      split <;> (refine ⟨?_, ?_, ?_⟩ <;> (try simp only [upd_apply]) <;> grind [past])
    | _ =>
      simp only [DynRace.act]
      refine ⟨?_, ?_, ?_⟩ <;> (try simp only [upd_apply]) <;> grind [past, DynRace.about]

/-- Nobody gets the event twice. -/
structure Once (s : St) : Prop where
  todoNodup : s.pc.todo.Nodup
  todoLt : ∀ n ∈ s.pc.todo, n < s.dyn.next ∧ (s.dyn.nsp n).child = true
  got : ∀ k ∈ s.got, past (s.dyn.pc k) = true ∧ ∀ n ∈ s.pc.todo, k ∉ (s.dyn.nsp n).socks
  gotNodup : s.got.Nodup
  keys : s.pc = .keys → s.got = []

theorem once_run (c : DynRace.Cfg) (h : List Ev) : Once (run c h) := by
  induction h using snocRec with
  | nil => constructor <;> simp [run, PC.todo]
  | append_singleton h e ih =>
    have B : DynRace.Base c (run c h).dyn := by rw [run_dyn]; exact DynRace.base_run _ _
    have T : Tab (run c h).dyn := by rw [run_dyn]; exact tab_run _ _
    rw [run_snoc]
    generalize run c h = s at *
    obtain ⟨i1, i2, i3, i4, i5⟩ := ih
    cases e with
    | dyn e =>
      obtain ⟨d1, d2, d3⟩ := dyn_keeps c s.dyn e B
      refine ⟨i1, fun n hn => ⟨Nat.lt_of_lt_of_le (i2 n hn).1 d2, ?_⟩, fun k hk => ⟨(d3 k (i3 k hk).1).1, fun n hn hm => ?_⟩, i4, i5⟩
      · show ((DynRace.step c s.dyn e).nsp n).child = true
        rw [d1 n (i2 n hn).1]; exact (i2 n hn).2
      · exact (i3 k hk).2 n hn ((d3 k (i3 k hk).1).2 n hm)
    | emit =>
      simp only [step]; split
      · constructor <;> simp [PC.todo]
      · exact ⟨i1, i2, i3, i4, i5⟩
    | adv =>
      simp only [step, act]
      split
      · exact ⟨i1, i2, i3, i4, i5⟩
      · next hk =>
        refine ⟨T.kidsNodup, fun n hn => ⟨B.kids n hn, T.kidsChild n hn⟩, fun k hm => ?_, ?_, fun h => by cases h⟩
        · simp [i5 hk] at hm
        · rw [i5 hk]; exact List.nodup_nil
      · next hk => rw [hk] at i1 i3; exact ⟨by simp [PC.todo], by simp [PC.todo], fun k hm => ⟨(i3 k hm).1, by simp [PC.todo]⟩, i4, fun h => by cases h⟩
      · next n todo hk =>
        rw [hk] at i1 i2 i3
        simp only [PC.todo, List.nodup_cons] at i1
        refine ⟨i1.2, fun m hm => i2 m (List.mem_cons_of_mem _ hm), fun k hm => ?_, ?_, fun h => by cases h⟩
        · rcases List.mem_append.1 hm with hm | hm
          · exact ⟨(i3 k hm).1, fun m hm' => (i3 k hm).2 m (List.mem_cons_of_mem _ hm')⟩
          · refine ⟨?_, fun m hm' hk' => ?_⟩
            · rcases B.sock k n hm with h | h <;> rw [h] <;> rfl
            · have : n = m := by
                rcases B.sock k n hm with h1 | h1 <;> rcases B.sock k m hk' with h2 | h2 <;> rw [h1] at h2 <;> cases h2 <;> rfl
              exact i1.1 (this ▸ hm')
        · show (s.got ++ (s.dyn.nsp n).socks).Nodup
          rw [List.nodup_append]
          refine ⟨i4, T.socksNodup n, fun a ha b hb hab => ?_⟩
          subst hab
          exact (i3 a ha).2 n List.mem_cons_self hb

end Verif.FamilyRace

namespace Verif.FamilyRace
open Verif Verif.Spec Verif.World

theorem one_nsp {c : DynRace.Cfg} {s : DynRace.St} (B : DynRace.Base c s) {k m n : Nat} (h1 : k ∈ (s.nsp m).socks) (h2 : k ∈ (s.nsp n).socks) :
    m = n := by
  rcases B.sock k m h1 with e1 | e1 <;> rcases B.sock k n h2 with e2 | e2 <;> rw [e1] at e2 <;> cases e2 <;> rfl

/-- How far a client that is connected all the time is from getting the event. -/
def Coming (s : St) (k : Nat) : Prop :=
  match s.pc with
  | .keys => True
  | .loop todo => k ∈ s.got ∨ ∃ n ∈ todo, k ∈ (s.dyn.nsp n).socks
  | .idle => k ∈ s.got

theorem coming_step (c : DynRace.Cfg) (s : St) (e : Ev) (k : Nat) (B : DynRace.Base c s.dyn) (he : e ≠ .emit)
    (kid : ∀ n, k ∈ (s.dyn.nsp n).socks → n ∈ s.dyn.children) (now : DynConnected s k) (then_ : DynConnected (step c s e) k)
    (h : Coming s k) : Coming (step c s e) k := by
  cases e with
  | emit => exact absurd rfl he
  | dyn e =>
    simp only [Coming, step] at h ⊢
    obtain ⟨n, hn⟩ := now
    obtain ⟨m, hm⟩ := then_
    obtain ⟨-, -, d3⟩ := dyn_keeps c s.dyn e B
    have hp : past (s.dyn.pc k) = true := by rcases B.sock k n hn with h | h <;> rw [h] <;> rfl
    have hmn := one_nsp B ((d3 k hp).2 m hm) hn
    subst hmn
    split
    · trivial
    · next todo hk =>
      rw [hk] at h
      rcases h with h | ⟨n, h1, h2⟩
      · exact .inl h
      · exact .inr ⟨n, h1, by rw [one_nsp B h2 hn]; exact hm⟩
    · next hk => rw [hk] at h; exact h
  | adv =>
    obtain ⟨n, hn⟩ := now
    simp only [step, act]
    cases hk : s.pc with
    | idle => simpa using h
    | keys => exact .inr ⟨n, kid n hn, hn⟩
    | loop todo =>
      simp only [Coming, hk] at h
      cases todo with
      | nil => simpa [Coming] using h
      | cons m todo =>
        simp only [Coming]
        rcases h with h | ⟨j, hj, hs⟩
        · exact .inl (List.mem_append_left _ h)
        · rcases List.mem_cons.1 hj with rfl | hj
          · exact .inl (List.mem_append_right _ hs)
          · exact .inr ⟨j, hj, hs⟩

theorem split_snoc (p q : List Ev) (e : Ev) : p ++ .emit :: (q ++ [e]) = (p ++ .emit :: q) ++ [e] := by simp

theorem coming_run (c : DynRace.Cfg) (p q : List Ev) (k : Nat) (hb : (run c p).pc = .idle) (one : .emit ∉ q)
    (kid : ∀ q₁ q₂, q = q₁ ++ q₂ → ∀ n, k ∈ ((run c (p ++ .emit :: q₁)).dyn.nsp n).socks → n ∈ (run c (p ++ .emit :: q₁)).dyn.children)
    (all : DynConnectedThroughout c p q k) : Coming (run c (p ++ .emit :: q)) k := by
  induction q using snocRec with
  | nil => rw [run_snoc]; simp [step, hb, Coming]
  | append_singleton q e ih =>
    have ih := ih (fun h => one (List.mem_append_left _ h)) (fun q₁ q₂ h => kid q₁ (q₂ ++ [e]) (by simp [h]))
      (fun q₁ q₂ h => all q₁ (q₂ ++ [e]) (by simp [h]))
    have a1 := all q [e] rfl
    have a2 := all (q ++ [e]) [] (by simp)
    rw [split_snoc, run_snoc] at a2 ⊢
    exact coming_step c _ e k (by rw [run_dyn]; exact DynRace.base_run _ _) (fun h => one (by simp [h])) (kid q [e] rfl) a1 a2 ih

/-- Who got the event was connected, and let pass by the middlewares. -/
theorem got_from (c : DynRace.Cfg) (p q : List Ev) (hb : (run c p).pc = .idle) (one : .emit ∉ q) (k : Nat)
    (hk : k ∈ (run c (p ++ .emit :: q)).got) :
    c.admit k = true ∧ ∃ q₁ q₂, q = q₁ ++ q₂ ∧ DynConnected (run c (p ++ .emit :: q₁)) k := by
  induction q using snocRec with
  | nil => rw [run_snoc] at hk; simp [step, hb] at hk
  | append_singleton q e ih =>
    have ih := ih (fun h => one (List.mem_append_left _ h))
    have lift : (c.admit k = true ∧ ∃ q₁ q₂, q = q₁ ++ q₂ ∧ DynConnected (run c (p ++ .emit :: q₁)) k) →
        (c.admit k = true ∧ ∃ q₁ q₂, q ++ [e] = q₁ ++ q₂ ∧ DynConnected (run c (p ++ .emit :: q₁)) k) := by
      rintro ⟨h1, q₁, q₂, h2, h3⟩
      exact ⟨h1, q₁, q₂ ++ [e], by simp [h2], h3⟩
    rw [split_snoc, run_snoc] at hk
    have B : DynRace.Base c (run c (p ++ .emit :: q)).dyn := by rw [run_dyn]; exact DynRace.base_run _ _
    have O := once_run c (p ++ .emit :: q)
    cases e with
    | dyn e => exact lift (ih hk)
    | emit => exact absurd (by simp) one
    | adv =>
      simp only [step, act] at hk
      split at hk
      · exact lift (ih hk)
      · exact lift (ih hk)
      · exact lift (ih hk)
      · next n todo hp =>
        rcases List.mem_append.1 hk with hk | hk
        · exact lift (ih hk)
        · have := (O.todoLt n (by rw [hp]; exact List.mem_cons_self)).2
          exact ⟨B.admit k n hk this, q, [.adv], rfl, n, hk⟩

/-- What the emission has still to do. -/
def left : PC → Nat × Nat
  | .idle => (0, 0)
  | .keys => (1, 0)
  | .loop todo => (0, todo.length + 1)

end Verif.FamilyRace
