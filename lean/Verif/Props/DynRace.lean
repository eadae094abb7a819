import Verif.Proof.DynTurn

/-! # C109: a dynamic namespace that is created and cleaned up -/

namespace Verif.Props
open Verif Verif.Spec Verif.DynRace

/-- Partial: for parents made with a regular expression, without the option, or if no namespace is unregistered while a client stands
between its two lookups (see `C109_bypass_fails`).  Under every interleaving, a client that the middlewares of the parent refuse is in
no namespace of that name. -/
theorem C109_gate_partial (c : Cfg) (h : List Ev) (safe : c.regex = true ∨ c.cleanup = false ∨ NoGap c h) (k n : Nat)
    (inside : k ∈ ((run c h).nsp n).socks) : c.admit k = true := by
  have B := base_run c h
  have hn : n < (run c h).next := by
    rcases Nat.lt_or_ge n (run c h).next with h' | h'
    · exact h'
    · rw [B.blank n h'] at inside; cases inside
  exact B.admit k n inside ((gated_run c h safe).all n hn)

/-- Partial: without the option.  Under every interleaving, a connected client is in a namespace that the parent made, that a broadcast
through the parent reaches and whose adapter is open, and the name is registered. -/
theorem C109_kept_partial (c : Cfg) (off : c.cleanup = false) (h : List Ev) (k n : Nat) (inside : k ∈ ((run c h).nsp n).socks) :
    ((run c h).nsp n).child = true ∧ n ∈ (run c h).children ∧ ((run c h).nsp n).isOpen = true ∧ (run c h).reg ≠ none := by
  have B := base_run c h
  have K := kept_run c off h
  have hn : n < (run c h).next := by
    rcases Nat.lt_or_ge n (run c h).next with h' | h'
    · exact h'
    · rw [B.blank n h'] at inside; cases inside
  have hc := (gated_run c h (.inr (.inl off))).all n hn
  exact ⟨hc, K.kids n hn hc, K.isOpen n, K.reg k n inside⟩

/-- Partial: if the namespace is looked up for one client at a time, never while another is leaving, and nobody is being connected while
it is cleaned up.  All connected clients are then in the one namespace that is registered; it is open and a child of the parent. -/
theorem C109_ordered_partial (c : Cfg) (h : List Ev) (turns : DynInTurn c h) (k n : Nat) (inside : k ∈ ((run c h).nsp n).socks) :
    (run c h).reg = some n ∧ ((run c h).nsp n).child = true ∧ n ∈ (run c h).children ∧ ((run c h).nsp n).isOpen = true := by
  have O := ord_run c h turns
  have hr := O.socks k n inside
  refine ⟨hr, (O.reg n hr).1, (O.reg n hr).2, ?_⟩
  cases hc : c.cleanup with
  | false => exact (kept_run c hc h).isOpen n
  | true =>
    cases ho : ((run c h).nsp n).isOpen with
    | true => rfl
    | false =>
      obtain ⟨j, hj⟩ := (care_run c hc h turns).closed n hr ho
      rw [(O.clean j n (.inr hj)).1] at inside
      cases inside

/-- Partial likewise.  With the option, when everybody has left, no namespace of that name is registered and the parent has no child. -/
theorem C109_cleaned_partial (c : Cfg) (on : c.cleanup = true) (h : List Ev) (turns : DynInTurn c h)
    (away : ∀ k, (run c h).pc k = .idle ∨ (run c h).pc k = .gone) :
    (run c h).reg = none ∧ (run c h).children = [] := by
  have C := care_run c on h turns
  have hr : (run c h).reg = none := by
    cases hr : (run c h).reg with
    | none => rfl
    | some n =>
      obtain ⟨k, hk⟩ := C.resp n hr
      rcases away k with h | h <;> simp [h, DynRace.resp] at hk
  refine ⟨hr, ?_⟩
  rw [List.eq_nil_iff_forall_not_mem]
  intro n hn
  rcases C.kids n hn with h | ⟨k, h⟩
  · rw [hr] at h; cases h
  · rcases away k with h' | h' <;> simp [h'] at h

/-- Every client that asks gets an answer, under every interleaving: after thirteen steps of its own at most, it is in a namespace of
that name, or it has been refused, and is one that the middlewares refuse. -/
theorem C109_answered (c : Cfg) (p : List Ev) (k : Nat) (q : List Ev) (fresh : (run c p).pc k = .idle) (stays : .leave k ∉ q)
    (steps : 13 ≤ q.count (.adv k)) :
    (∃ n, k ∈ ((run c (p ++ .connect k :: q)).nsp n).socks) ∨
    ((run c (p ++ .connect k :: q)).pc k = .gone ∧ c.admit k = false) := by
  obtain ⟨h1, h2, h3⟩ := rank_run c p k q fresh stays
  have B := base_run c (p ++ .connect k :: q)
  generalize run c (p ++ .connect k :: q) = s at *
  have h0 : rank (s.pc k) = 0 := by omega
  cases hq : s.pc k with
  | inside n => exact .inl ⟨n, B.inside k n hq⟩
  | gone => exact .inr ⟨rfl, h3 (by rw [hq]; rfl)⟩
  | idle => exact absurd hq h2
  | make v => cases v <;> simp [hq, rank] at h0
  | store n v => cases v <;> simp [hq, rank] at h0
  | _ => simp [hq, rank] at h0

/-- A client is in one namespace of that name at most. -/
theorem C109_one (c : Cfg) (h : List Ev) (k m n : Nat) (hm : k ∈ ((run c h).nsp m).socks) (hn : k ∈ ((run c h).nsp n).socks) : m = n := by
  have B := base_run c h
  rcases B.sock k m hm with h1 | h1 <;> rcases B.sock k n hn with h2 | h2 <;> rw [h1] at h2 <;> cases h2 <;> rfl

/-- The first client is let pass, the second is not. -/
def dynStrict (regex : Bool) : Cfg := { regex := regex, cleanup := true, admit := fun k => k == 1 }

/-- Everybody is let pass. -/
def dynLax : Cfg := { regex := true, cleanup := true, admit := fun _ => true }

/-- Client `k` asks and makes `n` steps. -/
def dynGoes (k n : Nat) : List Ev := List.replicate n (.adv k)

/-- **The code fails the full property**: with a parent made with a function, the child may be removed between the lookup of the client
and that of `Of`, which then makes a namespace without the middlewares of the parent; a client that they refuse is let in. -/
theorem C109_bypass_fails : ∃ h k n, k ∈ ((run (dynStrict false) h).nsp n).socks ∧ (dynStrict false).admit k = false := by
  refine ⟨[.connect 1] ++ dynGoes 1 7 ++ [.connect 2, .adv 2, .leave 1] ++ dynGoes 1 5 ++ dynGoes 2 4, 2, 1, ?_, ?_⟩ <;> decide

/-- **And**: a client may be connected to a namespace that is cleaned up at the same moment; it stays in a namespace that is not
registered, closed and no child of the parent, also when all has settled. -/
theorem C109_orphan_fails : ∃ h k n, k ∈ ((run dynLax h).nsp n).socks ∧ DynSettled (run dynLax h) ∧ (run dynLax h).reg = none ∧
    ((run dynLax h).nsp n).isOpen = false ∧ n ∉ (run dynLax h).children := by
  refine ⟨[.connect 1] ++ dynGoes 1 7 ++ [.connect 2, .adv 2, .adv 2, .leave 1] ++ dynGoes 1 5 ++ dynGoes 2 2, 2, 0, by decide, ?_, by decide,
    by decide, by decide⟩
  intro k
  by_cases h1 : k = 1
  · subst h1; right; right; decide
  · by_cases h2 : k = 2
    · subst h2; right; left; exact ⟨0, by decide⟩
    · left; exact idle_run _ _ _ (by simp [dynGoes, h1, h2])

/-- **And**: the name is unregistered by name: when two leave at once, the second may unregister the namespace that another client was
connected to in the meantime.  Two clients of the same name are then in different namespaces, though they did not come at the same
time. -/
theorem C109_split_fails : ∃ h h', DynSettled (run dynLax h) ∧ 3 ∈ ((run dynLax h).nsp 1).socks ∧ (run dynLax h).reg = none ∧
    h' = h ++ [.connect 4] ++ dynGoes 4 7 ∧ 3 ∈ ((run dynLax h').nsp 1).socks ∧ 4 ∈ ((run dynLax h').nsp 2).socks := by
  refine ⟨[.connect 1] ++ dynGoes 1 7 ++ [.connect 2] ++ dynGoes 2 4 ++ [.leave 1, .leave 2, .adv 1, .adv 2, .adv 1, .adv 2] ++ dynGoes 2 3 ++
    [.connect 3] ++ dynGoes 3 7 ++ dynGoes 1 3, _, ?_, by decide, by decide, rfl, by decide, by decide⟩
  intro k
  by_cases h1 : k = 1
  · subst h1; right; right; decide
  · by_cases h2 : k = 2
    · subst h2; right; right; decide
    · by_cases h3 : k = 3
      · subst h3; right; left; exact ⟨1, by decide⟩
      · left; exact idle_run _ _ _ (by simp [dynGoes, h1, h2, h3])

/-- **And**: two clients that come at once may make two children, of which nobody is in the first; it is never removed. -/
theorem C109_leak_fails : ∃ h, (∀ k, (run dynLax h).pc k = .idle ∨ (run dynLax h).pc k = .gone) ∧ (run dynLax h).children ≠ [] := by
  refine ⟨[.connect 1, .connect 2] ++ dynGoes 1 2 ++ dynGoes 2 2 ++ dynGoes 1 2 ++ dynGoes 2 2 ++ dynGoes 1 3 ++ dynGoes 2 3 ++ [.leave 1, .leave 2] ++
    dynGoes 1 5 ++ dynGoes 2 5, ?_, by decide⟩
  intro k
  by_cases h1 : k = 1
  · subst h1; right; decide
  · by_cases h2 : k = 2
    · subst h2; right; decide
    · left; exact idle_run _ _ _ (by simp [dynGoes, h1, h2])

/-! ## The hypotheses can be met -/

/-- A state is reached in turns if every prefix is. -/
def dynTurns (c : Cfg) (ks : List Nat) (h : List Ev) : Bool :=
  (List.range (h.length + 1)).all fun i => ks.all fun a => ks.all fun b =>
    let s := run c (h.take i)
    (!(looking (s.pc a) && looking (s.pc b)) || a == b) && (!leaving (s.pc a) || !looking (s.pc b)) &&
      (!cleaning (s.pc a) || !entering (s.pc b))

theorem dynTurns_of (c : Cfg) (ks : List Nat) (h : List Ev) (hk : ∀ k, k ∉ ks → .connect k ∉ h) (hb : dynTurns c ks h = true) : DynInTurn c h := by
  intro h₁ h₂ he i j
  have hp : h₁ = h.take h₁.length := by rw [he]; simp
  have hl : h₁.length ∈ List.range (h.length + 1) := by rw [List.mem_range, he]; simp; omega
  have idle : ∀ k, k ∉ ks → (run c h₁).pc k = .idle := fun k hk' =>
    idle_run c h₁ k fun hm => hk k hk' (by rw [he]; exact List.mem_append_left _ hm)
  by_cases hi : i ∈ ks
  · by_cases hj : j ∈ ks
    · have := List.all_eq_true.1 hb _ hl
      have := List.all_eq_true.1 this i hi
      have := List.all_eq_true.1 this j hj
      rw [← hp] at this
      simp only [Bool.and_eq_true, Bool.or_eq_true, Bool.not_eq_true', beq_iff_eq] at this
      grind
    · rw [idle j hj]; simp [looking, entering]
  · rw [idle i hi]; simp [looking, leaving, cleaning]

/-- Client 1 comes; client 2 comes while 1 is at the middlewares; 1 leaves while 2 is at the middlewares; 2 leaves; client 3 comes. -/
def dynBusy : List Ev := [.connect 1] ++ dynGoes 1 5 ++ [.connect 2, .adv 2, .adv 2] ++ dynGoes 1 2 ++ [.leave 1, .adv 1] ++ [.adv 2, .adv 2, .adv 1] ++
  [.leave 2] ++ dynGoes 2 2 ++ dynGoes 2 3 ++ [.connect 3] ++ dynGoes 3 7

set_option maxRecDepth 20000 in
example : (run dynLax dynBusy).reg = some 1 ∧ 1 ∈ (run dynLax dynBusy).children := by
  have := C109_ordered_partial dynLax dynBusy (dynTurns_of dynLax [1, 2, 3] dynBusy (by intro k hk; simp [dynBusy, dynGoes] at hk ⊢; omega) (by decide)) 3 1 (by decide)
  exact ⟨this.1, this.2.2.1⟩

set_option maxRecDepth 20000 in
example : (run dynLax (dynBusy ++ [.leave 3] ++ dynGoes 3 5)).reg = none := by
  refine (C109_cleaned_partial dynLax rfl _ (dynTurns_of dynLax [1, 2, 3] _ (by intro k hk; simp [dynBusy, dynGoes] at hk ⊢; omega) (by decide)) ?_).1
  intro k
  by_cases h1 : k = 1
  · subst h1; right; decide
  · by_cases h2 : k = 2
    · subst h2; right; decide
    · by_cases h3 : k = 3
      · subst h3; right; decide
      · left; exact idle_run _ _ _ (by simp [dynBusy, dynGoes, h1, h2, h3])

/-- Two at once, with a regular expression: the one that is refused does not get in. -/
def dynBoth : List Ev := [.connect 1, .connect 2] ++ dynGoes 1 3 ++ dynGoes 2 5 ++ dynGoes 1 5 ++ dynGoes 2 9

example : 1 ∈ ((run (dynStrict true) dynBoth).nsp 1).socks ∨ 1 ∈ ((run (dynStrict true) dynBoth).nsp 0).socks := by decide

example : (run (dynStrict true) dynBoth).pc 2 = .gone := by decide

example : 2 ∉ ((run (dynStrict true) dynBoth).nsp 0).socks := fun h => by
  have := C109_gate_partial (dynStrict true) dynBoth (.inl rfl) 2 0 h
  simp [dynStrict] at this

theorem DynInTurn.noGap {c : Cfg} {h : List Ev} (ht : DynInTurn c h) : NoGap c h := by
  intro h₁ k h₂ he n hp j hj
  have := (ht h₁ (.adv k :: h₂) he k j).2.1 (by rw [hp]; rfl)
  rw [hj] at this; cases this

/-- With a function: client 1 comes and leaves, the namespace is cleaned up, client 2 comes, for whom it is made anew, and is refused. -/
def dynAgain : List Ev := [.connect 1] ++ dynGoes 1 7 ++ [.leave 1] ++ dynGoes 1 5 ++ [.connect 2] ++ dynGoes 2 6

set_option maxRecDepth 20000 in
example : ∀ n, 2 ∉ ((run (dynStrict false) dynAgain).nsp n).socks := fun n h => by
  have := C109_gate_partial (dynStrict false) dynAgain (.inr (.inr (DynInTurn.noGap (dynTurns_of (dynStrict false) [1, 2] dynAgain
    (by intro k hk; simp [dynAgain, dynGoes] at hk ⊢; omega) (by decide))))) 2 n h
  simp [dynStrict] at this

example : (run (dynStrict false) dynAgain).pc 2 = .remove 1 := by decide

example : ∃ n, 1 ∈ ((run (dynStrict false) ([] ++ .connect 1 :: ([.connect 2, .adv 2] ++ dynGoes 1 13 ++ dynGoes 2 3))).nsp n).socks := by
  rcases C109_answered (dynStrict false) [] 1 ([.connect 2, .adv 2] ++ dynGoes 1 13 ++ dynGoes 2 3) rfl (by simp [dynGoes]) (by decide) with h | h
  · exact h
  · exact absurd h.2 (by decide)

example : 1 ∈ (run { dynLax with cleanup := false } ([.connect 1, .connect 2] ++ dynGoes 1 3 ++ dynGoes 2 9 ++ dynGoes 1 9)).children :=
  (C109_kept_partial _ rfl _ 2 1 (by decide)).2.1

end Verif.Props
