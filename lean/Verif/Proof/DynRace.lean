import Verif.Spec.DynRace
import Verif.Proof.RoomCalls

namespace Verif.DynRace
open Verif Verif.Spec Verif.World

theorem run_snoc (c : Cfg) (h : List Ev) (e : Ev) : run c (h ++ [e]) = step c (run c h) e := by simp [run]

/-- The namespace a client is concerned with. -/
def about : Pc → Option Nat
  | .store n _ | .gate n | .enter n | .inside n | .remove n | .test n | .close n | .unreg n | .unchild n => some n
  | _ => none

structure Base (c : Cfg) (s : St) : Prop where
  pcs : ∀ k n, about (s.pc k) = some n → n < s.next
  reg : ∀ n, s.reg = some n → n < s.next
  kids : ∀ n ∈ s.children, n < s.next
  blank : ∀ n, s.next ≤ n → (s.nsp n).socks = []
  sock : ∀ k n, k ∈ (s.nsp n).socks → s.pc k = .inside n ∨ s.pc k = .remove n
  inside : ∀ k n, s.pc k = .inside n → k ∈ (s.nsp n).socks
  enter : ∀ k n, s.pc k = .enter n → (s.nsp n).child = true → c.admit k = true
  admit : ∀ k n, k ∈ (s.nsp n).socks → (s.nsp n).child = true → c.admit k = true
  store : ∀ k n v, s.pc k = .store n v → (s.nsp n).child = true

theorem base_step (c : Cfg) (s : St) (e : Ev) (B : Base c s) : Base c (step c s e) := by
  obtain ⟨h1, h2, h3, h4, h5, h6, h7, h8, h9⟩ := B
  cases e with
  | connect k =>
    simp only [step]; split
    · constructor <;> (try simp only [upd_apply]) <;> grind [about]
    · exact ⟨h1, h2, h3, h4, h5, h6, h7, h8, h9⟩
  | leave k =>
    simp only [step]; split
    · constructor <;> (try simp only [upd_apply]) <;> grind [about]
    · constructor <;> (try simp only [upd_apply]) <;> grind [about]
    · exact ⟨h1, h2, h3, h4, h5, h6, h7, h8, h9⟩
  | adv k =>
    simp only [step]
    have hk := h1 k
    have he : ∀ k n, s.pc k = .enter n → n < s.next := fun k n h => h1 k n (by simp [h, about])
    have hs : ∀ k n v, s.pc k = .store n v → n < s.next := fun k n v h => h1 k n (by simp [h, about])
    cases hp : s.pc k with
    | load => simp only [act]; constructor <;> (try simp only [upd_apply]) <;> grind [about]
    | make v => simp only [act]; constructor <;> (try simp only [upd_apply]) <;> grind [about]
    | store n v =>
      have := hk n (by simp [hp, about])
      simp only [act]; cases v <;> (constructor <;> (try simp only [upd_apply]) <;> grind [about])
    | look =>
      simp only [act]; cases hr : s.reg <;> (constructor <;> (try simp only [upd_apply]) <;> grind [about])
    | plain => simp only [act]; constructor <;> (try simp only [upd_apply]) <;> grind [about]
    | idle | check | gone => simp only [act]; constructor <;> (try simp only [upd_apply]) <;> grind [about]
    | gate n | enter n | inside n | remove n | test n | close n | unreg n | unchild n =>
      have := hk n (by simp [hp, about])
      simp only [act]; constructor <;> (try simp only [upd_apply]) <;> grind [about]

theorem base_run (c : Cfg) (h : List Ev) : Base c (run c h) := by
  induction h using snocRec with
  | nil => constructor <;> simp [run, about]
  | append_singleton h e ih => rw [run_snoc]; exact base_step c _ e ih

/-- All namespaces have been made by the parent, and nobody is about to make another one. -/
structure Gated (s : St) : Prop where
  all : ∀ n, n < s.next → (s.nsp n).child = true
  pcs : ∀ k, s.pc k ≠ .plain

theorem gated_regex (c : Cfg) (hc : c.regex = true) (s : St) (e : Ev) (B : Base c s) (G : Gated s) : Gated (step c s e) := by
  obtain ⟨h1, h2⟩ := G
  cases e with
  | connect k => simp only [step]; split <;> (constructor <;> (try simp only [upd_apply]) <;> grind)
  | leave k => simp only [step]; split <;> (constructor <;> (try simp only [upd_apply]) <;> grind)
  | adv k =>
    simp only [step]
    have hp := h2 k
    cases hq : s.pc k with
    | plain => exact absurd hq hp
    | look => simp only [act]; cases hr : s.reg <;> (constructor <;> (try simp only [upd_apply]) <;> grind)
    | store n v => simp only [act]; cases v <;> (constructor <;> (try simp only [upd_apply]) <;> grind)
    | _ => simp only [act]; constructor <;> (try simp only [upd_apply]) <;> grind

/-- Whoever stands between the two lookups finds the namespace. -/
structure Found (s : St) : Prop where
  gated : Gated s
  look : ∀ k, s.pc k = .look → s.reg ≠ none

theorem found_step (c : Cfg) (s : St) (e : Ev) (F : Found s)
    (hu : ∀ k n, e = .adv k → s.pc k = .unreg n → ∀ j, s.pc j ≠ .look) : Found (step c s e) := by
  obtain ⟨⟨h1, h2⟩, h3⟩ := F
  cases e with
  | connect k =>
    simp only [step]; split <;> refine ⟨⟨?_, ?_⟩, ?_⟩ <;> (try simp only [upd_apply]) <;> grind
  | leave k => simp only [step]; split <;> refine ⟨⟨?_, ?_⟩, ?_⟩ <;> (try simp only [upd_apply]) <;> grind
  | adv k =>
    simp only [step]
    have hp := h2 k
    have hl := h3 k
    have hu' := hu k
    cases hq : s.pc k with
    | plain => exact absurd hq hp
    | look => simp only [act]; cases hr : s.reg <;> refine ⟨⟨?_, ?_⟩, ?_⟩ <;> (try simp only [upd_apply]) <;> grind
    | store n v => simp only [act]; cases v <;> refine ⟨⟨?_, ?_⟩, ?_⟩ <;> (try simp only [upd_apply]) <;> grind
    | unreg n =>
      have := hu' n rfl hq
      simp only [act]; refine ⟨⟨?_, ?_⟩, ?_⟩ <;> (try simp only [upd_apply]) <;> grind
    | _ => simp only [act]; refine ⟨⟨?_, ?_⟩, ?_⟩ <;> (try simp only [upd_apply]) <;> grind

theorem found_run (c : Cfg) (h : List Ev) (hg : NoGap c h) : Found (run c h) := by
  induction h using snocRec with
  | nil => refine ⟨⟨?_, ?_⟩, ?_⟩ <;> simp [run]
  | append_singleton h e ih =>
    rw [run_snoc]
    refine found_step c _ e (ih fun h₁ k h₂ he => hg h₁ k (h₂ ++ [e]) (by simp [he])) ?_
    rintro k n rfl hp
    exact hg h k [] rfl n hp

/-- Without the option nothing is cleaned up. -/
structure Kept (s : St) : Prop where
  pcs : ∀ k n, s.pc k ≠ .test n ∧ s.pc k ≠ .close n ∧ s.pc k ≠ .unreg n ∧ s.pc k ≠ .unchild n
  isOpen : ∀ n, (s.nsp n).isOpen = true
  kids : ∀ n, n < s.next → (s.nsp n).child = true → n ∈ s.children
  reg : ∀ k n, k ∈ (s.nsp n).socks → s.reg ≠ none
  some : ∀ k, entering (s.pc k) = true → s.reg ≠ none

theorem kept_step (c : Cfg) (hc : c.cleanup = false) (s : St) (e : Ev) (B : Base c s) (K : Kept s) : Kept (step c s e) := by
  obtain ⟨h1, h2, h3, h4, h5⟩ := K
  cases e with
  | connect k => simp only [step]; split <;> (constructor <;> (try simp only [upd_apply]) <;> grind [entering])
  | leave k => simp only [step]; split <;> (constructor <;> (try simp only [upd_apply]) <;> grind [entering])
  | adv k =>
    simp only [step]
    have hp := h1 k
    have hb := B.pcs k
    cases hq : s.pc k with
    | test n | close n | unreg n | unchild n => have := hp n; simp [hq] at this
    | look => simp only [act]; cases hr : s.reg <;> (constructor <;> (try simp only [upd_apply]) <;> grind [entering])
    | store n v => simp only [act]; cases v <;> (constructor <;> (try simp only [upd_apply]) <;> grind [entering])
    | enter n =>
      have := hb n (by simp [hq, about])
      have := h5 k (by simp [hq, entering])
      simp only [act]; constructor <;> (try simp only [upd_apply]) <;> grind [entering]
    | _ => simp only [act]; constructor <;> (try simp only [upd_apply]) <;> grind [entering]

theorem kept_run (c : Cfg) (hc : c.cleanup = false) (h : List Ev) : Kept (run c h) := by
  induction h using snocRec with
  | nil => constructor <;> simp [run, entering]
  | append_singleton h e ih => rw [run_snoc]; exact kept_step c hc _ e (base_run c h) ih

theorem nogap_off (c : Cfg) (hc : c.cleanup = false) (h : List Ev) : NoGap c h := by
  intro h₁ k h₂ _ n hp
  exact absurd hp ((kept_run c hc h₁).pcs k n).2.2.1

theorem gated_run (c : Cfg) (h : List Ev) (safe : c.regex = true ∨ c.cleanup = false ∨ NoGap c h) : Gated (run c h) := by
  rcases safe with hc | hc | hg
  · induction h using snocRec with
    | nil => constructor <;> simp [run]
    | append_singleton h e ih => rw [run_snoc]; exact gated_regex c hc _ e (base_run c h) ih
  · exact (found_run c h (nogap_off c hc h)).gated
  · exact (found_run c h hg).gated

end Verif.DynRace
