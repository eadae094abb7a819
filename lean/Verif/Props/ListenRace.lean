import Verif.Proof.ListenRace
import Verif.Proof.Returns
import Verif.Props.Listeners

/-! # C121: catch-all listeners that come and go while events are handled -/

namespace Verif.Props
open Verif Verif.Spec Verif.Listeners Verif.ListenRace

/-- What a goroutine has left to do, for C121. -/
def noteLeft (j : Nat) (s : ListenRace.St) : Nat × Nat :=
  match s.notes[j]? with
  | some ⟨_, _, _, .all⟩ => (2, 0)
  | some ⟨_, _, _, .loop todo⟩ => (1, todo.length)
  | none => (0, 0)

theorem edits_event (p q : List ListenRace.Ev) (k : Kind) (i : Nat) (args : List Val) :
    listenEdits (p ++ .event k i args :: q) = listenEdits (p ++ q) := by
  rw [edits_append, edits_append]; rfl

/-- What is registered, if listeners are told apart (C50). -/
theorem lists_listening (code : Nat → Nat) (h t : List ListenRace.Ev) (hcode : ListenDistinct code (h ++ t)) (k : Kind) (i : Nat) :
    (ListenRace.run code h).lists k i = listening k i (listenEdits h) := by
  rw [lists_run]
  refine C50_order_partial code _ (fun a ha b hb => hcode a ?_ b ?_) k i <;> rw [edits_append, mentioned_append]
  · exact List.mem_append_left _ ha
  · exact List.mem_append_left _ hb

/-- **C121**, under every interleaving: an event calls exactly the listeners that `ListenersAny` would have returned at one moment during the
call, in that order, each with the arguments of the event. -/
theorem C121_moment (code : Nat → Nat) (p : List ListenRace.Ev) (k : Kind) (i : Nat) (args : List Val) (q : List ListenRace.Ev)
    (done : Notified (eventsOf p) (ListenRace.run code (p ++ .event k i args :: q))) :
    ∃ q₁ q₂, q = q₁ ++ q₂ ∧ calledBy (eventsOf p) (ListenRace.run code (p ++ .event k i args :: q)) =
      ((ListenRace.run code (p ++ .event k i args :: q₁)).lists k i).map fun l => (l, args) := by
  obtain ⟨n, hn, hpc⟩ := done
  cases at_run code p k i args q with
  | fresh h none => rw [h] at hn; cases hn; cases hpc
  | going q₁ q₂ hq gone todo h moment sofar =>
    rw [h] at hn; cases hn
    simp only [PC.loop.injEq] at hpc; subst hpc
    exact ⟨q₁, q₂, hq, by rw [sofar, moment]; simp⟩

/-- ... and before it has called them all it has called the first of them, none twice. -/
theorem C121_sofar (code : Nat → Nat) (p : List ListenRace.Ev) (k : Kind) (i : Nat) (args : List Val) (q : List ListenRace.Ev) :
    ∃ q₁ q₂, q = q₁ ++ q₂ ∧ calledBy (eventsOf p) (ListenRace.run code (p ++ .event k i args :: q)) <+:
      ((ListenRace.run code (p ++ .event k i args :: q₁)).lists k i).map fun l => (l, args) := by
  cases at_run code p k i args q with
  | fresh h none => exact ⟨q, [], by simp, by rw [none]; exact List.nil_prefix⟩
  | going q₁ q₂ hq gone todo h moment sofar =>
    exact ⟨q₁, q₂, hq, by rw [sofar, moment, List.map_append]; exact List.prefix_append _ _⟩

theorem count_tagged (ls : List Nat) (args : List Val) (l : Nat) : (ls.map fun x => (x, args)).count (l, args) = ls.count l := by
  induction ls with
  | nil => rfl
  | cons a ls ih => simp only [List.map_cons, List.count_cons, ih]; congr 1; simp

/-- **C121**, under every interleaving, if the listeners used are made from different function literals (as in C50): a listener that is
registered a number of times from the beginning of the call until it returns is called that often, whatever else is registered and removed
meanwhile. -/
theorem C121_throughout_partial (code : Nat → Nat) (p : List ListenRace.Ev) (k : Kind) (i : Nat) (args : List Val) (q : List ListenRace.Ev)
    (hcode : ListenDistinct code (p ++ .event k i args :: q))
    (done : Notified (eventsOf p) (ListenRace.run code (p ++ .event k i args :: q))) (l times : Nat)
    (all : RegisteredThroughout k i l times p q) :
    (calledBy (eventsOf p) (ListenRace.run code (p ++ .event k i args :: q))).count (l, args) = times := by
  obtain ⟨q₁, q₂, hq, hc⟩ := C121_moment code p k i args q done
  rw [hc, count_tagged, lists_listening code _ q₂ (by simpa [hq] using hcode), edits_event]
  exact all q₁ (by rw [hq]; exact List.prefix_append _ _)

/-- **C121**, under every interleaving: a listener that is not registered at any moment since the event came is not called for it, finished or
not.  So a listener that has been removed is not called for events that come later. -/
theorem C121_absent_partial (code : Nat → Nat) (p : List ListenRace.Ev) (k : Kind) (i : Nat) (args : List Val) (q : List ListenRace.Ev)
    (hcode : ListenDistinct code (p ++ .event k i args :: q)) (l : Nat) (never : RegisteredThroughout k i l 0 p q) (a : List Val) :
    (l, a) ∉ calledBy (eventsOf p) (ListenRace.run code (p ++ .event k i args :: q)) := by
  intro hm
  obtain ⟨q₁, q₂, hq, hc⟩ := C121_sofar code p k i args q
  obtain ⟨l', hl, he⟩ := List.mem_map.1 (hc.subset hm)
  cases he
  rw [lists_listening code _ q₂ (by simpa [hq] using hcode), edits_event] at hl
  have := never q₁ (by rw [hq]; exact List.prefix_append _ _)
  exact List.count_eq_zero.1 this hl

/-- **C121**: the call returns, whatever others do with the listeners meanwhile, if its goroutine goes on being scheduled. -/
theorem C121_returns (code : Nat → Nat) (p : List ListenRace.Ev) (k : Kind) (i : Nat) (args : List Val) (σ : Nat → ListenRace.Ev)
    (fair : AgainAndAgain (.adv (eventsOf p)) σ) :
    ∃ n, Notified (eventsOf p) (ListenRace.run code (p ++ .event k i args :: firstOf σ n)) := by
  obtain ⟨n, h⟩ := Returns.ends (ListenRace.step code) (fun s => Notified (eventsOf p) s ∨ s.notes.length ≤ eventsOf p) (.adv (eventsOf p))
    (noteLeft (eventsOf p)) Returns.Lex2 Returns.lex2_wf
    (fun s h => by
      have hlt : eventsOf p < s.notes.length := by have := not_or.1 h; omega
      obtain ⟨n, hn⟩ : ∃ n, s.notes[eventsOf p]? = some n := ⟨_, List.getElem?_eq_getElem hlt⟩
      obtain ⟨kd, sk, ar, pc⟩ := n
      simp only [ListenRace.step, hn, ListenRace.act]
      cases pc with
      | all =>
        right
        simp only [noteLeft, hn, Once.set_self hn]
        exact Prod.Lex.left _ _ (by decide)
      | loop todo =>
        cases todo with
        | nil => exact absurd ⟨_, hn, rfl⟩ (not_or.1 h).1
        | cons l todo =>
          right
          simp only [noteLeft, hn, Once.set_self hn]
          exact Prod.Lex.right _ (by simp))
    (fun s e he h => by
      right
      have hlt : eventsOf p < s.notes.length := by have := not_or.1 h; omega
      obtain ⟨n, hn⟩ : ∃ n, s.notes[eventsOf p]? = some n := ⟨_, List.getElem?_eq_getElem hlt⟩
      have : (ListenRace.step code s e).notes[eventsOf p]? = s.notes[eventsOf p]? := by
        rw [hn]
        cases e with
        | edit => exact hn
        | event => exact Once.app_left hn
        | adv j =>
          have hj : eventsOf p ≠ j := fun e => he (by rw [e])
          simp only [ListenRace.step]
          split
          · unfold ListenRace.act; split
            · exact Once.set_other hn hj
            · exact hn
            · exact Once.set_other hn hj
          · exact hn
      simp only [noteLeft, this]) σ fair (ListenRace.run code (p ++ [.event k i args]))
  have e : ∀ n, (firstOf σ n).foldl (ListenRace.step code) (ListenRace.run code (p ++ [.event k i args])) =
      ListenRace.run code (p ++ .event k i args :: firstOf σ n) := by
    intro n
    rw [show p ++ .event k i args :: firstOf σ n = (p ++ [.event k i args]) ++ firstOf σ n by simp]
    simp [ListenRace.run, List.foldl_append]
  rw [e] at h
  refine ⟨n, h.resolve_right fun hl => ?_⟩
  rw [length_run, events_append] at hl
  simp only [eventsOf] at hl; omega

/-- **C121**: an event that is handled while nobody changes the listeners calls what the call of C50 calls. -/
theorem C121_in_turn (code : Nat → Nat) (p : List ListenRace.Ev) (k : Kind) (i : Nat) (args : List Val) (n : Nat)
    (long : ((ListenRace.run code p).lists k i).length < n) :
    (Listeners.run code (listenEdits p ++ [eventOp k i args])).calls =
      (calledBy (eventsOf p) (ListenRace.run code (p ++ .event k i args :: List.replicate n (.adv (eventsOf p))))).map
        fun c => (k, i, c.1, c.2) := by
  have hq : ∀ q₁ m, q₁ <+: List.replicate m (.adv (eventsOf p)) → listenEdits q₁ = [] := by
    intro q₁ m hp
    have : ∀ e ∈ q₁, e = .adv (eventsOf p) := fun e he => List.eq_of_mem_replicate (hp.subset he)
    clear hp
    induction q₁ with
    | nil => rfl
    | cons e q ih =>
      rw [this e (by simp)]
      simp only [listenEdits]
      exact ih fun e he => this e (by simp [he])
  have hsame : ∀ q₁, q₁ <+: List.replicate n (.adv (eventsOf p)) →
      (ListenRace.run code (p ++ .event k i args :: q₁)).lists = (ListenRace.run code p).lists := by
    intro q₁ hp
    rw [lists_run, lists_run, edits_event, edits_append, hq q₁ n hp, List.append_nil]
  have left : ∀ m, m ≤ n → 0 < m → ∃ todo, (ListenRace.run code (p ++ .event k i args :: List.replicate m (.adv (eventsOf p)))).notes[eventsOf p]? =
      some ⟨k, i, args, .loop todo⟩ ∧ todo.length = ((ListenRace.run code p).lists k i).length - (m - 1) := by
    intro m
    induction m with
    | zero => intro _ h; omega
    | succ m ih =>
      intro hm _
      have e1 : ListenRace.run code (p ++ .event k i args :: List.replicate (m + 1) (.adv (eventsOf p))) =
          ListenRace.step code (ListenRace.run code (p ++ .event k i args :: List.replicate m (.adv (eventsOf p)))) (.adv (eventsOf p)) := by
        rw [← run_snoc, List.append_assoc, List.cons_append, ← List.replicate_succ']
      rw [e1]
      by_cases h0 : m = 0
      · subst h0
        have hn : (ListenRace.run code (p ++ [.event k i args])).notes[eventsOf p]? = some ⟨k, i, args, .all⟩ := by
          rw [run_snoc]; simp only [ListenRace.step]; rw [← length_run code p]; simp
        simp only [List.replicate_zero, ListenRace.step, hn, ListenRace.act]
        refine ⟨_, Once.set_self hn, ?_⟩
        rw [hsame [] List.nil_prefix]; simp
      · obtain ⟨todo, hn, hl⟩ := ih (by omega) (by omega)
        simp only [ListenRace.step, hn, ListenRace.act]
        cases todo with
        | nil => exact ⟨[], hn, by simp at hl ⊢; omega⟩
        | cons l todo => exact ⟨todo, Once.set_self hn, by simp at hl ⊢; omega⟩
  obtain ⟨todo, hn, hl⟩ := left n (Nat.le_refl _) (by omega)
  have hnil : todo = [] := List.length_eq_zero_iff.1 (by omega)
  subst hnil
  have hev : (Listeners.run code (listenEdits p ++ [eventOp k i args])).calls = (Listeners.run code (listenEdits p)).calls ++
      ((Listeners.run code (listenEdits p)).lists k i).map fun l => (k, i, l, args) := by
    cases k with
    | incoming => exact (C50_notified code (listenEdits p)).1 i args
    | outgoing => exact (C50_notified code (listenEdits p)).2.1 i args
  obtain ⟨q₁, q₂, hq', hc⟩ := C121_moment code p k i args _ ⟨_, hn, rfl⟩
  rw [hc, hsame q₁ (by rw [hq']; exact List.prefix_append _ _), hev, lists_run]
  have hno : ∀ h : List ListenRace.Ev, (Listeners.run code (listenEdits h)).calls = [] := by
    intro h
    induction h using snocRec with
    | nil => rfl
    | append_singleton h e ih =>
      rw [edits_append]
      cases e with
      | edit k i e =>
        have := fun op => (C50_notified code (listenEdits h)).2.2.2 op
        cases e <;> simp only [listenEdits] <;> rw [this _ (by simp) (by simp) (by simp)] <;> exact ih
      | event => simpa [listenEdits] using ih
      | adv => simpa [listenEdits] using ih
  rw [hno]; simp

/-- Listeners 1 and 2 are registered; while an event is handled, listener 1 is called, removes listener 2 and registers 3, and another
event comes. -/
def Demo.listenP : List ListenRace.Ev := [.edit .incoming 0 (.on 1), .edit .incoming 0 (.on 2)]
def Demo.listenQ : List ListenRace.Ev :=
  [.adv 0, .adv 0, .edit .incoming 0 (.off (some 2)), .edit .incoming 0 (.on 3), .event .incoming 0 [.str "later"], .adv 1, .adv 1, .adv 0, .adv 1]

/-- For schedules that can be looked at one by one. -/
theorem registeredThroughout_of {k : Kind} {i l times : Nat} {p q : List ListenRace.Ev}
    (h : ∀ n, n < q.length + 1 → (listening k i (listenEdits (p ++ q.take n))).count l = times) : RegisteredThroughout k i l times p q := by
  intro q₁ hp
  have := h q₁.length (by have := hp.length_le; omega)
  rwa [← List.prefix_iff_eq_take.1 hp] at this

/-- The hypotheses hold here: listener 1 is registered throughout, 4 never; each event has its goroutine. -/
example : ListenDistinct id (Demo.listenP ++ .event .incoming 0 [.str "x"] :: Demo.listenQ) ∧
    Notified (eventsOf Demo.listenP) (ListenRace.run id (Demo.listenP ++ .event .incoming 0 [.str "x"] :: Demo.listenQ)) ∧
    RegisteredThroughout .incoming 0 1 1 Demo.listenP Demo.listenQ ∧ RegisteredThroughout .incoming 0 4 0 Demo.listenP Demo.listenQ ∧
    calledBy 0 (ListenRace.run id (Demo.listenP ++ .event .incoming 0 [.str "x"] :: Demo.listenQ)) = [(1, [.str "x"]), (2, [.str "x"])] ∧
    calledBy 1 (ListenRace.run id (Demo.listenP ++ .event .incoming 0 [.str "x"] :: Demo.listenQ)) = [(1, [.str "later"]), (3, [.str "later"])] :=
  ⟨fun _ _ _ _ h => h, ⟨_, rfl, by decide⟩, registeredThroughout_of (by decide), registeredThroughout_of (by decide), by decide, by decide⟩

example : ((ListenRace.run id Demo.listenP).lists .incoming 0).length < 3 ∧
    (Listeners.run id (listenEdits Demo.listenP ++ [eventOp .incoming 0 [.str "x"]])).calls =
      [(.incoming, 0, 1, [.str "x"]), (.incoming, 0, 2, [.str "x"])] := by decide

/-- **C121 fails** for a listener that is removed while an event is being handled: `OffAny` has returned, and the listener is called after
that. -/
theorem C121_removed_fails : ¬ ∀ (code : Nat → Nat) (h t : List ListenRace.Ev) (l : Nat), ListenDistinct code (h ++ t) →
    l ∉ listening .incoming 0 (listenEdits h) → listenEdits t = [] → (∀ k i a, .event k i a ∉ t) →
    ∀ j a, (j, l, a) ∈ (ListenRace.run code (h ++ t)).calls → (j, l, a) ∈ (ListenRace.run code h).calls := by
  intro hall
  have := hall id (Demo.listenP ++ [.event .incoming 0 [], .adv 0, .adv 0, .edit .incoming 0 (.off (some 2))]) [.adv 0] 2
    (fun _ _ _ _ h => h) (by decide) (by decide) (by simp) 0 [] (by decide)
  exact absurd this (by decide)

end Verif.Props
