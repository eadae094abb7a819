import Verif.Spec.Shutdown

/-! # What a server listens on: lemmas -/

namespace Verif.Shutdown
open Verif.Spec

/-- What `Close` closes in this state. -/
def closes (s : St) (e : Nat) : Bool :=
  match s.http with
  | some h => decide (e < s.made) && s.srv e == some h
  | none => s.engine == some e

theorem run_append (again : Bool) (h : List Ev) (e : Ev) : run again (h ++ [e]) = step again (run again h) e := by
  simp [run]

/-- A property of what a history leads to, by induction. -/
theorem run_ind {again : Bool} {P : List Ev → St → Prop} (h0 : P [] {}) (hs : ∀ h e, P h (run again h) → P (h ++ [e]) (step again (run again h) e))
    (h : List Ev) : P h (run again h) := by
  induction h using snocRec with
  | nil => exact h0
  | append_singleton l e ih => rw [run_append]; exact hs l e ih

structure Inv (s : St) : Prop where
  made : ∀ e ∈ s.conns, e < s.made
  inside : ∀ c, s.inside c = true → s.isOpen c = true
  isOpen : ∀ c, s.isOpen c = true → c < s.conns.length

theorem inv_stop {s : St} (i : Inv s) (p : Nat → Bool) : Inv (stop s p) := by
  refine ⟨i.made, ?_, ?_⟩
  · intro c hc
    simp only [stop, Bool.and_eq_true] at hc ⊢
    exact ⟨i.inside c hc.1, hc.2⟩
  · intro c hc
    simp only [stop, Bool.and_eq_true] at hc ⊢
    exact i.isOpen c hc.1

theorem inv_run (again : Bool) (h : List Ev) : Inv (run again h) := by
  refine run_ind (P := fun _ s => Inv s) ⟨by simp, by simp, by simp⟩ ?_ h
  intro h e i
  generalize run again h = s at i
  cases e with
  | attach h => exact ⟨fun e he => Nat.lt_succ_of_lt (i.made e he), i.inside, i.isOpen⟩
  | bind => exact ⟨fun e he => Nat.lt_succ_of_lt (i.made e he), i.inside, i.isOpen⟩
  | handler =>
    simp only [step, handler]
    split
    · exact i
    · exact ⟨fun e he => Nat.lt_succ_of_lt (i.made e he), i.inside, i.isOpen⟩
  | connect e =>
    simp only [step]
    split
    · rename_i ht
      refine ⟨?_, ?_, ?_⟩
      · intro x hx
        rcases List.mem_append.1 hx with hx | hx
        · exact i.made x hx
        · simp only [List.mem_singleton] at hx; subst hx
          simp only [takes, Bool.and_eq_true, decide_eq_true_eq] at ht
          exact ht.1.1
      · intro c hc
        simp only [upd]; split
        · rfl
        · exact i.inside c hc
      · intro c hc
        simp only [List.length_append, List.length_singleton]
        simp only [upd] at hc
        split at hc
        · omega
        · have := i.isOpen c hc; omega
    · exact i
  | enter c =>
    simp only [step]
    split
    · rename_i ho
      refine ⟨i.made, ?_, i.isOpen⟩
      intro x hx
      simp only [upd] at hx
      split at hx
      · rename_i hxc; rw [hxc]; exact ho
      · exact i.inside x hx
    · exact i
  | close =>
    have i' : Inv { s with inside := fun _ => false } := ⟨i.made, by simp, i.isOpen⟩
    simp only [step, close]
    split
    · have := inv_stop i' (fun e => decide (e < s.made) && s.srv e == s.http)
      rename_i hh
      rw [hh] at this
      exact ⟨this.made, this.inside, this.isOpen⟩
    · split
      · exact inv_stop i' _
      · exact i'

/-- What is open after `Close`. -/
theorem close_open (s : St) (c : Nat) :
    (close s).isOpen c = (s.isOpen c && !(match s.conns[c]? with | some e => closes s e | none => false)) := by
  cases hh : s.http with
  | some h => cases hc : s.conns[c]? <;> simp [close, hh, stop, closes, hc]
  | none =>
    cases he : s.engine with
    | none => cases hc : s.conns[c]? <;> simp [close, hh, he, closes]
    | some e =>
      cases hc : s.conns[c]? with
      | none => simp [close, hh, he, stop, closes, hc]
      | some x =>
        by_cases hx : x = e
        · subst hx; simp [close, hh, he, stop, closes, hc]
        · have hx' : e ≠ x := fun h => hx h.symm
          have h1 : (x == e) = false := beq_eq_false_iff_ne.2 hx
          have h2 : (e == x) = false := beq_eq_false_iff_ne.2 hx'
          simp [close, hh, he, stop, closes, hc, h1, h2]

theorem close_inside (s : St) (c : Nat) : (close s).inside c = false := by
  cases hh : s.http with
  | some h => simp [close, hh, stop]
  | none => cases he : s.engine <;> simp [close, hh, he, stop]

theorem close_conns (s : St) : (close s).conns = s.conns := by
  cases hh : s.http with
  | some h => simp [close, hh, stop]
  | none => cases he : s.engine <;> simp [close, hh, he, stop]

/-- What a history makes of the fields. -/
structure Made (h : List Ev) (s : St) : Prop where
  made : s.made = (enginesOf h).length
  srv : ∀ e, s.srv e = ((enginesOf h)[e]?).join
  eio : s.eio.isSome = servedAlready h
  engine : s.engine = if (enginesOf h).length = 0 then none else some ((enginesOf h).length - 1)
  http : s.http = ((enginesOf h).filterMap id).getLast?

theorem made_fresh {h h' : List Ev} {s : St} (m : Made h s) (x : Option Nat) (hx : enginesOf h' = enginesOf h ++ [x]) :
    (fresh s x).made = (enginesOf h').length ∧ (∀ e, (fresh s x).srv e = ((enginesOf h')[e]?).join) ∧
      (fresh s x).engine = if (enginesOf h').length = 0 then none else some ((enginesOf h').length - 1) := by
  refine ⟨?_, ?_, ?_⟩
  · simp [fresh, hx, m.made]
  · intro e
    simp only [fresh, upd, hx, m.made]
    by_cases he : e = (enginesOf h).length
    · subst he; simp
    · simp only [he, if_false, m.srv]
      by_cases hlt : e < (enginesOf h).length
      · rw [List.getElem?_append_left hlt]
      · rw [List.getElem?_eq_none (by omega), List.getElem?_eq_none (by simp; omega)]
  · simp [fresh, hx, m.made]

theorem made_other {h h' : List Ev} {s s' : St} (m : Made h s) (he : enginesOf h' = enginesOf h) (hs : servedAlready h' = servedAlready h)
    (h1 : s'.made = s.made) (h2 : s'.srv = s.srv) (h3 : s'.eio = s.eio) (h4 : s'.engine = s.engine) (h5 : s'.http = s.http) : Made h' s' :=
  ⟨by rw [h1, he, m.made], by rw [h2, he]; exact m.srv, by rw [h3, hs, m.eio], by rw [h4, he, m.engine], by rw [h5, he, m.http]⟩

theorem made_run (again : Bool) (h : List Ev) : Made h (run again h) := by
  refine run_ind (P := Made) ⟨by simp [enginesOf, engines], by simp [enginesOf, engines], rfl, by simp [enginesOf, engines], by simp [enginesOf, engines]⟩ ?_ h
  intro h e m
  generalize run again h = s at m
  have hE : ∀ e, engines (h ++ [e]) = engineStep (engines h) e := fun e => by simp [engines]
  cases e with
  | attach x =>
    have hx : enginesOf (h ++ [.attach x]) = enginesOf h ++ [some x] := by simp [enginesOf, hE, engineStep]
    obtain ⟨h1, h2, h3⟩ := made_fresh m (some x) hx
    refine ⟨h1, h2, ?_, h3, ?_⟩
    · simp [step, attach, servedAlready, hE, engineStep]
    · simp [step, attach, hx, List.filterMap_append]
  | bind =>
    have hx : enginesOf (h ++ [.bind]) = enginesOf h ++ [none] := by simp [enginesOf, hE, engineStep]
    obtain ⟨h1, h2, h3⟩ := made_fresh m none hx
    refine ⟨h1, h2, ?_, h3, ?_⟩
    · simp only [step, fresh, m.eio]; simp [servedAlready, hE, engineStep]
    · simp only [step, fresh, m.http]; simp [hx, List.filterMap_append]
  | handler =>
    simp only [step, handler]
    split
    · rename_i y hy
      have hs : servedAlready h = true := by rw [← m.eio, hy]; rfl
      refine made_other m ?_ ?_ rfl rfl rfl rfl rfl
      · simp only [servedAlready] at hs
        simp [enginesOf, hE, engineStep, hs]
      · simp only [servedAlready] at hs ⊢
        simp [hE, engineStep, hs]
    · rename_i hy
      have hs : servedAlready h = false := by rw [← m.eio, hy]; rfl
      simp only [servedAlready] at hs
      have hx : enginesOf (h ++ [.handler]) = enginesOf h ++ [none] := by simp [enginesOf, hE, engineStep, hs]
      obtain ⟨h1, h2, h3⟩ := made_fresh m none hx
      refine ⟨h1, h2, ?_, h3, ?_⟩
      · simp [servedAlready, hE, engineStep, hs]
      · simp only [fresh, m.http]; simp [hx, List.filterMap_append]
  | connect e =>
    have h1 : enginesOf (h ++ [.connect e]) = enginesOf h := by simp [enginesOf, hE, engineStep]
    have h2 : servedAlready (h ++ [.connect e]) = servedAlready h := by simp [servedAlready, hE, engineStep]
    simp only [step]; split
    · exact made_other m h1 h2 rfl rfl rfl rfl rfl
    · exact made_other m h1 h2 rfl rfl rfl rfl rfl
  | enter e =>
    have h1 : enginesOf (h ++ [.enter e]) = enginesOf h := by simp [enginesOf, hE, engineStep]
    have h2 : servedAlready (h ++ [.enter e]) = servedAlready h := by simp [servedAlready, hE, engineStep]
    simp only [step]; split
    · exact made_other m h1 h2 rfl rfl rfl rfl rfl
    · exact made_other m h1 h2 rfl rfl rfl rfl rfl
  | close =>
    have h1 : enginesOf (h ++ [.close]) = enginesOf h := by simp [enginesOf, hE, engineStep]
    have h2 : servedAlready (h ++ [.close]) = servedAlready h := by simp [servedAlready, hE, engineStep]
    simp only [step]
    cases hh : s.http with
    | some x => exact made_other m h1 h2 (by simp [close, hh, stop]) (by simp [close, hh, stop]) (by simp [close, hh, stop]) (by simp [close, hh, stop]) (by simp [close, hh, stop])
    | none =>
      cases he : s.engine <;>
        exact made_other m h1 h2 (by simp [close, hh, he, stop]) (by simp [close, hh, he, stop]) (by simp [close, hh, he, stop]) (by simp [close, hh, he, stop]) (by simp [close, hh, he, stop])

/-- `Close` shuts what the specification says. -/
theorem closes_iff (again : Bool) (h : List Ev) (e : Nat) : closes (run again h) e = true ↔ Shuts h e := by
  have m := made_run again h
  simp only [closes, Shuts, m.http, lastServer]
  cases hl : ((enginesOf h).filterMap id).getLast? with
  | some x =>
    simp only [Bool.and_eq_true, decide_eq_true_eq, beq_iff_eq, m.made, m.srv]
    constructor
    · rintro ⟨_, he⟩
      cases hy : (enginesOf h)[e]? with
      | none => simp [hy] at he
      | some y => simp only [hy, Option.join_some] at he; rw [he]
    · intro he
      have := (List.getElem?_eq_some_iff.1 he).1
      exact ⟨this, by simp [he]⟩
  | none =>
    simp only [m.engine]
    by_cases hz : (enginesOf h).length = 0
    · simp only [hz, if_true]; constructor
      · intro h; cases h
      · intro h; omega
    · simp only [hz, if_false, beq_iff_eq, Option.some.injEq]
      omega

/-- With one way in `Close` shuts it. -/
theorem shuts_all {h : List Ev} (hone : OneWay h) {e : Nat} (he : e < (enginesOf h).length) : Shuts h e := by
  rcases hone with ⟨x, hx⟩ | hx
  · have hl : lastServer h = some x := by
      have hne : (enginesOf h).filterMap id ≠ [] := by
        intro h0
        have h1 := hx _ (List.getElem_mem he)
        have : x ∈ (enginesOf h).filterMap id := List.mem_filterMap.2 ⟨_, List.getElem_mem he, h1⟩
        rw [h0] at this; cases this
      simp only [lastServer, List.getLast?_eq_some_getLast hne]
      have hm := List.getLast_mem hne
      obtain ⟨y, hy, hyx⟩ := List.mem_filterMap.1 hm
      have := hx y hy
      simp only [id] at hyx
      rw [← hyx, this]
    simp only [Shuts, hl]
    rw [List.getElem?_eq_getElem he, hx _ (List.getElem_mem he)]
  · have hl : lastServer h = none := by simp [lastServer, hx]
    rw [hx] at he
    simp only [Shuts, hl, hx]
    simp only [List.length_singleton] at he ⊢
    omega

/-- No way in is open, and no connection. -/
structure Shut (again : Bool) (s : St) : Prop where
  takes : ∀ e, takes again s e = false
  conns : ∀ c, s.isOpen c = false
  inside : ∀ c, s.inside c = false

theorem shut_close {again : Bool} {s : St} (i : Shut again s) : Shut again (close s) := by
  refine ⟨?_, fun c => by simp [close_open, i.conns], fun c => close_inside s c⟩
  intro e
  have hi := i.takes e
  cases hh : s.http with
  | some x =>
    cases hs : s.srv e with
    | none =>
      simp only [takes, hs, close, hh, stop, Bool.and_true] at hi ⊢
      revert hi
      cases again <;> cases s.stopped e <;> simp
    | some y =>
      simp only [takes, hs, close, hh, stop, upd] at hi ⊢
      revert hi
      cases again <;> cases s.stopped e <;> simp <;> (intros; simp_all)
  | none =>
    cases he : s.engine with
    | none => simpa only [takes, close, hh, he] using hi
    | some x =>
      cases hs : s.srv e <;>
      · simp only [takes, hs, close, hh, he, stop] at hi ⊢
        revert hi
        cases again <;> cases s.stopped e <;> simp <;> (intros; try simp_all) <;> omega

theorem shut_step {again : Bool} {s : St} (i : Shut again s) (e : Ev) (he : (∀ x, e ≠ .attach x) ∧ e ≠ .handler ∧ e ≠ .bind) :
    Shut again (step again s e) := by
  cases e with
  | attach x => exact absurd rfl (he.1 x)
  | handler => exact absurd rfl he.2.1
  | bind => exact absurd rfl he.2.2
  | connect e => simp only [step, i.takes e]; exact i
  | enter c => simp only [step, i.conns c]; exact i
  | close => exact shut_close i

theorem shut_foldl {again : Bool} {s : St} (i : Shut again s) (h : List Ev) (ho : OpensNone h) : Shut again (h.foldl (step again) s) := by
  induction h generalizing s with
  | nil => exact i
  | cons e h ih => exact ih (shut_step i e (ho e (by simp))) (fun x hx => ho x (by simp [hx]))

end Verif.Shutdown
