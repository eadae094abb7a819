import Verif.Proof.Shutdown

/-! # C90: `Close` and what the server listens on -/

namespace Verif.Props
open Verif Verif.Spec

/-- C90, which connections stay: `Close` ends a connection just if it came in through the http server attached last, or, if none was
attached, through the handler or engine made last.  All others stay open. -/
theorem C90_which (again : Bool) (h : List Shutdown.Ev) (c e : Nat) (hc : CameIn (Shutdown.run again h) c e) :
    (Shutdown.run again (h ++ [.close])).isOpen c = true ↔ (Shutdown.run again h).isOpen c = true ∧ ¬ Shuts h e := by
  rw [Shutdown.run_append]
  simp only [Shutdown.step, Shutdown.close_open]
  replace hc : (Shutdown.run again h).conns[c]? = some e := hc
  rw [hc, ← Shutdown.closes_iff again h e]
  cases (Shutdown.run again h).isOpen c <;> cases hk : Shutdown.closes (Shutdown.run again h) e <;> simp [hk]

/-- C90: with one http server, or one handler or engine, no connection is left open after `Close`, and nobody is in a namespace. -/
theorem C90_partial (again : Bool) (h : List Shutdown.Ev) (hone : OneWay h) (c : Nat) :
    (Shutdown.run again (h ++ [.close])).isOpen c = false ∧ (Shutdown.run again (h ++ [.close])).inside c = false := by
  refine ⟨?_, by rw [Shutdown.run_append]; exact Shutdown.close_inside _ c⟩
  cases ho : (Shutdown.run again (h ++ [.close])).isOpen c with
  | false => rfl
  | true =>
    have hlt := (Shutdown.inv_run again (h ++ [.close])).isOpen c ho
    have hc : (Shutdown.run again (h ++ [.close])).conns = (Shutdown.run again h).conns := by
      rw [Shutdown.run_append]; exact Shutdown.close_conns _
    rw [hc] at hlt
    have hin : CameIn (Shutdown.run again h) c (Shutdown.run again h).conns[c] := List.getElem?_eq_getElem hlt
    have hm := (Shutdown.inv_run again h).made _ (List.getElem_mem hlt)
    rw [(Shutdown.made_run again h).made] at hm
    exact absurd (Shutdown.shuts_all hone hm) ((C90_which again h c _ hin).1 ho).2

/-- C90, afterwards: and it stays so until the program opens another way in, if that one was an http server, or if engines that are
closed take no connections. -/
theorem C90_after_partial (again : Bool) (h h' : List Shutdown.Ev) (hone : OneWay h) (ha : again = false ∨ lastServer h ≠ none)
    (hn : OpensNone h') (c : Nat) :
    (Shutdown.run again (h ++ [.close] ++ h')).isOpen c = false ∧ (Shutdown.run again (h ++ [.close] ++ h')).inside c = false := by
  have hs : Shutdown.Shut again (Shutdown.run again (h ++ [.close])) := by
    refine ⟨?_, fun c => (C90_partial again h hone c).1, fun c => (C90_partial again h hone c).2⟩
    intro e
    have m := Shutdown.made_run again h
    rw [Shutdown.run_append]
    simp only [Shutdown.step]
    by_cases hlt : e < (enginesOf h).length
    · have hsh := Shutdown.shuts_all hone hlt
      have hcl := (Shutdown.closes_iff again h e).2 hsh
      have hhttp : (Shutdown.run again h).http = lastServer h := m.http
      cases hl : lastServer h with
      | some x =>
        rw [hl] at hhttp
        have hsrv : (Shutdown.run again h).srv e = some x := by
          simp only [Shutdown.closes, hhttp, Bool.and_eq_true, beq_iff_eq] at hcl
          exact hcl.2
        simp [Shutdown.takes, Shutdown.close, hhttp, Shutdown.stop, hsrv, Shutdown.upd]
      | none =>
        rw [hl] at hhttp
        rcases ha with ha | ha
        · subst ha
          simp only [Shutdown.closes, hhttp, beq_iff_eq] at hcl
          simp [Shutdown.takes, Shutdown.close, hhttp, hcl, Shutdown.stop]
        · exact absurd hl ha
    · have : (Shutdown.close (Shutdown.run again h)).made = (enginesOf h).length := by
        have := (Shutdown.made_run again (h ++ [.close])).made
        rw [Shutdown.run_append] at this
        have h2 : enginesOf (h ++ [.close]) = enginesOf h := by simp [enginesOf, engines, engineStep]
        rw [h2] at this; exact this
      simp [Shutdown.takes, this, hlt]
  have := Shutdown.shut_foldl hs h' hn
  have he : Shutdown.run again (h ++ [.close] ++ h') = h'.foldl (Shutdown.step again) (Shutdown.run again (h ++ [.close])) := by
    simp [Shutdown.run]
  rw [he]
  exact ⟨this.conns c, this.inside c⟩

/-- `Attach` twice to the same server, two connections, one in a namespace. -/
def Demo.oneServer : List Shutdown.Ev := [.attach 7, .connect 0, .handler, .attach 7, .connect 1, .enter 0]

example : OneWay Demo.oneServer ∧ lastServer Demo.oneServer = some 7 ∧ enginesOf Demo.oneServer = [some 7, some 7] ∧
    (Shutdown.run true Demo.oneServer).isOpen 0 = true ∧ (Shutdown.run true Demo.oneServer).isOpen 1 = true ∧
    (Shutdown.run true Demo.oneServer).inside 0 = true :=
  ⟨Or.inl ⟨7, by decide⟩, by decide, by decide, by decide, by decide, by decide⟩
example : OneWay [.handler, .handler, .connect 0] ∧ (Shutdown.run true [.handler, .handler, .connect 0]).isOpen 0 = true :=
  ⟨Or.inr (by decide), by decide⟩
example : OpensNone [.connect 0, .connect 1, .enter 0, .close] := by simp [OpensNone]

/-- C90 fails with two http servers: the connections to the first stay open, and their clients may enter namespaces again. -/
theorem C90_two_servers_fails : ¬ ∀ (again : Bool) (h h' : List Shutdown.Ev) (c : Nat), (∀ y ∈ enginesOf h, y ≠ none) → OpensNone h' →
    (Shutdown.run again (h ++ [.close] ++ h')).inside c = false := by
  intro hall
  exact absurd (hall false [.attach 1, .attach 2, .connect 0, .enter 0] [.enter 0] 0 (by decide) (by simp [OpensNone])) (by decide)

/-- C90 fails with a handler and an http server attached after it. -/
theorem C90_handler_fails : ¬ ∀ (again : Bool) (h : List Shutdown.Ev) (c : Nat), .bind ∉ h →
    (∀ x y, .attach x ∈ h → .attach y ∈ h → x = y) → (Shutdown.run again (h ++ [.close])).isOpen c = false := by
  intro hall
  refine absurd (hall false [.handler, .attach 2, .connect 0] 0 (by decide) ?_) (by decide)
  intro x y hx hy
  simp at hx hy
  omega

end Verif.Props
