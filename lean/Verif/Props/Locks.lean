import Verif.Proof.Locks

/-! # C106: calls that send return -/

namespace Verif.Props
open Verif Verif.Locks

/-- **C106, partial**: if listeners that are called while a packet is written to a client send only to clients that come later in some
order.  Whatever calls there are, to whatever clients and in whatever order, and wherever they stand: if the goroutines go on getting
turns, in any order, all calls return. -/
theorem C106_ordered_partial (rank : Nat → Nat) (h : List Locks.Ev) (hn : Spec.Climbs rank h) :
    ∃ N, ∀ rounds : List (List Locks.Ev), N ≤ rounds.length → (∀ r ∈ rounds, Spec.Round (Locks.run h).ths.length r) →
      ∀ k < (Locks.run h).ths.length, Spec.Back (Locks.run (h ++ rounds.flatten)) k := by
  refine ⟨work (Locks.run h), fun rounds hl hr k hk => ?_⟩
  have := rounds_end rank _ rounds (Locks.run h) (Locks.inv_run h hn) rfl hr hl k hk
  simpa [Locks.run, List.foldl_append] using this

/-- Two broadcasts to clients 0 and 1; whenever something is written to 0, a listener sends something to 1. -/
example : Spec.Climbs id [.call [(0, 1), (1, 2)], .call [(1, 2), (0, 1)], .adv 0, .callback 0 [(1, 1)]] ∧
    (Locks.run [.call [(0, 1), (1, 2)], .call [(1, 2), (0, 1)], .adv 0, .callback 0 [(1, 1)]]).ths =
      [[.next [(1, 1)], .writing 0 1 [(1, 2)]], [.next [(1, 2), (0, 1)]]] := by
  refine ⟨?_, by decide⟩
  intro a k p b c n todo rest he hw x hx
  rcases a with _ | ⟨a1, _ | ⟨a2, _ | ⟨a3, _ | ⟨a4, a⟩⟩⟩⟩ <;> simp at he
  obtain ⟨rfl, rfl, rfl, ⟨rfl, rfl⟩, rfl⟩ := he
  simp at hx
  subst hx
  simp [Locks.run, Locks.step, Locks.act] at hw
  simp [← hw.1.1]

/-- **C106, partial**: in particular without listeners of a connection that send while it is written to. -/
theorem C106_returns_partial (h : List Locks.Ev) (hn : Spec.NoReentry h) :
    ∃ N, ∀ rounds : List (List Locks.Ev), N ≤ rounds.length → (∀ r ∈ rounds, Spec.Round (Locks.run h).ths.length r) →
      ∀ k < (Locks.run h).ths.length, Spec.Back (Locks.run (h ++ rounds.flatten)) k :=
  C106_ordered_partial id h fun a k p b _ _ _ _ he _ => absurd (by simp [he]) (hn k p)

/-- Two broadcasts to clients 0 and 1, in opposite orders, each holding a mutex. -/
example : Spec.NoReentry [.call [(0, 1), (1, 2)], .call [(1, 2), (0, 1)], .adv 0, .adv 1] ∧
    (Locks.run [.call [(0, 1), (1, 2)], .call [(1, 2), (0, 1)], .adv 0, .adv 1]).ths =
      [[.writing 0 1 [(1, 2)]], [.writing 1 2 [(0, 1)]]] ∧
    Spec.Back (Locks.run ([.call [(0, 1), (1, 2)], .call [(1, 2), (0, 1)], .adv 0, .adv 1] ++
      (List.replicate 9 [.adv 1, .adv 0]).flatten)) 0 := by
  refine ⟨?_, by decide, by unfold Spec.Back; decide⟩
  intro k p hm
  simp at hm

/-- **C106** fails in general: a listener that is called while a packet is written to a client, and that sends something to the same
client, waits for ever, and so does everybody who sends something to this client from then on. -/
theorem C106_reentry_fails : ∃ (h : List Locks.Ev), ∀ t : List Locks.Ev,
    ¬ Spec.Back (Locks.run (h ++ t)) 0 ∧
    ∀ (n : Nat) (p : List (Nat × Nat)) (u : List Locks.Ev),
      ¬ Spec.Back (Locks.run (h ++ t ++ .call ((0, n) :: p) :: u)) (Locks.run (h ++ t)).ths.length := by
  refine ⟨[.call [(0, 1)], .adv 0, .callback 0 [(0, 1)]], fun t => ?_⟩
  have h := Locks.stuck_fold t (Locks.run [.call [(0, 1)], .adv 0, .callback 0 [(0, 1)]])
    ⟨by decide, by decide, by
      intro k l hk hl c n td hm
      rcases k with _ | k
      · exact absurd rfl hk
      · simp [Locks.run, Locks.step, Locks.act] at hl⟩
  rw [show Locks.run ([.call [(0, 1)], .adv 0, .callback 0 [(0, 1)]] ++ t) =
    t.foldl Locks.step (Locks.run [.call [(0, 1)], .adv 0, .callback 0 [(0, 1)]]) from by simp [Locks.run]]
  refine ⟨by simp [Spec.Back, h.top], fun n p u => ?_⟩
  rw [show Locks.run ([.call [(0, 1)], .adv 0, .callback 0 [(0, 1)]] ++ t ++ .call ((0, n) :: p) :: u) =
    u.foldl Locks.step (Locks.step (t.foldl Locks.step (Locks.run [.call [(0, 1)], .adv 0, .callback 0 [(0, 1)]])) (.call ((0, n) :: p)))
    from by simp [Locks.run]]
  have := Locks.waits_fold u _ (Locks.stuck_step h (.call ((0, n) :: p)))
    (t.foldl Locks.step (Locks.run [.call [(0, 1)], .adv 0, .callback 0 [(0, 1)]])).ths.length n p (by simp [Locks.step])
  simp [Spec.Back, this]

/-- **C106** fails also if no listener sends to the client that is being written to: while something is written to client 0 a listener
sends to client 1, and the other way round.  Both wait for ever. -/
theorem C106_crossed_fails : ∃ (h : List Locks.Ev), (∀ a k p b c n todo rest, h = a ++ .callback k p :: b →
      (Locks.run a).ths[k]? = some (.writing c n todo :: rest) → ∀ x ∈ p, c ≠ x.1) ∧
    ∀ t : List Locks.Ev, ¬ Spec.Back (Locks.run (h ++ t)) 0 ∧ ¬ Spec.Back (Locks.run (h ++ t)) 1 := by
  refine ⟨[.call [(0, 1)], .call [(1, 1)], .adv 0, .adv 1, .callback 0 [(1, 1)], .callback 1 [(0, 1)]], ?_, fun t => ?_⟩
  · intro a k p b c n todo rest he hw x hx
    rcases a with _ | ⟨a1, _ | ⟨a2, _ | ⟨a3, _ | ⟨a4, _ | ⟨a5, _ | ⟨a6, a⟩⟩⟩⟩⟩⟩ <;> simp at he
    · obtain ⟨rfl, rfl, rfl, rfl, ⟨rfl, rfl⟩, rfl⟩ := he
      simp at hx
      subst hx
      simp [Locks.run, Locks.step, Locks.act, World.upd] at hw
      simp [← hw.1.1]
    · obtain ⟨rfl, rfl, rfl, rfl, rfl, ⟨rfl, rfl⟩, rfl⟩ := he
      simp at hx
      subst hx
      simp [Locks.run, Locks.step, Locks.act, World.upd] at hw
      simp [← hw.1.1]
  · have h := Locks.crossed_fold t (Locks.run [.call [(0, 1)], .call [(1, 1)], .adv 0, .adv 1, .callback 0 [(1, 1)], .callback 1 [(0, 1)]])
      ⟨by decide, by decide, by decide, by decide, by
        intro k l hk hl
        rcases k with _ | _ | k
        · omega
        · omega
        · simp [Locks.run, Locks.step, Locks.act, World.upd] at hl⟩
    rw [show Locks.run ([.call [(0, 1)], .call [(1, 1)], .adv 0, .adv 1, .callback 0 [(1, 1)], .callback 1 [(0, 1)]] ++ t) =
      t.foldl Locks.step (Locks.run [.call [(0, 1)], .call [(1, 1)], .adv 0, .adv 1, .callback 0 [(1, 1)], .callback 1 [(0, 1)]])
      from by simp [Locks.run]]
    simp [Spec.Back, h.zero, h.one]

end Verif.Props
