import Verif.Proof.PackRace

/-! # C122: the packets kept for recovery, while goroutines broadcast and the timer fires -/

namespace Verif.Props
open Verif Verif.Spec Verif.PackRace

/-- **C122**, partial: if every packet is stored at most `delay` after its time was taken (see `C122_early_fails`).  From the moment a packet has
been stored until its time is up but for `delay`, it is kept, whatever else is broadcast and however often the timer fires. -/
theorem C122_kept_partial (max delay : Nat) (p q : List PackRace.Ev) (n t : Nat) (prompt : PackPrompt max delay (p ++ q))
    (stored : PackStored max p n t) (young : (PackRace.run max (p ++ q)).now + delay ≤ t + max) :
    n ∈ keptPackets (PackRace.run max (p ++ q)) :=
  List.mem_map.2 ⟨_, kept max delay p q n t prompt stored young, rfl⟩

/-- **C122**, under every interleaving: a packet whose time is up when the timer fires is not kept any more once its function has returned, nor
later. -/
theorem C122_cleaned (max : Nat) (p q : List PackRace.Ev) (n t : Nat) (h₁ : List PackRace.Ev) (before : h₁ <+: p)
    (stored : PackStored max h₁ n t) (old : t + max < (PackRace.run max p).now)
    (returned : (PackRace.run max (p ++ .timer :: q)).tasks[(PackRace.run max p).tasks.length]? = some .cleaned) :
    n ∉ keptPackets (PackRace.run max (p ++ .timer :: q)) := by
  rcases cleaning max p q n t h₁ before stored old with h | ⟨start, h, _⟩ | ⟨_, h⟩
  · rw [h] at returned; cases returned
  · rw [h] at returned; cases returned
  · exact h

/-- **C122**, under every interleaving: as long as a packet is kept, every packet that has been stored after it is kept, behind it. -/
theorem C122_behind (max : Nat) (p q r : List PackRace.Ev) (n m t u : Nat) (first : PackStored max p n t) (then_ : PackStored max (p ++ q) m u)
    (ne : q ≠ []) (kept : n ∈ keptPackets (PackRace.run max (p ++ q ++ r))) :
    [n, m].Sublist (keptPackets (PackRace.run max (p ++ q ++ r))) :=
  behind max p q r n m t u first then_ ne kept

/-- **C122**, under every interleaving: as long as a packet is kept, what is kept behind it is just the packets that have been stored after it, in
the order of storing.  So a client that has received it can be sent all it has missed. -/
theorem C122_exact (max : Nat) (p q : List PackRace.Ev) (n t : Nat) (first : PackStored max p n t)
    (kept : n ∈ keptPackets (PackRace.run max (p ++ q))) :
    ∃ pre, keptPackets (PackRace.run max (p ++ q)) = pre ++ n :: packStores max p q :=
  PackRace.exact max p q n t first kept

/-- **C122**, under every interleaving: no packet is kept twice, and each that is kept has been stored. -/
theorem C122_once (max : Nat) (h : List PackRace.Ev) : (keptPackets (PackRace.run max h)).Nodup ∧
    ∀ n ∈ keptPackets (PackRace.run max h), ∃ h₁ t, h₁ <+: h ∧ PackStored max h₁ n t := by
  refine ⟨nodup_run max h, ?_⟩
  induction h using snocRec with
  | nil => simp [PackRace.run, keptPackets]
  | append_singleton h e ih =>
    intro n hn
    by_cases hk : n ∈ keptPackets (PackRace.run max h)
    · obtain ⟨h₁, t, h2, h3⟩ := ih n hk
      exact ⟨h₁, t, h2.trans (List.prefix_append _ _), h3⟩
    · rw [run_snoc] at hn
      cases e with
      | tick d => exact absurd hn hk
      | cast => exact absurd hn hk
      | timer => exact absurd hn hk
      | adv j =>
        simp only [PackRace.step] at hn
        split at hn
        · rename_i a ha
          cases a <;> simp only [act, keptPackets] at hn hk <;> try exact absurd hn hk
          · rename_i t
            rw [List.map_append] at hn
            rcases List.mem_append.1 hn with hn | hn
            · exact absurd hn hk
            · simp only [List.map_cons, List.map_nil, List.mem_singleton] at hn
              subst hn
              exact ⟨h ++ [.adv n], t, List.prefix_refl _, push_stored max h n t ha⟩
          · obtain ⟨x, hx, e⟩ := List.mem_map.1 hn
            exact absurd (List.mem_map.2 ⟨x, (prune_suffix _ _ _).subset hx, e⟩) hk
        · exact absurd hn hk

/-- Nothing is removed but by the timer, and only together with a packet that is too old. -/
theorem C122_only (max : Nat) (h : List PackRace.Ev) (e : PackRace.Ev) (n : Nat) (before : n ∈ keptPackets (PackRace.run max h))
    (after : n ∉ keptPackets (PackRace.run max (h ++ [e]))) :
    ∃ k start, e = .adv k ∧ (PackRace.run max h).tasks[k]? = some (.splice start) ∧ start ≤ (PackRace.run max h).now ∧
      ∃ m, (m = n ∨ [n, m].Sublist (keptPackets (PackRace.run max h))) ∧ ∃ h₁ t, h₁ <+: h ∧ PackStored max h₁ m t ∧ t + max < start := by
  rw [run_snoc] at after
  cases e with
  | tick d => exact absurd before after
  | cast => exact absurd before after
  | timer => exact absurd before after
  | adv k =>
    simp only [PackRace.step] at after
    split at after
    · rename_i a ha
      cases a <;> simp only [act, keptPackets] at after before <;> try exact absurd before after
      · rw [List.map_append] at after
        exact absurd (List.mem_append_left _ before) after
      · rename_i start
        refine ⟨k, start, rfl, ha, (inv_run max h).splice k start ha, ?_⟩
        obtain ⟨x, hx, rfl⟩ := List.mem_map.1 before
        have hgone : x ∉ prune max start (PackRace.run max h).packets := fun hm => after (List.mem_map.2 ⟨x, hm, rfl⟩)
        have timed : ∀ y ∈ (PackRace.run max h).packets, ∃ h₁ t, h₁ <+: h ∧ PackStored max h₁ y.1 t ∧ y.2 = t := by
          intro y hy
          obtain ⟨h₁, t, h1, h2⟩ := (C122_once max h).2 y.1 (List.mem_map.2 ⟨y, hy, rfl⟩)
          obtain ⟨r, rfl⟩ := h1
          exact ⟨h₁, t, List.prefix_append _ _, h2, (stored_after max h₁ r y.1 t h2).2 y hy rfl⟩
        by_cases self : x.2 + max < start
        · obtain ⟨h₁, t, h1, h2, h3⟩ := timed x hx
          exact ⟨x.1, .inl rfl, h₁, t, h1, h2, by omega⟩
        · -- something behind it is too old
          have key : ∀ l : List (Nat × Nat), x ∈ l → x ∉ prune max start l → ∃ y, [x, y].Sublist l ∧ y.2 + max < start := by
            intro l
            induction l with
            | nil => intro h; cases h
            | cons a l ih =>
              intro hx hn
              simp only [prune] at hn
              split at hn
              · rename_i hany
                rcases List.mem_cons.1 hx with rfl | hx
                · simp only [List.any_eq_true, decide_eq_true_eq] at hany
                  obtain ⟨y, hy, hy'⟩ := hany
                  exact ⟨y, List.Sublist.cons_cons _ (List.singleton_sublist.2 hy), hy'⟩
                · obtain ⟨y, h1, h2⟩ := ih hx hn
                  exact ⟨y, h1.cons _, h2⟩
              · split at hn
                · rcases List.mem_cons.1 hx with rfl | hx
                  · contradiction
                  · exact absurd hx hn
                · exact absurd hx hn
          obtain ⟨y, hy, hy'⟩ := key _ hx hgone
          obtain ⟨h₁, t, h1, h2, h3⟩ := timed y (hy.subset (by simp))
          exact ⟨y.1, .inr (hy.map Prod.fst), h₁, t, h1, h2, by omega⟩
    · exact absurd before after

/-- **C122**: a packet that is broadcast while nothing else happens is stored as the call stores it at once in `Model/Session`. -/
theorem C122_cast_in_turn (c : Session.Cfg) (M : Nat) (s : PackRace.St) (t : Session.St) (same : SamePackets s t) (l : List Val) (p : Pkt)
    (opts : Option Opts) (hp : p.data = .args l) (kept : p.type = .event ∧ p.id = none ∧ Session.notVolatile opts = true) :
    SamePackets ((.cast :: List.replicate 2 (.adv s.tasks.length)).foldl (PackRace.step M) s) (Session.broadcast c s.now p opts t).1 := by
  simp only [SamePackets, Session.broadcast, hp, kept, List.foldl_cons, List.replicate, PackRace.step, act, and_self, if_true] at same ⊢
  simp [act, same]

/-- **C122**: so does the timer, if nothing else happens. -/
theorem C122_timer_in_turn (c : Session.Cfg) (M : Nat) (hM : c.max = M) (s : PackRace.St) (t : Session.St) (same : SamePackets s t) :
    SamePackets ((.timer :: List.replicate 2 (.adv s.tasks.length)).foldl (PackRace.step M) s) (Session.tick c s.now t) := by
  have key : ∀ (a : List Session.Stored) (b : List (Nat × Nat)), a.map (fun p => p.emittedAt) = b.map (fun p => (p.2 : Int)) →
      (Session.prunePackets (s.now - M) a).map (fun p => p.emittedAt) = (prune M s.now b).map fun p => (p.2 : Int) := by
    intro a
    induction a with
    | nil => intro b h; cases b <;> simp_all [Session.prunePackets, prune]
    | cons x a ih =>
      intro b h
      cases b with
      | nil => simp at h
      | cons y b =>
        simp only [List.map_cons, List.cons.injEq] at h
        have hany : a.any (fun q => decide (q.emittedAt < (s.now : Int) - M)) = b.any fun q => decide (q.2 + M < s.now) := by
          have h2 := h.2
          clear ih h
          induction a generalizing b with
          | nil => cases b <;> simp_all
          | cons x a ih =>
            cases b with
            | nil => simp at h2
            | cons y b =>
              simp only [List.map_cons, List.cons.injEq] at h2
              simp only [List.any_cons, ih b h2.2, h2.1]
              congr 1
              exact decide_eq_decide.2 (by omega)
        simp only [Session.prunePackets, prune, hany]
        split
        · exact ih b h.2
        · have : x.emittedAt < (s.now : Int) - M ↔ y.2 + M < s.now := by rw [h.1]; omega
          simp only [this]
          split
          · exact h.2
          · simp [h]
  simp only [SamePackets] at same ⊢
  have := key _ _ same
  simp only [List.foldl_cons, List.replicate, PackRace.step, act, Session.tick, hM]
  simpa [act] using this

/-- Two packets are stored at times 5 and 7, a third is being broadcast while the timer fires at 16. -/
def Demo.packP : List PackRace.Ev := [.tick 5, .cast, .adv 0, .tick 1, .adv 0]
def Demo.packQ : List PackRace.Ev := [.tick 1, .cast, .adv 1, .adv 1, .cast, .adv 2, .tick 1, .adv 2]

theorem demo_pack0 : PackStored 10 Demo.packP 0 5 := ⟨[.tick 5, .cast], [.tick 1], rfl, by decide, by decide, by decide⟩
theorem demo_pack1 : PackStored 10 (Demo.packP ++ [.tick 1, .cast, .adv 1, .adv 1]) 1 7 :=
  ⟨Demo.packP ++ [.tick 1, .cast], [], rfl, by decide, by decide, by decide⟩

/-- For schedules that can be looked at one by one. -/
theorem packPrompt_of {max delay : Nat} {h : List PackRace.Ev}
    (hh : ∀ i, i < h.length → ∀ n, n < h.length → ∀ t, (PackRace.run max (h.take i)).tasks[n]? = some (.push t) → h[i]? = some (.adv n) →
      (PackRace.run max (h.take i)).now ≤ t + delay) : PackPrompt max delay h := by
  intro h₁ hp n t hs
  obtain ⟨h', rfl, hn⟩ := stored_step max h₁ n t hs
  obtain ⟨r, rfl⟩ := hp
  have hlen : ∀ g : List PackRace.Ev, (PackRace.run max g).tasks.length ≤ g.length := by
    intro g
    induction g using snocRec with
    | nil => simp [PackRace.run]
    | append_singleton g e ih =>
      rw [run_snoc]
      cases e with
      | tick d => simp [PackRace.step]; omega
      | cast => simp [PackRace.step]; omega
      | timer => simp [PackRace.step]; omega
      | adv j =>
        simp only [PackRace.step]; split
        · simp; omega
        · simp; omega
  have h1 : n < (PackRace.run max h').tasks.length := (List.getElem?_eq_some_iff.1 hn).1
  have h2 := hlen h'
  have := hh h'.length (by simp) n (by simp; omega) t (by simpa using hn) (by simp)
  simp only [List.append_assoc, List.take_left] at this
  rw [run_snoc]
  simp only [PackRace.step, hn, act]
  exact this

/-- The hypotheses hold here, with a delay of 1. -/
example : PackPrompt 10 1 (Demo.packP ++ Demo.packQ) ∧ PackStored 10 Demo.packP 0 5 ∧
    (PackRace.run 10 (Demo.packP ++ Demo.packQ)).now + 1 ≤ 5 + 10 ∧ keptPackets (PackRace.run 10 (Demo.packP ++ Demo.packQ)) = [0, 1, 2] := by
  refine ⟨packPrompt_of ?_, demo_pack0, by decide, by decide⟩
  intro i hi n hn t h1 h2
  have hi' : i < 13 := hi
  have hn' : n < 13 := hn
  have : ∀ i, i < 13 → ∀ n, n < 13 → (Demo.packP ++ Demo.packQ)[i]? = some (.adv n) →
      (match (PackRace.run 10 ((Demo.packP ++ Demo.packQ).take i)).tasks[n]? with
       | some (Task.push t) => decide ((PackRace.run 10 ((Demo.packP ++ Demo.packQ).take i)).now ≤ t + 1)
       | _ => true) = true := by decide
  have := this i hi' n hn' h2
  rw [h1] at this
  simpa using this

example : PackStored 10 Demo.packP 0 5 ∧ PackStored 10 (Demo.packP ++ [.tick 1, .cast, .adv 1, .adv 1]) 1 7 ∧
    5 + 10 < (PackRace.run 10 (Demo.packP ++ Demo.packQ ++ [.tick 8])).now ∧
    (PackRace.run 10 (Demo.packP ++ Demo.packQ ++ [.tick 8] ++ .timer :: [.adv 3, .adv 3])).tasks[3]? = some .cleaned ∧
    keptPackets (PackRace.run 10 (Demo.packP ++ Demo.packQ ++ [.tick 8] ++ .timer :: [.adv 3, .adv 3])) = [1, 2] :=
  ⟨demo_pack0, demo_pack1, by decide, by decide, by decide⟩

example : PackStored 10 Demo.packP 0 5 ∧ 0 ∈ keptPackets (PackRace.run 10 (Demo.packP ++ Demo.packQ)) ∧
    packStores 10 Demo.packP Demo.packQ = [1, 2] := ⟨demo_pack0, by decide, by decide⟩

example : ∃ p : Pkt, p.data = .args [Val.str "x"] ∧ p.type = .event ∧ p.id = none ∧ Session.notVolatile (some {}) = true ∧
    SamePackets { packets := [(0, 5)] } { packets := [⟨"a", 5, [], none⟩] } :=
  ⟨{ type := .event, data := .args [Val.str "x"] }, rfl, rfl, rfl, rfl, rfl⟩

/-- **C122 fails**: goroutine 0 takes the time (0), goroutine 1 takes it later (5) and stores its packet first.  The timer then finds the
packet of goroutine 0 too old, which is behind, and removes both, the other before its time is up. -/
theorem C122_early_fails : ∃ p q n t, PackStored 10 p n t ∧ (PackRace.run 10 (p ++ q)).now ≤ t + 10 ∧
    n ∈ keptPackets (PackRace.run 10 p) ∧ n ∉ keptPackets (PackRace.run 10 (p ++ q)) :=
  ⟨[.cast, .adv 0, .tick 5, .cast, .adv 1, .adv 1], [.adv 0, .tick 6, .timer, .adv 2, .adv 2], 1, 5,
    ⟨[.cast, .adv 0, .tick 5, .cast], [], rfl, by decide, by decide, by decide⟩, by decide, by decide, by decide⟩

end Verif.Props
