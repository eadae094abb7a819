import Verif.Proof.Beat

/-! # C73: being counted by the other servers -/

namespace Verif.Props
open Verif Verif.Heartbeat Verif.Beat Verif.Spec

/-- Part of C73.  Server `i` and server `j` are up, and the heartbeats of `i` have been started, at some moment and still now.
As soon as an interval, the slack of the timers and the longest delay have passed since, `j` counts `i`, and it never stops to
do so while both are up.  The timeout must be at least the interval, the slack and the delay together.

Missing: `i` counts only if its heartbeats were started (`C73_running_fails`, `C73_broadcaster_fails`). -/
theorem C73_counted_partial (cfg : Beat.Cfg) (hu : GoodUids cfg) (slack delay : Nat)
    (hT : cfg.I + slack + delay ≤ cfg.T) (h₁ h₂ : List Beat.Ev) (hp : AlwaysPrompt cfg slack delay (h₁ ++ h₂))
    (i j : Nat) (hij : i ≠ j) (hi : (Beat.run cfg h₁).phase i = .up) (hj : (Beat.run cfg h₁).phase j = .up)
    (hb : Beating (Beat.run cfg h₁) i)
    (hi' : (Beat.run cfg (h₁ ++ h₂)).phase i = .up) (hj' : (Beat.run cfg (h₁ ++ h₂)).phase j = .up)
    (ht : (Beat.run cfg h₁).now + cfg.I + slack + delay < (Beat.run cfg (h₁ ++ h₂)).now) :
    Counts cfg (Beat.run cfg (h₁ ++ h₂)) j i := by
  obtain ⟨f1, f2⟩ := first_beat hu hT h₁ h₂ hp hij hi hj hb hi' hj'
  have inv := Beat.inv_run hu hT (h₁ ++ h₂) hp
  have hpr := hp (h₁ ++ h₂) [] (by simp)
  by_cases hnil : (Beat.run cfg (h₁ ++ h₂)).sentTo i j = []
  · obtain ⟨d, hd1, hd2⟩ := f1 hnil
    have := hpr.1 i d hi' hd1
    omega
  · obtain ⟨t, ht1, ht2⟩ := f2 hnil
    rcases inv.got i j hi' hj' hij t ht1 with ⟨q, q1, q2, q3, q4⟩ | ⟨l, hl, _⟩
    · have := hpr.2 q q1 (by rw [q3]; exact hj')
      omega
    · exact (counts_iff _ _ _ _).2 ⟨l, hl⟩

/-- Part of C73.  A server that was closed is not counted any more: from the first clean-up of `j` on that comes later than
the delay and the timeout after.  The transport must not hand it any messages once it has been closed (`deaf`;
`C73_gone_fails`). -/
theorem C73_gone_partial (cfg : Beat.Cfg) (hu : GoodUids cfg) (hdeaf : cfg.deaf = true) (slack delay : Nat)
    (h₁ h₂ h₃ : List Beat.Ev) (order : List Uid) (i j : Nat) (hij : i ≠ j)
    (hp : AlwaysPrompt cfg slack delay (h₁ ++ h₂ ++ [.cleanup j order] ++ h₃))
    (hi : (Beat.run cfg h₁).phase i = .closed) (hj : (Beat.run cfg h₁).phase j = .up)
    (ht : (Beat.run cfg h₁).now + delay + cfg.T < (Beat.run cfg (h₁ ++ h₂)).now)
    (hj' : (Beat.run cfg (h₁ ++ h₂ ++ [.cleanup j order] ++ h₃)).phase j = .up) :
    ¬ Counts cfg (Beat.run cfg (h₁ ++ h₂ ++ [.cleanup j order] ++ h₃)) j i := by
  have main : ∀ h₃, AlwaysPrompt cfg slack delay (h₁ ++ h₂ ++ [.cleanup j order] ++ h₃) →
      (Beat.run cfg (h₁ ++ h₂ ++ [.cleanup j order] ++ h₃)).phase j = .up →
      seen cfg (Beat.run cfg (h₁ ++ h₂ ++ [.cleanup j order] ++ h₃)) j i = none := by
    intro h₃
    induction h₃ using snocRec with
    | nil =>
      intro hp hj'
      simp only [List.append_nil] at hp hj' ⊢
      rw [Beat.run_snoc] at hj' ⊢
      have hju := up_before hj' (there_run cfg h₁ h₂ j (by rw [hj]; simp))
      have g := gone_run hu hdeaf h₁ h₂ (prompt_prefix hp) hij hi hj hju
      rw [seen_cleanup cfg _ j order j i hju, if_pos rfl]
      cases hs : seen cfg (Beat.run cfg (h₁ ++ h₂)) j i with
      | none => rfl
      | some l =>
        have := g.known l hs
        simp [Option.filter]
        omega
    | append_singleton h₃ e ih =>
      intro hp hj'
      rw [← List.append_assoc] at hp hj' ⊢
      rw [Beat.run_snoc] at hj' ⊢
      have eq : h₁ ++ h₂ ++ [Beat.Ev.cleanup j order] ++ h₃ = h₁ ++ (h₂ ++ [Beat.Ev.cleanup j order] ++ h₃) := by simp
      have hju := up_before hj' (by rw [eq]; exact there_run cfg h₁ _ j (by rw [hj]; simp))
      have hp0 := prompt_prefix hp
      have hpr := hp (h₁ ++ h₂ ++ [.cleanup j order] ++ h₃) [e] rfl
      have ih := ih hp0 hju
      have g : Gone cfg delay (Beat.run cfg h₁).now (Beat.run cfg (h₁ ++ h₂ ++ [.cleanup j order] ++ h₃)) i j := by
        rw [eq]; exact gone_run hu hdeaf h₁ _ (by rw [← eq]; exact hp0) hij hi hj (by rw [← eq]; exact hju)
      have hnow : (Beat.run cfg (h₁ ++ h₂)).now ≤ (Beat.run cfg (h₁ ++ h₂ ++ [.cleanup j order] ++ h₃)).now := by
        have := run_now cfg (h₁ ++ h₂) ([.cleanup j order] ++ h₃)
        simpa using this
      exact gone_none hu hij g hpr hju (by omega) ih e
  intro hc
  obtain ⟨t, ht⟩ := (counts_iff _ _ _ _).1 hc
  rw [main h₃ hp hj'] at ht
  cases ht

/-- Unless somebody calls `Init`, a server that neither asks the others anything nor broadcasts is counted by nobody, for
however long it runs. -/
theorem C73_silent (cfg : Beat.Cfg) (hu : GoodUids cfg) (h : List Beat.Ev) (i j : Nat) (hij : i ≠ j)
    (hinit : ∀ k, .init k ∉ h) (hreq : .request i ∉ h) (hbc : .broadcast i ∉ h) :
    ¬ Counts cfg (Beat.run cfg h) j i := by
  intro hc
  obtain ⟨t, ht⟩ := (counts_iff _ _ _ _).1 hc
  rw [(mute_run hu hij h hinit hreq hbc).none] at ht
  cases ht

/-- Three servers, heartbeats every 5, given up after 10. -/
def Demo.beatCfg (deaf : Bool) : Beat.Cfg :=
  { n := 3, I := 5, T := 10, uid := fun i => String.ofList (List.replicate i 'a'), deaf := deaf }

theorem Demo.beatUids (deaf : Bool) : GoodUids (Demo.beatCfg deaf) := by
  refine ⟨?_, ?_⟩
  · intro i j h
    have := congrArg String.toList h
    simp only [Demo.beatCfg, String.toList_ofList] at this
    simpa using congrArg List.length this
  · intro i h
    have := congrArg String.toList h
    simp only [Demo.beatCfg, String.toList_ofList] at this
    have e : ∀ c ∈ "emitter".toList, c = 'a' := by
      intro c hc
      rw [← this] at hc
      exact (List.mem_replicate.1 hc).2
    exact absurd (e 'e' (by decide)) (by decide)

/-- Server 0 calls `Init`. -/
def Demo.beats₁ : List Beat.Ev := [.create 0, .create 1, .init 0]

/-- Server 1 answers, both beat once, and server 1 cleans up. -/
def Demo.beats₂ : List Beat.Ev :=
  [.tick 2, .deliver 0, .tick 1, .deliver 0, .tick 3, .fire 0, .tick 2, .deliver 0, .fire 1, .tick 1, .deliver 0, .cleanup 1 []]

/-- The hypotheses of `C73_counted_partial` are met. -/
example : GoodUids (Demo.beatCfg false) ∧ AlwaysPrompt (Demo.beatCfg false) 1 2 (Demo.beats₁ ++ Demo.beats₂) ∧
    (∀ k, k < 2 → (Beat.run (Demo.beatCfg false) Demo.beats₁).phase k = .up ∧
      (Beat.run (Demo.beatCfg false) (Demo.beats₁ ++ Demo.beats₂)).phase k = .up) ∧
    Beating (Beat.run (Demo.beatCfg false) Demo.beats₁) 0 ∧
    (Beat.run (Demo.beatCfg false) Demo.beats₁).now + 5 + 1 + 2 <
      (Beat.run (Demo.beatCfg false) (Demo.beats₁ ++ Demo.beats₂)).now ∧
    Counts (Demo.beatCfg false) (Beat.run (Demo.beatCfg false) (Demo.beats₁ ++ Demo.beats₂)) 1 0 :=
  ⟨Demo.beatUids _, alwaysPrompt_of _ _ _ _ (by decide), by decide, by unfold Beating; decide, by decide,
    by unfold Counts; decide⟩

/-- Server 0, known to server 1, is closed; its last message arrives before the one that says so, so server 1 takes it for
alive for a while. -/
def Demo.ended₁ : List Beat.Ev := [.create 0, .create 1, .broadcast 0, .close 0]
def Demo.ended₂ : List Beat.Ev := [.deliver 1, .tick 2, .deliver 0, .tick 11]

/-- The hypotheses of `C73_gone_partial` are met, and something is forgotten by the clean-up. -/
example : AlwaysPrompt (Demo.beatCfg true) 1 2 (Demo.ended₁ ++ Demo.ended₂ ++ [.cleanup 1 []] ++ [.tick 1]) ∧
    (Beat.run (Demo.beatCfg true) Demo.ended₁).phase 0 = .closed ∧
    (Beat.run (Demo.beatCfg true) Demo.ended₁).phase 1 = .up ∧
    (Beat.run (Demo.beatCfg true) Demo.ended₁).now + 2 + 10 < (Beat.run (Demo.beatCfg true) (Demo.ended₁ ++ Demo.ended₂)).now ∧
    (Beat.run (Demo.beatCfg true) (Demo.ended₁ ++ Demo.ended₂ ++ [.cleanup 1 []] ++ [.tick 1])).phase 1 = .up ∧
    Counts (Demo.beatCfg true) (Beat.run (Demo.beatCfg true) (Demo.ended₁ ++ Demo.ended₂)) 1 0 :=
  ⟨alwaysPrompt_of _ _ _ _ (by decide), by decide, by decide, by decide, by decide, by unfold Counts; decide⟩

/-- The hypotheses of `C73_silent` are met by a server that counts others and is not counted itself. -/
example : (∀ k, Beat.Ev.init k ∉ [Beat.Ev.create 0, .create 1, .request 1, .deliver 0, .tick 5, .fire 1, .deliver 0]) ∧
    Counts (Demo.beatCfg true)
      (Beat.run (Demo.beatCfg true) [.create 0, .create 1, .request 1, .deliver 0, .tick 5, .fire 1, .deliver 0]) 0 1 :=
  ⟨by simp, by unfold Counts; decide⟩

/-- Being up is not enough: a server whose adapter was only created, which is all that this repository does, is never
counted. -/
theorem C73_running_fails :
    ¬ ∀ (cfg : Beat.Cfg) (slack delay : Nat) (h₁ h₂ : List Beat.Ev) (i j : Nat), GoodUids cfg →
      cfg.I + slack + delay ≤ cfg.T → AlwaysPrompt cfg slack delay (h₁ ++ h₂) → i ≠ j →
      (Beat.run cfg h₁).phase i = .up → (Beat.run cfg h₁).phase j = .up →
      (Beat.run cfg (h₁ ++ h₂)).phase i = .up → (Beat.run cfg (h₁ ++ h₂)).phase j = .up →
      (Beat.run cfg h₁).now + cfg.I + slack + delay < (Beat.run cfg (h₁ ++ h₂)).now →
      Counts cfg (Beat.run cfg (h₁ ++ h₂)) j i := by
  intro hall
  have := hall (Demo.beatCfg true) 1 2 [.create 0, .create 1] [.tick 1000] 0 1 (Demo.beatUids _) (by decide)
    (alwaysPrompt_of _ _ _ _ (by decide)) (by decide) (by decide) (by decide) (by decide) (by decide) (by decide)
  exact absurd this (by unfold Counts; decide)

/-- Nor is having been heard from: broadcasts do not start the heartbeats.  Server 0
broadcasts, is counted, and is given up though it is up. -/
theorem C73_broadcaster_fails :
    ¬ ∀ (cfg : Beat.Cfg) (slack delay : Nat) (h₁ h₂ : List Beat.Ev) (i j : Nat), GoodUids cfg →
      cfg.I + slack + delay ≤ cfg.T → AlwaysPrompt cfg slack delay (h₁ ++ h₂) → i ≠ j →
      (Beat.run cfg (h₁ ++ h₂)).phase i = .up → (Beat.run cfg (h₁ ++ h₂)).phase j = .up →
      Counts cfg (Beat.run cfg h₁) j i → Counts cfg (Beat.run cfg (h₁ ++ h₂)) j i := by
  intro hall
  have := hall (Demo.beatCfg true) 1 2 [.create 0, .create 1, .broadcast 0, .deliver 0] [.tick 11, .cleanup 1 []] 0 1
    (Demo.beatUids _) (by decide)
    (alwaysPrompt_of _ _ _ _ (by decide)) (by decide) (by decide) (by decide) (by unfold Counts; decide)
  exact absurd this (by unfold Counts; decide)

/-- Without the transport's help a closed server is counted again: it answers the `Init` of a new server, to everybody. -/
theorem C73_gone_fails :
    ¬ ∀ (cfg : Beat.Cfg) (slack delay : Nat) (h₁ h₂ h₃ : List Beat.Ev) (order : List Uid) (i j : Nat), GoodUids cfg → i ≠ j →
      AlwaysPrompt cfg slack delay (h₁ ++ h₂ ++ [.cleanup j order] ++ h₃) →
      (Beat.run cfg h₁).phase i = .closed → (Beat.run cfg h₁).phase j = .up →
      (Beat.run cfg h₁).now + delay + cfg.T < (Beat.run cfg (h₁ ++ h₂)).now →
      (Beat.run cfg (h₁ ++ h₂ ++ [.cleanup j order] ++ h₃)).phase j = .up →
      ¬ Counts cfg (Beat.run cfg (h₁ ++ h₂ ++ [.cleanup j order] ++ h₃)) j i := by
  intro hall
  refine hall (Demo.beatCfg false) 1 2 [.create 0, .create 1, .close 0] [.deliver 0, .tick 13] [.create 2, .init 2, .deliver 0,
    .deliver 1] [] 0 1 (Demo.beatUids _) (by decide) (alwaysPrompt_of _ _ _ _ (by decide)) (by decide) (by decide) (by decide)
    (by decide) ?_
  unfold Counts
  decide

end Verif.Props
