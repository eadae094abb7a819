import Verif.Proof.FlagRace

/-!
# C81: a modifier concerns the emission of its own chain

`Model/FlagRace`: any number of goroutines use modifiers of one socket and emit; every access to shared memory is one step.  The claim holds
for a chain that is alone (`C81_alone_partial`).  With two chains at the same time it fails (`C81_leak`, `C81_lost`, `C81_both`).  What holds
in every interleaving is that a modifier does not survive into chains that begin after its own has emitted (`C81_origin`).
-/

namespace Verif.Props
open Verif Verif.Spec Verif.FlagRace

/-- Every modifier in force in an emission was set by a chain that had not emitted when the emitting chain began: a modifier is never left
behind for later chains. -/
theorem C81_origin (h : List FlagRace.Ev) (k : Nat) (f : F) (t : Option Nat) (m : Mod) (he : .emitted k f t ∈ (FlagRace.run h).log)
    (hm : InForce m f ∨ ∃ d, m = .timeout d ∧ t = some d) :
    ∃ j c, (chains h)[j]? = some c ∧ m ∈ c.mods ∧ ¬ EndedBefore (FlagRace.run h).log j k := by
  obtain ⟨b, e, i⟩ := inv_run h
  obtain ⟨j, x, c, h1, h2, h3, h4, h5⟩ := i.es k f t m he hm
  refine ⟨j, x.1, ?_, h2, fun hb => ?_⟩
  · rw [← calls_run, List.getElem?_map, h1]; rfl
  · have h6 := i.lg j k hb
    obtain ⟨l₁, l₂, f', t', hl, hmem⟩ := hb
    obtain ⟨y, h7, h8⟩ := i.em j f' t' (by rw [hl]; exact List.mem_append_left _ hmem)
    rw [h1] at h7; cases h7
    have := h5 h8
    omega

/-- **C81**, for a chain that is alone: all chains before it have emitted and none begins until it has emitted.  It emits with exactly the
modifiers it set, and its acknowledgement has the timeout it set. -/
theorem C81_alone_partial (pre : List FlagRace.Ev) (c : Call) (mid : List FlagRace.Ev) (ha : AllEnded pre) (hm : ∀ e ∈ mid, ∃ j, e = .adv j)
    (f : F) (t : Option Nat) (he : .emitted (chains pre).length f t ∈ (FlagRace.run (pre ++ .call c :: mid)).log) :
    f = chosen c.mods ∧ t = if c.ack then (chosen c.mods).timeout else none := by
  have e : (chains pre).length = (FlagRace.run pre).ths.length := by rw [← calls_run]; simp
  rw [e] at he
  exact (alone_run pre c ha mid hm).log f t he

namespace Demo

/-- Goroutine A: `socket.Volatile().Emit("cursor")`. -/
def volatileChain : Call := ⟨[.volatile], false⟩
/-- Goroutine B: `socket.Emit("order", …)`. -/
def plainChain : Call := ⟨[], false⟩
/-- `socket.Timeout(5).Emit("question", ack)`. -/
def timeoutChain : Call := ⟨[.timeout 5], true⟩

end Demo

/-- The claim fails: between `Volatile()` and `Emit` of one goroutine another one emits.  Its message is volatile although its chain has no
modifier (it may be lost), and the message that should be volatile is not. -/
theorem C81_leak :
    let h : List FlagRace.Ev := [.call Demo.volatileChain, .call Demo.plainChain, .adv 0, .adv 0, .adv 1, .adv 1, .adv 1, .adv 0, .adv 0, .adv 0]
    .emitted 1 { volatile := true } none ∈ (FlagRace.run h).log ∧ .emitted 0 {} none ∈ (FlagRace.run h).log := by
  decide

/-- The claim fails: a modifier that has loaded the pointer before another emission replaces it writes into the old structure: the
acknowledgement has no timeout at all, so its callback may never run. -/
theorem C81_lost :
    let h : List FlagRace.Ev := [.call Demo.plainChain, .call Demo.timeoutChain, .adv 1, .adv 0, .adv 0, .adv 0, .adv 1, .adv 1, .adv 1, .adv 1,
      .adv 1, .adv 1]
    .emitted 1 {} none ∈ (FlagRace.run h).log := by
  decide

/-- The claim fails: two emissions copy the same structure, so one `Volatile()` makes both volatile. -/
theorem C81_both :
    let h : List FlagRace.Ev := [.call Demo.volatileChain, .call Demo.plainChain, .adv 0, .adv 0, .adv 0, .adv 1, .adv 0, .adv 1, .adv 0, .adv 1]
    .emitted 0 { volatile := true } none ∈ (FlagRace.run h).log ∧ .emitted 1 { volatile := true } none ∈ (FlagRace.run h).log := by
  decide

/-- Non-vacuity of `C81_origin` and `C81_alone_partial`: after a volatile emission a question with a timeout is asked. -/
example :
    let pre : List FlagRace.Ev := [.call Demo.volatileChain, .adv 0, .adv 0, .adv 0, .adv 0, .adv 0]
    let mid : List FlagRace.Ev := [.adv 1, .adv 1, .adv 1, .adv 1, .adv 1, .adv 1, .adv 1]
    (FlagRace.run pre).log = [.began 0, .emitted 0 { volatile := true } none] ∧
    (FlagRace.run (pre ++ .call Demo.timeoutChain :: mid)).log =
      [.began 0, .emitted 0 { volatile := true } none, .began 1, .emitted 1 { timeout := some 5 } (some 5)] ∧
    chosen [.compress true, .timeout 3, .compress false, .timeout 4] = { timeout := some 4 } := by
  decide

example : AllEnded [.call Demo.volatileChain, .adv 0, .adv 0, .adv 0, .adv 0, .adv 0] := by
  intro j hj
  have : j = 0 := by simp [chains] at hj; omega
  subst this
  exact ⟨{ volatile := true }, none, by decide⟩

end Verif.Props
