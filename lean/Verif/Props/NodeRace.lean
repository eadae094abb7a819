import Verif.Proof.NodeRace

/-! # C110: the table of the other servers -/

namespace Verif.Props
open Verif Verif.Spec Verif.NodeRace

/-- Partial: if a message is recorded at most `delay` after its time was taken and the server was not already given up (see
`C110_dropped_fails`).  A server from which a message is recorded at least every `gap` milliseconds, with `gap + delay` within the
timeout, and that does not close, is counted at every moment, whatever else arrives and however often and in whatever order the clean-up
runs. -/
theorem C110_counted_partial (T gap delay u : Nat) (p q : List Ev) (prompt : NodePrompt T delay (p ++ q)) (heard : NodeHeard T gap u p q)
    (slack : gap + delay ≤ T) (free : NodeUnthreatened (run T p) u) (stays : .msg u true ∉ q) :
    ∀ q₁, q₁ <+: q → nodeCounted (run T (p ++ q₁)) u := by
  intro q₁ hq
  obtain ⟨_, t, ht, _⟩ := heard_inv T gap delay u p q prompt heard slack free stays q₁ hq
  rw [nodeCounted, ht]; simp

/-- Server 7 is heard at 0 and 6 (its time was taken at 5); two clean-ups run meanwhile, with a timeout of 10. -/
def nodeLive : List Ev :=
  [.tick 5, .clean [7], .msg 7 false, .onClean 0, .onMsg 1, .onClean 0, .tick 1, .onMsg 1, .tick 7, .clean [3, 7], .onClean 1, .onClean 1,
    .onClean 1]

/-- The prefixes of a list can be counted. -/
theorem node_prefixes {P : List Ev → Prop} (h : List Ev) (all : ∀ k, k < h.length + 1 → P (h.take k)) (h₁ : List Ev) (hp : h₁ <+: h) : P h₁ := by
  rw [List.prefix_iff_eq_take.1 hp]
  exact all _ (Nat.lt_succ_of_le hp.length_le)

def nodePromptly (T D : Nat) (h : List Ev) : Bool :=
  (run T h).msgs.all fun m => match m.pc with | .store t => decide ((run T h).now ≤ t + D) | _ => true

theorem node_promptly (T D : Nat) (h : List Ev) (hb : nodePromptly T D h = true) :
    ∀ m ∈ (run T h).msgs, ∀ t, m.pc = .store t → (run T h).now ≤ t + D := by
  intro m hm t ht
  have := List.all_eq_true.1 hb m hm
  rw [ht] at this
  exact of_decide_eq_true this

def nodeRecordedB (T : Nat) (h : List Ev) (u : Nat) : Bool :=
  match h.getLast? with
  | some (.onMsg k) => match (run T h.dropLast).msgs[k]? with
    | some m => m.uid == u && (match m.pc with | .store _ => true | _ => false)
    | none => false
  | _ => false

theorem node_recorded (T : Nat) (h : List Ev) (u : Nat) (hr : NodeRecorded T h u) : nodeRecordedB T h u = true := by
  obtain ⟨a, k, m, t, rfl, hk, hu, hpc⟩ := (recorded_iff T _ u).1 hr
  simp [nodeRecordedB, hk, hu, hpc]

example :
    let p : List Ev := [.msg 7 false, .onMsg 0, .onMsg 0]
    NodePrompt 10 1 (p ++ nodeLive) ∧ NodeHeard 10 7 7 p nodeLive ∧ NodeUnthreatened (run 10 p) 7 ∧ .msg 7 true ∉ nodeLive ∧
      (run 10 (p ++ nodeLive)).now = 13 := by
  refine ⟨?_, ?_, ⟨?_, ?_⟩, by decide, by decide⟩
  · refine (prompt_iff 10 1 _).2 <| node_prefixes _ fun k hk => node_promptly 10 1 _ ?_
    revert k; decide
  · refine node_prefixes _ fun k hk => ?_
    by_cases h8 : k < 8
    · refine ⟨[], List.nil_prefix, ⟨0, [.msg 7 false], [], 0, { uid := 7, close := false, pc := .stamp }, rfl, by decide, rfl, rfl, by decide, by simp⟩, ?_⟩
      clear hk; revert k; decide
    · refine ⟨nodeLive.take 8, List.take_prefix_take_left (by omega),
        ⟨5, [.msg 7 false, .onMsg 0, .onMsg 0] ++ nodeLive.take 4, [.onClean 0, .tick 1], 1, { uid := 7, close := false, pc := .stamp }, by decide, by decide,
          rfl, rfl, by decide, by decide⟩, ?_⟩
      clear h8; revert k; decide
  · have : (run 10 [.msg 7 false, .onMsg 0, .onMsg 0]).cleans = [] := by decide
    simp [this]
  · decide

/-- A server all of whose recorded messages are older than the timeout when a clean-up begins is not counted when this clean-up returns, unless a
message of it is recorded meanwhile. -/
theorem C110_forgotten (T u : Nat) (p : List Ev) (order : List Nat) (q : List Ev) (listed : u ∈ order)
    (old : ∀ h₁, h₁ <+: p → ∀ t, NodeRecordedAt T h₁ u t → t + T < (run T p).now) (silent : NodeSilent T u (p ++ [.clean order]) q)
    (n : Nat) (returned : (run T (p ++ .clean order :: q)).cleans[(run T p).cleans.length]? = some (.visit n [])) :
    ¬ nodeCounted (run T (p ++ .clean order :: q)) u := by
  obtain ⟨c, hc, h⟩ := forgotten_inv T u p order q listed
    (fun t ht => let ⟨h₁, h, hr⟩ := seen_run T p u t ht; old h₁ h t hr) silent
  rw [returned] at hc; cases hc
  rcases h with h | ⟨_, _, _, ha⟩
  · simp [nodeCounted, h]
  · cases ha.2

example :
    let p : List Ev := [.msg 7 false, .onMsg 0, .onMsg 0, .tick 6, .msg 8 false, .onMsg 1, .onMsg 1, .tick 5]
    let q : List Ev := [.onClean 0, .msg 9 false, .onClean 0, .onMsg 2, .onClean 0, .onMsg 2, .onClean 0]
    (∀ h₁, h₁ <+: p → ∀ t, NodeRecordedAt 10 h₁ 7 t → t + 10 < (run 10 p).now) ∧ NodeSilent 10 7 (p ++ [.clean [7, 8]]) q ∧
      (run 10 (p ++ .clean [7, 8] :: q)).cleans[(run 10 p).cleans.length]? = some (.visit 11 []) ∧
      (run 10 (p ++ .clean [7, 8] :: q)).seen 8 = some 6 := by
  refine ⟨?_, ?_, by decide, by decide⟩
  · refine node_prefixes _ fun j hj t hr => ?_
    have := node_recorded 10 _ 7 ⟨t, hr⟩
    have h3 : j = 3 := by clear hr; revert this; revert j; decide
    subst h3
    obtain ⟨a, k, m, e, hk, _, hpc⟩ := (recordedAt_iff 10 _ _ _).1 hr
    have e' : a ++ [.onMsg k] = [.msg 7 false, .onMsg 0] ++ [.onMsg 0] := e.symm
    obtain ⟨rfl, e''⟩ := List.append_inj' e' rfl
    cases e''
    have h : (run 10 [.msg 7 false, .onMsg 0]).msgs[0]? = some { uid := 7, close := false, pc := .store 0 } := by decide
    rw [h] at hk; cases hk; cases hpc; decide
  · refine node_prefixes _ fun j hj hne hr => ?_
    have := node_recorded 10 _ 7 hr
    clear hr; revert this hne; revert j; decide

/-- A server that has said that it closes is not counted once this message has been handled, if no other message of it is recorded
during or after that. -/
theorem C110_closed_partial (T u : Nat) (p q : List Ev)
    (last : ∀ q₁ j m t, q₁ ++ [.onMsg j] <+: q → (run T (p ++ .msg u true :: q₁)).msgs[j]? = some m → m.uid = u → m.pc = .store t →
      j = (run T p).msgs.length)
    (m : Msg) (handler : (run T (p ++ .msg u true :: q)).msgs[(run T p).msgs.length]? = some m) (handled : m.pc = .done) :
    ¬ nodeCounted (run T (p ++ .msg u true :: q)) u := by
  obtain ⟨m', hm, _, _, h⟩ := closed_inv T u p q last
  rw [handler] at hm; cases hm
  simp [nodeCounted, h handled]

example :
    let p : List Ev := [.msg 7 false, .onMsg 0, .onMsg 0]
    let q : List Ev := [.onMsg 1, .clean [7], .onMsg 1, .onClean 0, .onMsg 1, .msg 8 false]
    (∀ q₁ j m t, q₁ ++ [.onMsg j] <+: q → (run 10 (p ++ .msg 7 true :: q₁)).msgs[j]? = some m → m.uid = 7 → m.pc = .store t → j = 1) ∧
      (run 10 (p ++ .msg 7 true :: q)).msgs[(run 10 p).msgs.length]? = some { uid := 7, close := true, pc := .done } := by
  refine ⟨?_, by decide⟩
  intro q₁ j m t hq _ _ _
  have : Ev.onMsg j ∈ [Ev.onMsg 1, .clean [7], .onMsg 1, .onClean 0, .onMsg 1, .msg 8 false] := hq.subset (by simp)
  simpa using this

/-- A clean-up tests server 7, silent for 11 with a timeout of 10; its message is recorded; then the clean-up removes it. -/
def nodeDropped : List Ev :=
  [.msg 7 false, .onMsg 0, .onMsg 0, .tick 11, .clean [7], .onClean 0, .onClean 0, .msg 7 false, .onMsg 1, .onMsg 1]

/-- False in the code: a server whose message has just been recorded is not counted. -/
theorem C110_dropped_fails :
    NodeRecorded 10 nodeDropped 7 ∧ (∀ u, .msg u true ∉ nodeDropped) ∧ ¬ nodeCounted (run 10 (nodeDropped ++ [.onClean 0])) 7 := by
  refine ⟨⟨11, nodeDropped.dropLast.dropLast, [], 1, { uid := 7, close := false, pc := .stamp }, by decide, by decide, rfl, rfl, by decide, by simp⟩, ?_, ?_⟩
  · intro u; simp [nodeDropped]
  · have : (run 10 (nodeDropped ++ [.onClean 0])).seen 7 = none := by decide
    simp [nodeCounted, this]

/-- The goroutine that handles a heartbeat of server 7 waits; the message that it closes is handled; the heartbeat is recorded. -/
def nodeGhost : List Ev := [.msg 7 false, .onMsg 0, .msg 7 true, .onMsg 1, .onMsg 1, .onMsg 1, .onMsg 0]

/-- False in the code: a server that has closed is counted, though its last message was that it closes and all messages are handled. -/
theorem C110_ghost_fails :
    nodeCounted (run 10 nodeGhost) 7 ∧ (∀ m ∈ (run 10 nodeGhost).msgs, m.pc = .done) := by
  have h : (run 10 nodeGhost).seen 7 = some 0 := by decide
  have hm : (run 10 nodeGhost).msgs = [{ uid := 7, close := false, pc := .done }, { uid := 7, close := true, pc := .done }] := by decide
  exact ⟨by simp [nodeCounted, h], by rw [hm]; simp⟩

end Verif.Props
