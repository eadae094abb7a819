import Verif.Proof.AskSeq

/-! # C94: undisturbed, a request to the cluster ends as in the model of whole calls -/

namespace Verif.Props
open Verif Verif.Spec

/-- **C94**, when the call that asks, the answers, the departures and the timer do not overlap: whatever else the adapter is asked meanwhile,
the callback is called as by `Heartbeat.run`, of which `C41_resolves_partial` and `C41_timeout_partial` say how, the request is kept or dropped alike and the
same servers are known. -/
theorem C94_in_turn (self : String) (T id : Nat) (kind : Heartbeat.Kind) (here : List Val) (h : List AskRace.Ev) (es : List Heartbeat.Ev)
    (t : AskInTurn self id kind here h es) :
    (AskRace.run kind here h).calls = requestCalls id (Heartbeat.run self T es).calls ∧
    (AskRace.run kind here h).stored = ((Heartbeat.run self T es).custom.get? id).isSome ∧
    ∀ u, u ∈ (AskRace.run kind here h).nodes ↔ u ∈ (Heartbeat.run self T es).nodes.keys := by
  have i := AskRace.inTurn_same T t
  refine ⟨i.calls.symm, ?_, i.nodes⟩
  cases hs : (AskRace.run kind here h).stored with
  | true => obtain ⟨m, hm, _⟩ := i.entry hs; rw [hm]; rfl
  | false => rw [i.gone hs]; rfl

/-- Three servers; `a` answers, `b` leaves, another request is made, `c` answers, the timer goes off too late. -/
example : ∃ h es, AskInTurn "me" 7 .fetch [.num 0] h es ∧ (AskRace.run .fetch [.num 0] h).calls = [.ok [.num 0, .num 1, .num 3]] ∧
    requestCalls 7 (Heartbeat.run "me" 10 es).calls = [.ok [.num 0, .num 1, .num 3]] :=
  ⟨_, _, .timer (.answer "c" (.fetch 7 [.num 3]) [.num 3] ⟨rfl, rfl⟩ (.other (.request 8 .sse []) (by simp [AnotherRequest])
    (.leave "b" 4 (by decide) (.answer "a" (.fetch 7 [.num 1]) [.num 1] ⟨rfl, rfl⟩ (.ask (by decide)
      (.hear "c" 3 (by decide) (by decide) (.hear "b" 2 (by decide) (by decide) (.hear "a" 1 (by decide) (by decide) .nil)))))))),
    by decide, by decide⟩

/-- The timer goes off before `b` has answered. -/
example : ∃ h es, AskInTurn "me" 7 .sse [] h es ∧ (AskRace.run .sse [] h).calls = [.err [.num 1]] ∧
    requestCalls 7 (Heartbeat.run "me" 10 es).calls = [.err [.num 1]] :=
  ⟨_, _, .answer "b" (.sse 7 (.num 2)) [.num 2] ⟨rfl, rfl⟩ (.timer (.answer "a" (.sse 7 (.num 1)) [.num 1] ⟨rfl, rfl⟩ (.ask (by decide)
      (.hear "b" 2 (by decide) (by decide) (.hear "a" 1 (by decide) (by decide) .nil))))), by decide, by decide⟩

end Verif.Props
