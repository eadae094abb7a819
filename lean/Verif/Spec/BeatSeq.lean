import Verif.Model.Beat
import Verif.Model.BeatRace

/-! The heartbeat timer while no two calls overlap (C95): what `Model/BeatRace` and `Model/Beat` have in common. -/

namespace Verif.Spec
open Verif

/-- What server `i` publishes, in state `s`, because of an event: its user asks for it or another server has just come, its timer goes off, it is closed. -/
def publishes (cfg : Beat.Cfg) (s : Beat.St) (i : Nat) : Beat.Ev → Option BeatRace.Msg
  | .init j => if j = i ∧ s.phase i = .up then some .message else none
  | .request j => if j = i ∧ s.phase i = .up then some .message else none
  | .deliver k => match s.net[k]? with
    | some p => if p.dst = i ∧ p.type = .initialHeartbeat ∧ Beat.listens cfg s i then some .message else none
    | none => none
  | .fire j => if j = i then (match s.deadline i with
    | some d => if d ≤ s.now then some .heartbeat else none
    | none => none) else none
  | .close j => if j = i ∧ s.phase i = .up then some .goodbye else none
  | _ => none

/-- The `k`-th call, from its beginning to its end. -/
def beatSteps (k : Nat) : Option BeatRace.Msg → List BeatRace.Ev
  | none => []
  | some .message => .publish :: List.replicate 5 (.adv k)
  | some .heartbeat => .fire 0 :: List.replicate 5 (.adv k)
  | some .goodbye => .close :: List.replicate 5 (.adv k)

/-- `h` are the steps of server `i` in history `es`, each call running to its end before the next begins; `l` is what the server publishes. -/
inductive BeatsInTurn (cfg : Beat.Cfg) (i : Nat) : List Beat.Ev → List BeatRace.Ev → List BeatRace.Msg → Prop where
  | nil : BeatsInTurn cfg i [] [] []
  | next {es h l} (e : Beat.Ev) : BeatsInTurn cfg i es h l →
      BeatsInTurn cfg i (es ++ [e]) (h ++ beatSteps (BeatRace.run true h).ths.length (publishes cfg (Beat.run cfg es) i e))
        (l ++ (publishes cfg (Beat.run cfg es) i e).toList)

end Verif.Spec
