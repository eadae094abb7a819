import Verif.Model.AskRace

/-! A request to the cluster of which nothing overlaps (C94). -/

namespace Verif.Spec
open Verif

/-- An event that does not concern request `id`. -/
def AnotherRequest (id : Nat) : Heartbeat.Ev → Prop
  | .request i _ _ => i ≠ id
  | .timeout i => i ≠ id
  | .response _ (.fetch i _) => i ≠ id
  | .response _ (.sse i _) => i ≠ id
  | .response _ _ => True
  | _ => False

/-- `l` are the values that the response brings for request `id`. -/
def Brings (id : Nat) : Heartbeat.Resp → List Val → Prop
  | .fetch i x, l => i = id ∧ x = l
  | .sse i x, l => i = id ∧ [x] = l
  | _, _ => False

/-- In `h` the call that asks, the answers, the departures of servers and the function of the timer run one after the other, each to its end
before the next begins; `es` are the corresponding calls, messages, responses and expiries at adapter `self`, the request being number `id`. -/
inductive AskInTurn (self : String) (id : Nat) (kind : Heartbeat.Kind) (here : List Val) : List AskRace.Ev → List Heartbeat.Ev → Prop where
  | nil : AskInTurn self id kind here [] []
  | hear {h es} (u : String) (now : Nat) : u ≠ self → u ≠ Heartbeat.EMITTER → AskInTurn self id kind here h es →
      AskInTurn self id kind here (h ++ [.arrive u]) (es ++ [.message u .heartbeat now])
  | ask {h es} : (AskRace.run kind here h).asker = .count → AskInTurn self id kind here h es →
      AskInTurn self id kind here (h ++ List.replicate 6 .ask) (es ++ [.request id kind here])
  | answer {h es} (u : String) (r : Heartbeat.Resp) (l : List Val) : Brings id r l → AskInTurn self id kind here h es →
      AskInTurn self id kind here (h ++ .respond u l :: List.replicate 8 (.adv (AskRace.run kind here h).ths.length)) (es ++ [.response u r])
  | leave {h es} (u : String) (now : Nat) : u ≠ self → AskInTurn self id kind here h es →
      AskInTurn self id kind here (h ++ .leave u :: List.replicate 8 (.adv (AskRace.run kind here h).ths.length)) (es ++ [.message u .close now])
  | timer {h es} : AskInTurn self id kind here h es →
      AskInTurn self id kind here (h ++ .fire :: List.replicate 3 .tick) (es ++ [.timeout id])
  | other {h es} (e : Heartbeat.Ev) : AnotherRequest id e → AskInTurn self id kind here h es → AskInTurn self id kind here h (es ++ [e])

end Verif.Spec
