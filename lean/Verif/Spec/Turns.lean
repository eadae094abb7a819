import Verif.Model.Acks
import Verif.Model.Collector
import Verif.Model.RequestsConc
import Verif.Model.RecoverRace
import Verif.Model.Session
import Verif.Model.OfRace

/-! Goroutines that are not interrupted (C29, C32, C41, C56, C63): what the models of single operations and those of whole calls have in
common. -/

namespace Verif.Spec
open Verif

/-- In `h` the goroutines of one socket run one after the other, each to its end before the next begins; `ops` are the corresponding
calls, packets and expiries of timers, the socket being number 0. -/
inductive AcksInTurn : List Acks.Ev → List Acks.Op → Prop where
  | nil : AcksInTurn [] []
  | emit {h ops} (cb : Nat) (timed : Bool) : AcksInTurn h ops →
      AcksInTurn (h ++ .emit cb timed :: List.replicate 2 (.adv (Acks.crun h).threads.length)) (ops ++ [.emit 0 cb timed])
  | answer {h ops} (id : Nat) (args : List Val) : AcksInTurn h ops →
      AcksInTurn (h ++ .recv id args :: List.replicate 4 (.adv (Acks.crun h).threads.length)) (ops ++ [.answer 0 (some id) args])
  | expire {h ops} (id : Nat) : AcksInTurn h ops →
      AcksInTurn (h ++ .fire id :: List.replicate 2 (.adv (Acks.crun h).threads.length)) (ops ++ [.expire id])

/-- In `h` the closures of a broadcast with acknowledgement run one after the other. -/
inductive ClosuresInTurn : List Collector.CEv → List Collector.Ev → Prop where
  | nil : ClosuresInTurn [] []
  | next {h es} (e : Collector.Ev) : ClosuresInTurn h es →
      ClosuresInTurn (h ++ .start e :: List.replicate (Collector.prog e).length (.adv (Collector.crun h).threads.length)) (es ++ [e])

/-- In `h` the answers of other servers to one request are handled one after the other. -/
inductive AnswersInTurn (missing : List Heartbeat.Uid) (here : List Val) :
    List RequestsConc.Ev → List (Heartbeat.Uid × List Val) → Prop where
  | nil : AnswersInTurn missing here [] []
  | next {h l} (u : Heartbeat.Uid) (x : List Val) : AnswersInTurn missing here h l →
      AnswersInTurn missing here (h ++ .respond u x :: List.replicate 6 (.adv (RequestsConc.run missing here h).threads.length)) (l ++ [(u, x)])

/-- The answers, each handled as one step, by the heartbeat adapter: request `id` is one for sockets. -/
def answersInOrder (s : Heartbeat.St) (id : Nat) (l : List (Heartbeat.Uid × List Val)) : Heartbeat.St :=
  l.foldl (fun s x => Heartbeat.onResponse s x.1 (.fetch id x.2)) s

/-- In `h` the calls of `Of` and the connections of clients to dynamic namespaces are made one after the other, for these names. -/
inductive OfsInTurn : List OfRace.Ev → List String → Prop where
  | nil : OfsInTurn [] []
  | next {h l} (name : String) (joins : Bool) : OfsInTurn h l →
      OfsInTurn (h ++ .spawn name joins :: List.replicate 3 (.adv (OfRace.run h).ths.length)) (l ++ [name])

end Verif.Spec
