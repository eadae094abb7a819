import Verif.Model.ClusterAck

namespace Verif.Spec
open Verif

/-- Nothing is under way and every notified client has answered. -/
def AllArrived (s : ClusterAck.St) : Prop :=
  s.requests = [] ∧ s.reporting = [] ∧ s.waiting = [] ∧ s.responses = [] ∧ s.read = true

instance (s : ClusterAck.St) : Decidable (AllArrived s) := by unfold AllArrived; infer_instance

/-- The values all clients of all `n` servers answer with. -/
def allAnswers (c : ClusterAck.Cfg) : List Val := (List.range c.n).flatMap (fun j => (c.clients j).flatten)

/-- No timer has expired. -/
def NoTimeout (h : List ClusterAck.Ev) : Prop := .fire ∉ h ∧ .expire ∉ h

end Verif.Spec
