import Verif.Model.SharedPkt

/-! # The packet of a broadcast in a cluster: what is claimed -/

namespace Verif.Spec
open Verif

/-- What the sockets should be sent for a call: its arguments, and after them the offset if the packet is stored. -/
def sentFor (stored : Bool) (c : SharedPkt.Call) : List Val := c.args ++ if stored then [.str c.offset] else []

/-- All calls have returned and all messages been handled. -/
def AllHandled (s : SharedPkt.St) : Prop := ∀ t ∈ s.ths, t.pc = .done

instance (s : SharedPkt.St) : Decidable (AllHandled s) := by unfold AllHandled; infer_instance

/-- What the sockets of server `j` were sent for call `k`, in order. -/
def broadcastTo (s : SharedPkt.St) (j k : Nat) : List (List Val) :=
  (s.got.filter fun x => x.1 == j && x.2.1 == k).map (·.2.2)

end Verif.Spec
