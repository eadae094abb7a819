import Verif.Spec.World

/-! # What a client knows of its sockets (specification) -/

namespace Verif.Spec
open Verif Verif.World

/-- The client was told that socket `r` is connected: a CONNECT packet was written for it. -/
def ToldConnect (r : Nat) (log : List Obs) : Prop := ∃ p ∈ packetsTo r log, p.type = .connect

/-- The client was told that socket `r` is not connected any more: a DISCONNECT packet was written for it. -/
def ToldDisconnect (r : Nat) (log : List Obs) : Prop := ∃ p ∈ packetsTo r log, p.type = .disconnect

instance (r : Nat) (log : List Obs) : Decidable (ToldConnect r log) := inferInstanceAs (Decidable (∃ p ∈ _, _))

instance (r : Nat) (log : List Obs) : Decidable (ToldDisconnect r log) := inferInstanceAs (Decidable (∃ p ∈ _, _))

/-- The client itself has sent a DISCONNECT packet for the namespace of socket `r`, when the socket was there. -/
def HasLeft (cfg : World.Cfg) (h : List World.Ev) (r : Nat) : Prop :=
  ∃ pre auth, pre ++ [.recv ((run cfg pre).socks r).client .disconnect ((run cfg pre).nss ((run cfg pre).socks r).ns).name auth] <+: h ∧
    r < (run cfg pre).nSock

end Verif.Spec
