import Verif.Spec.World

/-! # Clients that ask for their own session only -/

namespace Verif.Spec
open Verif Verif.World

/-- A client that asks for a session gives a private id that no open socket has, and that was not made for a client of protocol 3 (these are
never told one). -/
def Honest (cfg : World.Cfg) (h : List World.Ev) : Prop :=
  ∀ p c name pid off, p ++ [.recv c .connect name (some (pid, off))] <+: h → ∀ r, r < (run cfg p).nSock → ((run cfg p).socks r).pid = pid →
    ¬ IsOpen (run cfg p) r ∧ ((run cfg p).clients ((run cfg p).socks r).client).proto3 = false

end Verif.Spec
