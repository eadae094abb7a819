import Verif.Spec.World

/-! # The data of a socket -/

namespace Verif.Spec
open Verif Verif.World

/-- The session was saved for a socket of namespace `n`: the socket and the session. -/
def saveIn (w : W) (n : Nat) : Obs → Option (Nat × Session.Sess)
  | .saved ref s => if (w.socks ref).ns = n then some (ref, s) else none
  | _ => none

/-- The sessions saved for sockets of namespace `n`, in order. -/
def savesIn (cfg : World.Cfg) (n : Nat) (h : List World.Ev) : List (Nat × Session.Sess) :=
  (run cfg h).log.filterMap (saveIn (run cfg h) n)

/-- In `h` the last session saved in namespace `n` with this private id is that of socket `r`, and `e`, after `h₀`, was the event that
saved it. -/
def LastSave (cfg : World.Cfg) (n : Nat) (pid : Session.Pid) (h h₀ : List World.Ev) (e : World.Ev) (r : Nat) : Prop :=
  ∃ t before s after, h = h₀ ++ e :: t ∧ savesIn cfg n h = before ++ (r, s) :: after ∧ s.pid = pid ∧ (∀ x ∈ after, x.2.pid ≠ pid) ∧
    (savesIn cfg n h₀).length ≤ before.length ∧ before.length < (savesIn cfg n (h₀ ++ [e])).length

/-- Socket `r` is created by `e`, after `h`. -/
def Creates (cfg : World.Cfg) (h : List World.Ev) (e : World.Ev) (r : Nat) : Prop :=
  (run cfg h).nSock ≤ r ∧ r < (run cfg (h ++ [e])).nSock

end Verif.Spec

namespace Verif.Spec
open Verif Verif.World

instance (cfg : World.Cfg) (h : List World.Ev) (e : World.Ev) (r : Nat) : Decidable (Creates cfg h e r) := by
  unfold Creates; infer_instance

end Verif.Spec
