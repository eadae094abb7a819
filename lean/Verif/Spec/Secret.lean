import Verif.Model.World

/-! What a client is told, and who knows the private id of a session (C96). -/

namespace Verif.Spec
open Verif Verif.World

/-- Client `c` sent a CONNECT packet with private id `pid`. -/
def Presents (h : List World.Ev) (c : Nat) (pid : Session.Pid) : Prop := ∃ name off, .recv c .connect name (some (pid, off)) ∈ h

/-- Client `c` was sent private id `pid` in a CONNECT packet. -/
def ToldPid (cfg : World.Cfg) (h : List World.Ev) (c : Nat) (pid : Session.Pid) : Prop :=
  ∃ ref p sid, .packet c ref p ∈ (World.run cfg h).log ∧ p.data = .connect sid pid

/-- Nobody guesses: whoever sends a private id was told it, over this connection or over another one of the same user. -/
def NoGuessing {U : Type} (user : Nat → U) (cfg : World.Cfg) (h : List World.Ev) : Prop :=
  ∀ a b c name pid off, h = a ++ .recv c .connect name (some (pid, off)) :: b → ∃ c', user c' = user c ∧ ToldPid cfg a c' pid

/-- The program emitted an event with these arguments. -/
def Emits (h : List World.Ev) (args : List Val) : Prop :=
  (∃ n id rooms except flags, .broadcast n args id rooms except flags ∈ h) ∨ ∃ ref flags, .emit ref args flags ∈ h

/-- A middleware refused with this error. -/
def Refuses (h : List World.Ev) (e : World.Err) : Prop := ∃ k i, .next k i (some e) ∈ h

/-- The private id made for socket `r`. -/
def pidFor (cfg : World.Cfg) (r : Nat) : Session.Pid := if cfg.recovery.isSome then cfg.newPid r else ""

/-- The arguments the program emitted, followed by an offset or nothing. -/
def WithOffset (cfg : World.Cfg) (h : List World.Ev) (l : List Val) : Prop :=
  Emits h l ∨ ∃ args sc skip k, Emits h args ∧ cfg.recovery = some (sc, skip) ∧ l = args ++ [.str (sc.yeast k)]

/-- A payload a client `c` may be sent. -/
inductive MayBeTold (cfg : World.Cfg) (h : List World.Ev) (c : Nat) : Pkt → Prop
  /-- an answer to CONNECT: the ids of one of its own sockets -/
  | connected (p : Pkt) (r : Nat) : p.type = .connect → r < (World.run cfg h).nSock → ((World.run cfg h).socks r).client = c →
      p.data = .connect ((World.run cfg h).socks r).sid ((World.run cfg h).socks r).pid → MayBeTold cfg h c p
  | accepted (p : Pkt) : p.type = .connect → p.data = .nil → MayBeTold cfg h c p
  /-- an event -/
  | event (p : Pkt) (l : List Val) : p.type = .event → p.data = .args l → WithOffset cfg h l → MayBeTold cfg h c p
  /-- the error of a middleware -/
  | refused (p : Pkt) (e : World.Err) : p.type = .connectError → Refuses h e →
      (p.data = .error e.message e.data ∨ p.data = .error e.message none ∨ ∃ v, e.data = some v ∧ p.data = .args [v]) → MayBeTold cfg h c p
  | invalid (p : Pkt) : p.type = .connectError → p.data = .error "Invalid namespace" none → MayBeTold cfg h c p
  /-- goodbye -/
  | disconnected (p : Pkt) : p.type = .disconnect → p.data = .nil → MayBeTold cfg h c p

end Verif.Spec
