import Verif.Model.Handshake

/-! # The handshake of a socket: what is claimed -/

namespace Verif.Spec
open Verif Verif.Handshake Verif.Inbound

/-- Event `e`, after `h`, is that client `c` asks to be connected, with this payload: by a CONNECT packet, whose data are the payload or, for
clients of protocol 3, whose namespace carries it as a query; or by arriving, for a client of protocol 3. -/
def AsksWith {ρ : Type} (cfg : Handshake.Cfg ρ) (h : List XEv) (e : XEv) (c : Nat) (payload : JVal) : Prop :=
  (e = .other (.accept true) ∧ c = (Handshake.run cfg h).w.nClient ∧ payload = .null) ∨
  ∃ p, e = .packet c p ∧ p.type = .connect ∧
    ((((Handshake.run cfg h).w.clients c).proto3 = false ∧ payload = p.data) ∨
     (((Handshake.run cfg h).w.clients c).proto3 = true ∧
       ((∃ path q, cfg.parse p.nsp = some (path, q) ∧ payload = .query q) ∨ cfg.parse p.nsp = none ∧ payload = .null)))

end Verif.Spec
