import Verif.Model.ConnRace

/-! # Specification: a connection that closes while a socket is being connected -/

namespace Verif.Spec
open Verif.ConnRace

/-- The connection was closed, its listeners were told, and everything begun has come to its end. -/
def ConnSettled (s : ConnRace.St) : Prop :=
  s.isOpen = false ∧ (s.conn = .idle ∨ s.conn = .refused ∨ s.conn = .done) ∧
    (∃ t ∈ s.closers, t.1 = true) ∧ ∀ t ∈ s.closers, t.2 = .done

instance (s : ConnRace.St) : Decidable (ConnSettled s) := by unfold ConnSettled; infer_instance

/-- Nothing of the socket is left: it is not connected, not in the namespace and not in its room. -/
def NothingLeft (s : ConnRace.St) : Prop :=
  s.connected = false ∧ s.inNsp = false ∧ s.inRoom = false ∧ s.registered = false

instance (s : ConnRace.St) : Decidable (NothingLeft s) := by unfold NothingLeft; infer_instance

/-- The handlers of `connection` were called, and after that those of `disconnect`. -/
def ToldInOrder (s : ConnRace.St) : Prop := ∃ a b, s.log = a ++ Out.connection :: b ∧ Out.disconnect ∈ b

/-- The connection does not close, and nobody disconnects the socket, between the test that the connection is open and the
moment the client knows the socket. -/
def NotMeanwhile (h : List ConnRace.Ev) : Prop :=
  ∀ p e t, h = p ++ e :: t → (e = .hangup ∨ e = .leave) →
    (ConnRace.run p).conn ∉ [CPC.store, .flag, .join, .write, .register]

/-- The connection closes, and the socket is disconnected, only once the handlers of `connection` have been called. -/
def OnlyAfter (h : List ConnRace.Ev) : Prop :=
  ∀ p e t, h = p ++ e :: t → (e = .hangup ∨ e = .leave) → (ConnRace.run p).conn = .done

/-- The connection stays open and nobody disconnects the socket. -/
def NobodyCloses (h : List ConnRace.Ev) : Prop := ∀ e ∈ h, ¬ (e = .hangup ∨ e = .leave)

instance (h : List ConnRace.Ev) : Decidable (NobodyCloses h) := by unfold NobodyCloses; infer_instance

/-- The socket is connected, in the namespace, in its own room, and its client knows it. -/
structure FullyConnected (s : ConnRace.St) : Prop where
  connected : s.connected = true
  inNsp : s.inNsp = true
  inRoom : s.inRoom = true
  registered : s.registered = true
  named : s.named = true

end Verif.Spec
