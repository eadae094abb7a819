import Verif.Model.BeatRace
import Verif.Spec.Returns

/-! # Heartbeats that go on -/

namespace Verif.Spec

/-- The heartbeats sent. -/
def heartbeatsSent (s : BeatRace.St) : Nat := (s.log.filter fun m => decide (m = .heartbeat)).length

end Verif.Spec
