import Verif.Spec.Acks

/-! # Every answer reaches its callback (C29) -/

namespace Verif.Spec
open Verif

/-- The goroutine has come to its end. -/
def ThreadDone : Acks.Thread → Prop
  | .emitter _ _ _ pc => pc = 2
  | .handler _ _ pc _ => pc = 4
  | .timer _ _ pc => pc = 2

/-- No goroutine is at work. -/
def AcksIdle (s : Acks.CSt) : Prop := ∀ t ∈ s.threads, ThreadDone t

/-- The emission with this id has returned. -/
def EmitReturned (s : Acks.CSt) (id cb : Nat) (timed : Bool) : Prop := Acks.Thread.emitter id cb timed 2 ∈ s.threads

end Verif.Spec
