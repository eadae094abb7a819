import Verif.Model.Options

/-! # Options -/

namespace Verif.Spec
open Verif.Options

/-- What is set in the second argument, else what is in the first. -/
def over {α : Type} (old new : Option α) : Option α :=
  match new with
  | some x => some x
  | none => old

/-- Every option of `r` is that of `d` if set there, else that of `s`. -/
structure Overlaid (s d r : Opts) : Prop where
  engine : ∀ k, r.engine k = over (s.engine k) (d.engine k)
  path : r.path = over s.path d.path
  serveClient : r.serveClient = over s.serveClient d.serveClient
  adapter : r.adapter = over s.adapter d.adapter
  parser : r.parser = over s.parser d.parser
  connectTimeout : r.connectTimeout = over s.connectTimeout d.connectTimeout
  recovery : r.recovery = over s.recovery d.recovery
  cleanup : r.cleanupEmptyChildNamespaces = over s.cleanupEmptyChildNamespaces d.cleanupEmptyChildNamespaces

end Verif.Spec
