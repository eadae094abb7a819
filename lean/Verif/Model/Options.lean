import Verif.Model.Static

/-!
# Options (socket/server-options.go, adapter/cluster-adapter-options.go) and how the server uses them (socket/server.go:128-177,
# 287-372)

A nil pointer or nil interface is `none`.  Adapters and parsers are numbers.  The options of the engine embedded in `ServerOptions`
(a library) are a table from names to values; its `Assign` is assumed to overlay what is set.
-/

namespace Verif.Options
open Verif

/-- `ConnectionStateRecovery` (socket/server-options.go:11-17). -/
structure Recovery where
  maxDisconnectionDuration : Option Int := none
  skipMiddlewares : Option Bool := none
deriving DecidableEq, Repr

/-- `ServerOptions` (socket/server-options.go:48-71). -/
structure Opts where
  engine : String → Option Nat := fun _ => none
  path : Option Static.Text := none
  serveClient : Option Bool := none
  adapter : Option Nat := none
  parser : Option Nat := none
  connectTimeout : Option Int := none
  recovery : Option Recovery := none
  cleanupEmptyChildNamespaces : Option Bool := none

/-- `ServeClient()` and `CleanupEmptyChildNamespaces()` (socket/server-options.go:143-149, 201-207): false if not set. -/
def orFalse : Option Bool → Bool
  | none => false
  | some b => b

/-- `ConnectTimeout()` and `MaxDisconnectionDuration()` (socket/server-options.go:115-121, 177-183): 0 if not set. -/
def orZero : Option Int → Int
  | none => 0
  | some n => n

/-- The assumed `Assign` of the engine's options (library). -/
def assignEngine (s d : Opts) : Opts :=
  { s with engine := fun k => if (d.engine k).isSome then d.engine k else s.engine k, path := if d.path.isSome then d.path else s.path }

def assignServeClient (s d : Opts) : Opts := if d.serveClient.isSome then { s with serveClient := some (orFalse d.serveClient) } else s
def assignAdapter (s d : Opts) : Opts := if d.adapter.isSome then { s with adapter := d.adapter } else s
def assignParser (s d : Opts) : Opts := if d.parser.isSome then { s with parser := d.parser } else s
def assignConnectTimeout (s d : Opts) : Opts :=
  if d.connectTimeout.isSome then { s with connectTimeout := some (orZero d.connectTimeout) } else s
def assignRecovery (s d : Opts) : Opts := if d.recovery.isSome then { s with recovery := d.recovery } else s
def assignCleanup (s d : Opts) : Opts :=
  if d.cleanupEmptyChildNamespaces.isSome then { s with cleanupEmptyChildNamespaces := some (orFalse d.cleanupEmptyChildNamespaces) } else s

/-- `Assign` (socket/server-options.go:78-107), one helper per `if`. -/
def assign (s : Opts) : Option Opts → Opts
  | none => s
  | some d => assignCleanup (assignRecovery (assignConnectTimeout (assignParser (assignAdapter (assignServeClient (assignEngine s d) d) d) d) d) d) d

/-- The built-in adapters. -/
inductive BuiltIn where
  | memory
  | sessionAware
deriving DecidableEq, Repr

/-- The defaults filled into the recovery options in place (socket/server.go:155-160). -/
def fillRecovery (r : Recovery) : Recovery :=
  { maxDisconnectionDuration := if r.maxDisconnectionDuration.isNone then some (2 * 60 * 1000) else r.maxDisconnectionDuration,
    skipMiddlewares := if r.skipMiddlewares.isNone then some true else r.skipMiddlewares }

/-- The configuration of a server. -/
structure Server where
  path : Static.Text
  connectTimeout : Int
  serveClient : Bool
  parser : Option Nat
  adapter : Nat ⊕ BuiltIn
  opts : Opts

/-- The choice of the adapter (socket/server.go:151-166); the options may be changed by it. -/
def chooseAdapter (o : Opts) : (Nat ⊕ BuiltIn) × Opts :=
  match o.adapter with
  | some a => (.inl a, o)
  | none =>
    match o.recovery with
    | some r => (.inr .sessionAware, { o with recovery := some (fillRecovery r) })
    | none => (.inr .memory, o)

/-- `Construct` (socket/server.go:128-166). -/
def construct (opts : Option Opts) : Server :=
  let o := opts.getD {}
  { path := Static.trimRight (if o.path.isSome then o.path.getD [] else "/socket.io".toList)
    connectTimeout := if o.connectTimeout.isSome then orZero o.connectTimeout else 45000
    serveClient := orFalse o.serveClient
    parser := o.parser
    adapter := (chooseAdapter o).1
    opts := (chooseAdapter o).2 }

/-- The options given to the engine by `Attach` and `ServeHandler` (socket/server.go:310-319, 332-341). -/
def attach (s : Server) (opts : Option Opts) : Opts :=
  let o := assign (opts.getD {}) (some s.opts)
  if o.path.isNone then { o with path := some s.path } else o

/-- The duration used by a session-aware adapter (socket/session-aware-adapter.go:52-56). -/
def sessionDuration (s : Server) : Int :=
  match s.opts.recovery with
  | some r => orZero r.maxDisconnectionDuration
  | none => 2 * 60 * 1000

/-- Whether a recovered connection skips the middlewares (socket/namespace.go:270): `SkipMiddlewares()`, false if not set. -/
def skips (s : Server) : Bool :=
  match s.opts.recovery with
  | some r => orFalse r.skipMiddlewares
  | none => false

/-- `ClusterAdapterOptions` (adapter/cluster-adapter-options.go:19-29). -/
structure Cluster where
  heartbeatInterval : Option Int := none
  heartbeatTimeout : Option Int := none
deriving DecidableEq, Repr

/-- `Assign` (adapter/cluster-adapter-options.go:35-48). -/
def assignCluster (s : Cluster) : Option Cluster → Cluster
  | none => s
  | some d =>
    let s1 := if d.heartbeatInterval.isSome then { s with heartbeatInterval := some (orZero d.heartbeatInterval) } else s
    if d.heartbeatTimeout.isSome then { s1 with heartbeatTimeout := some (orZero d.heartbeatTimeout) } else s1

/-- The defaults of the adapter with heartbeats (adapter/cluster-adapter-with-heartbeat.go:67-73). -/
def fillCluster (o : Cluster) : Cluster :=
  { heartbeatInterval := if o.heartbeatInterval.isNone then some 5000 else o.heartbeatInterval,
    heartbeatTimeout := if o.heartbeatTimeout.isNone then some 10000 else o.heartbeatTimeout }

end Verif.Options
