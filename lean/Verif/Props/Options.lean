import Verif.Spec.Options

/-! # C52, C64: options and defaults -/

namespace Verif.Props
open Verif Verif.Spec Verif.Options

theorem assignEngine_eq (s d : Opts) : assignEngine s d = { s with engine := fun k => over (s.engine k) (d.engine k), path := over s.path d.path } := by
  unfold assignEngine
  congr 1
  · funext k; cases d.engine k <;> rfl
  · cases d.path <;> rfl

theorem assignServeClient_eq (s d : Opts) : assignServeClient s d = { s with serveClient := over s.serveClient d.serveClient } := by
  unfold assignServeClient; cases d.serveClient <;> rfl
theorem assignAdapter_eq (s d : Opts) : assignAdapter s d = { s with adapter := over s.adapter d.adapter } := by
  unfold assignAdapter; cases d.adapter <;> rfl
theorem assignParser_eq (s d : Opts) : assignParser s d = { s with parser := over s.parser d.parser } := by
  unfold assignParser; cases d.parser <;> rfl
theorem assignConnectTimeout_eq (s d : Opts) : assignConnectTimeout s d = { s with connectTimeout := over s.connectTimeout d.connectTimeout } := by
  unfold assignConnectTimeout; cases d.connectTimeout <;> rfl
theorem assignRecovery_eq (s d : Opts) : assignRecovery s d = { s with recovery := over s.recovery d.recovery } := by
  unfold assignRecovery; cases d.recovery <;> rfl
theorem assignCleanup_eq (s d : Opts) : assignCleanup s d = { s with cleanupEmptyChildNamespaces := over s.cleanupEmptyChildNamespaces d.cleanupEmptyChildNamespaces } := by
  unfold assignCleanup; cases d.cleanupEmptyChildNamespaces <;> rfl

/-- **C52**: `Assign` copies exactly what is set in its argument and keeps the rest; nil changes nothing. -/
theorem C52_assign (s d : Opts) : Overlaid s d (assign s (some d)) ∧ assign s none = s := by
  refine ⟨?_, rfl⟩
  simp only [assign]
  rw [assignCleanup_eq, assignRecovery_eq, assignConnectTimeout_eq, assignParser_eq, assignAdapter_eq, assignServeClient_eq, assignEngine_eq]
  exact ⟨fun _ => rfl, rfl, rfl, rfl, rfl, rfl, rfl, rfl⟩

theorem overlaid_unique {s d a b : Opts} (ha : Overlaid s d a) (hb : Overlaid s d b) : a = b := by
  obtain ⟨a1, a2, a3, a4, a5, a6, a7, a8⟩ := ha
  obtain ⟨b1, b2, b3, b4, b5, b6, b7, b8⟩ := hb
  cases a; cases b
  simp only at *
  simp only [Opts.mk.injEq]
  exact ⟨funext fun k => (a1 k).trans (b1 k).symm, a2.trans b2.symm, a3.trans b3.symm, a4.trans b4.symm, a5.trans b5.symm,
    a6.trans b6.symm, a7.trans b7.symm, a8.trans b8.symm⟩

theorem over_assoc {α : Type} (a b c : Option α) : over (over a b) c = over a (over b c) := by cases a <;> cases b <;> cases c <;> rfl
theorem over_self {α : Type} (a b : Option α) : over (over a b) b = over a b := by cases a <;> cases b <;> rfl

/-- **C52**: assigning twice is assigning once, and assigning one after the other is assigning the overlay of both: the later
wins. -/
theorem C52_twice (s d e : Opts) :
    assign (assign s (some d)) (some d) = assign s (some d) ∧
    assign (assign s (some d)) (some e) = assign s (some (assign d (some e))) := by
  have h1 := (C52_assign s d).1
  have h2 := (C52_assign (assign s (some d)) d).1
  have h3 := (C52_assign (assign s (some d)) e).1
  have h4 := (C52_assign d e).1
  have h5 := (C52_assign s (assign d (some e))).1
  refine ⟨overlaid_unique (s := s) (d := d) ?_ h1, overlaid_unique (s := s) (d := assign d (some e)) ?_ h5⟩
  · constructor
    · intro k; rw [h2.engine, h1.engine, over_self]
    · rw [h2.path, h1.path, over_self]
    · rw [h2.serveClient, h1.serveClient, over_self]
    · rw [h2.adapter, h1.adapter, over_self]
    · rw [h2.parser, h1.parser, over_self]
    · rw [h2.connectTimeout, h1.connectTimeout, over_self]
    · rw [h2.recovery, h1.recovery, over_self]
    · rw [h2.cleanup, h1.cleanup, over_self]
  · constructor
    · intro k; rw [h3.engine, h1.engine, h4.engine, over_assoc]
    · rw [h3.path, h1.path, h4.path, over_assoc]
    · rw [h3.serveClient, h1.serveClient, h4.serveClient, over_assoc]
    · rw [h3.adapter, h1.adapter, h4.adapter, over_assoc]
    · rw [h3.parser, h1.parser, h4.parser, over_assoc]
    · rw [h3.connectTimeout, h1.connectTimeout, h4.connectTimeout, over_assoc]
    · rw [h3.recovery, h1.recovery, h4.recovery, over_assoc]
    · rw [h3.cleanup, h1.cleanup, h4.cleanup, over_assoc]

/-- **C52**, for the options of the cluster adapter. -/
theorem C52_cluster (s d : Cluster) :
    (assignCluster s (some d)).heartbeatInterval = over s.heartbeatInterval d.heartbeatInterval ∧
    (assignCluster s (some d)).heartbeatTimeout = over s.heartbeatTimeout d.heartbeatTimeout ∧
    assignCluster s none = s ∧
    assignCluster (assignCluster s (some d)) (some d) = assignCluster s (some d) := by
  obtain ⟨d1, d2⟩ := d
  cases d1 <;> cases d2 <;> simp [assignCluster, over, orZero]

namespace Demo
def optsA : Opts := { serveClient := some true, connectTimeout := some 1000, engine := fun k => if k = "pingTimeout" then some 5 else none }
def optsB : Opts := { serveClient := some false, recovery := some {}, path := some "/x/".toList }
end Demo

example : (assign Demo.optsA (some Demo.optsB)).serveClient = some false ∧
    (assign Demo.optsA (some Demo.optsB)).connectTimeout = some 1000 ∧
    (assign Demo.optsA (some Demo.optsB)).engine "pingTimeout" = some 5 := by decide

/-- **C64, what is set**: every option that is set is used: path (without slashes at the end), connect timeout, serving of the
client, parser and adapter. -/
theorem C64_respected (o : Opts) :
    (∀ p, o.path = some p → (construct (some o)).path = Static.trimRight p) ∧
    (∀ t, o.connectTimeout = some t → (construct (some o)).connectTimeout = t) ∧
    (∀ b, o.serveClient = some b → (construct (some o)).serveClient = b) ∧
    (∀ p, o.parser = some p → (construct (some o)).parser = some p) ∧
    (∀ a, o.adapter = some a → (construct (some o)).adapter = .inl a) ∧
    (∀ n r, o.recovery = some r → r.maxDisconnectionDuration = some n → sessionDuration (construct (some o)) = n) ∧
    (∀ b r, o.recovery = some r → r.skipMiddlewares = some b → skips (construct (some o)) = b) := by
  obtain ⟨e, p, sc, a, pa, ct, r, cl⟩ := o
  refine ⟨?_, ?_, ?_, ?_, ?_, ?_, ?_⟩
  · rintro q rfl; rfl
  · rintro q rfl; rfl
  · rintro q rfl; rfl
  · rintro q rfl; rfl
  · rintro q rfl; rfl
  · rintro n ⟨m, k⟩ rfl rfl; cases a <;> rfl
  · rintro n ⟨m, k⟩ rfl rfl; cases a <;> rfl

/-- **C64, partial**: what is not set has its documented default: path `/socket.io`, 45 seconds, client not served, the in-memory
adapter, or the session-aware one if recovery is enabled, then for two minutes and skipping the middlewares, if no adapter was
chosen; without recovery no middleware is skipped. -/
theorem C64_defaults_partial (o : Opts) :
    (o.path = none → (construct (some o)).path = "/socket.io".toList) ∧
    (o.connectTimeout = none → (construct (some o)).connectTimeout = 45000) ∧
    (o.serveClient = none → (construct (some o)).serveClient = false) ∧
    (o.adapter = none → o.recovery = none → (construct (some o)).adapter = .inr .memory) ∧
    (∀ r, o.adapter = none → o.recovery = some r → (construct (some o)).adapter = .inr .sessionAware ∧
      (r.maxDisconnectionDuration = none → sessionDuration (construct (some o)) = 120000) ∧
      (r.skipMiddlewares = none → skips (construct (some o)) = true)) ∧
    (o.recovery = none → sessionDuration (construct (some o)) = 120000 ∧ skips (construct (some o)) = false) ∧
    (construct none).path = "/socket.io".toList ∧ (construct none).connectTimeout = 45000 ∧
    (construct none).adapter = .inr .memory := by
  obtain ⟨e, p, sc, a, pa, ct, r, cl⟩ := o
  refine ⟨?_, ?_, ?_, ?_, ?_, ?_, by decide, by decide, by decide⟩
  · rintro rfl; show Static.trimRight "/socket.io".toList = _; decide
  · rintro rfl; rfl
  · rintro rfl; rfl
  · rintro rfl rfl; rfl
  · rintro ⟨m, k⟩ rfl rfl
    exact ⟨rfl, by rintro rfl; rfl, by rintro rfl; rfl⟩
  · rintro rfl; cases a <;> exact ⟨rfl, rfl⟩

/-- **C64 fails**: with recovery enabled and an adapter chosen (even the session-aware one), the defaults of the recovery are not
filled in: sessions are kept for 0 milliseconds and the middlewares are not skipped. -/
theorem C64_defaults_fail : ¬ ∀ (o : Opts) (r : Recovery), o.recovery = some r →
    (r.maxDisconnectionDuration = none → sessionDuration (construct (some o)) = 120000) ∧
    (r.skipMiddlewares = none → skips (construct (some o)) = true) := by
  intro h
  exact absurd ((h { adapter := some 1, recovery := some {} } {} rfl).1 rfl) (by decide)

/-- **C64, `Attach`**: the engine gets the options given to `Attach` overlaid with those of the server, and, if neither has a path,
the path of the server. -/
theorem C64_attach (s : Options.Server) (o : Opts) (h : o.path.isSome = true ∨ s.opts.path.isSome = true) :
    Overlaid o s.opts (attach s (some o)) := by
  have ho := (C52_assign o s.opts).1
  unfold attach
  simp only [Option.getD_some]
  rw [if_neg]
  · exact ho
  · rw [ho.path]
    cases h1 : o.path <;> cases h2 : s.opts.path <;> simp_all [over]

theorem C64_attach_path (s : Options.Server) (o : Opts) (h1 : o.path = none) (h2 : s.opts.path = none) :
    (attach s (some o)).path = some s.path ∧ ∀ k, (attach s (some o)).engine k = over (o.engine k) (s.opts.engine k) := by
  have ho := (C52_assign o s.opts).1
  have hp : (assign o (some s.opts)).path.isNone = true := by rw [ho.path, h1, h2]; rfl
  unfold attach
  simp only [Option.getD_some, hp, if_true]
  exact ⟨trivial, ho.engine⟩

/-- **C64, heartbeats**: 5 and 10 seconds unless set. -/
theorem C64_heartbeat (o : Cluster) :
    (fillCluster o).heartbeatInterval = over (some 5000) o.heartbeatInterval ∧
    (fillCluster o).heartbeatTimeout = over (some 10000) o.heartbeatTimeout := by
  obtain ⟨a, b⟩ := o
  cases a <;> cases b <;> simp [fillCluster, over]

example : (construct (some Demo.optsB)).path = "/x".toList ∧ sessionDuration (construct (some Demo.optsB)) = 120000 ∧
    (attach (construct (some Demo.optsA)) (some { connectTimeout := some 7 })).connectTimeout = some 1000 ∧
    (attach (construct (some Demo.optsA)) (some { connectTimeout := some 7 })).path = some "/socket.io".toList := by decide

end Verif.Props
