import Verif.Proof.InboundAcks
import Verif.Props.Inbound

/-!
# C80: a protocol violation ends the connection

`Model/Inbound`: packets with any data, every goroutine the library starts is run at any later moment.
-/

namespace Verif.Props
open Verif Verif.Spec Verif.Inbound

/-- **C80**: a packet the client may not send now closes the connection: it is not handled, every connected socket of the client fires
"disconnecting" and "disconnect" with "forced server close", and nothing else happens. -/
theorem C80_violation (h : List Inbound.Ev) (hj : JoinedOnce h) (p : Inbound.Packet) (hp : (Inbound.run h).panicked = false)
    (hl : (Inbound.run h).listening = true) (hv : Violates (Inbound.run h) p) :
    let s := Inbound.run h
    let s' := Inbound.run (h ++ [.recv p])
    s'.log = s.log ++ .closed :: goodbyes s "forced server close" ∧ s'.tasks = s.tasks ∧ s'.listening = false ∧
    s'.panicked = false ∧ ∀ nsp ref, ¬ In s' nsp ref := by
  have t := tab_run h hj
  have e : Inbound.run (h ++ [.recv p]) = clientClose (Inbound.run h) := by
    rw [run_snoc, step, hp]
    simp only [Bool.false_eq_true, if_false, hl, if_true]
    unfold ondecoded
    rcases hv with ⟨h1, h2⟩ | ⟨⟨ref, h1⟩, h2⟩
    · rw [(find_none _ t p.nsp).2 h1]
      simp only [if_neg h2]
    · cases hf : (Inbound.run h).nsps.find? (·.1 == p.nsp) with
      | none => exact absurd h1 ((find_none _ t p.nsp).1 hf ref)
      | some x => obtain ⟨n, r⟩ := x; simp only [if_pos h2]
  obtain ⟨h1, h2, h3, h4, h5⟩ := clientOnclose_spec (out (Inbound.run h) .closed) "forced server close"
  simp only
  rw [e]
  refine ⟨?_, h3, h4, h5.trans hp, fun nsp ref hi => ?_⟩
  · show (clientOnclose _ _).log = _
    rw [h1]
    show _ ++ [_] ++ goodbyes (Inbound.run h) _ = _
    simp
  · have := ((in_iff _ nsp ref).1 hi).1
    have h2' : isConnected (clientClose (Inbound.run h)) ref = false := h2 ref
    rw [h2'] at this; cases this

/-- **C80**: any other packet is handled: a CONNECT asks for the namespace it names, with its payload; anything else is given, in a
goroutine of its own, to the socket the client has in the namespace it names.  Nothing else changes. -/
theorem C80_handled (h : List Inbound.Ev) (hj : JoinedOnce h) (p : Inbound.Packet) (hp : (Inbound.run h).panicked = false)
    (hl : (Inbound.run h).listening = true) (hv : ¬ Violates (Inbound.run h) p) :
    let s := Inbound.run h
    (p.type = .connect ∧ Inbound.run (h ++ [.recv p]) = { s with log := s.log ++ [.attempt p.nsp p.data] }) ∨
    (p.type ≠ .connect ∧ ∃ ref, In s p.nsp ref ∧
      Inbound.run (h ++ [.recv p]) = { s with tasks := s.tasks ++ [some (.onpacket ref p)] }) := by
  have t := tab_run h hj
  have e : Inbound.run (h ++ [.recv p]) = ondecoded (Inbound.run h) p := by
    rw [run_snoc, step, hp]
    simp [hl]
  simp only
  rw [e]
  unfold ondecoded
  cases hf : (Inbound.run h).nsps.find? (·.1 == p.nsp) with
  | none =>
    have hn := (find_none _ t p.nsp).1 hf
    by_cases ht : p.type = .connect
    · simp only [if_pos ht]
      exact .inl ⟨ht, rfl⟩
    · exact absurd (.inl ⟨hn, ht⟩) hv
  | some x =>
    have hi := find_some _ t p.nsp x hf
    obtain ⟨n, r⟩ := x
    by_cases ht : p.type = .connect ∨ p.type = .connectError
    · exact absurd (.inr ⟨⟨r, hi⟩, ht⟩) hv
    · simp only [if_neg ht]
      exact .inr ⟨fun h => ht (.inl h), r, hi, rfl⟩

/-- **C80**: once the connection is closed, whatever the reason and whatever happens meanwhile, no packet that arrives has any
effect. -/
theorem C80_deaf (h t : List Inbound.Ev) (hl : (Inbound.run h).listening = false) (p : Inbound.Packet) :
    Inbound.run (h ++ t ++ [.recv p]) = Inbound.run (h ++ t) := by
  rw [run_snoc]
  exact deaf_recv _ p (deaf_run h t hl)

/-- **C80**: bytes that are not a packet: every connected socket fires "error" and the connection is told to close; when it is lost, for
whatever reason, every connected socket fires "disconnecting" and "disconnect" with that reason and no socket is left. -/
theorem C80_invalid (h : List Inbound.Ev) (hp : (Inbound.run h).panicked = false) (hl : (Inbound.run h).listening = true) :
    let s := Inbound.run h
    (Inbound.run (h ++ [.invalid])).log = s.log ++ (List.range s.socks.length).flatMap (fun ref =>
        if ((s.socks[ref]?).map (·.connected)).getD false then [Inbound.Obs.fired ref "error" [.null]] else []) ++ [.closed] ∧
    ∀ reason, (Inbound.run (h ++ [.lost reason])).log = s.log ++ goodbyes s reason ∧
      (Inbound.run (h ++ [.lost reason])).listening = false ∧ ∀ nsp ref, ¬ In (Inbound.run (h ++ [.lost reason])) nsp ref := by
  constructor
  · rw [run_snoc, step, hp]
    simp only [Bool.false_eq_true, if_false, hl, if_true]
    exact onerror_log _
  · intro reason
    have e : Inbound.run (h ++ [.lost reason]) = clientOnclose (Inbound.run h) reason := by
      rw [run_snoc, step, hp]
      simp [hl]
    obtain ⟨h1, h2, h3, h4, h5⟩ := clientOnclose_spec (Inbound.run h) reason
    rw [e]
    refine ⟨h1, h4, fun nsp ref hi => ?_⟩
    have := ((in_iff _ nsp ref).1 hi).1
    rw [h2] at this; cases this

namespace Demo

/-- A client in two namespaces, one of which it left. -/
def routed : List Inbound.Ev := [.recv ⟨.connect, "/", .null, none⟩, .join "/", .recv ⟨.connect, "/a", .null, none⟩, .join "/a",
  .join "/b", .disconnect 1]

end Demo

/-- The hypotheses of the theorems above are met, by packets of all kinds. -/
example : JoinedOnce Demo.routed ∧ (Inbound.run Demo.routed).panicked = false ∧ (Inbound.run Demo.routed).listening = true ∧
    Violates (Inbound.run Demo.routed) ⟨.connect, "/b", .null, none⟩ ∧ Violates (Inbound.run Demo.routed) ⟨.event, "/a", .null, none⟩ ∧
    ¬ Violates (Inbound.run Demo.routed) ⟨.connect, "/a", .null, none⟩ ∧ ¬ Violates (Inbound.run Demo.routed) ⟨.disconnect, "/b", .null, none⟩ := by
  have h0 : In (Inbound.run Demo.routed) "/b" 2 := ⟨_, rfl, rfl, rfl⟩
  have h1 : ∀ ref, ¬ In (Inbound.run Demo.routed) "/a" ref := by
    rintro ref ⟨k, hk, hn, hc⟩
    have : ref < 3 := (List.getElem?_eq_some_iff.1 hk).1
    match ref, this with
    | 0, _ => cases hk; exact absurd hn (by decide)
    | 1, _ => cases hk; exact absurd hc (by decide)
    | 2, _ => cases hk; exact absurd hn (by decide)
  refine ⟨?_, rfl, rfl, .inr ⟨⟨2, h0⟩, .inl rfl⟩, .inl ⟨h1, by decide⟩, ?_, ?_⟩
  · exact joinedOnce_of _ rfl
  · rintro (⟨_, h⟩ | ⟨⟨ref, h⟩, _⟩)
    · exact h rfl
    · exact h1 ref h
  · rintro (⟨h, _⟩ | ⟨_, h⟩)
    · exact h 2 h0
    · exact absurd h (by decide)

/-- **C29**: whatever packets the client sends, with whatever numbers, and whatever else happens, the callback of an emission runs at
most once.  Missing for C29: the goroutines that handle two answers with one number are here not interleaved (see `C29_concurrent_false`). -/
theorem C29_client_partial (h : List Inbound.Ev) (ref id : Nat) :
    (Inbound.run h).log.countP (isAnswer ref id) ≤ h.countP (asksAck ref id) := by
  have := due_run h ref id
  unfold due at this
  omega

/-- A client that answers twice. -/
example : let h : List Inbound.Ev := [.join "/", .emitAck 0 7 false, .recv ⟨.ack, "/", .arr [.null], some 7⟩,
      .recv ⟨.ack, "/", .arr [], some 7⟩, .run 1 true, .run 0 true]
    (Inbound.run h).log.countP (isAnswer 0 7) = 1 ∧ h.countP (asksAck 0 7) = 1 := by decide

end Verif.Props
