import Verif.Proof.InboundAfter

/-! # C66, C67, C68, C75: what the packets of a client can do -/

namespace Verif.Props
open Verif Verif.Spec Verif.Inbound

/-! ## C66 -/

/-- If the decoder gives only packets whose data fits their type, nothing a client sends makes the server panic, whatever the server
does and in whatever order the goroutines run, provided no client answers a `RemoteSocket` with one value that is not a list. -/
theorem C66_partial (h : List Inbound.Ev) (hd : ∀ p, .recv p ∈ h → Decoded p)
    (hr : ∀ p id, .recv p ∈ h → p.id = some id → RemoteAck h id → ¬ LoneScalar p.data) : (Inbound.run h).panicked = false := by
  have g : Inbound.Good True (fun p => .recv p ∈ h) (fun _ => True) (RemoteAck h) := fun p hp =>
    ⟨hd p hp, fun _ _ _ _ => trivial, fun _ id _ hid hS => hr p id hp hid hS⟩
  exact (inv_all h g (fun _ h => h) (fun ref _ h => ⟨ref, h⟩)).ok trivial

/-- In particular when nobody asks a `RemoteSocket` for an acknowledgement. -/
theorem C66_local_partial (h : List Inbound.Ev) (hd : ∀ p, .recv p ∈ h → Decoded p) (hr : ∀ ref id, .emitAck ref id true ∉ h) :
    (Inbound.run h).panicked = false :=
  C66_partial h hd (fun _ id _ _ ⟨ref, hm⟩ => absurd hm (hr ref id))

/-- Events, answers, a middleware, an invalid packet and a packet in the wrong state. -/
def Demo.inboundOk : List Inbound.Ev :=
  [.recv { type := .connect }, .join "/", .use 0, .emitAck 0 7 false,
   .recv { type := .event, data := .arr [.str "chat", .num 3], id := some 1 }, .run 0 true, .run 1 true, .run 2 true,
   .run 3 true, .recv { type := .ack, data := .arr [], id := some 7 }, .run 4 true,
   .recv { type := .ack, data := .arr [.null], id := some 9 }, .run 5 true, .invalid, .recv { type := .connect }]

example : (∀ p, .recv p ∈ Demo.inboundOk → Decoded p) ∧ (∀ ref id, .emitAck ref id true ∉ Demo.inboundOk) := by
  constructor
  · intro p hp
    simp only [Demo.inboundOk, List.mem_cons, Inbound.Ev.recv.injEq, reduceCtorEq, false_or, List.not_mem_nil, or_false] at hp
    rcases hp with rfl | rfl | rfl | rfl | rfl <;> simp [Decoded]
  · intro ref id hm; simp [Demo.inboundOk] at hm

example : (Inbound.run Demo.inboundOk).log = [.attempt "/" .null, .catchAll 0 [.str "chat", .num 3, .ackFn 1], .fired 0 "chat" [.num 3, .ackFn 1],
    .answered 0 7 [], .fired 0 "error" [.null], .closed, .closed, .fired 0 "disconnecting" [.str "forced server close"],
    .fired 0 "disconnect" [.str "forced server close"]] := rfl

/-- The claim itself fails: a client that answers a `RemoteSocket` with `"ok"` ends the program, with packets the decoder accepts. -/
theorem C66_fail : ∃ h : List Inbound.Ev, (∀ p, .recv p ∈ h → Decoded p) ∧ (Inbound.run h).panicked = true := by
  refine ⟨[.recv { type := .connect }, .join "/", .emitAck 0 1 true, .recv { type := .ack, data := .arr [.str "ok"], id := some 1 }, .run 0 true], ?_, rfl⟩
  intro p hp
  simp only [List.mem_cons, Inbound.Ev.recv.injEq, reduceCtorEq, false_or, List.not_mem_nil, or_false] at hp
  rcases hp with rfl | rfl <;> simp [Decoded]

/-- The promise of the decoder is needed: an event that is no list, one without a name, one whose name is a number, or an answer that is
no list, each ends the program. -/
theorem C66_decoder_fail :
    (Inbound.run [.join "/", .recv { type := .event, data := .obj [] }, .run 0 true]).panicked = true ∧
    (Inbound.run [.join "/", .recv { type := .event, data := .arr [] }, .run 0 true, .run 1 true]).panicked = true ∧
    (Inbound.run [.join "/", .recv { type := .event, data := .arr [.num 1] }, .run 0 true, .run 1 true]).panicked = true ∧
    (Inbound.run [.join "/", .emitAck 0 1 false, .recv { type := .ack, data := .null, id := some 1 }, .run 0 true]).panicked = true :=
  ⟨rfl, rfl, rfl, rfl⟩

/-! ## C67 -/

/-- If the decoder refuses reserved names, a client cannot forge lifecycle events: on every socket, "disconnecting" and "disconnect" have
each been fired once if the socket is disconnected and not at all if it is connected, with a reason of the library, and no other reserved
name is ever fired. -/
theorem C67_partial (h : List Inbound.Ev) (hd : ∀ p, .recv p ∈ h → DecodedStrict p) :
    (∀ ref name args, Obs.fired ref name args ∈ (Inbound.run h).log → name ∈ reservedNames →
      (name = "disconnect" ∨ name = "disconnecting") ∧ ∃ r, Reason h r ∧ args = [.str r]) ∧
    (∀ ref k, (Inbound.run h).socks[ref]? = some k →
      timesFired (Inbound.run h) ref "disconnect" = (if k.connected then 0 else 1) ∧
      timesFired (Inbound.run h) ref "disconnecting" = (if k.connected then 0 else 1)) := by
  have g : Inbound.Good False (fun p => .recv p ∈ h) (· ∉ reservedNames) (fun _ => True) := fun p hp =>
    ⟨(hd p hp).1, fun name rest ht hp' => (hd p hp).2 name rest ht hp', fun c => c.elim⟩
  have t := tidy_all (R := Reason h) h g (fun _ h => h) (fun _ _ _ => trivial) (.inl (by simp)) (.inl (by simp)) (.inl (by simp)) (fun r hr => .inr hr)
  refine ⟨t.shape, fun ref k hk => ?_⟩
  have := t.once ref
  simp only [isDown, hk] at this
  cases e : k.connected <;> simpa [e] using this

/-- Hypotheses met, with two namespaces, one left by the client and one closed with the connection. -/
def Demo.inboundStrict : List Inbound.Ev :=
  [.recv { type := .connect }, .join "/", .recv { type := .connect, nsp := "/a" }, .join "/a",
   .recv { type := .event, data := .arr [.str "chat"] }, .recv { type := .disconnect, nsp := "/a" }, .run 0 true, .run 1 true, .run 2 true,
   .run 3 true, .lost "transport close"]

example : ∀ p, .recv p ∈ Demo.inboundStrict → DecodedStrict p := by
  intro p hp
  simp only [Demo.inboundStrict, List.mem_cons, Inbound.Ev.recv.injEq, reduceCtorEq, false_or, List.not_mem_nil, or_false] at hp
  rcases hp with rfl | rfl | rfl | rfl <;> simp [DecodedStrict, Decoded, reservedNames]

example : (Inbound.run Demo.inboundStrict).log = [.attempt "/" .null, .attempt "/a" .null, .catchAll 0 [.str "chat"],
    .fired 1 "disconnecting" [.str "client namespace disconnect"], .fired 1 "disconnect" [.str "client namespace disconnect"],
    .fired 0 "chat" [], .fired 0 "disconnecting" [.str "transport close"], .fired 0 "disconnect" [.str "transport close"]] := rfl

/-- The library itself does not refuse them: if the decoder does not, a client fires "disconnect" on a socket that is connected, with any
arguments. -/
theorem C67_fail : ∃ h : List Inbound.Ev, (∀ p, .recv p ∈ h → Decoded p) ∧
    Obs.fired 0 "disconnect" [.str "anything"] ∈ (Inbound.run h).log ∧ ∃ k, (Inbound.run h).socks[0]? = some k ∧ k.connected = true := by
  refine ⟨[.join "/", .recv { type := .event, data := .arr [.str "disconnect", .str "anything"] }, .run 0 true, .run 1 true, .run 2 true], ?_, ?_, _, rfl, rfl⟩
  · intro p hp
    simp only [List.mem_cons, Inbound.Ev.recv.injEq, reduceCtorEq, false_or, List.not_mem_nil, or_false] at hp
    subst hp; simp [Decoded]
  · show _ ∈ [Obs.catchAll 0 [.str "disconnect", .str "anything"], .fired 0 "disconnect" [.str "anything"]]
    simp

/-- And "error", which the library fires when a middleware refuses an event or a packet is invalid, is not reserved: a client can always
fire it. -/
theorem C67_error_fail : ∃ h : List Inbound.Ev, (∀ p, .recv p ∈ h → DecodedStrict p) ∧
    Obs.fired 0 "error" [.str "anything"] ∈ (Inbound.run h).log ∧ .invalid ∉ h ∧ ∀ ref, .use ref ∉ h := by
  refine ⟨[.join "/", .recv { type := .event, data := .arr [.str "error", .str "anything"] }, .run 0 true, .run 1 true, .run 2 true], ?_, ?_, by simp, by simp⟩
  · intro p hp
    simp only [List.mem_cons, Inbound.Ev.recv.injEq, reduceCtorEq, false_or, List.not_mem_nil, or_false] at hp
    subst hp; simp [DecodedStrict, Decoded, reservedNames]
  · show _ ∈ [Obs.catchAll 0 [.str "error", .str "anything"], .fired 0 "error" [.str "anything"]]
    simp

/-! ## C68 -/

theorem length_pos_iff (s : String) : 0 < s.length ↔ s ≠ "" := by
  constructor
  · rintro h rfl; simp at h
  · intro h
    rcases Nat.eq_zero_or_pos s.length with e | e
    · exact absurd (String.length_eq_zero_iff.1 e) h
    · exact e

theorem getString_json (v : Option JVal) (hv : ∀ x, v = some x → Json x) (s : String) :
    getString v = some s ↔ v = some (.str s) ∧ s ≠ "" := by
  cases v with
  | none => simp [getString]
  | some x =>
    have hx := hv x rfl
    cases hx <;> simp [getString]
    rename_i t
    rw [length_pos_iff]
    constructor
    · rintro ⟨h, rfl⟩; exact ⟨rfl, h⟩
    · rintro ⟨rfl, h⟩; exact ⟨h, rfl⟩

/-- A session is looked up exactly when recovery is enabled and the payload of the connection is an object whose fields `pid` and
`offset` are texts that are not empty, and then with these. -/
theorem C68 (recovery : Bool) (auth : JVal) (hj : Json auth) (pid offset : String) :
    asks recovery auth = some (pid, offset) ↔
      recovery = true ∧ ∃ fields, auth = .obj fields ∧ HasText fields "pid" pid ∧ HasText fields "offset" offset := by
  cases hj with
  | obj l hl =>
    have hv : ∀ key x, l.lookup key = some x → Json x := fun key x h => hl _ (lookup_mem l key x h)
    have h1 := fun s => getString_json (l.lookup "pid") (hv _) s
    have h2 := fun s => getString_json (l.lookup "offset") (hv _) s
    simp only [asks, parseSessionData, HasText]
    constructor
    · intro h
      split at h
      · rename_i p o hp ho
        split at h
        · rename_i hr
          simp only [Option.some.injEq, Prod.mk.injEq] at h
          obtain ⟨rfl, rfl⟩ := h
          exact ⟨hr, l, rfl, (h1 _).1 hp, (h2 _).1 ho⟩
        · cases h
      · cases h
    · rintro ⟨hr, l', e, hp, ho⟩
      cases e
      rw [(h1 _).2 hp, (h2 _).2 ho]
      simp [hr]
  | _ => simp [asks, parseSessionData]

theorem getString_iff (v : Option JVal) (s : String) :
    getString v = some s ↔ s ≠ "" ∧ (v = some (.str s) ∨ ∃ l, v = some (.strs (l ++ [s]))) := by
  have hs (t : String) : (if t.length > 0 then some t else none) = some s ↔ s ≠ "" ∧ t = s := by
    split
    · rename_i h
      simp only [Option.some.injEq]
      constructor
      · rintro rfl; exact ⟨(length_pos_iff _).1 h, rfl⟩
      · exact fun h => h.2
    · rename_i h
      constructor
      · intro h; cases h
      · rintro ⟨h1, rfl⟩; exact absurd ((length_pos_iff _).2 h1) h
  unfold getString
  split
  · rw [hs]; simp
  · rename_i l
    split
    · rename_i t ht
      rw [hs]
      obtain ⟨ys, rfl⟩ := List.getLast?_eq_some_iff.1 ht
      simp only [reduceCtorEq, false_or, Option.some.injEq, JVal.strs.injEq]
      constructor
      · rintro ⟨h1, rfl⟩; exact ⟨h1, ys, rfl⟩
      · rintro ⟨h1, l, h⟩
        have := congrArg List.getLast? h
        simp only [List.getLast?_append, List.getLast?_singleton, Option.some_or, Option.some.injEq] at this
        exact ⟨h1, this⟩
    · rename_i ht
      rw [List.getLast?_eq_none_iff] at ht
      subst ht; simp
  · rename_i h1 h2
    simp only [reduceCtorEq, false_iff, not_and, not_or, not_exists]
    exact fun _ => ⟨fun h => h1 _ h, fun l h => h2 _ h⟩

/-- **C68 for any Go value**, also one no decoder yields: the payload is an object with the two fields, each a text or a list of texts of which the
last one counts, not empty; or a map of texts. -/
theorem C68_any (recovery : Bool) (auth : JVal) (pid offset : String) :
    asks recovery auth = some (pid, offset) ↔
      recovery = true ∧ ((∃ fields, auth = .obj fields ∧ EndsInText fields "pid" pid ∧ EndsInText fields "offset" offset) ∨
        ∃ m, auth = .strMap m ∧ m.lookup "pid" = some pid ∧ pid ≠ "" ∧ m.lookup "offset" = some offset ∧ offset ≠ "") := by
  have key (a b : Option JVal) (hab : parseSessionData auth = some (a, b)) :
      asks recovery auth = some (pid, offset) ↔ recovery = true ∧ getString a = some pid ∧ getString b = some offset := by
    unfold asks
    rw [hab]
    dsimp only
    split
    · rename_i p o hp ho
      rw [hp, ho]
      cases recovery <;> simp
    · rename_i h
      simp only [reduceCtorEq, false_iff]
      rintro ⟨-, h1, h2⟩
      exact h _ _ h1 h2
  cases auth with
  | obj l =>
    rw [key _ _ rfl, getString_iff, getString_iff]
    simp [EndsInText]
  | strMap l =>
    rw [key _ _ rfl, getString_iff, getString_iff]
    simp only [Option.map_eq_some_iff, JVal.str.injEq, exists_eq_right, reduceCtorEq, and_false, exists_const, or_false, false_and, false_or,
      JVal.strMap.injEq]
    constructor
    · rintro ⟨a, ⟨b, c⟩, d, e⟩; exact ⟨a, l, rfl, c, b, e, d⟩
    · rintro ⟨a, _, rfl, c, b, e, d⟩; exact ⟨a, ⟨b, c⟩, d, e⟩
  | _ => simp [asks, parseSessionData]

example : asks true (.obj [("pid", .strs ["x", "p"]), ("offset", .str "o")]) = some ("p", "o") ∧
    asks true (.obj [("pid", .strs ["p", ""]), ("offset", .str "o")]) = none ∧
    asks true (.strMap [("pid", "p"), ("offset", "o")]) = some ("p", "o") := by
  refine ⟨rfl, rfl, rfl⟩

example : Json (.obj [("pid", .str "p"), ("offset", .str "o"), ("token", .num 3)]) ∧
    asks true (.obj [("pid", .str "p"), ("offset", .str "o"), ("token", .num 3)]) = some ("p", "o") ∧
    asks true (.obj [("pid", .arr [.str "p"]), ("offset", .str "o")]) = none := by
  refine ⟨.obj _ ?_, rfl, rfl⟩
  intro x hx
  simp at hx
  rcases hx with rfl | rfl | rfl <;> constructor

/-- Clients of the current protocol are connected to the namespace of the packet and ask with its data, whatever the name looks like. -/
theorem C68_packet (parse : String → Option (String × List (String × List String))) (p : Inbound.Packet) (recovery : Bool) (hj : Json p.data)
    (pid offset : String) :
    (authOf parse false p).1 = p.nsp ∧
    (asks recovery (authOf parse false p).2 = some (pid, offset) ↔
      recovery = true ∧ ∃ fields, p.data = .obj fields ∧ HasText fields "pid" pid ∧ HasText fields "offset" offset) :=
  ⟨rfl, C68 recovery p.data hj pid offset⟩

/-- Clients of protocol 3, whose payload is the query of the namespace, never ask for recovery, whatever that query says. -/
theorem C68_proto3 (parse : String → Option (String × List (String × List String))) (p : Inbound.Packet) (recovery : Bool) :
    asks recovery (authOf parse true p).2 = none := by
  simp only [authOf, if_true]
  split <;> rfl

/-! ## C75 -/

theorem down_iff (s : Inbound.St) (ref : Nat) : isDown s ref = true ↔ Disconnected s ref := by
  unfold isDown Disconnected
  cases e : s.socks[ref]? <;> simp

/-- **C75**, if no goroutine of the library is at work for the socket when it is disconnected (partial: `C75_event_fails`,
`C75_catchall_fails`, `C75_ack_fails`): from then on nothing is called on its behalf, whatever the client sends and the server does. -/
theorem C75_settled_partial (h t : List Inbound.Ev) (ref : Nat) (hd : Disconnected (Inbound.run h) ref)
    (hs : ∀ x ∈ (Inbound.run h).tasks, worksFor ref x = false) :
    Disconnected (Inbound.run (h ++ t)) ref ∧ (Inbound.run (h ++ t)).log.filter (isCall ref) = (Inbound.run h).log.filter (isCall ref) := by
  have a := after_run h t ((down_iff _ _).2 hd)
  obtain ⟨new, l, -, -, w⟩ := a.log
  refine ⟨(down_iff _ _).1 a.down, ?_⟩
  have := (w (by rw [List.countP_eq_zero]; intro x hx; simp [hs x hx])).2
  rw [List.countP_eq_zero] at this
  rw [l, List.filter_append, List.filter_eq_nil_iff.2 this, List.append_nil]

/-- **C75**, in general: the listeners of events other than "error" are called at most once for each goroutine that had seen the socket
connected and had still to call them, and the catch-all listeners and callbacks at most once for each packet that had been received
before and waits for its goroutine.  Packets that arrive later, and events that are still with the middlewares, lead to none. -/
theorem C75_bounded_partial (h t : List Inbound.Ev) (ref : Nat) (hd : Disconnected (Inbound.run h) ref) :
    ∃ new, (Inbound.run (h ++ t)).log = (Inbound.run h).log ++ new ∧
      new.countP (isEvent ref) ≤ (Inbound.run h).tasks.countP (hasEvent ref) ∧
      new.countP (isHandled ref) ≤ (Inbound.run h).tasks.countP (hasPacket ref) := by
  obtain ⟨new, l, p, e, -⟩ := (after_run h t ((down_iff _ _).2 hd)).log
  exact ⟨new, l, by omega, by omega⟩

/-- A client sends an event, which is delivered, and leaves; then it sends another event and comes back. -/
def Demo.leaves : List Inbound.Ev :=
  [.join "/", .recv { type := .event, data := .arr [.str "chat"] }, .run 0 true, .run 1 true, .run 2 true, .recv { type := .disconnect }, .run 3 true]

def Demo.again : List Inbound.Ev :=
  [.recv { type := .connect }, .join "/", .recv { type := .event, data := .arr [.str "chat"] }, .run 4 true, .run 5 true, .run 6 true]

/-- Non-vacuity. -/
example : (Inbound.run Demo.leaves).tasks.all (fun x => !worksFor 0 x) = true ∧ Disconnected (Inbound.run Demo.leaves) 0 ∧
    (Inbound.run (Demo.leaves ++ Demo.again)).log.map (isCall 0) = [true, true, true, true, false, false, false] ∧
    (Inbound.run (Demo.leaves ++ Demo.again)).log.map (isEvent 1) = [false, false, false, false, false, false, true] :=
  ⟨rfl, ⟨_, rfl, rfl⟩, rfl, rfl⟩

/-- An event is delivered after "disconnect": the goroutine had found the socket connected, then the socket was disconnected. -/
theorem C75_event_fails : ∃ h : List Inbound.Ev, (∀ p, .recv p ∈ h → DecodedStrict p) ∧
    (Inbound.run h).log = [.catchAll 0 [.str "chat"], .fired 0 "disconnecting" [.str "server namespace disconnect"],
      .fired 0 "disconnect" [.str "server namespace disconnect"], .fired 0 "chat" []] := by
  refine ⟨[.join "/", .recv { type := .event, data := .arr [.str "chat"] }, .run 0 true, .run 1 true, .disconnect 0, .run 2 true], ?_, rfl⟩
  intro p hp
  simp only [List.mem_cons, Inbound.Ev.recv.injEq, reduceCtorEq, false_or, List.not_mem_nil, or_false] at hp
  subst hp; simp [DecodedStrict, Decoded, reservedNames]

/-- The catch-all listeners do not even look whether the socket is connected. -/
theorem C75_catchall_fails : ∃ h : List Inbound.Ev, (∀ p, .recv p ∈ h → DecodedStrict p) ∧
    (Inbound.run h).log = [.fired 0 "disconnecting" [.str "server namespace disconnect"],
      .fired 0 "disconnect" [.str "server namespace disconnect"], .catchAll 0 [.str "chat"]] := by
  refine ⟨[.join "/", .recv { type := .event, data := .arr [.str "chat"] }, .disconnect 0, .run 0 true, .run 1 true], ?_, rfl⟩
  intro p hp
  simp only [List.mem_cons, Inbound.Ev.recv.injEq, reduceCtorEq, false_or, List.not_mem_nil, or_false] at hp
  subst hp; simp [DecodedStrict, Decoded, reservedNames]

/-- Neither do the callbacks of acknowledgements. -/
theorem C75_ack_fails : ∃ h : List Inbound.Ev, (∀ p, .recv p ∈ h → DecodedStrict p) ∧
    (Inbound.run h).log = [.fired 0 "disconnecting" [.str "transport close"], .fired 0 "disconnect" [.str "transport close"],
      .answered 0 1 [.num 5]] := by
  refine ⟨[.join "/", .emitAck 0 1 false, .recv { type := .ack, data := .arr [.num 5], id := some 1 }, .lost "transport close", .run 0 true], ?_, rfl⟩
  intro p hp
  simp only [List.mem_cons, Inbound.Ev.recv.injEq, reduceCtorEq, false_or, List.not_mem_nil, or_false] at hp
  subst hp; simp [DecodedStrict, Decoded, reservedNames]

end Verif.Props
