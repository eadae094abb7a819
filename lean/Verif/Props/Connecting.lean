import Verif.Proof.WorldConn
import Verif.Proof.WorldTold
import Verif.Props.Lifecycle
import Verif.Props.Session

/-! # C15-C18, C21, C61, C62: getting connected -/

namespace Verif.Props
open Verif Verif.Adapter Verif.Spec Verif.World

/-! ## C16 -/

/-- **C16**: the event "connection" fires for a socket only if it was let in: every middleware its namespace had when
the socket was created called `next` without error, in the order of registration, or its session was recovered and
the middlewares are to be skipped.  This needs no assumption on how often `next` is called. -/
theorem C16_gate (cfg : World.Cfg) (h : List World.Ev) (r : Nat) (hc : Obs.connection r ∈ (run cfg h).log) : LetIn cfg h r :=
  (gate_run cfg h).conn r hc

/-- The same for everything else by which a connection shows: the socket is connected, a namespace or a client lists it,
a CONNECT packet was sent on its behalf.  This too needs no assumption on how often `next` is called. -/
theorem C16_visible (cfg : World.Cfg) (h : List World.Ev) (r : Nat)
    (hc : ((run cfg h).socks r).connected = true ∨ (∃ n sid, ((run cfg h).nss n).sockets.get? sid = some r) ∨
      (∃ c sid, ((run cfg h).clients c).sockets.get? sid = some r) ∨
      ∃ p ∈ packetsTo r (run cfg h).log, p.type = .connect) : LetIn cfg h r := by
  apply C16_gate
  have hs := (inv_run cfg h).1
  obtain ⟨h1, h2⟩ := shown_run cfg h r
  rcases hc with hc | ⟨n, sid, hg⟩ | ⟨c, sid, hg⟩ | ⟨p, hp, ht⟩
  · exact h1 hc
  · exact h1 (hs.reg n sid r hg).2.2
  · exact h1 (hs.cl c sid r hg).2.2
  · exact h2 p hp ht

/-- C16, order: when the `j`-th middleware of a chain has been called, all earlier ones have called `next` without error,
in order, after the socket was created. -/
theorem C16_order (cfg : World.Cfg) (h : List World.Ev) (k : Nat) (ch : Chain) (hk : (run cfg h).chains[k]? = some ch)
    (j : Nat) (hj : j ≤ ch.reached) :
    ∃ p e q, h = p ++ e :: q ∧ CreatedBy cfg p e ch.ref ∧ ((List.range j).map fun i => World.Ev.next k i none).Sublist q := by
  obtain ⟨-, p, e, q, h1, h2, -, -, h5⟩ := (gate_run cfg h).chain k ch hk
  refine ⟨p, e, q, h1, h2, List.Sublist.trans (List.Sublist.map _ ?_) h5⟩
  exact List.range_sublist.2 hj

/-- **C16, the first error stops the chain**: when a middleware calls `next` with an error, then whatever happens later
no further middleware of this chain is called, the socket is never connected and "connection" never fires for it, if the middlewares
called the `next` functions they were given for this socket at most once each (`C60_reject_then_accept` has the other case). -/
theorem C16_error_stops (cfg : World.Cfg) (h t : List World.Ev) (k i : Nat) (err : Err) (ch : Chain)
    (hn : NextOnceFor cfg (h ++ [.next k i (some err)] ++ t) ch.ref) (hk : (run cfg h).chains[k]? = some ch) (hi : i ≤ ch.reached) :
    (∃ ch', (run cfg (h ++ [.next k i (some err)] ++ t)).chains[k]? = some ch' ∧ ch'.ref = ch.ref ∧ ch'.reached = i) ∧
    Obs.connection ch.ref ∉ (run cfg (h ++ [.next k i (some err)] ++ t)).log ∧
    ((run cfg (h ++ [.next k i (some err)] ++ t)).socks ch.ref).connected = false := by
  have hn1 := nextOnceFor_prefix hn
  have hn0 := nextOnceFor_prefix hn1
  have hinv := invR_run cfg h ch.ref hn0
  obtain ⟨c1, c2, c3⟩ := hinv.chain k ch hk rfl
  have hir : i = ch.reached := by
    rcases Nat.lt_or_eq_of_le hi with hl | he
    · exact absurd (c3 i (c2 i hl)).2 ((nextOnceFor_snoc hn1).2 (k, i) rfl (by simp [chainOf, hk]))
    · exact he
  have hlt : k < (run cfg h).chains.length := by
    rcases Nat.lt_or_ge k (run cfg h).chains.length with hl | hl
    · exact hl
    · rw [List.getElem?_eq_none hl] at hk; simp at hk
  have hstep : run cfg (h ++ [.next k i (some err)]) = { run cfg h with
      chains := (run cfg h).chains.set k { ch with used := i :: ch.used }
      tasks := (run cfg h).tasks ++ [.result ch.ref (some err)] } := by
    rw [run_snoc]; simp [World.step, next, hk, hi]
  have hchain : (run cfg (h ++ [.next k i (some err)])).chains[k]? = some { ch with used := i :: ch.used } := by
    rw [hstep]; simp [hlt]
  have hd := doomed_notConnected (err := err) hn (by rw [hstep]; simp)
  exact ⟨⟨_, chain_stays_for (ch := { ch with used := i :: ch.used }) hn hchain (by simp [hir]), rfl, hir.symm⟩, hd⟩

/-- Two middlewares; the first client passes both, the second one is rejected by the first middleware. -/
def Demo.gate : List World.Ev :=
  [.use 0, .use 0, .accept false, .accept false, .recv 0 .connect "/" none, .recv 1 .connect "/" none,
   .next 0 0 none, .next 1 0 (some ⟨"no", some (.num 1)⟩), .next 0 1 none, .task 1]

/-- Non-vacuity of C16: socket 0 is connected, the chain of socket 1 stopped at its first middleware. -/
example : NextOnceFor Demo.cfg Demo.gate 0 ∧ NextOnceFor Demo.cfg Demo.gate 1 ∧ Obs.connection 0 ∈ (run Demo.cfg Demo.gate).log ∧
    (run Demo.cfg (Demo.gate.take 7)).chains[1]? = some { ref := 1, len := 2 } ∧
    ((run Demo.cfg Demo.gate).chains[1]?).map Chain.reached = some 0 ∧
    ((run Demo.cfg Demo.gate).chains[0]?).map Chain.reached = some 1 := by decide

/-! ## C17 -/

/-- **C17**: `next` was called with an error for socket `r`, and the goroutine that handles the rejection runs.  If the
client's connection is open, the client is sent one CONNECT_ERROR packet of that namespace with the message and the data
of the error, and nothing else happens that anybody can observe.  In any case, then and for ever, if the middlewares called the `next`
functions they were given for this socket at most once each,
* "connection" does not fire for the socket;
* no namespace and no client lists it;
* it cannot join a room;
* no room contains its id, whatever rooms it had joined, unless another open socket has the same id. -/
theorem C17_rejected (cfg : World.Cfg) (h t : List World.Ev) (k r : Nat) (err : Err)
    (hk : (run cfg h).tasks[k]? = some (.result r (some err))) :
    (run cfg (h ++ [.task k])).log = (run cfg h).log ++
      (if ((run cfg h).clients ((run cfg h).socks r).client).conn = .opened then
        [.packet ((run cfg h).socks r).client (some r)
          { type := .connectError, nsp := ((run cfg h).nss ((run cfg h).socks r).ns).name,
            data := match ((run cfg h).clients ((run cfg h).socks r).client).proto3, err.data with
              | false, d => .error err.message d
              | true, some v => .args [v]
              | true, none => .error err.message none }] else []) ∧
    ∀ u, t = .task k :: u → NextOnceFor cfg (h ++ t) r →
      Obs.connection r ∉ (run cfg (h ++ t)).log ∧
      (∀ n sid, ((run cfg (h ++ t)).nss n).sockets.get? sid ≠ some r) ∧
      (∀ c sid, ((run cfg (h ++ t)).clients c).sockets.get? sid ≠ some r) ∧
      (∀ rooms, run cfg (h ++ t ++ [.join r rooms]) = run cfg (h ++ t)) ∧
      ((∀ r', IsOpen (run cfg (h ++ t)) r' → ((run cfg (h ++ t)).socks r').sid ≠ ((run cfg (h ++ t)).socks r).sid) →
        ∀ n room l, ((run cfg (h ++ t)).nss n).ad.rooms.get? room = some l → ((run cfg (h ++ t)).socks r).sid ∉ l) := by
  constructor
  · rw [run_snoc]
    obtain ⟨d1, d2, d3, -, -, -, -, -, -, d10, -⟩ := cleanup_fields cfg { run cfg h with tasks := (run cfg h).tasks.eraseIdx k } r
    simp only [World.step, hk, runTask, result]
    by_cases ho : ((run cfg h).clients ((run cfg h).socks r).client).conn = .opened
    · rw [if_neg (by simpa using ho), if_pos ho, sockPacket_eq]
      simp only [sent, d10]
      rw [d2, upd_same]; dsimp only
      rw [d3]; dsimp only
      rw [if_pos ho, d1]
      have : (upd (run cfg h).nss ((run cfg h).socks r).ns
          (nsCleaned cfg { run cfg h with tasks := (run cfg h).tasks.eraseIdx k } r) ((run cfg h).socks r).ns).name =
          ((run cfg h).nss ((run cfg h).socks r).ns).name := by rw [upd_same]; rfl
      rw [this]
      congr 4
      unfold errorData
      cases ((run cfg h).clients ((run cfg h).socks r).client).proto3 <;> cases err.data <;> rfl
    · rw [if_pos (by simpa using ho), if_neg ho, d10]; simp
  · rintro u rfl hn
    have hn' : NextOnceFor cfg (h ++ [.task k] ++ u) r := by simpa using hn
    have h2 : InvR cfg.recovery.isSome r true ((h ++ [World.Ev.task k]).filterMap nextCall) (run cfg (h ++ [.task k])) := by
      have := (invR_task (invR_run cfg h r (nextOnceFor_snoc (nextOnceFor_prefix hn')).1) (inv_run cfg h).2 k _ hk).2 err rfl
      rw [run_snoc]
      simp only [World.step, hk, List.filterMap_append, List.filterMap_cons, nextCall, List.filterMap_nil, List.append_nil]
      exact this
    have href : Over r (run cfg (h ++ [.task k] ++ u)) ∧ Obs.connection r ∉ (run cfg (h ++ [.task k] ++ u)).log := by
      obtain ⟨a, b, c, d⟩ := (invR_after hn' h2).rej rfl
      exact ⟨⟨a, b, c⟩, by rw [mem_life, d]; simp⟩
    rw [show h ++ .task k :: u = h ++ [.task k] ++ u by simp]
    have hs := (inv_run cfg (h ++ [.task k] ++ u)).1
    generalize hw : run cfg (h ++ [.task k] ++ u) = w at *
    obtain ⟨⟨o1, o2, o3⟩, o4⟩ := href
    refine ⟨o4, fun n sid hg => ?_, fun c sid hg => ?_, fun rooms => ?_, fun hu n room l hl hm => ?_⟩
    · have := (hs.reg n sid r hg).2.2; rw [o2] at this; simp at this
    · have := (hs.cl c sid r hg).2.2; rw [o2] at this; simp at this
    · rw [run_snoc, hw]; simp [World.step, act, World.join, o1, o3]
    · obtain ⟨l', hl', -⟩ := ((hs.ad n).agree _ _).1 ⟨l, hl, hm⟩
      obtain ⟨r', h1, h2, h3, h4⟩ := hs.live n _ ((FMap.mem_keys_iff _ _).2 ⟨l', hl'⟩)
      exact hu r' ⟨h1, h4⟩ h3

/-- The goroutine is started by every call of `next` with an error. -/
theorem C17_reported (cfg : World.Cfg) (h : List World.Ev) (k i : Nat) (err : Err) (ch : Chain)
    (hk : (run cfg h).chains[k]? = some ch) (hi : i ≤ ch.reached) :
    (run cfg (h ++ [.next k i (some err)])).tasks = (run cfg h).tasks ++ [.result ch.ref (some err)] := by
  rw [run_snoc]; simp [World.step, next, hk, hi]

/-- Non-vacuity of C17: socket 1 joins a room in its middleware and is rejected. -/
example : (run Demo.cfg (Demo.gate.take 7 ++ [.join 1 ["red"], .next 1 0 (some ⟨"no", some (.num 1)⟩)])).tasks[0]? =
      some (.result 1 (some ⟨"no", some (.num 1)⟩)) ∧
    roomsOf ((run Demo.cfg (Demo.gate.take 7 ++ [.join 1 ["red"]])).nss 0).ad (Demo.ident 1) = ["red"] ∧
    (run Demo.cfg (Demo.gate.take 7 ++ [.join 1 ["red"], .next 1 0 (some ⟨"no", some (.num 1)⟩), .task 0])).log =
      [.packet 1 (some 1) { type := .connectError, nsp := "/", data := .error "no" (some (.num 1)) }] ∧
    ((run Demo.cfg (Demo.gate.take 7 ++ [.join 1 ["red"], .next 1 0 (some ⟨"no", some (.num 1)⟩), .task 0])).nss 0).ad.rooms = [] := by
  decide

/-! ## C18 -/

/-- **C18, never across**: to a socket, at most as many packets of a type are delivered as arrived from its own client for
its own namespace; CONNECT and CONNECT_ERROR packets are delivered to no socket. -/
theorem C18_no_crossing (cfg : World.Cfg) (h : List World.Ev) (r : Nat) (t : PType) :
    (run cfg h).log.count (.received r t) ≤
      arrivals ((run cfg h).socks r).client t ((run cfg h).nss ((run cfg h).socks r).ns).name h ∧
    (t = .connect ∨ t = .connectError → Obs.received r t ∉ (run cfg h).log) := by
  have g := routing_run cfg h
  refine ⟨?_, fun ht hm => ?_⟩
  · rcases Nat.lt_or_ge r (run cfg h).nSock with hl | hl
    · exact Nat.le_trans (Nat.le_add_right _ _) (g.le r t hl)
    · have := g.none r t hl; unfold routed at this; omega
  · have := g.kind r t ht
    unfold routed at this
    have := List.count_pos_iff.2 hm
    omega

/-- **C18, what one packet does.**  A packet arrives from a client whose connection is listened to.
* A CONNECT packet for a namespace the client is not in creates one socket of this client in that namespace, or, if the
  namespace neither exists nor is admitted, creates none and is answered with an "Invalid namespace" error.
* Any other packet (except CONNECT_ERROR) for a namespace the client is in starts the delivery to one socket, which belongs to
  this client and to this namespace; nothing else changes.
* In all other cases no socket is created, nothing is delivered, and the connection is closed. -/
theorem C18_dispatch (cfg : World.Cfg) (h : List World.Ev) (c : Nat) (type : PType) (name : String)
    (auth : Option (Session.Pid × String)) (hc : c < (run cfg h).nClient) (hl : ((run cfg h).clients c).listening = true) :
    match ((run cfg h).clients c).nsps.get? name, type with
    | none, .connect =>
      ((run cfg (h ++ [.recv c type name auth])).nSock = (run cfg h).nSock + 1 ∧
        ((run cfg (h ++ [.recv c type name auth])).socks (run cfg h).nSock).client = c ∧
        ((run cfg (h ++ [.recv c type name auth])).nss
          ((run cfg (h ++ [.recv c type name auth])).socks (run cfg h).nSock).ns).name = name) ∨
      ((run cfg h).nsps.get? name = none ∧ cfg.admit name = false ∧
        (run cfg (h ++ [.recv c type name auth])).nSock = (run cfg h).nSock ∧
        (run cfg (h ++ [.recv c type name auth])).log = (run cfg h).log ++
          if ((run cfg h).clients c).conn = .opened then
            [.packet c none { type := .connectError, nsp := name, data := .error "Invalid namespace" none }] else [])
    | some _, .connect | some _, .connectError | none, _ =>
      (run cfg (h ++ [.recv c type name auth])).nSock = (run cfg h).nSock ∧
      (run cfg (h ++ [.recv c type name auth])).tasks = (run cfg h).tasks ∧
      ((run cfg (h ++ [.recv c type name auth])).clients c).conn ≠ .opened
    | some r, _ =>
      ((run cfg h).socks r).client = c ∧ ((run cfg h).nss ((run cfg h).socks r).ns).name = name ∧
      run cfg (h ++ [.recv c type name auth]) = { run cfg h with tasks := (run cfg h).tasks ++ [.packet r type] } := by
  have hs := (inv_run cfg h).1
  rw [run_snoc]
  have hstep : World.step cfg (run cfg h) (.recv c type name auth) = ondecoded cfg (run cfg h) c type name auth := by
    simp only [World.step]; rw [if_pos ⟨hc, hl⟩]
  rw [hstep]
  unfold ondecoded
  have hclose : (clientClose cfg (run cfg h) c).nSock = (run cfg h).nSock ∧
      (clientClose cfg (run cfg h) c).tasks = (run cfg h).tasks ∧ ((clientClose cfg (run cfg h) c).clients c).conn ≠ .opened :=
    ⟨(calm_clientClose _ _ _).nSock, (calm_clientClose _ _ _).tasks, clientClose_conn _ _ _⟩
  cases hg : ((run cfg h).clients c).nsps.get? name with
  | none =>
    cases type with
    | connect =>
      simp only [if_true]
      rcases made_connect (fun name n hg => (hs.names name n hg).2) cfg c name auth with ⟨h1, h2, h3⟩ | ⟨h1, h2, h3, -⟩
      · refine .inr ⟨h2, h3, h1, ?_⟩
        unfold World.connect
        rw [h2, h3]
        simp only [Bool.false_eq_true, if_false, clientPacket]
        split <;> simp [obs]
      · exact .inl ⟨h1, h2, h3⟩
    | _ => simpa using hclose
  | some r =>
    obtain ⟨-, r1, r2⟩ := hs.clNs c name r hg
    cases type with
    | connect => simpa using hclose
    | connectError => simpa using hclose
    | _ => simpa using ⟨r1, r2⟩

/-- C18: sockets are created in no other way: whenever a socket is created, a client asked for that namespace while not
being in it, or (protocol 3) a client that has just connected enters "/". -/
theorem C18_created (cfg : World.Cfg) (h : List World.Ev) (e : World.Ev) (r : Nat) (hc : CreatedBy cfg h e r) :
    (e = .accept true ∧ ((run cfg (h ++ [e])).nss ((run cfg (h ++ [e])).socks r).ns).name = "/" ∧
      ((run cfg (h ++ [e])).socks r).client = (run cfg h).nClient) ∨
    ∃ c name auth, e = .recv c .connect name auth ∧ ((run cfg h).clients c).nsps.get? name = none ∧
      ((run cfg (h ++ [e])).socks r).client = c ∧
      ((run cfg (h ++ [e])).nss ((run cfg (h ++ [e])).socks r).ns).name = name := by
  obtain ⟨rfl, h2⟩ := hc
  rw [run_snoc] at *
  rcases made_step (inv_run cfg h).1 cfg e with h1 | ⟨c, name, ha, m1, m2, m3, -⟩
  · omega
  · rcases ha with ⟨rfl, rfl, rfl⟩ | ⟨auth, rfl, -, -, hg⟩
    · exact .inl ⟨rfl, m3, m2⟩
    · exact .inr ⟨c, name, auth, rfl, hg, m2, m3⟩

/-- **C18, packets arrive**: if no two open sockets share an id and no client asks for a namespace it has asked for already,
a packet from the client of a connected socket for its namespace is delivered to that very socket. -/
theorem C18_delivered (cfg : World.Cfg) (h : List World.Ev) (hn : NextOnce h) (ht : NeverTwins cfg h) (hp : Patient cfg h)
    (r : Nat) (hc : ((run cfg h).socks r).connected = true) (type : PType) (h1 : type ≠ .connect) (h2 : type ≠ .connectError)
    (auth : Option (Session.Pid × String)) (hl : ((run cfg h).clients ((run cfg h).socks r).client).listening = true) :
    run cfg (h ++ [.recv ((run cfg h).socks r).client type ((run cfg h).nss ((run cfg h).socks r).ns).name auth]) =
      { run cfg h with tasks := (run cfg h).tasks ++ [.packet r type] } := by
  have hs := (inv_run cfg h).1
  have hslot := slot_run hn ht (neverTwice_patient hp) r hc
  rw [run_snoc]
  simp only [World.step]
  rw [if_pos ⟨(hs.sock r (hs.conn r hc)).2, hl⟩]
  unfold ondecoded
  rw [hslot]; simp [h1, h2]

/-- Non-vacuity of C18: the packets of client 0 for "/" and "/chat" go to sockets 0 and 1; a packet of client 1 for "/chat",
where it has no socket, closes its connection. -/
example : ((run Demo.cfg Demo.two).clients 0).listening = true ∧
    (run Demo.cfg (Demo.two ++ [.recv 0 .event "/" none, .recv 0 .event "/chat" none, .task 0, .task 0])).log =
      (run Demo.cfg Demo.two).log ++ [.received 0 .event, .received 1 .event] ∧
    ((run Demo.cfg (Demo.two ++ [.recv 1 .event "/chat" none])).clients 1).conn = .closing ∧
    ((run Demo.cfg (Demo.two ++ [.recv 1 .event "/chat" none])).clients 0).conn = .opened := by decide

/-! ## C61 -/

/-- **C61** for clients that wait for the answer before asking for a namespace again (partial: `C61_fail`): a client has
at most one open socket in a namespace. -/
theorem C61_one_each_partial (cfg : World.Cfg) (h : List World.Ev) (hp : Patient cfg h) (r r' : Nat)
    (h1 : IsOpen (run cfg h) r) (h2 : IsOpen (run cfg h) r')
    (hc : ((run cfg h).socks r).client = ((run cfg h).socks r').client)
    (hn : ((run cfg h).nss ((run cfg h).socks r).ns).name = ((run cfg h).nss ((run cfg h).socks r').ns).name) : r = r' :=
  oneEach_patient cfg h hp r r' h1 h2 hc hn

/-- Hence no two open sockets ever share an id, whatever the protocol of the clients, if recovery is not enabled, the clients wait for
the answer and the generators of ids are good: the hypothesis of C18, C20, C22, C27 and C71 on ids is met. -/
theorem C61_ids_partial (cfg : World.Cfg) (h : List World.Ev) (hp : Patient cfg h) (hrec : cfg.recovery = none)
    (hg : GoodIds cfg) : NeverTwins cfg h := by
  rintro p hpre r r' ho ho' he
  have hone := neverTwice_patient hp p hpre
  rw [ids_run cfg p r ho.1 (never_run hrec p r), ids_run cfg p r' ho'.1 (never_run hrec p r')] at he
  rcases idFor_inj hg he with e | ⟨e1, e2⟩
  · exact e
  · exact hone r r' ho ho' e1 e2

/-- Non-vacuity: generators as required; a client of protocol 3 and one of protocol 4. -/
example : GoodIds { Demo.cfg with connId := fun n => "c" ++ Demo.ident n } ∧
    NextOnce [.accept true, .accept false, .task 0, .recv 1 .connect "/" none, .task 0] ∧
    Patient { Demo.cfg with connId := fun n => "c" ++ Demo.ident n } [.accept true, .accept false, .task 0, .recv 1 .connect "/" none, .task 0] := by
  have ht (n : Nat) : (Demo.ident n).toList = List.replicate n 'a' := by simp [Demo.ident]
  refine ⟨⟨Demo.ident_inj, fun a b h => Demo.ident_inj a b ?_, fun a b h => ?_, fun a h => ?_, fun a h => ?_⟩, by decide, ?_⟩
  · have := congrArg String.toList h
    simp only [String.toList_append] at this
    exact String.toList_inj.1 (List.append_cancel_left this)
  · have h2 : 'c' ∈ (Demo.ident a).toList := by
      rw [show Demo.ident a = _ from h]; simp
    rw [ht] at h2
    have := List.eq_of_mem_replicate h2; revert this; decide
  · rw [show (Demo.cfg.newSid a) = Demo.ident a from rfl, ht] at h
    have := List.eq_of_mem_replicate h; revert this; decide
  · simp only [String.toList_append, ht, List.mem_append] at h
    rcases h with h | h
    · revert h; decide
    · have := List.eq_of_mem_replicate h; revert this; decide
  · rintro p c name auth ⟨t, ht⟩ r ho hc
    have hlen : p.length = 3 := by
      rw [List.append_assoc] at ht
      match p, ht with
      | [], ht => simp at ht
      | [_], ht => simp at ht
      | [_, _], ht => simp at ht
      | [_, _, _], _ => rfl
      | [_, _, _, _], ht => simp at ht
      | _ :: _ :: _ :: _ :: _ :: q, ht => have := congrArg List.length ht; simp at this
    match p, hlen, ht with
    | [a, b, d], _, ht =>
      simp at ht
      obtain ⟨rfl, rfl, rfl, ⟨rfl, rfl, rfl⟩, -⟩ := ht
      obtain ⟨ho1, -⟩ := ho
      match r, ho1 with
      | 0, _ => exact absurd hc (by decide)
      | r + 1, ho1 => exact absurd (Nat.lt_of_lt_of_le ho1 (by decide : _ ≤ 1)) (by omega)

/-- A client that asks for a namespace twice before the first answer gets two connected sockets there; both are told that they
are connected and both get every broadcast, but packets from the client reach only the second one. -/
theorem C61_fail : ∃ (cfg : World.Cfg) (h : List World.Ev), NextOnce h ∧ NeverTwins cfg h ∧
    ((run cfg h).socks 0).connected = true ∧ ((run cfg h).socks 1).connected = true ∧
    ((run cfg h).socks 0).client = ((run cfg h).socks 1).client ∧ ((run cfg h).socks 0).ns = ((run cfg h).socks 1).ns ∧
    (run cfg (h ++ [.recv 0 .event "/" none])).tasks = [.packet 1 .event] ∧
    (run cfg (h ++ [.broadcast 0 [] none [] [] {}])).log = (run cfg h).log ++
      [.packet 0 (some 1) { type := .event, nsp := "/", data := .args [] },
       .packet 0 (some 0) { type := .event, nsp := "/", data := .args [] }] :=
  ⟨Demo.cfg, [.accept false, .recv 0 .connect "/" none, .recv 0 .connect "/" none, .task 0, .task 0], by decide,
    neverTwins_fresh (by decide) rfl Demo.ident_inj (by decide), by decide, by decide, by decide, by decide, by decide, by decide⟩

/-! ## C21 -/

/-- **C21** for sockets that were not recovered, as long as nobody emits to a socket before "connection" fires
(partial: `C21_recovered_fail`, `C21_early_emit_fail`; with recovery enabled emitting early does no harm).  The
packets sent on behalf of a socket are none, or one CONNECT_ERROR, or CONNECT and then only events and a DISCONNECT; CONNECT has
been sent exactly if "connection" has fired. -/
theorem C21_connect_first_partial (cfg : World.Cfg) (h : List World.Ev) (r : Nat) (hn : NextOnceFor cfg h r)
    (he : cfg.recovery = none → EmitsAfter cfg h r) (hr : ((run cfg h).socks r).recovered = false) :
    (Obs.connection r ∉ (run cfg h).log ∧
      (packetsTo r (run cfg h).log = [] ∨ ∃ p, packetsTo r (run cfg h).log = [p] ∧ p.type = .connectError)) ∨
    (Obs.connection r ∈ (run cfg h).log ∧ ∃ p l, packetsTo r (run cfg h).log = p :: l ∧ p.type = .connect ∧
      ∀ q ∈ l, q.type = .event ∨ q.type = .disconnect) := by
  have f := first_run cfg h r hn
  by_cases hc : Obs.connection r ∈ (run cfg h).log
  · exact .inr ⟨hc, f.on he hc hr⟩
  · refine .inl ⟨hc, ?_⟩
    rcases f.off he hc hr with h1 | ⟨-, h1⟩
    · exact .inl h1
    · exact .inr h1

/-- Non-vacuity of C21: one socket connected and told of an event, one rejected. -/
example : NextOnce (Demo.gate ++ [.emit 0 [.str "hi"] {}, .task 0]) ∧
    (packetsTo 0 (run Demo.cfg (Demo.gate ++ [.emit 0 [.str "hi"] {}, .task 0])).log).map (·.type) = [.connect, .event] ∧
    (packetsTo 1 (run Demo.cfg (Demo.gate ++ [.emit 0 [.str "hi"] {}, .task 0])).log).map (·.type) = [.connectError] := by decide

/-- With connection state recovery: the ids are short. -/
def Demo.scfg (skip : Bool) : World.Cfg :=
  { Demo.cfg with recovery := some ({ max := 1000, yeast := fun n => "o" ++ Demo.ident n }, skip) }

/-- A client is in the room "red", loses its connection, misses one event for "red" and one for "blue" and comes
back. -/
def Demo.lost : List World.Ev :=
  [.accept false, .recv 0 .connect "/" none, .task 0, .join 0 ["red"], .setData 0 (.num 7), .clock 10,
   .broadcast 0 [.str "a"] none [] [] {}, .transportClose 0 "transport close", .clock 20,
   .broadcast 0 [.str "b"] none ["red"] [] {}, .broadcast 0 [.str "c"] none ["blue"] [] {}, .clock 30, .accept false]

def Demo.back : World.Ev := .recv 1 .connect "/" (some ("", "o"))

/-- A recovered socket is sent the missed events before its CONNECT packet. -/
theorem C21_recovered_fail : ∃ (cfg : World.Cfg) (h : List World.Ev) (r : Nat), NextOnce h ∧
    packetsTo r (run cfg h).log =
      [{ type := .event, nsp := "/", data := .args [.str "b", .str "oa"] }, { type := .connect, nsp := "/", data := .connect "" "" }] :=
  ⟨Demo.scfg true, Demo.lost ++ [Demo.back], 1, by decide, by decide⟩

/-- Without connection state recovery an event emitted by a middleware reaches the client before CONNECT. -/
theorem C21_early_emit_fail : ∃ (cfg : World.Cfg) (h : List World.Ev) (r : Nat), NextOnce h ∧
    (packetsTo r (run cfg h).log).map (·.type) = [.event, .connect] :=
  ⟨Demo.cfg, [.use 0, .accept false, .recv 0 .connect "/" none, .emit 0 [.str "hi"] {}, .next 0 0 none, .task 0], 0, by decide, by decide⟩

/-! ## C15 -/

/-- **C15, recovered**: client `c` asks for namespace `n`, giving the private id and the offset of a session that the store
restores.  The socket created has the id, private id and data of the session, is flagged as recovered, is in all its
rooms, and is sent exactly the missed packets, in order; then, if the middlewares are skipped, it is connected at once. -/
theorem C15_recovered (cfg : World.Cfg) (sc : Session.Cfg) (skip : Bool) (hr : cfg.recovery = some (sc, skip)) (h : List World.Ev)
    (c n : Nat) (name : String) (pid : Session.Pid) (off : String) (hc : c < (run cfg h).nClient)
    (hl : ((run cfg h).clients c).listening = true) (ho : ((run cfg h).clients c).conn = .opened)
    (hno : ((run cfg h).clients c).nsps.get? name = none) (hnsp : (run cfg h).nsps.get? name = some n)
    (s : Session.Sess) (missed : List (List Val))
    (hres : (Session.restore sc (run cfg h).now pid off ((run cfg h).nss n).sess).2 = .ok s missed)
    (w' : W) (hw : w' = run cfg (h ++ [.recv c .connect name (some (pid, off))])) (r : Nat) (hrr : r = (run cfg h).nSock) :
    (w'.socks r).ns = n ∧ (w'.socks r).client = c ∧ (w'.socks r).sid = s.sid ∧ (w'.socks r).pid = s.pid ∧
    (w'.socks r).data = s.data ∧ (w'.socks r).recovered = true ∧ (w'.socks r).connected = skip ∧
    (∀ room ∈ s.rooms, ∃ l, (w'.nss n).ad.rooms.get? room = some l ∧ s.sid ∈ l) ∧
    w'.log = (run cfg h).log ++
      missed.map (fun l => Obs.packet c (some r) { type := .event, nsp := name, data := .args l }) ++
      (if skip then [.packet c (some r)
          { type := .connect, nsp := name, data := if ((run cfg h).clients c).proto3 then .nil else .connect s.sid s.pid },
        .connection r] else []) := by
  subst hw hrr
  have hs := (inv_run cfg h).1
  have hname := (hs.names name n hnsp).2
  obtain ⟨a1, a2, a3⟩ := add_recovered hs hr n c pid off s missed hres ho
  have hstep : World.step cfg (run cfg h) (.recv c .connect name (some (pid, off))) = add cfg (run cfg h) n c (some (pid, off)) := by
    simp only [World.step]; rw [if_pos ⟨hc, hl⟩]
    unfold ondecoded; rw [hno]; simp only [if_true]
    unfold World.connect; rw [hnsp]
  rw [run_snoc, hstep, a1, a3, hname]
  exact ⟨rfl, rfl, rfl, rfl, rfl, rfl, rfl, a2, rfl⟩

/-- **C15, not recovered**: a socket for which no session is restored is not flagged as recovered, has no data and gets a newly
generated private id; its id is newly generated too (protocol 3: made from the connection's id). -/
theorem C15_fresh (cfg : World.Cfg) (h : List World.Ev) (c n : Nat) (name : String) (auth : Option (Session.Pid × String))
    (hc : c < (run cfg h).nClient) (hl : ((run cfg h).clients c).listening = true)
    (hno : ((run cfg h).clients c).nsps.get? name = none) (hnsp : (run cfg h).nsps.get? name = some n)
    (hres : ∀ sc b pid off, cfg.recovery = some (sc, b) → auth = some (pid, off) → ∀ s missed,
      (Session.restore sc (run cfg h).now pid off ((run cfg h).nss n).sess).2 ≠ .ok s missed)
    (w' : W) (hw : w' = run cfg (h ++ [.recv c .connect name auth])) (r : Nat) (hrr : r = (run cfg h).nSock) :
    (w'.socks r).recovered = false ∧ (w'.socks r).data = none ∧
    (cfg.recovery.isSome = true → (w'.socks r).pid = cfg.newPid r) ∧
    (((run cfg h).clients c).proto3 = false → (w'.socks r).sid = cfg.newSid r) ∧ w'.log = (run cfg h).log := by
  subst hw hrr
  obtain ⟨a1, a2⟩ := add_fresh cfg (run cfg h) n c auth hres
  have hstep : World.step cfg (run cfg h) (.recv c .connect name auth) = add cfg (run cfg h) n c auth := by
    simp only [World.step]; rw [if_pos ⟨hc, hl⟩]
    unfold ondecoded; rw [hno]; simp only [if_true]
    unfold World.connect; rw [hnsp]
  rw [run_snoc, hstep, a1, a2]
  exact ⟨rfl, rfl, fun h => by simp [h], fun h => by simp [freshSid, h], rfl⟩

/-- **C15, ids**: at any time, a socket that was not recovered has the id made for it: a newly generated one, or with protocol 3 that of
the connection, with the name of the namespace unless this is "/". -/
theorem C15_ids (cfg : World.Cfg) (h : List World.Ev) (r : Nat) (hr : r < (run cfg h).nSock)
    (hf : ((run cfg h).socks r).recovered = false) : ((run cfg h).socks r).sid = idFor cfg (run cfg h) r :=
  ids_run cfg h r hr hf

/-- Non-vacuity: a client of protocol 3 in two namespaces. -/
example : NextOnce [.of "/chat", .accept true, .recv 0 .connect "/chat" none] ∧
    ((run Demo.cfg [.of "/chat", .accept true, .recv 0 .connect "/chat" none]).socks 0).sid = Demo.ident 0 ∧
    ((run Demo.cfg [.of "/chat", .accept true, .recv 0 .connect "/chat" none]).socks 1).sid = "/chat#" ++ Demo.ident 0 := by decide

/-- C15: the identity of a socket never changes. -/
theorem C15_identity (cfg : World.Cfg) (h t : List World.Ev) (r : Nat) (hr : r < (run cfg h).nSock) :
    ((run cfg (h ++ t)).socks r).sid = ((run cfg h).socks r).sid ∧ ((run cfg (h ++ t)).socks r).pid = ((run cfg h).socks r).pid ∧
    ((run cfg (h ++ t)).socks r).client = ((run cfg h).socks r).client ∧ ((run cfg (h ++ t)).socks r).ns = ((run cfg h).socks r).ns ∧
    ((run cfg (h ++ t)).socks r).recovered = ((run cfg h).socks r).recovered :=
  have k := kept_run cfg h t
  ⟨k.sid r hr, k.pid r hr, k.client r hr, k.ns r hr, k.recovered r hr⟩

/-- **C15, origin**: what the store of a namespace restores is a session that was saved when a socket of that very namespace
was disconnected, and it carries that socket's id and private id, which is the one the client gave. -/
theorem C15_origin (cfg : World.Cfg) (sc : Session.Cfg) (skip : Bool) (hr : cfg.recovery = some (sc, skip)) (h : List World.Ev) (n : Nat)
    (now : Int) (pid : Session.Pid) (off : String) (s : Session.Sess) (missed : List (List Val))
    (hres : (Session.restore sc now pid off ((run cfg h).nss n).sess).2 = .ok s missed) :
    ∃ ref, Obs.saved ref s ∈ (run cfg h).log ∧ ((run cfg h).socks ref).ns = n ∧ ((run cfg h).socks ref).sid = s.sid ∧
      ((run cfg h).socks ref).pid = s.pid ∧ s.pid = pid := by
  have st := stores_run cfg hr h
  rw [st.store n] at hres
  obtain ⟨⟨t, ⟨pre, post, e1, e2, -⟩, -⟩, -⟩ := C10_replay_exact sc _ now pid off s missed hres
  obtain ⟨ref, h1, h2⟩ := (storeOps_mem cfg hr n h (t, .persist s) (by rw [e1]; simp)).2 s rfl
  obtain ⟨-, o2, o3⟩ := st.owned ref s h1
  exact ⟨ref, h1, h2, o2.symm, o3.symm, e2⟩

/-- Non-vacuity of C15: the client of `Demo.lost` comes back. -/
example : (Session.restore { max := 1000, yeast := fun n => "o" ++ Demo.ident n } (run (Demo.scfg true) Demo.lost).now "" "o"
      ((run (Demo.scfg true) Demo.lost).nss 0).sess).2 =
      .ok { sid := "", pid := "", rooms := ["red", ""], data := some (.num 7) } [[.str "b", .str "oa"]] ∧
    ((run (Demo.scfg true) (Demo.lost ++ [Demo.back])).nss 0).ad.rooms.get? "red" = some [""] ∧
    ((run (Demo.scfg true) (Demo.lost ++ [Demo.back])).socks 1).data = some (.num 7) := by decide

/-! ## C62 -/

/-- **C62, recovery works end to end.**  Take any history whose clock does not go backwards, with distinct offsets.  Suppose
* `x` is the last session saved under `pid` in namespace `n`, at time `t`, and not too long ago,
* `p` is a packet broadcast (or emitted) in that namespace, not too long ago, and `after` are all the packets broadcast or
  emitted there since,
and a client that is not in the namespace asks for it with `pid` and the offset of `p`.  Then it gets a socket with the id, private
id, data and rooms of `x`, and is sent exactly those packets of `after` that were meant for one of the rooms of `x` (and not
excluded), in order. -/
theorem C62_end_to_end (cfg : World.Cfg) (sc : Session.Cfg) (skip : Bool) (hr : cfg.recovery = some (sc, skip))
    (hy : ∀ i j, sc.yeast i = sc.yeast j → i = j) (h : List World.Ev) (hclock : ClockOk cfg h)
    (c n : Nat) (name : String) (pid : Session.Pid) (hc : c < (run cfg h).nClient)
    (hl : ((run cfg h).clients c).listening = true) (ho : ((run cfg h).clients c).conn = .opened)
    (hno : ((run cfg h).clients c).nsps.get? name = none) (hnsp : (run cfg h).nsps.get? name = some n)
    (x : Session.Sess) (t : Int) (hx : LastSaved (storeOps cfg n h) pid x t) (hage : (run cfg h).now ≤ t + sc.max)
    (before after : List Session.Stored) (p : Session.Stored) (hp : fullLog sc.yeast (storeOps cfg n h) = before ++ p :: after)
    (hpage : (run cfg h).now - sc.max ≤ p.emittedAt)
    (w' : W) (hw : w' = run cfg (h ++ [.recv c .connect name (some (pid, p.id))])) (r : Nat) (hrr : r = (run cfg h).nSock) :
    (w'.socks r).ns = n ∧ (w'.socks r).client = c ∧ (w'.socks r).sid = x.sid ∧ (w'.socks r).pid = x.pid ∧
    (w'.socks r).data = x.data ∧ (w'.socks r).recovered = true ∧
    (∀ room ∈ x.rooms, ∃ l, (w'.nss n).ad.rooms.get? room = some l ∧ x.sid ∈ l) ∧
    (packetsTo r w'.log).filter (fun q => q.type = .event) = (packetsTo r (run cfg h).log).filter (fun q => q.type = .event) ++
      ((after.filter (packetMatches x.rooms)).map fun q => ({ type := .event, nsp := name, data := .args q.data } : Pkt)) := by
  have st := stores_run cfg hr h
  obtain ⟨t1, t2⟩ := storeOps_times cfg n h hclock
  have hres := C58_reconnect_in_time_partial sc hy (storeOps cfg n h) t1 (run cfg h).now t2 pid x t hx hage before after p hp hpage
    (fullLog_opts cfg hr n h)
  rw [← st.store n] at hres
  obtain ⟨a1, a2, a3, a4, a5, a6, -, a8, a9⟩ := C15_recovered cfg sc skip hr h c n name pid p.id hc hl ho hno hnsp x _ hres w' hw r hrr
  refine ⟨a1, a2, a3, a4, a5, a6, a8, ?_⟩
  rw [a9, packetsTo_append, packetsTo_append, List.filter_append, List.filter_append]
  have e1 : ∀ l : List (List Val), packetsTo r (l.map fun l => Obs.packet c (some r) { type := .event, nsp := name, data := .args l }) =
      l.map fun l => { type := .event, nsp := name, data := .args l } := by
    intro l; induction l with
    | nil => rfl
    | cons a l ih => simp only [packetsTo, List.map_cons, List.filterMap_cons, packetOf, if_true] at ih ⊢; rw [ih]
  have e2 : ∀ d : PData, (packetsTo r (if skip then [Obs.packet c (some r) { type := .connect, nsp := name, data := d }, .connection r] else [])).filter
      (fun q => decide (q.type = .event)) = [] := by
    intro d; cases skip <;> simp [packetsTo, packetOf]
  rw [e1, e2, List.append_nil, List.map_map]
  congr 1
  rw [List.filter_eq_self.2]
  · rfl
  · intro q hq
    obtain ⟨l, -, rfl⟩ := List.mem_map.1 hq
    simp

/-- **C62, nothing else is ever recovered**: whenever a socket is flagged as recovered when it is created, its client gave the private
id of a session saved in that namespace at most `MaxDisconnectionDuration` before, no later one having been saved under it, and an
offset of that namespace's log. -/
theorem C62_sound (cfg : World.Cfg) (sc : Session.Cfg) (skip : Bool) (hr : cfg.recovery = some (sc, skip)) (h : List World.Ev)
    (c n : Nat) (name : String) (auth : Option (Session.Pid × String)) (hc : c < (run cfg h).nClient)
    (hl : ((run cfg h).clients c).listening = true)
    (hno : ((run cfg h).clients c).nsps.get? name = none) (hnsp : (run cfg h).nsps.get? name = some n)
    (hrec : ((run cfg (h ++ [.recv c .connect name auth])).socks (run cfg h).nSock).recovered = true) :
    ∃ pid off x t, auth = some (pid, off) ∧ LastSaved (storeOps cfg n h) pid x t ∧ (run cfg h).now ≤ t + sc.max ∧
      ∃ p ∈ fullLog sc.yeast (storeOps cfg n h), p.id = off := by
  apply Classical.byContradiction
  intro hcon
  have := (C15_fresh cfg h c n name auth hc hl hno hnsp (fun sc' b pid off hr' ha s missed hres => by
    rw [hr] at hr'; cases hr'
    rw [(stores_run cfg hr h).store n] at hres
    obtain ⟨⟨t, h1, h2⟩, before, p, after, h3, h4, -⟩ := C10_replay_exact sc _ _ pid off s missed hres
    exact hcon ⟨pid, off, s, t, ha, h1, h2, p, by rw [h3]; simp, h4⟩) _ rfl _ rfl).1
  rw [this] at hrec; simp at hrec

/-- **C62, no panic**: whatever pid and offset a client sends, restoring a session does not run into missing options. -/
theorem C62_no_panic (cfg : World.Cfg) (sc : Session.Cfg) (skip : Bool) (hr : cfg.recovery = some (sc, skip)) (h : List World.Ev) (n : Nat)
    (now : Int) (pid : Session.Pid) (offset : String) :
    (Session.restore sc now pid offset ((run cfg h).nss n).sess).2 ≠ .panic := by
  rw [(stores_run cfg hr h).store n]
  have hlog := (Session.run_log sc (storeOps cfg n h)).1
  generalize hs : Session.run sc (storeOps cfg n h) = s at *
  unfold Session.restore
  split
  · simp
  · rename_i x t _
    split
    · simp
    · split
      · simp
      · rename_i ps hps
        obtain ⟨pre, p, e, _⟩ := Session.afterOffset_some hps
        obtain ⟨l, hl⟩ := Session.collect_some x.rooms ps (fun q hq => fullLog_opts cfg hr n h q (hlog.mem (by rw [e]; simp [hq])))
        rw [hl]; simp

theorem Demo.lost_clock (skip : Bool) : ClockOk (Demo.scfg skip) Demo.lost := by
  intro p t hp
  obtain ⟨l, hl⟩ := hp
  have hlen : p.length < 13 := by have := congrArg List.length hl; simp [Demo.lost] at this; omega
  have hpt : p = Demo.lost.take p.length := by rw [← hl]; simp
  have hget : Demo.lost[p.length]? = some (.clock t) := by rw [← hl]; simp
  rw [hpt]
  have key : ∀ i < 13, ∀ t', Demo.lost[i]? = some (.clock t') → (run (Demo.scfg skip) (Demo.lost.take i)).now ≤ t' := by
    intro i hi t' hg
    have : i = 5 ∨ i = 8 ∨ i = 11 := by
      have : (Demo.lost[i]?).any (fun e => match e with | .clock _ => true | _ => false) = true := by rw [hg]; rfl
      clear hg
      revert this; revert i; decide
    rcases this with rfl | rfl | rfl <;> (cases hg; cases skip <;> decide)
  exact key _ hlen _ hget

/-- Non-vacuity of C62: all hypotheses hold for `Demo.lost`; the packet for "blue" is not replayed. -/
example : ClockOk (Demo.scfg false) Demo.lost ∧
    LastSaved (storeOps (Demo.scfg false) 0 Demo.lost) "" { sid := "", pid := "", rooms := ["red", ""], data := some (.num 7) } 10 ∧
    (fullLog (fun n => "o" ++ Demo.ident n) (storeOps (Demo.scfg false) 0 Demo.lost)).map (·.id) = ["o", "oa", "oaa"] ∧
    packetsTo 1 (run (Demo.scfg false) (Demo.lost ++ [Demo.back])).log =
      [{ type := .event, nsp := "/", data := .args [.str "b", .str "oa"] }] :=
  ⟨Demo.lost_clock _, ⟨(storeOps (Demo.scfg false) 0 Demo.lost).take 1, (storeOps (Demo.scfg false) 0 Demo.lost).drop 2, by decide, rfl,
    fun t' y hm => by
      have : ∀ o ∈ (storeOps (Demo.scfg false) 0 Demo.lost).drop 2, ¬ (match o.2 with | .persist _ => true | _ => false) = true := by decide
      exact absurd rfl (this _ hm)⟩, by decide, by decide⟩

end Verif.Props
