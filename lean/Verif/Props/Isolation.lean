import Verif.Proof.WorldAuto
import Verif.Proof.WorldAck
import Verif.Props.Connecting

/-! # C14, C23, C26, C55: what sockets and namespaces do not do to each other, what is saved -/

namespace Verif.Props
open Verif Verif.Adapter Verif.Spec Verif.World

/-! ## C14 -/

/-- **C14, when**: once "disconnect" has fired for a socket, its session has been saved if and only if recovery is enabled
and the reason is one of the recoverable ones; nothing is saved for a socket that has not been disconnected. -/
theorem C14_iff (cfg : World.Cfg) (h : List World.Ev) (r : Nat) (hn : NextOnceFor cfg h r) :
    (∀ reason, Obs.disconnect r reason ∈ (run cfg h).log →
      ((∃ s, Obs.saved r s ∈ (run cfg h).log) ↔ cfg.recovery.isSome = true ∧ reason ∈ recoverableReasons)) ∧
    ((∃ s, Obs.saved r s ∈ (run cfg h).log) → ∃ reason, Obs.disconnect r reason ∈ (run cfg h).log) := by
  have key := (C60_partial cfg h r hn).1
  have hs : (∃ s, Obs.saved r s ∈ (run cfg h).log) ↔ Life.saved ∈ life r (run cfg h).log := by
    unfold life; rw [List.mem_filterMap]
    constructor
    · rintro ⟨s, hs⟩; exact ⟨_, hs, by simp [lifeOf]⟩
    · rintro ⟨o, ho, hl⟩
      cases o <;> simp only [lifeOf] at hl <;> (try (split at hl <;> simp at hl)) <;> (try simp at hl)
      rename_i e; subst e; exact ⟨_, ho⟩
  have hd (reason : String) : Obs.disconnect r reason ∈ (run cfg h).log ↔ Life.disconnect reason ∈ life r (run cfg h).log := by
    unfold life; rw [List.mem_filterMap]
    constructor
    · intro hs; exact ⟨_, hs, by simp [lifeOf]⟩
    · rintro ⟨o, ho, hl⟩
      cases o <;> simp only [lifeOf] at hl <;> (try (split at hl <;> simp at hl)) <;> (try simp at hl)
      rename_i e; subst e; subst hl; exact ho
  simp only [hs, hd]
  rcases key with e | e | ⟨x, e⟩ <;> rw [e]
  · simp
  · simp
  · constructor
    · intro reason hr
      simp only [ending, List.mem_cons, List.mem_append, reduceCtorEq, false_or, List.not_mem_nil, or_false] at hr ⊢
      rcases hr with hr | hr
      · split at hr <;> simp at hr
      · simp only [Life.disconnect.injEq] at hr; subst hr
        split
        · rename_i hc; simpa using hc
        · rename_i hc; simpa using hc
    · intro _; exact ⟨x, by simp [ending]⟩

/-- **C14, explicit disconnections**: `Disconnect`, `DisconnectSockets` and a disconnect packet of the client never save a
session, of any socket.  This needs no assumption. -/
theorem C14_explicit (cfg : World.Cfg) (h : List World.Ev) (e : World.Ev) (he : Explicit (run cfg h) e) (r : Nat) (s : Session.Sess)
    (hs : Obs.saved r s ∈ (run cfg (h ++ [e])).log) : Obs.saved r s ∈ (run cfg h).log := by
  rw [run_snoc] at hs; exact explicit_unsaved cfg r he s hs

/-- **C14, contents**: what an event saves for a socket is its id, its private id, its data, and exactly the rooms it was in
before the event, as changed by its own "disconnecting" listeners. -/
theorem C14_contents (cfg : World.Cfg) (h : List World.Ev) (hn : NextOnce h) (ht : NeverTwins cfg h) (hh : OwnHooks cfg)
    (e : World.Ev) (r : Nat) (s : Session.Sess) (hs : Obs.saved r s ∈ (run cfg (h ++ [e])).log) (hno : Obs.saved r s ∉ (run cfg h).log) :
    s.sid = ((run cfg h).socks r).sid ∧ s.pid = ((run cfg h).socks r).pid ∧ s.data = ((run cfg h).socks r).data ∧
    (∀ room, room ∈ s.rooms ↔ ∃ l, (((cfg.hook r).foldl (act cfg) (run cfg h)).nss ((run cfg h).socks r).ns).ad.rooms.get? room = some l ∧
      ((run cfg h).socks r).sid ∈ l) ∧
    (cfg.hook r = [] → ∀ room, room ∈ s.rooms ↔ ∃ l, ((run cfg h).nss ((run cfg h).socks r).ns).ad.rooms.get? room = some l ∧
      ((run cfg h).socks r).sid ∈ l) := by
  have g := good_run cfg h hn ht
  rw [run_snoc] at hs
  obtain ⟨h1, h2, h3, h4⟩ := (saved_step cfg g.s g.t (joined_run cfg h hn) hh r e s hs).resolve_left hno
  have h4' : ∀ room, room ∈ s.rooms ↔ ∃ l, (((cfg.hook r).foldl (act cfg) (run cfg h)).nss ((run cfg h).socks r).ns).ad.rooms.get? room = some l ∧
      ((run cfg h).socks r).sid ∈ l := fun room => by
    rw [h4 room]; unfold World.In; rw [(acts_socks _ _ _).1]; rfl
  exact ⟨h1, h2, h3, h4', fun e room => by have := h4' room; rw [e] at this; exact this⟩

/-- Non-vacuity of C14: the first client loses its connection, the second one is disconnected by the server. -/
example : (run Demo.rcfg (Demo.two ++ [.setData 0 (.num 7), .transportClose 0 "transport close", .disconnect 2 false])).log.filterMap
      (fun | .saved r s => some (r, s) | _ => none) =
    [(1, { sid := Demo.ident 1, pid := Demo.ident 1, rooms := [Demo.ident 1] }),
     (0, { sid := "", pid := "", rooms := ["red", ""], data := some (.num 7) })] ∧
    Obs.disconnect 2 "server namespace disconnect" ∈
      (run Demo.rcfg (Demo.two ++ [.setData 0 (.num 7), .transportClose 0 "transport close", .disconnect 2 false])).log := by decide

/-! ## C23 -/

/-- **C23**: an event that is about one namespace (a call of the API of this namespace or one of its sockets, the outcome of its
middlewares, a packet of a client for it, a client asking for it) changes nothing in any other namespace: rooms, members,
sessions and middlewares of the others and the sockets in them stay as they are, and nothing observable happens to them. -/
theorem C23_isolated (cfg : World.Cfg) (hh : OwnHooks cfg) (h : List World.Ev) (e : World.Ev) (n : Nat)
    (he : actsIn (run cfg h) e = some n) : OnlyIn n (run cfg h) (run cfg (h ++ [e])) := by
  rw [run_snoc]
  exact (within_step cfg hh (inv_run cfg h).1 (inv_run cfg h).2 e n he).toOnlyIn

/-- The namespace an event is about, with events that wait for acknowledgements. -/
def actsInX (x : WorldAck.X) : WorldAck.XEv → Option Nat
  | .plain e => actsIn x.w e
  | .emitAck ref _ _ => some (x.w.socks ref).ns
  | .broadcastAck n _ _ _ _ => some n

/-- **C23 with acknowledgements**: neither do the id counters of the other namespaces change, nor the callbacks that their sockets
wait with, also when events are emitted with acknowledgement. -/
theorem C23_ids (cfg : World.Cfg) (hh : OwnHooks cfg) (h : List WorldAck.XEv) (e : WorldAck.XEv) (n : Nat)
    (he : actsInX (WorldAck.run cfg h) e = some n) :
    OnlyIn n (WorldAck.run cfg h).w (WorldAck.run cfg (h ++ [e])).w ∧
    (∀ m, m ≠ n → (WorldAck.run cfg (h ++ [e])).ids m = (WorldAck.run cfg h).ids m) ∧
    ∀ r, r < (WorldAck.run cfg h).w.nSock → ((WorldAck.run cfg h).w.socks r).ns ≠ n →
      (WorldAck.run cfg (h ++ [e])).acks r = (WorldAck.run cfg h).acks r := by
  rw [WorldAck.run_snoc]
  have hi := WorldAck.inv_run cfg h
  have o := WorldAck.own_step cfg hh hi.1 hi.2 e n (by cases e <;> exact he)
  exact ⟨o.world.toOnlyIn, o.ids, o.acks⟩

/-- Non-vacuity: an event with acknowledgement in "/", to both sockets there; then one in "/chat". -/
example : let x := WorldAck.run Demo.cfg (Demo.two.map .plain ++ [.broadcastAck 0 [.str "x"] [] [] {}])
    let y := WorldAck.run Demo.cfg (Demo.two.map .plain ++ [.broadcastAck 0 [.str "x"] [] [] {}, .emitAck 1 [.str "y"] {}])
    x.ids 0 = 1 ∧ x.ids 1 = 0 ∧ x.acks 0 = [1] ∧ x.acks 1 = [] ∧ x.acks 2 = [1] ∧ y.ids 0 = 1 ∧ y.ids 1 = 1 ∧ y.acks 1 = [1] := by decide

/-- Non-vacuity of C23: disconnecting the socket in "/chat" changes "/chat" and leaves "/" alone, where the same client has a
socket and another client is in a room of the same name. -/
example : actsIn (run Demo.cfg (Demo.two ++ [.join 1 ["red"]])) (.disconnect 1 false) = some 1 ∧
    ((run Demo.cfg (Demo.two ++ [.join 1 ["red"]])).nss 1).ad.rooms.get? "red" = some [Demo.ident 1] ∧
    ((run Demo.cfg (Demo.two ++ [.join 1 ["red"], .disconnect 1 false])).nss 1).ad.rooms.get? "red" = none ∧
    ((run Demo.cfg (Demo.two ++ [.join 1 ["red"], .disconnect 1 false])).nss 0).ad.rooms.get? "red" = some [Demo.ident 2, Demo.ident 0] := by
  decide

/-! ## C26 -/

/-- **C26, removal**: a child namespace created with CleanupEmptyChildNamespaces of which no socket is connected, and of which
some socket has been disconnected or rejected, is not registered any more. -/
theorem C26_removed (cfg : World.Cfg) (h : List World.Ev) (hn : NextOnce h) (n : Nat) (ha : ((run cfg h).nss n).auto = true)
    (he : ((run cfg h).nss n).sockets = []) (r : Nat) (hr : r < (run cfg h).nSock) (hrn : ((run cfg h).socks r).ns = n)
    (hl : ((run cfg h).socks r).canJoin = false) : ¬ Registered (run cfg h) n :=
  gone_run cfg h hn n ha he ⟨r, hr, hrn, hl⟩

/-- **C26, no removal** as long as nobody is being connected to a namespace when a socket leaves it (partial:
`C26_pending_fail`; it also assumes that no two open sockets share an id): a namespace that has a connected socket, or to
which a client is being connected, is registered. -/
theorem C26_kept_partial (cfg : World.Cfg) (h : List World.Ev) (hn : NextOnce h) (ht : NeverTwins cfg h) (hq : NobodyWaiting cfg h)
    (r : Nat) (hr : IsOpen (run cfg h) r) : Registered (run cfg h) ((run cfg h).socks r).ns :=
  found_run cfg h hn ht hq r hr

/-- Every namespace may be created on demand and is removed when empty; it has one middleware. -/
def Demo.dyn : World.Cfg := { Demo.cfg with admit := fun _ => true, childFns := 1, autoClean := true }

/-- Client 0 is in "/a"; client 1 asks for "/a" and its middleware is still running when client 0 leaves. -/
def Demo.pend : List World.Ev :=
  [.accept false, .accept false, .accept false, .recv 0 .connect "/a" none, .next 0 0 none, .task 0,
   .recv 1 .connect "/a" none, .disconnect 0 false]

/-- Non-vacuity of C26: alone in "/a"; then it leaves and "/a" is removed; then it is created again. -/
example : ((run Demo.dyn (Demo.pend.take 6)).socks 0).connected = true ∧ (run Demo.dyn (Demo.pend.take 6)).nsps.get? "/a" = some 1 ∧
    (run Demo.dyn (Demo.pend.take 6 ++ [.disconnect 0 false])).nsps.get? "/a" = none ∧
    ((run Demo.dyn (Demo.pend.take 6 ++ [.disconnect 0 false])).nss 1).auto = true ∧
    (run Demo.dyn (Demo.pend.take 6 ++ [.disconnect 0 false, .recv 1 .connect "/a" none])).nsps.get? "/a" = some 2 := by decide

/-- Two clients are in "/a" and one leaves. -/
def Demo.calmly : List World.Ev := Demo.pend.take 7 ++ [.next 1 0 none, .task 0, .disconnect 0 false]

/-- Non-vacuity of the hypotheses of `C26_kept_partial`. -/
example : NextOnce Demo.calmly ∧ NeverTwins Demo.dyn Demo.calmly ∧ NobodyWaiting Demo.dyn Demo.calmly ∧
    ((run Demo.dyn Demo.calmly).socks 1).connected = true := by
  refine ⟨by decide, neverTwins_fresh (by decide) rfl Demo.ident_inj (by decide), ?_, by decide⟩
  intro p e ⟨l, hl⟩ r r' h1 h2 h3 _
  have hlen : p.length < 10 := by
    have := congrArg List.length hl
    simp [Demo.pend, Demo.calmly] at this; omega
  have hp : p = Demo.calmly.take p.length := by rw [← hl]; simp
  have he : p ++ [e] = Demo.calmly.take (p.length + 1) := by
    rw [← hl, show p.length + 1 = (p ++ [e]).length by simp, List.take_left]
  rw [he] at h2 h3 ⊢
  rw [hp] at h1
  have hk : ((List.range 10).all fun k => (List.range 2).all fun r => (List.range 2).all fun r' =>
      decide (r < (run Demo.dyn (Demo.calmly.take k)).nSock → r < (run Demo.dyn (Demo.calmly.take (k + 1))).nSock) &&
      decide ((run Demo.dyn (Demo.calmly.take (k + 1))).nSock ≤ 2) &&
      (((run Demo.dyn (Demo.calmly.take (k + 1))).socks r).canJoin || !((run Demo.dyn (Demo.calmly.take k)).socks r).canJoin ||
        !((run Demo.dyn (Demo.calmly.take (k + 1))).socks r').canJoin || ((run Demo.dyn (Demo.calmly.take (k + 1))).socks r').connected)) = true := by
    decide
  have hk (a b : Nat) (ha : a < 2) (hb : b < 2) := by
    have := List.all_eq_true.1 (List.all_eq_true.1 (List.all_eq_true.1 hk p.length (List.mem_range.2 hlen)) a (List.mem_range.2 ha)) b
      (List.mem_range.2 hb)
    simp only [Bool.and_eq_true, decide_eq_true_eq] at this
    exact this
  have n2 : (run Demo.dyn (Demo.calmly.take (p.length + 1))).nSock ≤ 2 := (hk 0 0 (by omega) (by omega)).1.2
  have hr' : r' < 2 := Nat.lt_of_lt_of_le h3.1 n2
  have hr : r < 2 := by
    have h0 := (hk 0 0 (by omega) (by omega)).1
    have h1' := (hk 1 0 (by omega) (by omega)).1
    have := h1.1
    rcases Nat.lt_or_ge r 2 with h | h
    · exact h
    · have a := h1'.1 (by omega)
      have hmono : (run Demo.dyn (Demo.calmly.take p.length)).nSock ≤ 2 := by
        have : ((List.range 10).all fun k => decide ((run Demo.dyn (Demo.calmly.take k)).nSock ≤ 2)) = true := by
          decide
        have := List.all_eq_true.1 this p.length (List.mem_range.2 hlen)
        simpa using this
      omega
  obtain ⟨⟨a1, -⟩, a2⟩ := hk r r' hr hr'
  have c1 : ((run Demo.dyn (Demo.calmly.take (p.length + 1))).socks r).canJoin = false := by
    cases hc : ((run Demo.dyn (Demo.calmly.take (p.length + 1))).socks r).canJoin with
    | false => rfl
    | true => exact absurd ⟨a1 h1.1, hc⟩ h2
  simpa [c1, h1.2, h3.2] using a2

/-- A namespace to which a client is being connected is removed when its last connected socket leaves.  The client then gets
connected to it, and is cut off from all who ask for the same namespace later. -/
theorem C26_pending_fail : ∃ (cfg : World.Cfg) (h t : List World.Ev) (r r' : Nat), NextOnce (h ++ t) ∧
    IsOpen (run cfg h) r ∧ ¬ Registered (run cfg h) ((run cfg h).socks r).ns ∧
    ((run cfg (h ++ t)).socks r).connected = true ∧ ((run cfg (h ++ t)).socks r').connected = true ∧
    ((run cfg (h ++ t)).nss ((run cfg (h ++ t)).socks r).ns).name = ((run cfg (h ++ t)).nss ((run cfg (h ++ t)).socks r').ns).name ∧
    ((run cfg (h ++ t)).socks r).ns ≠ ((run cfg (h ++ t)).socks r').ns :=
  ⟨Demo.dyn, Demo.pend, [.next 1 0 none, .task 0, .recv 2 .connect "/a" none, .next 2 0 none, .task 0], 1, 2,
    by decide, by unfold IsOpen; decide, by unfold Registered; decide, by decide, by decide, by decide, by decide⟩

/-- What is removed is whatever namespace has the name: when the client of the removed namespace leaves as well, the namespace of
the same name that has been created meanwhile, with a connected socket, is removed, even if `Of` created it. -/
theorem C26_name_fail : ∃ (cfg : World.Cfg) (h t : List World.Ev) (r : Nat), NextOnce (h ++ t) ∧
    ((run cfg h).socks r).connected = true ∧ Registered (run cfg h) ((run cfg h).socks r).ns ∧
    ((run cfg h).nss ((run cfg h).socks r).ns).auto = false ∧
    ((run cfg (h ++ t)).socks r).connected = true ∧ ¬ Registered (run cfg (h ++ t)) ((run cfg (h ++ t)).socks r).ns :=
  ⟨Demo.dyn, Demo.pend ++ [.next 1 0 none, .task 0, .of "/a", .recv 2 .connect "/a" none, .task 0], [.disconnect 1 false], 2,
    by decide, by decide, by unfold Registered; decide, by decide, by decide, by unfold Registered; decide⟩

/-! ## C55 -/

/-- **C55**, for histories in which no two open sockets share an id (partial: `C55_twins_fail`).  A socket was in a room after
the history `h`.  Whatever happened since (`t`), but for a call that takes this socket out of this room: as long as the socket is
connected and its connection open, a broadcast that targets the room, and excepts none of the rooms of the socket, sends the
socket exactly one packet with the event and its arguments. -/
theorem C55_keeps_receiving_partial (cfg : World.Cfg) (h t : List World.Ev) (hn : NextOnce (h ++ t)) (ht : NeverTwins cfg (h ++ t))
    (hh : OwnHooks cfg) (r : Nat) (room : Room) (hr : r < (run cfg h).nSock)
    (hin : ∃ l, ((run cfg h).nss ((run cfg h).socks r).ns).ad.rooms.get? room = some l ∧ ((run cfg h).socks r).sid ∈ l)
    (hl : ∀ p e, p ++ [e] <+: t → ¬ TakesOut (run cfg (h ++ p)) r room e)
    (hc : ((run cfg (h ++ t)).socks r).connected = true)
    (ho : ((run cfg (h ++ t)).clients ((run cfg (h ++ t)).socks r).client).conn = .opened)
    (args : List Val) (id : Option Nat) (rooms except : List Room) (flags : Flags) (hroom : room ∈ rooms)
    (hex : ∀ x ∈ except, ¬ ∃ l, ((run cfg (h ++ t)).nss ((run cfg (h ++ t)).socks r).ns).ad.rooms.get? x = some l ∧
      ((run cfg (h ++ t)).socks r).sid ∈ l) :
    ∃ extra, extra.length ≤ 1 ∧
      packetsTo r (run cfg (h ++ t ++ [.broadcast ((run cfg (h ++ t)).socks r).ns args id rooms except flags])).log =
        packetsTo r (run cfg (h ++ t)).log ++
          [{ type := .event, nsp := ((run cfg (h ++ t)).nss ((run cfg (h ++ t)).socks r).ns).name, data := .args (args ++ extra), id := id }] := by
  have g := good_run cfg (h ++ t) hn ht
  have hs := g.s
  have hst := stays_run hn ht hh hl ⟨hr, .inr hin⟩
  have hk := known_run cfg (h ++ t) hn
  rw [run_snoc]
  generalize run cfg (h ++ t) = w at *
  have hrl := hs.conn r hc
  have hin' : (w.nss (w.socks r).ns).ad.inRoom (w.socks r).sid room := by
    rcases hst.2 with e | e
    · rw [g.j r hc] at e; simp at e
    · exact e
  obtain ⟨refs, r1, r2, r3⟩ := broadcast_spec hs hk cfg (w.socks r).ns { type := .event, data := .args args, id := id } rooms except flags
  have hd : r ∈ refs := by
    rw [r2]
    refine ⟨g.f.ns r hc, .inr ⟨room, hroom, (Delivery.mem_roomsOf (hs.ad _) _ _).2 hin'⟩, ?_⟩
    rintro ⟨x, hx, hm⟩
    exact hex x hx ((Delivery.mem_roomsOf (hs.ad _) _ _).1 hm)
  simp only [World.step]
  rw [if_pos (hs.sock r hrl).1, r3]
  obtain ⟨extra, e1, e2⟩ : ∃ extra, extra.length ≤ 1 ∧ castPkt cfg w (w.socks r).ns { type := .event, data := .args args, id := id }
      (options rooms except flags) = { type := .event, data := .args (args ++ extra), id := id } := by
    unfold castPkt; split
    · rename_i sc b _
      simp only [Session.broadcast]; split
      · exact ⟨[.str (sc.yeast (w.nss (w.socks r).ns).sess.next)], by simp, rfl⟩
      · exact ⟨[], by simp, by simp⟩
    · exact ⟨[], by simp, by simp⟩
  refine ⟨extra, e1, ?_⟩
  rw [e2]
  unfold packetsTo
  rw [List.filterMap_append]
  congr 1
  have hone (l : List Nat) (hnd : l.Nodup) :
      (l.flatMap (sent w { type := .event, data := .args (args ++ extra), id := id })).filterMap (packetOf r) =
      if r ∈ l then [{ type := .event, nsp := (w.nss (w.socks r).ns).name, data := .args (args ++ extra), id := id }] else [] := by
    induction l with
    | nil => simp
    | cons x l ih =>
      rw [List.flatMap_cons, List.filterMap_append, ih (List.nodup_cons.1 hnd).2]
      by_cases hx : x = r
      · subst hx
        have := (List.nodup_cons.1 hnd).1
        simp [sent, ho, packetOf, this]
      · have h1 : (sent w { type := .event, data := .args (args ++ extra), id := id } x).filterMap (packetOf r) = [] := by
          unfold sent; split
          · simp [packetOf, hx]
          · rfl
        have h2 : r ≠ x := fun e => hx e.symm
        simp [h1, h2]
  rw [hone refs r1, if_pos hd]

/-- Non-vacuity of C55: socket 2 is in "red"; sockets 0 and 1 come and go, "red" is left by 0, a broadcast reaches 2. -/
example : ((run Demo.cfg Demo.two).nss ((run Demo.cfg Demo.two).socks 2).ns).ad.rooms.get? "red" = some [Demo.ident 2, Demo.ident 0] ∧
    ((run Demo.cfg (Demo.two ++ [.leave 0 "red", .transportClose 0 "transport close"])).socks 2).connected = true ∧
    packetsTo 2 (run Demo.cfg (Demo.two ++ [.leave 0 "red", .transportClose 0 "transport close", .broadcast 0 [.str "x"] none ["red"] [] {}])).log =
      packetsTo 2 (run Demo.cfg Demo.two).log ++ [{ type := .event, nsp := "/", data := .args [.str "x"] }] := by decide

/-- Two clients recover one session, which is not removed by the first recovery; when the first of them is disconnected, the second
one, still connected, is out of its room and gets nothing any more. -/
theorem C55_twins_fail : ∃ (cfg : World.Cfg) (h : List World.Ev) (e : World.Ev) (r : Nat) (room : Room), NextOnce h ∧
    ¬ TakesOut (run cfg h) r room e ∧
    ((run cfg h).nss ((run cfg h).socks r).ns).ad.rooms.get? room = some [((run cfg h).socks r).sid] ∧
    ((run cfg (h ++ [e])).socks r).connected = true ∧
    ((run cfg (h ++ [e])).clients ((run cfg (h ++ [e])).socks r).client).conn = .opened ∧
    packetsTo r (run cfg (h ++ [e, .broadcast ((run cfg h).socks r).ns [.str "x"] none [room] [] {}])).log =
      packetsTo r (run cfg (h ++ [e])).log :=
  ⟨Demo.scfg true, Demo.lost ++ [Demo.back, .accept false, .recv 2 .connect "/" (some ("", "o"))], .transportClose 1 "transport close", 2, "red",
    by decide, by simp [TakesOut], by decide, by decide, by decide, by decide⟩

/-- A request for acknowledgements that is made: by a socket or a namespace that exists. -/
def asksIn (x : WorldAck.X) : WorldAck.XEv → Option Nat
  | .plain _ => none
  | .emitAck ref _ _ => if ref < x.w.nSock then some (x.w.socks ref).ns else none
  | .broadcastAck n _ _ _ _ => if n < x.w.nNs then some n else none

/-- **C30 in a running server**: after any history (of less than 2^64 requests for acknowledgements), a new request in namespace `n`
has an id that no callback still waiting in this namespace has; it is this id that the packets it sends carry, and under this
id that it leaves its callbacks. -/
theorem C30_server (cfg : World.Cfg) (h : List WorldAck.XEv) (e : WorldAck.XEv) (n : Nat)
    (hb : (h ++ [e]).countP WorldAck.asked < 2 ^ 64) (he : asksIn (WorldAck.run cfg h) e = some n) :
    ∃ id : BitVec 64,
      (∀ r, ((WorldAck.run cfg h).w.socks r).ns = n → id ∉ (WorldAck.run cfg h).acks r) ∧
      (∀ r x, x ∈ (WorldAck.run cfg (h ++ [e])).acks r → x ∈ (WorldAck.run cfg h).acks r ∨
        x = id ∧ ((WorldAck.run cfg h).w.socks r).ns = n) ∧
      ∃ new, (WorldAck.run cfg (h ++ [e])).w.log = (WorldAck.run cfg h).w.log ++ new ∧
        ∀ o ∈ new, ∃ c ref p, o = Obs.packet c ref p ∧ p.id = some id.toNat := by
  rw [WorldAck.run_snoc]
  have hi := WorldAck.inv_run cfg h
  rw [List.countP_append] at hb
  have hbel := WorldAck.below_run cfg h (by omega)
  generalize WorldAck.run cfg h = x at *
  have ha : WorldAck.asked e = true ∧ WorldAck.Ask n x (WorldAck.step cfg x e) := by
    cases e with
    | plain e => simp [asksIn] at he
    | emitAck ref args flags =>
      simp only [asksIn] at he
      by_cases hr : ref < x.w.nSock
      · rw [if_pos hr, Option.some.injEq] at he; subst he
        simp only [WorldAck.step]; rw [if_pos hr]
        exact ⟨rfl, WorldAck.ask_emitAck cfg x hr args flags⟩
      · rw [if_neg hr] at he; simp at he
    | broadcastAck m args rooms except flags =>
      simp only [asksIn] at he
      by_cases hr : m < x.w.nNs
      · rw [if_pos hr, Option.some.injEq] at he; subst he
        simp only [WorldAck.step]; rw [if_pos hr]
        exact ⟨rfl, WorldAck.ask_broadcastAck hi.1 m args _⟩
      · rw [if_neg hr] at he; simp at he
  obtain ⟨h1, a⟩ := ha
  simp only [List.countP_cons, List.countP_nil, h1, if_true] at hb
  refine ⟨x.ids n + 1, fun r hr hm => ?_, fun r id hx => ?_, a.log⟩
  · have h2 := (hbel.acks r _ hm).2
    rw [hr] at h2
    have := hbel.ids n
    rw [BitVec.toNat_add, show (1 : BitVec 64).toNat = 1 from rfl] at h2; omega
  · rcases a.acks r id hx with h | ⟨h2, -, h3⟩
    · exact .inl h
    · exact .inr ⟨h2, h3⟩

/-- Non-vacuity: two requests in "/" wait, with ids 1 and 2; a third one gets 3. -/
example : let h : List WorldAck.XEv := Demo.two.map .plain ++ [.broadcastAck 0 [.str "x"] [] [] {}, .emitAck 0 [.str "y"] {}]
    asksIn (WorldAck.run Demo.cfg h) (.emitAck 2 [.str "z"] {}) = some 0 ∧
    (WorldAck.run Demo.cfg h).acks 0 = [2, 1] ∧ (WorldAck.run Demo.cfg h).acks 2 = [1] ∧
    (WorldAck.run Demo.cfg (h ++ [.emitAck 2 [.str "z"] {}])).acks 2 = [3, 1] := by decide

/-! ## C57, in a running server -/

/-- **C57 in a running server** (partial: `C57_server_fails`, `C57_before_fails`).  After any history, `socket.Emit` on a socket
whose connection is open sends the event to the client of that socket, once, and nothing to anybody else.  With connection state
recovery, provided that the socket is connected, is in the room of its own id, and that nobody else of the namespace is. -/
theorem C57_server_partial (cfg : World.Cfg) (h : List World.Ev) (hn : NextOnce h) (r : Nat) (hr : r < (run cfg h).nSock)
    (ho : ((run cfg h).clients ((run cfg h).socks r).client).conn = .opened)
    (hrec : cfg.recovery = none ∨ ∃ l, ((run cfg h).nss ((run cfg h).socks r).ns).ad.rooms.get? ((run cfg h).socks r).sid = some l ∧
      ((run cfg h).nss ((run cfg h).socks r).ns).sockets.get? ((run cfg h).socks r).sid = some r ∧
      ∀ x, x ∈ l ↔ x = ((run cfg h).socks r).sid)
    (args : List Val) (flags : Flags) :
    ∃ extra, extra.length ≤ 1 ∧ (cfg.recovery = none → extra = []) ∧
      (run cfg (h ++ [.emit r args flags])).log = (run cfg h).log ++
        [.packet ((run cfg h).socks r).client (some r)
          { type := .event, nsp := ((run cfg h).nss ((run cfg h).socks r).ns).name, data := .args (args ++ extra) }] := by
  have hs := (inv_run cfg h).1
  have hk := known_run cfg h hn
  rw [run_snoc]
  generalize run cfg h = w at *
  simp only [World.step]
  rw [if_pos hr]
  unfold World.emit
  cases hc : cfg.recovery with
  | none =>
    refine ⟨[], by simp, by simp, ?_⟩
    simp only
    rw [sockPacket_eq]; simp [sent, ho]
  | some q =>
    obtain ⟨l, hl, hreg, hon⟩ := hrec.resolve_left (by simp [hc])
    simp only
    obtain ⟨refs, r1, r2, r3⟩ := broadcast_spec hs hk cfg (w.socks r).ns { type := .event, data := .args args } [(w.socks r).sid] [] flags
    rw [r3]
    have hin : ∀ x, (w.socks r).sid ∈ roomsOf (w.nss (w.socks r).ns).ad x ↔ x = (w.socks r).sid := by
      intro x
      rw [Delivery.mem_roomsOf (hs.ad _)]
      constructor
      · rintro ⟨l', h1, h2⟩; rw [hl] at h1; cases h1; exact (hon x).1 h2
      · rintro rfl; exact ⟨l, hl, (hon _).2 rfl⟩
    have hrefs : ∀ x, x ∈ refs ↔ x = r := by
      intro x
      rw [r2]
      constructor
      · rintro ⟨a, b | ⟨room, hm, b⟩, -⟩
        · simp at b
        · simp only [List.mem_singleton] at hm; subst hm
          rw [hin] at b
          rw [b, hreg] at a; exact (Option.some.inj a).symm
      · rintro rfl
        exact ⟨hreg, .inr ⟨_, by simp, (hin _).2 rfl⟩, by simp⟩
    have hone : refs = [r] := by
      cases refs with
      | nil => exact absurd ((hrefs r).2 rfl) (by simp)
      | cons a t =>
        have ha := (hrefs a).1 (by simp)
        cases t with
        | nil => rw [ha]
        | cons b t =>
          have hb := (hrefs b).1 (by simp)
          rw [ha, hb] at r1; simp at r1
    rw [hone]
    obtain ⟨extra, e1, e2⟩ : ∃ extra, extra.length ≤ 1 ∧ castPkt cfg w (w.socks r).ns { type := .event, data := .args args }
        (options [(w.socks r).sid] [] flags) = { type := .event, data := .args (args ++ extra) } := by
      unfold castPkt; split
      · rename_i sc b _
        simp only [Session.broadcast]; split
        · exact ⟨[.str (sc.yeast (w.nss (w.socks r).ns).sess.next)], by simp, rfl⟩
        · exact ⟨[], by simp, by simp⟩
      · exact ⟨[], by simp, by simp⟩
    refine ⟨extra, e1, by simp, ?_⟩
    rw [e2]; simp [sent, ho]

/-- Non-vacuity: two clients in "/", with recovery; the first is emitted to, and gets the event with an offset. -/
example : ((run Demo.rcfg Demo.two).nss 0).ad.rooms.get? ((run Demo.rcfg Demo.two).socks 0).sid = some [Demo.ident 0] ∧
    ((run Demo.rcfg Demo.two).nss 0).sockets.get? (Demo.ident 0) = some 0 ∧
    packetsTo 0 (run Demo.rcfg (Demo.two ++ [.emit 0 [.str "x"] {}])).log = packetsTo 0 (run Demo.rcfg Demo.two).log ++
      [{ type := .event, nsp := "/", data := .args [.str "x", .str (Demo.ident 100)] }] := by decide

/-- With recovery, a socket that joined the room named after the id of another one gets the events emitted to that one. -/
theorem C57_server_fails : ∃ (cfg : World.Cfg) (h : List World.Ev) (r r' : Nat) (args : List Val), NextOnce h ∧
    ((run cfg h).socks r).connected = true ∧ ((run cfg h).socks r').connected = true ∧ ((run cfg h).socks r).sid ≠ ((run cfg h).socks r').sid ∧
    ((run cfg h).socks r).client ≠ ((run cfg h).socks r').client ∧
    packetsTo r' (run cfg (h ++ [.emit r args {}])).log ≠ packetsTo r' (run cfg h).log :=
  ⟨Demo.rcfg, Demo.two ++ [.join 2 [Demo.ident 0]], 0, 2, [.str "x"], by decide, by decide, by decide, by decide, by decide, by decide⟩

/-- With recovery, an event emitted to a socket by a middleware, before it is connected, is sent to nobody. -/
theorem C57_before_fails : ∃ (cfg : World.Cfg) (h : List World.Ev) (r : Nat) (args : List Val), NextOnce h ∧ r < (run cfg h).nSock ∧
    ((run cfg h).clients ((run cfg h).socks r).client).conn = .opened ∧
    (run cfg (h ++ [.emit r args {}])).log = (run cfg h).log :=
  ⟨Demo.rcfg, [.use 0, .accept false, .recv 0 .connect "/" none], 0, [.str "x"], by decide, by decide, by decide, by decide⟩

end Verif.Props
