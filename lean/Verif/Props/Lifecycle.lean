import Verif.Proof.WorldCast
import Verif.Proof.WorldOnce
import Verif.Proof.WorldShown
import Verif.Proof.WorldIds
import Verif.Props.Targeting

/-! # C08, C19, C20, C22, C27, C28: the life of sockets, clients and the server -/

namespace Verif.Props
open Verif Verif.Adapter Verif.Spec Verif.World

/-! ## Concrete servers for the examples -/

namespace Demo

/-- n-th id: `n` letters. -/
def ident (n : Nat) : String := String.ofList (List.replicate n 'a')

theorem ident_inj (a b : Nat) (h : ident a = ident b) : a = b := by
  have := congrArg (fun s => s.toList.length) h
  simpa [ident] using this

def cfg : World.Cfg := { newSid := ident, newPid := ident, connId := ident }

/-- With connection state recovery. -/
def rcfg : World.Cfg :=
  { cfg with recovery := some ({ max := 1000, yeast := fun n => ident (n + 100) }, false) }

/-- Two clients; the first joins "/" and "/chat", the second "/". -/
def two : List World.Ev :=
  [.of "/chat", .accept false, .accept false,
   .recv 0 .connect "/" none, .task 0, .recv 0 .connect "/chat" none, .task 0, .recv 1 .connect "/" none, .task 0,
   .join 0 ["red"], .join 2 ["red"]]

theorem two_once : NextOnce two := by decide
theorem two_twins : NeverTwins cfg two := neverTwins_fresh two_once rfl ident_inj (by decide)

end Demo

/-! ## C22 -/

/-- **C22**: in every reachable state the tables of namespaces, clients and rooms are consistent. -/
theorem C22_consistent (cfg : World.Cfg) (h : List World.Ev) : Consistent (run cfg h) := by
  have hs := (inv_run cfg h).1
  refine ⟨hs.reg, hs.cl, fun c name r hg => (hs.clNs c name r hg).2, fun name n hg => (hs.names name n hg).2,
    fun n => (hs.ad n).agree, fun n => (hs.ad n).nonempty, ?_⟩
  intro n sid room hin
  obtain ⟨l, hl, -⟩ := ((hs.ad n).agree sid room).1 hin
  obtain ⟨r, h1, h2, h3, h4⟩ := hs.live n sid ((FMap.mem_keys_iff _ _).2 ⟨l, hl⟩)
  exact ⟨r, ⟨h1, h4⟩, h2, h3⟩

/-- Conversely every connected socket is listed, by its namespace and by its client, as long as no two open
sockets share an id. -/
theorem C22_listed (cfg : World.Cfg) (h : List World.Ev) (hn : NextOnce h) (ht : NeverTwins cfg h) (r : Nat)
    (hc : ((run cfg h).socks r).connected = true) :
    ((run cfg h).nss ((run cfg h).socks r).ns).sockets.get? ((run cfg h).socks r).sid = some r ∧
    ((run cfg h).clients ((run cfg h).socks r).client).sockets.get? ((run cfg h).socks r).sid = some r :=
  have g := good_run cfg h hn ht
  ⟨g.f.ns r hc, g.f.cl r hc⟩

/-- Every namespace of a reachable server is in a state to which C03, C06 and C07 apply. -/
theorem C22_ok (cfg : World.Cfg) (h : List World.Ev) (hn : NextOnce h) (n : Nat) : Delivery.OK (toNsp (run cfg h) n) :=
  ok_toNsp (inv_run cfg h).1 (joined_run cfg h hn) (known_run cfg h hn) n

/-- Non-vacuity: three connected sockets of two clients in two namespaces. -/
example : ((run Demo.cfg Demo.two).nss 0).sockets.length = 2 ∧ ((run Demo.cfg Demo.two).nss 1).sockets.length = 1 ∧
    ((run Demo.cfg Demo.two).clients 0).sockets.length = 2 ∧
    ((run Demo.cfg Demo.two).nss 0).ad.rooms.get? "red" = some [Demo.ident 2, Demo.ident 0] := by decide

/-! ## C19 -/

/-- **C19**: after any history in which no middleware calls a `next` it was given for the socket twice, the socket has had no event, or
"connection", or "connection", "disconnecting" and "disconnect" with one reason (between them the session is saved if
it can be recovered); it is connected exactly in the second case. -/
theorem C19_lifecycle (cfg : World.Cfg) (h : List World.Ev) (r : Nat) (hn : NextOnceFor cfg h r) :
    (life r (run cfg h).log = [] ∨ life r (run cfg h).log = [.connection] ∨
      ∃ reason, life r (run cfg h).log = .connection :: ending cfg.recovery.isSome reason) ∧
    (((run cfg h).socks r).connected = true ↔ life r (run cfg h).log = [.connection]) := by
  obtain ⟨h1, h2, h3⟩ := (invR_run cfg h r hn).life
  cases hc : ((run cfg h).socks r).connected with
  | true => exact ⟨.inr (.inl (h1 hc).2), by simp [(h1 hc).2]⟩
  | false =>
    cases hj : ((run cfg h).socks r).canJoin with
    | true => exact ⟨.inl (h2 hc hj), by simp [h2 hc hj]⟩
    | false =>
      rcases h3 hc hj with e | ⟨reason, e⟩
      · exact ⟨.inl e, by simp [e]⟩
      · refine ⟨.inr (.inr ⟨reason, e⟩), ?_⟩
        rw [e]; simp [ending]

/-- Non-vacuity: a socket that joined and was disconnected by the server. -/
example : NextOnce (Demo.two ++ [.disconnect 0 false]) ∧
    life 0 (run Demo.cfg (Demo.two ++ [.disconnect 0 false])).log =
      [.connection, .disconnecting "server namespace disconnect", .disconnect "server namespace disconnect"] ∧
    life 1 (run Demo.cfg (Demo.two ++ [.disconnect 0 false])).log = [.connection] := by decide

/-- A middleware that calls `next` twice makes one socket connect twice: the event "connection" fires twice. -/
theorem C60_double_next_fails : ∃ (cfg : World.Cfg) (h : List World.Ev) (r : Nat),
    life r (run cfg h).log = [.connection, .connection] :=
  ⟨Demo.cfg, [.use 0, .accept false, .recv 0 .connect "/" none, .next 0 0 none, .next 0 0 none, .task 0, .task 0], 0, by decide⟩

/-- ... and a socket whose middleware first rejects it and then accepts it is connected after its rejection. -/
theorem C60_reject_then_accept : ∃ (cfg : World.Cfg) (h : List World.Ev) (r : Nat),
    life r (run cfg h).log = [.connection] ∧ ((run cfg h).socks r).connected = true ∧
    Obs.packet 0 (some r) { type := .connectError, nsp := "/", data := .error "no" none } ∈ (run cfg h).log ∧
    roomsOf ((run cfg h).nss 0).ad ((run cfg h).socks r).sid = [] :=
  ⟨Demo.cfg, [.use 0, .accept false, .recv 0 .connect "/" none, .next 0 0 (some ⟨"no", none⟩), .next 0 0 none, .task 0, .task 0], 0,
    by decide⟩

/-- What does hold.  If the middlewares call the `next` functions they were given for one socket at most once each, the events
of that socket are as in C19, whatever the middlewares do with the other sockets. -/
theorem C60_partial (cfg : World.Cfg) (h : List World.Ev) (r : Nat) (hn : NextOnceFor cfg h r) :
    (life r (run cfg h).log = [] ∨ life r (run cfg h).log = [.connection] ∨
      ∃ reason, life r (run cfg h).log = .connection :: ending cfg.recovery.isSome reason) ∧
    (((run cfg h).socks r).connected = true ↔ life r (run cfg h).log = [.connection]) :=
  C19_lifecycle cfg h r hn

/-- ... and once the error of a middleware has been handled the socket is never connected, and none of its events ever fires. -/
theorem C60_rejected_partial (cfg : World.Cfg) (h t : List World.Ev) (k r : Nat) (err : Err)
    (hk : (run cfg h).tasks[k]? = some (.result r (some err))) (hn : NextOnceFor cfg (h ++ [.task k] ++ t) r) :
    life r (run cfg (h ++ [.task k] ++ t)).log = [] ∧ ((run cfg (h ++ [.task k] ++ t)).socks r).connected = false := by
  have h1 := nextOnceFor_prefix hn
  have h0 := invR_run cfg h r (nextOnceFor_snoc h1).1
  have h2 : InvR cfg.recovery.isSome r true ((h ++ [World.Ev.task k]).filterMap nextCall) (run cfg (h ++ [.task k])) := by
    have := (invR_task h0 (inv_run cfg h).2 k _ hk).2 err rfl
    rw [run_snoc]
    simp only [World.step, hk, List.filterMap_append, List.filterMap_cons, nextCall, List.filterMap_nil, List.append_nil]
    exact this
  have h3 := (invR_after hn h2).rej rfl
  exact ⟨h3.2.2.2, h3.2.1⟩

/-- Non-vacuity: the middleware calls `next` twice for socket 0, once for socket 1, which connects once, and rejects socket 2. -/
example :
    let h : List World.Ev := [.use 0, .accept false, .accept false, .accept false, .recv 0 .connect "/" none, .recv 1 .connect "/" none,
      .recv 2 .connect "/" none, .next 0 0 none, .next 0 0 none, .next 1 0 none, .next 2 0 (some ⟨"no", none⟩), .task 0, .task 0, .task 0, .task 0]
    ¬ NextOnce h ∧ ¬ NextOnceFor Demo.cfg h 0 ∧ NextOnceFor Demo.cfg h 1 ∧ NextOnceFor Demo.cfg h 2 ∧
    (run Demo.cfg (h.take 14)).tasks[0]? = some (.result 2 (some ⟨"no", none⟩)) ∧
    life 0 (run Demo.cfg h).log = [.connection, .connection] ∧ life 1 (run Demo.cfg h).log = [.connection] ∧
    life 2 (run Demo.cfg h).log = [] := by decide

/-! ## C08 -/

/-- **C08**: a socket for which "disconnect" has fired is gone for good, if the middlewares called the `next` functions they were
given for this socket at most once each.  At any later time
* it is listed by no namespace and no client;
* `Join` does nothing;
* a broadcast writes nothing to it, whatever the namespace, the selection and the arguments;
* `FetchSockets` does not return it;
* no room of any namespace contains its id, unless another open socket has the same id. -/
theorem C08_gone (cfg : World.Cfg) (h t : List World.Ev) (r : Nat) (hn : NextOnceFor cfg (h ++ t) r) (reason : String)
    (hd : Obs.disconnect r reason ∈ (run cfg h).log) :
    (∀ n sid, ((run cfg (h ++ t)).nss n).sockets.get? sid ≠ some r) ∧
    (∀ c sid, ((run cfg (h ++ t)).clients c).sockets.get? sid ≠ some r) ∧
    (∀ rooms, run cfg (h ++ t ++ [.join r rooms]) = run cfg (h ++ t)) ∧
    (∀ n args id rooms except flags, ∃ new,
      (run cfg (h ++ t ++ [.broadcast n args id rooms except flags])).log = (run cfg (h ++ t)).log ++ new ∧
      ∀ o ∈ new, ¬ SentTo r o) ∧
    (∀ n rooms except flags, r ∉ Delivery.fetchSockets (toNsp (run cfg (h ++ t)) n)
      (some { rooms := some rooms, except := some except, flags := flags })) ∧
    ((∀ r', IsOpen (run cfg (h ++ t)) r' → ((run cfg (h ++ t)).socks r').sid ≠ ((run cfg (h ++ t)).socks r).sid) →
      ∀ n room l, ((run cfg (h ++ t)).nss n).ad.rooms.get? room = some l → ((run cfg (h ++ t)).socks r).sid ∉ l) := by
  have ho : Over r (run cfg (h ++ t)) := by
    obtain ⟨ext, hl⟩ := ext_run cfg h t
    exact over_for (reason := reason) hn (by rw [hl]; exact List.mem_append_left _ hd)
  have hs := (inv_run cfg (h ++ t)).1
  generalize hw : run cfg (h ++ t) = w at *
  obtain ⟨o1, o2, o3⟩ := ho
  have hreg : ∀ n sid, (w.nss n).sockets.get? sid ≠ some r := fun n sid hg => by
    have := (hs.reg n sid r hg).2.2; rw [o2] at this; simp at this
  refine ⟨hreg, fun c sid hg => ?_, fun rooms => ?_, fun n args id rooms except flags => ?_,
    fun n rooms except flags hm => ?_, fun hu n room l hl hm => ?_⟩
  · have := (hs.cl c sid r hg).2.2; rw [o2] at this; simp at this
  · rw [run_snoc, hw]; simp [World.step, act, World.join, o1, o3]
  · rw [run_snoc, hw]; simp only [World.step]; split
    · obtain ⟨-, ext, hl, hp⟩ := speaks_broadcast hs cfg n { type := .event, data := .args args, id := id } (options rooms except flags) rfl
      refine ⟨ext, hl, fun o hm hsent => ?_⟩
      cases o with
      | packet c ref p =>
        obtain ⟨-, r', e, hr'⟩ := hp c ref p hm
        replace hsent : ref = some r := hsent
        rw [hsent] at e
        cases e
        rw [o2] at hr'
        cases hr'
      | _ => exact hsent
    · exact ⟨[], by simp, by simp⟩
  · have hf := apply_pres (σ := Delivery.Nsp × List Nat) (V := ⟨fun s => s.1.ad, fun s id => s.1.sockets.get? id⟩)
      (cb := fun s ref => (s.1, s.2 ++ [ref])) (fun s => s.1 = toNsp w n ∧ ∀ x ∈ s.2, ∃ sid, (toNsp w n).sockets.get? sid = some x)
      (fun s id p hP hp => ⟨hP.1, fun x hx => by
        rcases List.mem_append.1 hx with hx | hx
        · exact hP.2 x hx
        · simp only [List.mem_singleton] at hx; subst hx
          exact ⟨id, by rw [← hP.1]; exact hp⟩⟩)
      (some { rooms := some rooms, except := some except, flags := flags }) (toNsp w n, []) ⟨rfl, by simp⟩
    obtain ⟨sid, hg⟩ := hf.2 r hm
    exact hreg n sid hg
  · obtain ⟨l', hl', -⟩ := ((hs.ad n).agree _ _).1 ⟨l, hl, hm⟩
    obtain ⟨r', h1, h2, h3, h4⟩ := hs.live n _ ((FMap.mem_keys_iff _ _).2 ⟨l', hl'⟩)
    exact hu r' ⟨h1, h4⟩ h3

/-- Non-vacuity: socket 0 is disconnected while in the room "red"; a broadcast to "red" then reaches socket 2
alone, although socket 0's connection is still open. -/
example : NextOnceFor Demo.cfg (Demo.two ++ [.disconnect 0 false] ++ [.broadcast 0 [] none ["red"] [] {}]) 0 ∧
    Obs.disconnect 0 "server namespace disconnect" ∈ (run Demo.cfg (Demo.two ++ [.disconnect 0 false])).log ∧
    ((run Demo.cfg (Demo.two ++ [.disconnect 0 false])).clients 0).conn = .opened ∧
    (run Demo.cfg (Demo.two ++ [.disconnect 0 false, .broadcast 0 [] none ["red"] [] {}])).log =
      (run Demo.cfg (Demo.two ++ [.disconnect 0 false])).log ++
        [.packet 1 (some 2) { type := .event, nsp := "/", data := .args [] }] := by decide

/-- C08 needs the condition: a middleware calls `next` twice, the socket is disconnected between the two, and connected again. -/
theorem C08_next_twice_fails : ∃ (cfg : World.Cfg) (h : List World.Ev) (r : Nat) (reason : String),
    Obs.disconnect r reason ∈ (run cfg h).log ∧ ((run cfg h).socks r).connected = true ∧
    ∃ n sid, ((run cfg h).nss n).sockets.get? sid = some r :=
  ⟨Demo.cfg, [.use 0, .accept false, .recv 0 .connect "/" none, .next 0 0 none, .next 0 0 none, .task 0, .disconnect 0 false, .task 0], 0,
    "server namespace disconnect", by decide, by decide, 0, Demo.ident 0, by decide⟩

/-! ## C20 -/

theorem closed_tables {w : W} (g : Good w) {c : Nat} (he : Empty (w.clients c).sockets) :
    Empty (w.clients c).nsps ∧ ∀ r, (w.socks r).client = c → (w.socks r).connected = false := by
  have h2 : ∀ r, (w.socks r).client = c → (w.socks r).connected = false := fun r hr => by
    cases hc : (w.socks r).connected with
    | false => rfl
    | true => have := g.f.cl r hc; rw [hr, he] at this; simp at this
  refine ⟨fun name => ?_, h2⟩
  cases hg : (w.clients c).nsps.get? name with
  | none => rfl
  | some r =>
    have h3 := g.f.cns c name r hg
    rw [h2 r (g.s.clNs c name r hg).2.1] at h3; simp at h3

/-- **C20**, for histories in which no two open sockets share an id (partial: without this a socket can be left
connected, `C20_twins_fail`).  When the connection of client `c` closes,
* every connected socket of `c`, in whatever namespace, is disconnected with that reason;
* afterwards the client has no entry of a socket or a namespace;
* the sockets of the other clients are not touched;
* no socket of this client is ever connected again. -/
theorem C20_transport_close_partial (cfg : World.Cfg) (h : List World.Ev) (c : Nat) (reason : String) (hn : NextOnce h)
    (ht : NeverTwins cfg h) (hc : c < (run cfg h).nClient) :
    (∀ r, ((run cfg h).socks r).client = c → ((run cfg h).socks r).connected = true →
      life r (run cfg (h ++ [.transportClose c reason])).log = life r (run cfg h).log ++ ending cfg.recovery.isSome reason) ∧
    (∀ sid, ((run cfg (h ++ [.transportClose c reason])).clients c).sockets.get? sid = none) ∧
    (∀ name, ((run cfg (h ++ [.transportClose c reason])).clients c).nsps.get? name = none) ∧
    (∀ r, ((run cfg h).socks r).client ≠ c →
      (run cfg (h ++ [.transportClose c reason])).socks r = (run cfg h).socks r ∧
      life r (run cfg (h ++ [.transportClose c reason])).log = life r (run cfg h).log) ∧
    (∀ t, NextOnce (h ++ [.transportClose c reason] ++ t) → ∀ r,
      ((run cfg (h ++ [.transportClose c reason] ++ t)).socks r).client = c →
      ((run cfg (h ++ [.transportClose c reason] ++ t)).socks r).connected = false) := by
  have g := good_run cfg h hn ht
  have ic := invC_run cfg h
  suffices key : ∀ w', w' = step cfg (run cfg h) (.transportClose c reason) →
      Traced cfg.recovery.isSome (· = reason) (run cfg h) w' ∧ Empty (w'.clients c).sockets ∧ Empty (w'.clients c).nsps ∧
      (∀ r, (w'.socks r).client = c → (w'.socks r).connected = false) ∧ OthersKept c (run cfg h) w' ∧ (w'.clients c).conn ≠ .opened by
    obtain ⟨k1, k2, k3, k4, k5, k6⟩ := key _ rfl
    have hcalm := calm_step cfg (run cfg h) (.transportClose c reason) rfl
    have hdead : Dead c (run cfg (h ++ [.transportClose c reason])) := by
      rw [run_snoc]; exact ⟨by rw [hcalm.nClient]; exact hc, k6, k4⟩
    rw [run_snoc]
    refine ⟨fun r hr hcn => ?_, k2, k3, fun r hr => ⟨k5 r hr, ?_⟩, fun t hnt r hr => (dead_run hnt hdead).2.2 r hr⟩
    · obtain ⟨ext, e1, e2⟩ := k1
      rw [e1, life_append]
      rcases e2 r with ⟨e, -⟩ | ⟨-, -, x, rfl, e⟩
      · have := k4 r (by rw [hcalm.client]; exact hr)
        rw [e, hcn] at this; simp at this
      · rw [e]
    · obtain ⟨ext, e1, e2⟩ := k1
      rw [e1, life_append]
      rcases e2 r with ⟨-, e⟩ | ⟨e0, e, -⟩
      · rw [e, List.append_nil]
      · rw [k5 r hr] at e
        have := congrArg Sock.connected e
        rw [e0] at this; simp [World.closed] at this
  rintro w' rfl
  simp only [World.step]
  rw [if_pos hc]
  have t0 : Traced cfg.recovery.isSome (· = reason) (run cfg h) (setClient (run cfg h) c fun k => { k with conn := .closed }) :=
    .silent rfl rfl
  have g0 : Good (setClient (run cfg h) c fun k => { k with conn := .closed }) :=
    (blocks_good cfg).conn (run cfg h) c .closed (by simp) g
  have hconn : ((setClient (run cfg h) c fun k => { k with conn := .closed }).clients c).conn ≠ .opened := by
    simp [setClient]
  split
  · obtain ⟨g1, g2, g3, g4⟩ := good_clientOnclose g0 cfg c reason
    refine ⟨t0.trans ((prim_traced cfg (· = reason)).clientOnclose _ c reason rfl), g2, g3, g4, ?_, ?_⟩
    · exact fun r hr => (others_clientOnclose g0.s cfg c reason r hr)
    · rw [clientOnclose_conn]; exact hconn
  · rename_i hl
    have he : Empty ((setClient (run cfg h) c fun k => { k with conn := .closed }).clients c).sockets := by
      have := (ic c (by simpa using hl)).2
      simpa [setClient] using this
    obtain ⟨c1, c2⟩ := closed_tables g0 he
    exact ⟨t0, he, c1, c2, fun r _ => rfl, hconn⟩

/-- Non-vacuity: client 0 has sockets in two namespaces. -/
example : NextOnce Demo.two ∧ NeverTwins Demo.cfg Demo.two ∧ 0 < (run Demo.cfg Demo.two).nClient ∧
    ((run Demo.cfg Demo.two).socks 0).connected = true ∧ ((run Demo.cfg Demo.two).socks 1).connected = true ∧
    ((run Demo.cfg Demo.two).socks 0).client = 0 ∧ ((run Demo.cfg Demo.two).socks 1).client = 0 ∧
    ((run Demo.cfg Demo.two).socks 0).ns ≠ ((run Demo.cfg Demo.two).socks 1).ns :=
  ⟨Demo.two_once, Demo.two_twins, by decide, by decide, by decide, by decide, by decide, by decide⟩

/-- With protocol 3 the id of a socket is made of the connection's id and the namespace's name.  A client that
asks twice for a namespace before the first answer gets two connected sockets with one id; when the connection closes
one of them is never disconnected. -/
theorem C20_twins_fail : ∃ (cfg : World.Cfg) (h : List World.Ev) (c : Nat) (reason : String) (r : Nat), NextOnce h ∧
    ((run cfg h).socks r).client = c ∧ ((run cfg h).socks r).connected = true ∧
    ((run cfg (h ++ [.transportClose c reason])).socks r).connected = true ∧
    life r (run cfg (h ++ [.transportClose c reason])).log = [.connection] :=
  ⟨Demo.cfg, [.of "/chat", .accept true, .task 0, .recv 0 .connect "/chat" none, .recv 0 .connect "/chat" none, .task 0, .task 0],
    0, "transport close", 1, by decide⟩

/-- **C80**, in the model of the whole server: when the connection of a client reports an error, or data that is no packet arrives, the
connection is not open any longer, so that nothing more is sent and the engine will report it closed (`C20_transport_close_partial`).  A
client that is not listening any more is closed already. -/
theorem C80_error (cfg : World.Cfg) (h : List World.Ev) (c : Nat) (hc : c < (run cfg h).nClient) (hl : ((run cfg h).clients c).listening = true) :
    ((run cfg (h ++ [.connError c])).clients c).conn ≠ .opened := by
  have e : run cfg (h ++ [.connError c]) = connClose cfg (run cfg h) c := by
    rw [World.run_snoc]; simp only [World.step]; rw [if_pos ⟨hc, hl⟩]
  rw [e]; exact connClose_conn _ _ _

/-- Non-vacuity: client 0 has sockets in two namespaces, and its connection is open before. -/
example : 0 < (run Demo.cfg Demo.two).nClient ∧ ((run Demo.cfg Demo.two).clients 0).listening = true ∧
    ((run Demo.cfg Demo.two).clients 0).conn = .opened ∧ ((run Demo.cfg (Demo.two ++ [.connError 0])).clients 0).conn = .closing := by decide


/-! ## C27 -/

/-- **C27**, for histories in which no two open sockets share an id (partial: see `C27_removed_fail` and
`C20_twins_fail`).  `Close` of the server disconnects, with the reason "server shutting down", every connected socket of
every namespace the server knows; it disconnects nobody with another reason; afterwards no such namespace has a
socket. -/
theorem C27_close_partial (cfg : World.Cfg) (h : List World.Ev) (hn : NextOnce h) (ht : NeverTwins cfg h) :
    (∀ r name, (run cfg h).nsps.get? name = some ((run cfg h).socks r).ns → ((run cfg h).socks r).connected = true →
      life r (run cfg (h ++ [.serverClose])).log = life r (run cfg h).log ++ ending cfg.recovery.isSome "server shutting down" ∧
      ((run cfg (h ++ [.serverClose])).socks r).connected = false) ∧
    (∀ r, life r (run cfg (h ++ [.serverClose])).log = life r (run cfg h).log ∨
      life r (run cfg (h ++ [.serverClose])).log =
        life r (run cfg h).log ++ ending cfg.recovery.isSome "server shutting down") ∧
    (∀ name n, (run cfg h).nsps.get? name = some n →
      ∀ sid, ((run cfg (h ++ [.serverClose])).nss n).sockets.get? sid = none) := by
  have g := good_run cfg h hn ht
  rw [run_snoc]
  have g' : Good (step cfg (run cfg h) .serverClose) :=
    (blocks_good cfg).step _ .serverClose rfl (fun _ _ => trivial) (fun _ _ => trivial) g
  have cm := calm_step cfg (run cfg h) .serverClose rfl
  have tr : Traced cfg.recovery.isSome (· = "server shutting down") (run cfg h) (step cfg (run cfg h) .serverClose) :=
    (prim_traced cfg (· = "server shutting down")).serverClose (run cfg h) rfl
  obtain ⟨-, hall⟩ := closeAll cfg (run cfg h).nsps.keys g.s.nspsWf (run cfg h) g.s
  have hall : ∀ name n, (run cfg h).nsps.get? name = some n → Empty ((step cfg (run cfg h) .serverClose).nss n).sockets :=
    fun name n hg => hall name ((FMap.mem_keys_iff _ _).2 ⟨n, hg⟩) n hg
  obtain ⟨ext, e1, e2⟩ := tr
  refine ⟨fun r name hg hc => ?_, fun r => ?_, hall⟩
  · have hd : ((step cfg (run cfg h) .serverClose).socks r).connected = false := by
      cases hc' : ((step cfg (run cfg h) .serverClose).socks r).connected with
      | false => rfl
      | true =>
        have := g'.f.ns r hc'
        rw [cm.ns, hall name _ hg] at this; simp at this
    refine ⟨?_, hd⟩
    rw [e1, life_append]
    rcases e2 r with ⟨e, -⟩ | ⟨-, -, x, rfl, e⟩
    · rw [e, hc] at hd; simp at hd
    · rw [e]
  · rw [e1, life_append]
    rcases e2 r with ⟨-, e⟩ | ⟨-, -, x, rfl, e⟩
    · rw [e]; simp
    · rw [e]; simp

/-- Non-vacuity: three sockets in two namespaces. -/
example : ((run Demo.cfg Demo.two).nsps.get? "/" = some 0) ∧ ((run Demo.cfg Demo.two).nsps.get? "/chat" = some 1) ∧
    life 2 (run Demo.cfg (Demo.two ++ [.serverClose])).log =
      [.connection, .disconnecting "server shutting down", .disconnect "server shutting down"] ∧
    life 1 (run Demo.cfg (Demo.two ++ [.serverClose])).log =
      [.connection, .disconnecting "server shutting down", .disconnect "server shutting down"] := by decide

/-- A dynamic namespace that was removed because it looked empty while a client was being connected to it is not
reached by `Close`: the socket stays connected. -/
theorem C27_removed_fail : ∃ (cfg : World.Cfg) (h : List World.Ev) (r : Nat), NextOnce h ∧
    ((run cfg h).socks r).connected = true ∧ ((run cfg (h ++ [.serverClose])).socks r).connected = true :=
  ⟨{ Demo.cfg with admit := fun _ => true, autoClean := true },
    [.accept false, .recv 0 .connect "/dyn" none, .task 0, .accept false, .recv 1 .connect "/dyn" none,
     .disconnect 0 false, .task 0], 1, by decide⟩

/-! ## C28 -/

/-- **C28**: when the connect timer of a client with an open connection fires, the connection is closed if and only
if no socket of the client has ever been connected. -/
theorem C28_timeout (cfg : World.Cfg) (h : List World.Ev) (c : Nat) (hc : c < (run cfg h).nClient)
    (ho : ((run cfg h).clients c).conn = .opened) :
    ((run cfg (h ++ [.timer c])).clients c).conn ≠ .opened ↔
      ¬ ∃ r, r < (run cfg h).nSock ∧ ((run cfg h).socks r).client = c ∧ Obs.connection r ∈ (run cfg h).log := by
  have hs := (inv_run cfg h).1
  have hoff := timOff_run cfg h
  rw [run_snoc]; simp only [World.step]; rw [if_pos hc]
  constructor
  · rintro hne ⟨r, h1, rfl, h3⟩
    apply hne
    unfold timerFires
    rw [if_neg (by rw [(hoff r h3).2]; simp)]; exact ho
  · intro hno
    have ht : ((run cfg h).clients c).timer = true := by
      rcases tim_run cfg h c hc with t | t | t | t
      · exact t
      · exact absurd ho (invC_run cfg h c t).1
      · exact absurd ho t
      · exact absurd t hno
    unfold timerFires
    rw [if_pos ht]; dsimp only
    rw [if_pos]
    · exact clientClose_conn _ _ _
    · simp only [setClient, upd_same]; rw [(hs.timer c ht).1]; rfl

/-- Joining a namespace and closing the connection stop the timer: an armed timer belongs to a client that listens to
an open or closing connection and has joined no namespace; a timer that is not armed does nothing when it
fires. -/
theorem C28_cancelled (cfg : World.Cfg) (h : List World.Ev) (c : Nat) :
    (((run cfg h).clients c).timer = true →
      (∀ r, Obs.connection r ∈ (run cfg h).log → ((run cfg h).socks r).client ≠ c) ∧
      ((run cfg h).clients c).nsps = [] ∧ ((run cfg h).clients c).listening = true) ∧
    (((run cfg h).clients c).timer = false → run cfg (h ++ [.timer c]) = run cfg h) := by
  refine ⟨fun ht => ⟨fun r hr e => ?_, (inv_run cfg h).1.timer c ht⟩, fun ht => ?_⟩
  · have := (timOff_run cfg h r hr).2
    rw [e, ht] at this; simp at this
  · rw [run_snoc]; simp [World.step, timerFires, ht]

/-- Non-vacuity: client 0 joined, client 1 only asked for a namespace that does not exist. -/
example :
    ((run Demo.cfg [.accept false, .accept false, .recv 0 .connect "/" none, .task 0, .recv 1 .connect "/no" none, .timer 0, .timer 1]).clients 0).conn
      = .opened ∧
    ((run Demo.cfg [.accept false, .accept false, .recv 0 .connect "/" none, .task 0, .recv 1 .connect "/no" none, .timer 0, .timer 1]).clients 1).conn
      = .closing := by decide

end Verif.Props
