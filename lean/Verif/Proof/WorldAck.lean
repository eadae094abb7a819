import Verif.Model.WorldAck
import Verif.Proof.WorldLocal
import Verif.Proof.WorldKeep

/-! # The server with acknowledgement ids -/

namespace Verif.WorldAck
open Verif Verif.Adapter Verif.Spec Verif.World

/-- What one call may change: namespace `n`, its counter and the tables of its sockets. -/
structure Own (n : Nat) (x x' : X) : Prop where
  world : Within n x.w x'.w
  ids : ∀ m, m ≠ n → x'.ids m = x.ids m
  acks : ∀ r, r < x.w.nSock → (x.w.socks r).ns ≠ n → x'.acks r = x.acks r

theorem Own.refl (n : Nat) (x : X) : Own n x x := ⟨.refl _ _, fun _ _ => rfl, fun _ _ _ => rfl⟩

theorem Own.trans {n : Nat} {x y z : X} (h1 : Own n x y) (h2 : Own n y z) : Own n x z where
  world := h1.world.trans h2.world
  ids m hm := (h2.ids m hm).trans (h1.ids m hm)
  acks r hr hn := (h2.acks r (Nat.lt_of_lt_of_le hr h1.world.mono) (by rw [h1.world.stable r hr]; exact hn)).trans (h1.acks r hr hn)

theorem own_broadcastAck {x : X} (hs : InvS x.w) (n : Nat) (args : List Val) (opts : Option Opts) :
    Own n x (broadcastAck x n args opts) ∧ Calm x.w (broadcastAck x n args opts).w ∧ InvS (broadcastAck x n args opts).w := by
  have h0 : Own n x { x with ids := upd x.ids n (x.ids n + 1) } := ⟨.refl _ _, fun m hm => upd_ne _ _ hm, fun _ _ _ => rfl⟩
  have key := apply_rel (V := { ad := fun x => (x.w.nss n).ad, sock := fun x sid => (x.w.nss n).sockets.get? sid })
    (cb := ackTo (x.ids n + 1) { type := .event, data := .args args, id := some (x.ids n + 1).toNat })
    (fun a b : X => InvS a.w → Own n a b ∧ Calm a.w b.w ∧ InvS b.w) (fun a h => ⟨.refl _ _, .refl _, h⟩)
    (fun f g h => ⟨(f h).1.trans (g (f h).2.2).1, (f h).2.1.trans (g (f h).2.2).2.1, (g (f h).2.2).2.2⟩)
    (fun v sid ref hg hv => ?_) opts { x with ids := upd x.ids n (x.ids n + 1) } hs
  · exact ⟨h0.trans key.1, key.2⟩
  · have hg' : (v.w.nss n).sockets.get? sid = some ref := hg
    obtain ⟨a, b, c⟩ := hv.reg n sid ref hg'
    have hw := within_sockPacket v.w (hv.conn ref c) { type := .event, data := .args args, id := some (x.ids n + 1).toNat }
    rw [a] at hw
    refine ⟨⟨hw, fun _ _ => rfl, fun r hr hn => ?_⟩, calm_sockPacket _ _ _, invS_sockPacket hv _ _⟩
    simp only [ackTo]
    exact upd_ne _ _ (by rintro rfl; exact hn a)

theorem own_emitAck (cfg : Cfg) {x : X} (hs : InvS x.w) {ref : Nat} (hr : ref < x.w.nSock) (args : List Val) (flags : Flags) :
    Own (x.w.socks ref).ns x (emitAck cfg x ref args flags) ∧ Calm x.w (emitAck cfg x ref args flags).w ∧
      InvS (emitAck cfg x ref args flags).w := by
  have h1 : ∀ r, r < x.w.nSock → (x.w.socks r).ns ≠ (x.w.socks ref).ns → (emitAck cfg x ref args flags).acks r = x.acks r := fun r _ hn => by
    simp only [emitAck]; exact upd_ne _ _ (by rintro rfl; exact hn rfl)
  have h2 : ∀ m, m ≠ (x.w.socks ref).ns → (emitAck cfg x ref args flags).ids m = x.ids m := fun m hm => by
    simp only [emitAck]; exact upd_ne _ _ hm
  cases hc : cfg.recovery with
  | some q =>
    have e : (emitAck cfg x ref args flags).w = broadcast cfg x.w (x.w.socks ref).ns
        { type := .event, data := .args args, id := some (x.ids (x.w.socks ref).ns + 1).toNat } (options [(x.w.socks ref).sid] [] flags) := by
      simp only [emitAck]; rw [hc]
    refine ⟨⟨?_, h2, h1⟩, ?_, ?_⟩ <;> rw [e]
    · exact within_broadcast cfg hs _ _ _
    · exact calm_broadcast _ _ _ _ _
    · exact invS_broadcast hs _ _ _ _
  | none =>
    have e : (emitAck cfg x ref args flags).w = sockPacket x.w ref
        { type := .event, data := .args args, id := some (x.ids (x.w.socks ref).ns + 1).toNat } := by
      simp only [emitAck]; rw [hc]
    refine ⟨⟨?_, h2, h1⟩, ?_, ?_⟩ <;> rw [e]
    · exact within_sockPacket _ hr _
    · exact calm_sockPacket _ _ _
    · exact invS_sockPacket hs _ _

theorem inv_step (cfg : Cfg) {x : X} (hs : InvS x.w) (hr : Refs x.w) (e : XEv) : InvS (step cfg x e).w ∧ Refs (step cfg x e).w := by
  cases e with
  | plain e => exact World.inv_step hs hr cfg e
  | emitAck ref args flags =>
    simp only [step]; split
    · rename_i h
      obtain ⟨-, a, b⟩ := own_emitAck cfg hs h args flags
      exact ⟨b, hr.calm a⟩
    · exact ⟨hs, hr⟩
  | broadcastAck n args rooms except flags =>
    simp only [step]; split
    · obtain ⟨-, a, b⟩ := own_broadcastAck hs n args (options rooms except flags)
      exact ⟨b, hr.calm a⟩
    · exact ⟨hs, hr⟩

theorem run_snoc (cfg : Cfg) (h : List XEv) (e : XEv) : run cfg (h ++ [e]) = step cfg (run cfg h) e := by simp [run]

theorem inv_run (cfg : Cfg) (h : List XEv) : InvS (run cfg h).w ∧ Refs (run cfg h).w := by
  induction h using snocRec with
  | nil => exact inv_init
  | append_singleton h e ih => rw [run_snoc]; exact inv_step cfg ih.1 ih.2 e

theorem own_step (cfg : Cfg) (hh : OwnHooks cfg) {x : X} (hs : InvS x.w) (hr : Refs x.w) (e : XEv) (n : Nat)
    (he : (match e with
      | .plain e => actsIn x.w e
      | .emitAck ref _ _ => some (x.w.socks ref).ns
      | .broadcastAck m _ _ _ _ => some m) = some n) : Own n x (step cfg x e) := by
  cases e with
  | plain e => exact ⟨within_step cfg hh hs hr e n he, fun _ _ => rfl, fun _ _ _ => rfl⟩
  | emitAck ref args flags =>
    simp only [Option.some.injEq] at he; subst he
    simp only [step]; split
    · rename_i h; exact (own_emitAck cfg hs h args flags).1
    · exact .refl _ _
  | broadcastAck m args rooms except flags =>
    simp only [Option.some.injEq] at he; subst he
    simp only [step]; split
    · exact (own_broadcastAck hs m args _).1
    · exact .refl _ _

/-! ## Ids are not used twice -/

/-- Only packets with this id have been added. -/
def Adds (id : Nat) (l l' : List Obs) : Prop := ∃ t, l' = l ++ t ∧ ∀ o ∈ t, ∃ c ref p, o = .packet c ref p ∧ p.id = some id

theorem Adds.refl (id : Nat) (l : List Obs) : Adds id l l := ⟨[], by simp, by simp⟩

theorem Adds.trans {id : Nat} {a b c : List Obs} (h1 : Adds id a b) (h2 : Adds id b c) : Adds id a c := by
  obtain ⟨t, rfl, ht⟩ := h1
  obtain ⟨u, rfl, hu⟩ := h2
  refine ⟨t ++ u, by simp, fun o ho => ?_⟩
  rcases List.mem_append.1 ho with h | h
  · exact ht o h
  · exact hu o h

theorem adds_sockPacket (w : W) (ref : Nat) {p : Pkt} {id : Nat} (hp : p.id = some id) : Adds id w.log (sockPacket w ref p).log := by
  unfold sockPacket clientPacket; split
  · exact ⟨_, rfl, fun o ho => ⟨_, _, _, List.mem_singleton.1 ho, hp⟩⟩
  · exact .refl _ _

theorem adds_broadcast (cfg : Cfg) (w : W) (n : Nat) {p : Pkt} {id : Nat} (hp : p.id = some id) (opts : Option Opts) :
    Adds id w.log (broadcast cfg w n p opts).log := by
  have key (q : Pkt) (hq : q.id = some id) (w : W) : Adds id w.log (apply (view n) opts (fun w ref => sockPacket w ref q) w).1.log :=
    apply_rel (V := view n) (fun a b : W => Adds id a.log b.log) (fun _ => .refl _ _) (fun a b => a.trans b)
      (fun s _ r _ => adds_sockPacket s r hq) opts w
  unfold broadcast; split
  · rename_i sc b _
    refine key _ ?_ _
    unfold Session.broadcast; split
    · rw [if_neg (by simp [hp])]; exact hp
    · exact hp
  · exact key p hp w

/-- What a request for acknowledgements does in namespace `n`. -/
structure Ask (n : Nat) (x x' : X) : Prop where
  ids : x'.ids = upd x.ids n (x.ids n + 1)
  acks : ∀ r id, id ∈ x'.acks r → id ∈ x.acks r ∨ id = x.ids n + 1 ∧ r < x.w.nSock ∧ (x.w.socks r).ns = n
  log : Adds (x.ids n + 1).toNat x.w.log x'.w.log

theorem ask_emitAck (cfg : Cfg) (x : X) {ref : Nat} (hr : ref < x.w.nSock) (args : List Val) (flags : Flags) :
    Ask (x.w.socks ref).ns x (emitAck cfg x ref args flags) where
  ids := rfl
  acks r id h := by
    simp only [emitAck, upd_apply] at h
    split at h
    · rename_i e; subst e
      rcases List.mem_cons.1 h with h | h
      · exact .inr ⟨h, hr, rfl⟩
      · exact .inl h
    · exact .inl h
  log := by
    simp only [emitAck]; split
    · exact adds_broadcast _ _ _ rfl _
    · exact adds_sockPacket _ _ rfl

theorem ask_broadcastAck {x : X} (hs : InvS x.w) (n : Nat) (args : List Val) (opts : Option Opts) :
    Ask n x (broadcastAck x n args opts) := by
  have key := apply_rel (V := { ad := fun x => (x.w.nss n).ad, sock := fun x sid => (x.w.nss n).sockets.get? sid })
    (cb := ackTo (x.ids n + 1) { type := .event, data := .args args, id := some (x.ids n + 1).toNat })
    (fun a b : X => InvS a.w → InvS b.w ∧ Calm a.w b.w ∧ b.ids = a.ids ∧ Adds (x.ids n + 1).toNat a.w.log b.w.log ∧
      ∀ r id, id ∈ b.acks r → id ∈ a.acks r ∨ id = x.ids n + 1 ∧ r < a.w.nSock ∧ (a.w.socks r).ns = n)
    (fun a h => ⟨h, .refl _, rfl, .refl _ _, fun _ _ h => .inl h⟩)
    (fun f g h => by
      obtain ⟨f1, f2, f3, f4, f5⟩ := f h
      obtain ⟨g1, g2, g3, g4, g5⟩ := g f1
      refine ⟨g1, f2.trans g2, g3.trans f3, f4.trans g4, fun r id hi => ?_⟩
      rcases g5 r id hi with h | ⟨h1, h2, h3⟩
      · exact f5 r id h
      · refine .inr ⟨h1, by rw [f2.nSock] at h2; exact h2, ?_⟩
        have := f2.ns r; rw [this] at h3; exact h3)
    (fun v sid ref hg hv => ?_) opts { x with ids := upd x.ids n (x.ids n + 1) } hs
  · obtain ⟨-, -, h3, h4, h5⟩ := key
    exact ⟨h3, h5, h4⟩
  · have hg' : (v.w.nss n).sockets.get? sid = some ref := hg
    obtain ⟨a, b, c⟩ := hv.reg n sid ref hg'
    refine ⟨invS_sockPacket hv _ _, calm_sockPacket _ _ _, rfl, adds_sockPacket _ _ rfl, fun r id hi => ?_⟩
    simp only [ackTo, upd_apply] at hi
    split at hi
    · rename_i e; subst e
      rcases List.mem_cons.1 hi with h | h
      · exact .inr ⟨h, hv.conn r c, a⟩
      · exact .inl h
    · exact .inl hi

/-- The ids drawn so far are those up to the counter. -/
structure Below (x : X) (k : Nat) : Prop where
  ids : ∀ n, (x.ids n).toNat ≤ k
  acks : ∀ r id, id ∈ x.acks r → r < x.w.nSock ∧ id.toNat ≤ (x.ids (x.w.socks r).ns).toNat

theorem below_ask {x x' : X} {k n : Nat} (h : Below x k) (hk : k + 1 < 2 ^ 64) (a : Ask n x x') (cm : Calm x.w x'.w) : Below x' (k + 1) := by
  have hn := h.ids n
  have e : (x.ids n + 1).toNat = (x.ids n).toNat + 1 := by
    rw [BitVec.toNat_add, show (1 : BitVec 64).toNat = 1 from rfl]; omega
  constructor
  · intro m
    rw [a.ids, upd_apply]; split
    · rw [e]; omega
    · have := h.ids m; omega
  · intro r id hi
    rw [cm.nSock, cm.ns, a.ids, upd_apply]
    rcases a.acks r id hi with h1 | ⟨h1, h2, h3⟩
    · obtain ⟨h2, h3⟩ := h.acks r id h1
      refine ⟨h2, ?_⟩
      split
      · rename_i e'; rw [e'] at h3; rw [e]; omega
      · exact h3
    · exact ⟨h2, by rw [if_pos h3, h1]; exact Nat.le_refl _⟩

/-- How many requests for acknowledgements a history makes. -/
def asked : XEv → Bool
  | .plain _ => false
  | _ => true

theorem below_run (cfg : Cfg) (h : List XEv) (hb : h.countP asked < 2 ^ 64) : Below (run cfg h) (h.countP asked) := by
  induction h using snocRec with
  | nil => exact ⟨fun _ => Nat.le_refl _, by simp [run]⟩
  | append_singleton h e ih =>
    rw [List.countP_append] at *
    have ih := ih (by omega)
    have hi := inv_run cfg h
    have up : Below (run cfg h) (h.countP asked + 1) := ⟨fun n => Nat.le_succ_of_le (ih.ids n), ih.acks⟩
    rw [run_snoc]
    cases e with
    | plain e =>
      have hk := kept_step cfg (run cfg h).w e
      refine ⟨fun n => by have := ih.ids n; simp [step, asked]; omega, fun r id hr => ?_⟩
      obtain ⟨a, b⟩ := ih.acks r id hr
      exact ⟨Nat.lt_of_lt_of_le a hk.nSock, by simp only [step]; rw [hk.ns r a]; exact b⟩
    | emitAck ref args flags =>
      simp only [List.countP_cons, List.countP_nil, asked, if_true] at *
      simp only [step]; split
      · rename_i hr
        exact below_ask ih hb (ask_emitAck cfg _ hr args flags) (own_emitAck cfg hi.1 hr args flags).2.1
      · exact up
    | broadcastAck n args rooms except flags =>
      simp only [List.countP_cons, List.countP_nil, asked, if_true] at *
      simp only [step]; split
      · exact below_ask ih hb (ask_broadcastAck hi.1 n args _) (own_broadcastAck hi.1 n args _).2.1
      · exact up

end Verif.WorldAck
