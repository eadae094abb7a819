import Verif.Proof.WorldRooms
import Verif.Spec.WorldRooms
import Verif.Props.Isolation

/-! # C85: what changes the rooms of a socket -/

namespace Verif.Props
open Verif Verif.Adapter Verif.Spec Verif.World

theorem sitsIn_iff {w : W} (hs : InvS w) (r : Nat) (room : Room) :
    SitsIn w r room ↔ (w.nss (w.socks r).ns).ad.inRoom (w.socks r).sid room := Delivery.mem_roomsOf (hs.ad _) _ _

/-- **C85** (partial: `Leave` on a socket object that is over and has the same id, from before its session was recovered, also
takes the socket out, see `C85_stale_fails`).  Let socket `r` be open before and after an event.  After the event it is in a
room exactly if it was and neither `Leave` was called on it for the room nor a `SocketsLeave` that is about it, or if `Join` was
called on it with this room, or a `SocketsJoin` that is about it.  Nothing else puts a socket into a room or takes it out: not
what other sockets do, not their connecting and disconnecting, not broadcasts.  The only exception is the room named by its own id,
for a socket that is not connected yet (`C85_own`). -/
theorem C85_partial (cfg : World.Cfg) (h : List World.Ev) (e : World.Ev) (hn : NextOnce (h ++ [e])) (ht : NeverTwins cfg (h ++ [e]))
    (hh : OwnHooks cfg) (r : Nat) (ho : IsOpen (run cfg h) r) (ho' : IsOpen (run cfg (h ++ [e])) r)
    (room : Room) (hroom : ((run cfg h).socks r).connected = true ∨ room ≠ ((run cfg h).socks r).sid)
    (hst : ¬ StaleLeave (run cfg h) r e) :
    SitsIn (run cfg (h ++ [e])) r room ↔ SitsAfter (run cfg h) r room e := by
  obtain ⟨t1, t2, t3⟩ := neverTwins_snoc ht
  obtain ⟨n1, -⟩ := nextOnce_snoc hn
  have g := good_run cfg h n1 t1
  have g' := good_run cfg (h ++ [e]) hn ht
  have f : Fit (run cfg h) := ⟨g.s, g.j, known_run cfg h n1⟩
  have hap : Apart r room (run cfg h) := hroom.elim (fun a => .inr (.inl a)) .inl
  have reg (n : Nat) (hns : ((run cfg h).socks r).ns = n) :
      (∃ ref, ((run cfg h).nss n).sockets.get? ((run cfg h).socks r).sid = some ref) ↔ ((run cfg h).socks r).connected = true := by
    subst hns
    constructor
    · rintro ⟨ref, hr⟩
      obtain ⟨a, b, c⟩ := g.s.reg _ _ _ hr
      have := t2 r ref ho ⟨g.s.conn _ c, g.j _ c⟩ b.symm
      subst this; exact c
    · intro hc; exact ⟨r, g.f.ns r hc⟩
  have addr (n : Nat) (rooms except : List Room) (hns : ((run cfg h).socks r).ns = n) :
      ((∃ ref, ((run cfg h).nss n).sockets.get? ((run cfg h).socks r).sid = some ref) ∧
        Spec.Matches rooms except fun room => room ∈ roomsOf ((run cfg h).nss n).ad ((run cfg h).socks r).sid) ↔
        Addressed (run cfg h) r n rooms except := by
    rw [reg n hns]; subst hns
    unfold Addressed SitsIn
    simp
  rw [sitsIn_iff g'.s]
  rw [run_snoc]
  cases he : e.rooms with
  | true =>
    cases e <;> simp only [Ev.rooms, Bool.false_eq_true] at he <;> simp only [World.step, SitsAfter]
    case join ref rooms =>
      rw [sitsIn_iff g.s]
      unfold act; dsimp only; split
      · rename_i hlt
        unfold World.join; split
        · rename_i hcj
          simp only [setNs, upd_apply]; split
          · rename_i e'
            rw [(addAll_spec (g.s.ad _) _ rooms).2.1, e']
            constructor
            · rintro (a | ⟨a, b⟩)
              · exact .inl a
              · exact .inr ⟨(t2 r ref ho ⟨hlt, hcj⟩ a).symm, b⟩
            · rintro (a | ⟨a, b⟩)
              · exact .inl a
              · subst a; exact .inr ⟨rfl, b⟩
          · rename_i e'
            constructor
            · exact .inl
            · rintro (a | ⟨a, b⟩)
              · exact a
              · subst a; exact absurd rfl e'
        · rename_i hcj
          constructor
          · exact .inl
          · rintro (a | ⟨a, b⟩)
            · exact a
            · subst a; exact absurd ho.2 hcj
      · rename_i hlt
        constructor
        · exact .inl
        · rintro (a | ⟨a, b⟩)
          · exact a
          · subst a; exact absurd ho.1 hlt
    case leave ref x =>
      rw [sitsIn_iff g.s]
      unfold act; dsimp only; split
      · rename_i hlt
        unfold World.leave
        simp only [setNs, upd_apply]; split
        · rename_i e'
          rw [(del_spec (g.s.ad _) _ _ x).2.1, e']
          constructor
          · rintro ⟨a, b⟩
            refine ⟨a, ?_⟩
            rintro ⟨c, d⟩
            subst c; exact b ⟨rfl, d.symm⟩
          · rintro ⟨a, b⟩
            refine ⟨a, ?_⟩
            rintro ⟨c, d⟩
            by_cases hr : ref = r
            · exact b ⟨hr, d.symm⟩
            · exact hst ⟨hr, hlt, c.symm, e'.symm⟩
        · rename_i e'
          constructor
          · intro a
            refine ⟨a, ?_⟩
            rintro ⟨c, -⟩
            subst c; exact e' rfl
          · exact fun a => a.1
      · rename_i hlt
        constructor
        · intro a
          refine ⟨a, ?_⟩
          rintro ⟨c, -⟩
          subst c; exact hlt ho.1
        · exact fun a => a.1
    case socketsJoin n rooms except flags target =>
      rw [sitsIn_iff g.s]
      obtain ⟨s1, -⟩ := apply_spec (local_wjoin n target) (options rooms except flags) _ f
      obtain ⟨q1, q2⟩ := foldl_wjoin n target (apply (view n) (options rooms except flags) (fun w ref => World.join w ref target) (run cfg h)).2 f
        fun x hx => ((visited_w (local_wjoin n target) f rooms except flags x).1 hx).1
      rw [s1, q1, q2, visited_w (local_wjoin n target) f]
      constructor
      · rintro (a | ⟨a, b, c⟩)
        · exact .inl a
        · exact .inr ⟨(addr n rooms except a).1 b, c⟩
      · rintro (a | ⟨a, c⟩)
        · exact .inl a
        · exact .inr ⟨a.2.1, (addr n rooms except a.2.1).2 a, c⟩
    case socketsLeave n rooms except flags target =>
      rw [sitsIn_iff g.s]
      obtain ⟨s1, -⟩ := apply_spec (local_wleave cfg n target) (options rooms except flags) _ f
      obtain ⟨q1, q2⟩ := foldl_wleave cfg n target (apply (view n) (options rooms except flags) (leaveEach cfg target) (run cfg h)).2 f
        fun x hx => ((visited_w (local_wleave cfg n target) f rooms except flags x).1 hx).1
      rw [s1, q1, q2, visited_w (local_wleave cfg n target) f]
      constructor
      · rintro ⟨a, b⟩
        exact ⟨a, fun ⟨c, d⟩ => b ⟨c.2.1, (addr n rooms except c.2.1).2 c, d⟩⟩
      · rintro ⟨a, b⟩
        exact ⟨a, fun ⟨c, d, d'⟩ => b ⟨(addr n rooms except c).1 d, d'⟩⟩
  | false =>
    have hsa : SitsAfter (run cfg h) r room e ↔ SitsIn (run cfg h) r room := by
      cases e <;> simp only [Ev.rooms, Bool.true_eq_false] at he <;> exact Iff.rfl
    rw [hsa, sitsIn_iff g.s, ← run_snoc]
    constructor
    · intro hi
      refine Classical.byContradiction fun hno => ?_
      have := out_step hn ht hh he ⟨ho.1, .inr hno⟩ hap
      exact this.2.resolve_left (by rw [ho'.2]; simp) hi
    · intro hi
      have : Stays r room (run cfg (h ++ [e])) := stays_run hn ht hh (fun p e' hp hto => by
        have : p = [] ∧ e' = e := by
          have hl := hp.length_le
          simp at hl
          subst hl
          obtain ⟨s, hs⟩ := hp
          simp at hs; exact ⟨rfl, hs.1⟩
        obtain ⟨rfl, rfl⟩ := this
        cases e' <;> simp only [Ev.rooms, Bool.true_eq_false] at he <;> exact hto) ⟨ho.1, .inr hi⟩
      exact this.2.resolve_left (by rw [ho'.2]; simp)

/-- **C85, the own room**: the event that connects a socket puts it into the room named by its id. -/
theorem C85_own (cfg : World.Cfg) (h : List World.Ev) (e : World.Ev) (hn : NextOnce (h ++ [e])) (ht : NeverTwins cfg (h ++ [e]))
    (r : Nat) (hr : r < (run cfg h).nSock) (h0 : ((run cfg h).socks r).connected = false)
    (h1 : ((run cfg (h ++ [e])).socks r).connected = true) : SitsIn (run cfg (h ++ [e])) r ((run cfg (h ++ [e])).socks r).sid :=
  (sitsIn_iff (inv_run cfg _).1 r _).2 (owned_step hn ht hr h0 h1)

/-- **C85, the start**: the event that creates a socket puts it into no room, unless its session was recovered (then see C15), and except
for the room named by its id. -/
theorem C85_created (cfg : World.Cfg) (h : List World.Ev) (e : World.Ev) (hn : NextOnce (h ++ [e])) (ht : NeverTwins cfg (h ++ [e]))
    (r : Nat) (hc : CreatedBy cfg h e r) (hrec : ((run cfg (h ++ [e])).socks r).recovered = false) (room : Room)
    (hs : SitsIn (run cfg (h ++ [e])) r room) (ho : IsOpen (run cfg (h ++ [e])) r) : room = ((run cfg (h ++ [e])).socks r).sid := by
  rw [sitsIn_iff (inv_run cfg _).1] at hs
  rcases fresh_step (room := room) hn ht (Nat.le_of_eq hc.1) with a | ⟨-, a | a⟩ | ⟨⟨-, a⟩, -⟩ | a
  · rw [hc.2] at a; omega
  · rw [hrec] at a; simp at a
  · exact a
  · exact absurd hs (a.resolve_left (by rw [ho.2]; simp))
  · exact absurd a (not_twin (ht _ (List.prefix_refl _)))

/-- Non-vacuity: sockets 0 and 2 are in "/" and "red", socket 1 in "/chat".  `Join`, a bulk call on "red" except the room of socket 2,
and the end of another socket. -/
example : let h := Demo.two
    (∀ e ∈ [World.Ev.join 0 ["x"], .socketsJoin 0 ["red"] [Demo.ident 2] {} ["x"], .socketsLeave 0 [] [] {} ["red"], .disconnect 2 true,
        .leave 0 "red", .leave 2 "red"],
      NextOnce (h ++ [e]) ∧ IsOpen (run Demo.cfg h) 0 ∧ IsOpen (run Demo.cfg (h ++ [e])) 0) ∧
    (["red", "x"].map fun room => decide (SitsIn (run Demo.cfg h) 0 room)) = [true, false] ∧
    (["red", "x"].map fun room => decide (SitsIn (run Demo.cfg (h ++ [.socketsJoin 0 ["red"] [Demo.ident 2] {} ["x"]])) 0 room)) = [true, true] ∧
    (["red", "x"].map fun room => decide (SitsIn (run Demo.cfg (h ++ [.socketsJoin 0 ["red"] [Demo.ident 2] {} ["x"]])) 2 room)) = [true, false] ∧
    (["red", "x"].map fun room => decide (SitsIn (run Demo.cfg (h ++ [.leave 2 "red"])) 0 room)) = [true, false] ∧
    (["red", "x"].map fun room => decide (SitsIn (run Demo.cfg (h ++ [.disconnect 2 true])) 0 room)) = [true, false] := by decide

/-- The remaining hypotheses, for the bulk call. -/
example : NeverTwins Demo.cfg (Demo.two ++ [.socketsJoin 0 ["red"] [Demo.ident 2] {} ["x"]]) ∧ OwnHooks Demo.cfg ∧
    ((run Demo.cfg Demo.two).socks 0).connected = true ∧ ¬ StaleLeave (run Demo.cfg Demo.two) 0 (.leave 2 "red") :=
  ⟨neverTwins_fresh (by decide) rfl Demo.ident_inj (by decide), fun _ _ ha => absurd ha (by simp [Demo.cfg]), by decide,
    fun h => absurd h.2.2.1 (by decide)⟩

/-- Non-vacuity of the others: a client connects, its socket is created by the second event and connected by the third. -/
example : CreatedBy Demo.cfg [.accept false] (.recv 0 .connect "/" none) 0 ∧
    ((run Demo.cfg [.accept false, .recv 0 .connect "/" none]).socks 0).recovered = false ∧
    ((run Demo.cfg [.accept false, .recv 0 .connect "/" none]).socks 0).connected = false ∧
    ((run Demo.cfg [.accept false, .recv 0 .connect "/" none, .task 0]).socks 0).connected = true ∧
    SitsIn (run Demo.cfg [.accept false, .recv 0 .connect "/" none, .task 0]) 0 "" := by unfold CreatedBy; decide

/-- **C85 fails for stale objects**: the session of a socket in "red" is recovered by another one; `Leave` on the first one, which is over,
takes the second one out of "red". -/
theorem C85_stale_fails : ∃ (cfg : World.Cfg) (h : List World.Ev) (e : World.Ev) (r ref : Nat), NextOnce (h ++ [e]) ∧
    IsOpen (run cfg h) r ∧ IsOpen (run cfg (h ++ [e])) r ∧ ((run cfg h).socks r).connected = true ∧ ¬ IsOpen (run cfg h) ref ∧
    e = .leave ref "red" ∧ SitsIn (run cfg h) r "red" ∧ ¬ SitsIn (run cfg (h ++ [e])) r "red" :=
  ⟨Demo.scfg true, Demo.lost ++ [Demo.back], .leave 0 "red", 1, 0, by decide, by decide, by decide, by decide, by decide, rfl, by decide, by decide⟩

end Verif.Props
