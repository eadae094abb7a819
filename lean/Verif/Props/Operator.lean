import Verif.Proof.Operator
import Verif.Props.Targeting

/-! # C04, C05, C34, C36, C57: operators, modifiers and emission -/

namespace Verif.Props
open Verif Verif.Operator Verif.Spec

/-- The meaning of the `k`-th operator created by a program. -/
def opVal (rec : Bool) (prog : List Cmd) (k : Nat) : Option OpVal :=
  ((run rec prog).ops[k]?).map fun o => ⟨(run rec prog).set o.rooms, (run rec prog).set o.except, (run rec prog).flag o.flags⟩

theorem opVal_some {rec : Bool} {prog : List Cmd} {k : Nat} {v : OpVal} :
    opVal rec prog k = some v ↔ ∃ o, (run rec prog).ops[k]? = some o ∧ (run rec prog).val o = v := by
  unfold opVal; simp [Option.map_eq_some_iff]; rfl

/-- **C05, immutability.**  Whatever calls come later, on operators, sockets or other operators derived
from it, an operator keeps its targeted rooms, exceptions and flags. -/
theorem C05_immutable (rec : Bool) (prog later : List Cmd) (k : Nat) (v : OpVal)
    (hk : opVal rec prog k = some v) : opVal rec (prog ++ later) k = some v := by
  obtain ⟨o, ho, hv⟩ := opVal_some.1 hk
  rw [opVal_some, run_append]
  obtain ⟨h1, h2⟩ := foldl_old_op (sep_run rec prog) later k o ho
  exact ⟨o, h1, by rw [h2]; exact hv⟩

/-- **C05, chaining.**  A modifier returns one new operator (the next index) which relates to the one it
was called on as the English says: `To` and `Except` add to the sets, flag setters change their flag,
everything else is the same. -/
theorem C05_chain (rec : Bool) (prog : List Cmd) (k : Nat) (v : OpVal) (hk : opVal rec prog k = some v)
    (m : Mod) :
    ∃ v', opVal rec (prog ++ [.chain k m]) (run rec prog).ops.length = some v' ∧ ModRel v m v' := by
  obtain ⟨o, ho, hv⟩ := opVal_some.1 hk
  rcases ops_step (sep_run rec prog) (.chain k m) with ⟨o', h1, o0, h2, h3⟩ | ⟨_, h2⟩
  · refine ⟨_, opVal_some.2 ⟨o', ?_, rfl⟩, ?_⟩
    · rw [run_snoc, h1]; simp
    · rw [ho] at h2; cases h2; rw [hv] at h3; rw [run_snoc]; exact h3
  · simp only at h2; rw [ho] at h2; exact absurd h2 (by simp)

/-- C05, where operators start: a namespace's operator has no rooms, no exceptions and default flags;
a socket's has the socket's own id as exception and the socket's pending modifiers as flags. -/
theorem C05_start (rec : Bool) (prog : List Cmd) :
    opVal rec (prog ++ [.nspOp]) (run rec prog).ops.length = some ⟨[], [], {}⟩ ∧
    ∀ i s, (socksOf prog)[i]? = some s →
      opVal rec (prog ++ [.sockOp i]) (run rec prog).ops.length = some ⟨[], [s], pending i prog⟩ := by
  constructor
  · rcases ops_step (sep_run rec prog) .nspOp with ⟨o', h1, h2⟩ | ⟨_, h2⟩
    · exact opVal_some.2 ⟨o', by rw [run_snoc, h1]; simp, by rw [run_snoc]; exact h2⟩
    · exact h2.elim
  · intro i s hs
    rw [← socks_run rec prog, List.getElem?_map, Option.map_eq_some_iff] at hs
    obtain ⟨sk, hs, rfl⟩ := hs
    rcases ops_step (sep_run rec prog) (.sockOp i) with ⟨o', h1, s', h2, h3⟩ | ⟨_, h2⟩
    · rw [hs] at h2; cases h2
      refine opVal_some.2 ⟨o', by rw [run_snoc, h1]; simp, ?_⟩
      rw [run_snoc, h3, pending_run rec prog i sk hs]
    · simp only at h2; rw [hs] at h2; exact absurd h2 (by simp)

/-- Two modifiers that set different things. -/
def Independent : Mod → Mod → Prop
  | .compress _, .compress _ => False
  | .timeout _, .timeout _ => False
  | _, _ => True

/-- C05, order: two modifiers that do not set the same flag can be chained in either order. -/
theorem C05_order (a b c b' c' : OpVal) (m m' : Mod) (hi : Independent m m')
    (h1 : ModRel a m b) (h2 : ModRel b m' c) (h3 : ModRel a m' b') (h4 : ModRel b' m c') :
    OpVal.Same c c' := by
  unfold OpVal.Same
  cases m <;> cases m' <;> simp only [ModRel, Independent] at * <;>
    simp [h1, h2, h3, h4, or_comm, or_left_comm]

/-- C05, use: an emission through an operator passes exactly its rooms, exceptions and flags to the
adapter. -/
theorem C05_emit (rec : Bool) (prog : List Cmd) (k : Nat) (v : OpVal) (hk : opVal rec prog k = some v)
    (ev : String) (hev : ¬ IsReserved ev) (args : List Val) (hargs : ∀ n, args.getLast? ≠ some (.fn n)) :
    (run rec (prog ++ [.emit k ev args])).out = (run rec prog).out ++
      [.broadcast { type := .event, data := .args (.str ev :: args) } v.rooms v.except v.flags] := by
  obtain ⟨o, ho, rfl⟩ := opVal_some.1 hk
  rw [run_snoc]
  simp only [step, ho, emit]
  rw [if_neg (fun h => hev ((mem_reserved ev).1 h)), splitAck_none ev args hargs]
  rfl

/-- C05, use with an acknowledgement: the callback is taken off the arguments. -/
theorem C05_emit_ack (rec : Bool) (prog : List Cmd) (k : Nat) (v : OpVal) (hk : opVal rec prog k = some v)
    (ev : String) (hev : ¬ IsReserved ev) (args : List Val) (cb : Nat) :
    (run rec (prog ++ [.emit k ev (args ++ [.fn cb])])).out = (run rec prog).out ++
      [.broadcastAck { type := .event, data := .args (.str ev :: args) } v.rooms v.except v.flags cb] := by
  obtain ⟨o, ho, rfl⟩ := opVal_some.1 hk
  rw [run_snoc]
  simp only [step, ho, emit]
  rw [if_neg (fun h => hev ((mem_reserved ev).1 h)), splitAck_fn ev args cb]
  rfl

/-- A program for the examples: a socket with pending modifiers makes an operator, is modified again,
the operator is refined twice. -/
def demoProg : List Cmd :=
  [.newSock "a", .newSock "b", .sockMod 0 .volatile, .sockOp 0, .sockMod 0 (.timeout 5),
   .chain 0 (.to ["x"]), .chain 0 (.except ["y"]), .nspOp, .chain 3 (.compress true)]

/-- Non-vacuity for C05. -/
example : (opVal false demoProg 1).map (fun v => (v.rooms, v.except, v.flags)) =
      some (["x"], ["a"], { volatile := true }) ∧
    (opVal false demoProg 0).map (fun v => (v.rooms, v.except, v.flags)) =
      some ([], ["a"], { volatile := true }) ∧
    Independent (.to ["x"]) (.except ["y"]) := ⟨by decide, by decide, trivial⟩

/-- **C34.**  The emission made by socket `i` carries exactly the modifiers set on it since its last
emission or operator creation, and afterwards none is pending.  Acknowledgement timeouts likewise. -/
theorem C34_one_emission (rec : Bool) (prog : List Cmd) (i : Nat) (s : Sid) (hs : (socksOf prog)[i]? = some s)
    (ev : String) (hev : ¬ IsReserved ev) (args : List Val) (hargs : ∀ n, args.getLast? ≠ some (.fn n)) :
    (run rec (prog ++ [.sockEmit i ev args])).out = (run rec prog).out ++
      [if rec then .broadcast { type := .event, data := .args (.str ev :: args) } [s] [] (pending i prog)
       else .packet i { type := .event, data := .args (.str ev :: args) } (pending i prog)] := by
  rw [← socks_run rec prog, List.getElem?_map, Option.map_eq_some_iff] at hs
  obtain ⟨sk, hs, rfl⟩ := hs
  rw [run_snoc]
  simp only [step, hs, sockEmit]
  rw [if_neg (fun h => hev ((mem_reserved ev).1 h)), splitAck_none ev args hargs]
  dsimp only
  rw [(sockSend_spec (sep_run rec prog) sk hs _).2.2.2.2.2.2, recovery_run, pending_run rec prog i sk hs]

/-- C34 with an acknowledgement: a fresh id, and the callback is registered under it with the pending
timeout. -/
theorem C34_one_emission_ack (rec : Bool) (prog : List Cmd) (i : Nat) (s : Sid)
    (hs : (socksOf prog)[i]? = some s)
    (ev : String) (hev : ¬ IsReserved ev) (args : List Val) (cb : Nat) :
    let id := (run rec prog).ids + 1
    (run rec (prog ++ [.sockEmit i ev (args ++ [.fn cb])])).ids = id ∧
    (run rec (prog ++ [.sockEmit i ev (args ++ [.fn cb])])).out = (run rec prog).out ++
      [if rec then .broadcast { type := .event, data := .args (.str ev :: args), id := some id } [s] [] (pending i prog)
       else .packet i { type := .event, data := .args (.str ev :: args), id := some id } (pending i prog)] ∧
    ∃ sk sk', (run rec prog).socks[i]? = some sk ∧
      (run rec (prog ++ [.sockEmit i ev (args ++ [.fn cb])])).socks[i]? = some sk' ∧
      sk'.acks = sk.acks ++ [(id, cb, (pending i prog).timeout)] := by
  rw [← socks_run rec prog, List.getElem?_map, Option.map_eq_some_iff] at hs
  obtain ⟨sk, hs, rfl⟩ := hs
  dsimp only
  rw [run_snoc]
  simp only [step, hs, sockEmit]
  rw [if_neg (fun h => hev ((mem_reserved ev).1 h)), splitAck_fn ev args cb]
  dsimp only
  have hp := pending_run rec prog i sk hs
  obtain ⟨_, _, _, h4, h5, _, h7⟩ := sockSend_spec (sep_ids (sep_run rec prog) ((run rec prog).ids + 1) (run rec prog).out)
    (s := { sk with acks := sk.acks ++ [((run rec prog).ids + 1, cb, ((run rec prog).flag sk.flags).timeout)] })
    sk hs { type := .event, data := .args (.str ev :: args), id := some ((run rec prog).ids + 1) }
  refine ⟨h4, ?_, sk, ?_⟩
  · refine Eq.trans h7 ?_
    rw [← hp]
    dsimp only
    rw [recovery_run]
    rfl
  · refine ⟨{ sk with acks := sk.acks ++ [((run rec prog).ids + 1, cb, ((run rec prog).flag sk.flags).timeout)], flags := (run rec prog).flags.length }, rfl, ?_, ?_⟩
    · refine (congrArg (·[i]?) h5).trans ?_
      exact List.getElem?_set_self (List.getElem?_eq_some_iff.1 hs).1
    · dsimp only; rw [hp]

/-- **C34, used up**: once the socket has emitted or has made an operator, an emission carries no modifier set before that,
whatever other calls are made in between, as long as none of them sets a modifier on this socket. -/
theorem C34_used_up (rec : Bool) (prog t : List Cmd) (i : Nat) (s : Sid) (hs : (socksOf (prog ++ t))[i]? = some s) (use : Cmd)
    (huse : use = .sockOp i ∨ ∃ ev args, ¬ IsReserved ev ∧ use = .sockEmit i ev args)
    (ht : ∀ m, .sockMod i m ∉ t)
    (ev : String) (hev : ¬ IsReserved ev) (args : List Val) (hargs : ∀ n, args.getLast? ≠ some (.fn n)) :
    (run rec (prog ++ [use] ++ t ++ [.sockEmit i ev args])).out = (run rec (prog ++ [use] ++ t)).out ++
      [if rec then .broadcast { type := .event, data := .args (.str ev :: args) } [s] [] {}
       else .packet i { type := .event, data := .args (.str ev :: args) } {}] := by
  have hsk : socksOf (prog ++ [use] ++ t) = socksOf (prog ++ t) := by
    have hu : socksRev (use :: prog.reverse) = socksRev prog.reverse := by
      rcases huse with rfl | ⟨_, _, _, rfl⟩ <;> rfl
    have key : ∀ l : List Cmd, socksRev (l ++ use :: prog.reverse) = socksRev (l ++ prog.reverse) := by
      intro l
      induction l with
      | nil => exact hu
      | cons c l ih => cases c <;> simp [socksRev, ih]
    simpa [socksOf] using key t.reverse
  have hpend : pending i (prog ++ [use] ++ t) = {} := by
    have hu : pendingRev i (use :: prog.reverse) = {} := by
      rcases huse with rfl | ⟨_, _, h, rfl⟩
      · simp [pendingRev]
      · simp [pendingRev, h]
    have key : ∀ l : List Cmd, (∀ m, .sockMod i m ∉ l) → pendingRev i (l ++ use :: prog.reverse) = {} := by
      intro l
      induction l with
      | nil => intro _; exact hu
      | cons c l ih =>
        intro hl
        have ih := ih (fun m hm => hl m (by simp [hm]))
        cases c with
        | sockMod j m =>
          have : j ≠ i := by rintro rfl; exact hl m (by simp)
          simp [pendingRev, this, ih]
        | newSock id => simp [pendingRev, ih]
        | sockOp j => simp [pendingRev, ih]
        | sockEmit j e a => simp [pendingRev, ih]
        | _ => simpa [pendingRev] using ih
    have := key t.reverse (fun m hm => ht m (by simpa using hm))
    simpa [pending] using this
  have := C34_one_emission rec (prog ++ [use] ++ t) i s (by rw [hsk]; exact hs) ev hev args hargs
  rw [hpend] at this
  exact this

/-- Non-vacuity for C34. -/
example : (socksOf demoProg)[0]? = some "a" ∧ ¬ IsReserved "hello" ∧ pending 0 demoProg = { timeout := some 5 } ∧
    pending 1 demoProg = {} := by decide

/-- **C36.**  Emitting a reserved name through a socket or an operator returns the error and changes
nothing: operators, flags, registered callbacks, id counter. -/
theorem C36_reserved (rec : Bool) (prog : List Cmd) (ev : String) (hev : IsReserved ev) (args : List Val)
    (c : Cmd) (hc : (∃ i, c = .sockEmit i ev args ∧ i < (socksOf prog).length) ∨
      ∃ k, c = .emit k ev args ∧ k < (run rec prog).ops.length) :
    run rec (prog ++ [c]) = { run rec prog with out := (run rec prog).out ++ [.error ev] } := by
  have hm := (mem_reserved ev).2 hev
  rw [run_snoc]
  rcases hc with ⟨i, rfl, hi⟩ | ⟨k, rfl, hk⟩
  · have hi' : i < (run rec prog).socks.length := by
      rw [← socks_run rec prog] at hi; simpa using hi
    simp only [step, List.getElem?_eq_getElem hi', sockEmit, if_pos hm]
  · simp only [step, List.getElem?_eq_getElem hk, emit, if_pos hm]

/-- C36: no error is ever returned for any other name. -/
theorem C36_accepted (rec : Bool) (prog : List Cmd) (ev : String)
    (he : Out.error ev ∈ (run rec prog).out) : IsReserved ev := by
  induction prog using snocRec with
  | nil => simp [run] at he
  | append_singleton h c ih =>
    rw [run_snoc] at he
    have hsep := sep_run rec h
    generalize run rec h = st at *
    cases c with
    | newSock id => exact ih he
    | nspOp => exact ih he
    | remoteOp id => exact ih he
    | sockOp i =>
      simp only [step] at he; split at he
      · rename_i s hs; rw [(sockOp_spec hsep hs).2.2.1] at he; exact ih he
      · exact ih he
    | chain k m =>
      simp only [step] at he; split at he
      · rename_i o ho
        obtain ⟨_, _, _, h3, _⟩ := chain_spec hsep (List.mem_of_getElem? ho) m
        rw [h3] at he; exact ih he
      · exact ih he
    | sockMod i m =>
      simp only [step] at he; split at he
      · cases m <;> exact ih he
      · exact ih he
    | emit k ev' args =>
      simp only [step] at he; split at he
      · unfold emit at he; split at he
        · rename_i hr
          simp only [List.mem_append, List.mem_singleton, Out.error.injEq] at he
          rcases he with he | he
          · exact ih he
          · rw [he]; exact (mem_reserved ev').1 hr
        · dsimp only at he
          split at he <;> simp at he <;> exact ih he
      · exact ih he
    | sockEmit i ev' args =>
      simp only [step] at he; split at he
      · rename_i s hs
        unfold sockEmit at he; split at he
        · rename_i hr
          simp only [List.mem_append, List.mem_singleton, Out.error.injEq] at he
          rcases he with he | he
          · exact ih he
          · rw [he]; exact (mem_reserved ev').1 hr
        · dsimp only at he
          split at he
          · rw [(sockSend_spec hsep s hs _).2.2.2.2.2.2, List.mem_append] at he
            rcases he with he | he
            · exact ih he
            · split at he <;> simp at he
          · rw [(sockSend_spec (sep_ids hsep (st.ids + 1) st.out) s hs _).2.2.2.2.2.2, List.mem_append] at he
            rcases he with he | he
            · exact ih he
            · split at he <;> simp at he
      · exact ih he

/-- Non-vacuity for C36: both kinds of emitter exist, and there is an error in the output. -/
example : IsReserved "disconnect" ∧ 0 < (socksOf demoProg).length ∧ 0 < (run true demoProg).ops.length ∧
    (run true (demoProg ++ [.emit 0 "disconnect" []])).out = [.error "disconnect"] := by decide

open Verif.Delivery Verif.Adapter in
/-- **C04, the part that holds.**  Missing: sockets that left the room named after their own id (see
`C04_sender_false`).  An operator that stems from a socket with id `s`, through any chain of calls in any
program, does not reach `s` as long as `s` is in the room named after its id. -/
theorem C04_sender_partial (rec : Bool) (prog : List Cmd) (k : Nat) (v : OpVal) (s : Sid)
    (hk : opVal rec prog k = some v) (ho : (originsOf prog)[k]? = some (some s))
    (n : Nsp) (hn : OK n) (p : Pkt) (hroom : s ∈ roomsOf n.ad s) :
    ∃ ids : List Sid, ∃ ptr : Sid → Nat, s ∉ ids ∧ (∀ x ∈ ids, n.sockets.get? x = some (ptr x)) ∧
      broadcast n p (some { rooms := some v.rooms, except := some v.except, flags := some v.flags }) =
        { n with out := n.out ++ ids.map (fun x => (ptr x, p)) } := by
  obtain ⟨ids, ptr, _, h2, h3, h4⟩ := C03_broadcast n hn p v.rooms v.except (some v.flags)
  refine ⟨ids, ptr, ?_, h3, h4⟩
  intro hmem
  obtain ⟨o, ho', hv⟩ := opVal_some.1 hk
  have hex := (origins_run rec prog).2 k o s ho' ho
  rw [hv] at hex
  exact ((h2 s).1 hmem).2.2 ⟨s, hex, hroom⟩

/-- Non-vacuity for C04. -/
example : (originsOf demoProg)[1]? = some (some "a") ∧ (opVal false demoProg 1).isSome ∧
    "a" ∈ Adapter.roomsOf demo.ad "a" := by decide

open Verif.Delivery Verif.Adapter in
/-- **C04 is false as stated**: after `socket.Leave(Room(socket.Id()))` the socket's own broadcast
reaches the socket. -/
theorem C04_sender_false :
    ¬ ∀ (prog : List Cmd) (k : Nat) (v : OpVal) (s : Sid) (ref : Nat), opVal false prog k = some v →
      (originsOf prog)[k]? = some (some s) → ∀ (n : Nsp), OK n → n.sockets.get? s = some ref → ∀ p,
      (ref, p) ∉ (broadcast { n with out := [] } p
        (some { rooms := some v.rooms, except := some v.except, flags := some v.flags })).out := by
  intro hall
  have hok : OK { demo with ad := (del true demo.ad "a" "a").1 } := by
    have h := demo_ok
    have hd := del_spec h.inv true "a" "a"
    refine ok_of_inv hd.1 h.ownId h.mayJoin ?_
    intro s ref hs
    have := h.known s ref hs
    revert this
    show s ∈ demo.ad.sids.keys → s ∈ (del true demo.ad "a" "a").1.sids.keys
    have h1 : demo.ad.sids.keys = ["c", "b", "a"] := by decide
    have h2 : (del true demo.ad "a" "a").1.sids.keys = ["a", "c", "b"] := by decide
    rw [h1, h2]; simp; grind
  have := hall [.newSock "a", .sockOp 0, .chain 0 (.to ["x"])] 1 ⟨["x"], ["a"], {}⟩ "a" 1
    (opVal_some.2 ⟨⟨2, 1, 2⟩, by decide, rfl⟩) (by decide) _ hok (by decide) { type := .event }
  revert this
  decide

end Verif.Props

namespace Verif.Props
open Verif Verif.Operator Verif.Spec Verif.Delivery Verif.Adapter

/-- **C57, the part that holds.**  Without connection state recovery an emission made on socket `i` is
one packet for socket `i` and nothing else.  With recovery it is a broadcast to the room named after
the socket's id; it reaches exactly this socket provided the socket is registered and in that room and
no other registered socket is in it.  Missing: the case where another socket joined that room or the
socket left it, see `C57_emit_only_self_false`. -/
theorem C57_emit_only_self_partial (prog : List Cmd) (i : Nat) (s : Sid) (hs : (socksOf prog)[i]? = some s)
    (ev : String) (hev : ¬ IsReserved ev) (args : List Val) (hargs : ∀ n, args.getLast? ≠ some (.fn n)) :
    (run false (prog ++ [.sockEmit i ev args])).out = (run false prog).out ++
      [.packet i { type := .event, data := .args (.str ev :: args) } (pending i prog)] ∧
    ∃ p rooms except f,
      (run true (prog ++ [.sockEmit i ev args])).out = (run true prog).out ++ [.broadcast p rooms except f] ∧
      p = { type := .event, data := .args (.str ev :: args) } ∧
      ∀ (n : Nsp), OK n → ∀ ref, n.sockets.get? s = some ref → s ∈ roomsOf n.ad s →
        (∀ x, Connected n x → s ∈ roomsOf n.ad x → x = s) →
        ∀ q, broadcast n q (some { rooms := some rooms, except := some except, flags := some f }) =
          { n with out := n.out ++ [(ref, q)] } := by
  refine ⟨C34_one_emission false prog i s hs ev hev args hargs, _, [s], [], pending i prog,
    C34_one_emission true prog i s hs ev hev args hargs, rfl, ?_⟩
  intro n hn ref hreg hown honly q
  obtain ⟨ids, ptr, h1, h2, h3, h4⟩ := C03_broadcast n hn q [s] [] (some (pending i prog))
  rw [h4]
  have hids : ∀ x, x ∈ ids ↔ x = s := by
    intro x
    rw [h2]
    constructor
    · rintro ⟨hc, hm | ⟨r, hr, hr'⟩, _⟩
      · simp at hm
      · simp only [List.mem_singleton] at hr; subst hr; exact honly x hc hr'
    · rintro rfl
      exact ⟨⟨ref, hreg⟩, .inr ⟨x, by simp, hown⟩, by simp⟩
  have hone : ids = [s] := by
    cases ids with
    | nil => exact absurd ((hids s).2 rfl) (by simp)
    | cons a l =>
      have ha := (hids a).1 (by simp)
      cases l with
      | nil => rw [ha]
      | cons b l =>
        have hb := (hids b).1 (by simp)
        rw [ha, hb] at h1; simp at h1
  rw [hone]
  have : ptr s = ref := by
    have := h3 s (by rw [hone]; simp)
    rw [hreg] at this; exact (Option.some.inj this).symm
  simp [this]

/-- Non-vacuity for C57. -/
example : (socksOf demoProg)[0]? = some "a" ∧ ¬ IsReserved "hello" ∧ demo.sockets.get? "a" = some 1 ∧
    "a" ∈ roomsOf demo.ad "a" ∧ (∀ x ∈ ["b", "c"], "a" ∉ roomsOf demo.ad x) := by decide

/-- A namespace in which socket `b` joined the room named after socket `a`'s id. -/
def nosy : Nsp := { demo with ad := (addAll demo.ad "b" ["a"]).1 }

theorem nosy_ok : OK nosy := by
  have h := demo_ok
  have hd := addAll_spec h.inv "b" ["a"]
  refine ok_of_inv hd.1 h.ownId h.mayJoin ?_
  intro s ref hs
  exact (hd.2.2 s).2 (.inr (h.known s ref hs))

/-- **C57 is false with recovery**: `socket.Emit` on socket `a` also reaches socket `b`, which joined
the room named after `a`'s id. -/
theorem C57_emit_only_self_false :
    ¬ ∀ (prog : List Cmd) (i : Nat) (s : Sid) (p : Pkt) (rooms except : List Room) (f : Flags),
      (socksOf prog)[i]? = some s →
      (run true (prog ++ [.sockEmit i "hello" []])).out = (run true prog).out ++ [.broadcast p rooms except f] →
      ∀ (n : Nsp), OK n → ∀ x ref, n.sockets.get? x = some ref → x ≠ s →
        (ref, p) ∉ (broadcast { n with out := [] } p
          (some { rooms := some rooms, except := some except, flags := some f })).out := by
  intro hall
  have := hall [.newSock "a"] 0 "a" { type := .event, data := .args [.str "hello"] } ["a"] [] {}
    (by decide) (by decide) nosy nosy_ok "b" 2 (by decide) (by decide)
  revert this; decide

end Verif.Props
