import Verif.Proof.Slices

/-! # C91, C92: the slices that hold the arguments of events -/

namespace Verif.Props
open Verif Verif.Spec Verif.Slices

/-- **C91 (partial).** As long as the program neither writes into one of its arrays itself nor passes a slice of it with room behind it to
`EmitWithAck`, nothing in the array changes: not while the library copies, keeps, encodes and sends the arguments, whatever other
goroutines and listeners do, and not when packets are sent again to clients that recover.
What is missing: `EmitWithAck` writes the callback behind a slice that has room (`C91_overwrites`, `C91_fails`). -/
theorem C91_partial (spare : Nat → Nat) (h t : List Slices.Ev) (x : Nat) (hx : x ∈ (Slices.run spare h).own)
    (hw : ∀ a e b, t = a ++ e :: b → ¬ WritesInto (Slices.run spare (h ++ a)) e x) :
    (Slices.run spare (h ++ t)).mem x = (Slices.run spare h).mem x := by
  have key : x ∈ (Slices.run spare (h ++ t)).own ∧ (Slices.run spare (h ++ t)).mem x = (Slices.run spare h).mem x := by
    induction t using snocRec with
    | nil => rw [List.append_nil]; exact ⟨hx, rfl⟩
    | append_singleton t e ih =>
      obtain ⟨h1, h2⟩ := ih fun a e' b hb => hw a e' (b ++ [e]) (by rw [hb]; simp)
      rw [← List.append_assoc, run_snoc]
      exact ⟨own_grows h1, (own_mem h1 (hw t e [] (by simp))).trans h2⟩
  exact key.2

/-- The program has a slice with room behind it, and emits it in all ways but `EmitWithAck`; a listener writes into what it gets. -/
def Demo.slicesHist : List Slices.Ev :=
  [.emit (.cast (some "7") 1) "news" 0, .emit (.direct 1) "hello" 0, .adv 0, .adv 0, .adv 0, .scribble 1 [.str "x", .str "y"], .adv 1, .adv 1, .replay 0]

example : 0 ∈ (Slices.run (fun n => n) [.make [.str "a", .str "b"] 3]).own ∧
    (Slices.run (fun n => n) (.make [.str "a", .str "b"] 3 :: Demo.slicesHist)).sent.length = 2 ∧
    (Slices.run (fun n => n) (.make [.str "a", .str "b"] 3 :: Demo.slicesHist)).replayed = [(0, [.str "x", .str "y", .str "b", .str "7"])] ∧
    (Slices.run (fun n => n) (.make [.str "a", .str "b"] 3 :: Demo.slicesHist)).mem 0 =
      [.str "a", .str "b", Slices.blank, Slices.blank, Slices.blank] := by decide

/-- **C91, what happens otherwise.** If the slice given to `EmitWithAck` has room behind it, the callback is written there, and nothing
else in any array there was is changed. -/
theorem C91_overwrites (spare : Nat → Nat) (h : List Slices.Ev) (kind : Slices.Kind) (ev : String) (k f : Nat) (a : Slices.Slice)
    (hp : (Slices.run spare h).panicked = false) (ha : (Slices.run spare h).held[k]? = some a) (hc : a.len < a.cap) (x i : Nat)
    (hx : x < (Slices.run spare h).next) :
    ((Slices.run spare (h ++ [.emitAck kind ev k f])).mem x)[i]? =
      if x = a.arr ∧ i = a.off + a.len then some (.fn f) else ((Slices.run spare h).mem x)[i]? := by
  obtain ⟨h1, h2, h3⟩ := (inv_run (spare := spare) h).held a (List.mem_of_getElem? ha)
  have h3' : a.off + a.cap ≤ ((Slices.run spare h).mem a.arr).length := by rcases h3 with h3 | h3 <;> omega
  rw [run_snoc, step_emitAck hp ha]
  show (((Slices.run spare h).append spare a (.fn f)).1.mem x)[i]? = _
  unfold St.append
  rw [if_pos hc]
  simp only [write_mem]
  by_cases e : x = a.arr
  · subst e
    rw [if_pos rfl, put_get (by omega)]
    simp only [List.length_singleton, true_and]
    by_cases h4 : i < a.off + a.len
    · rw [if_pos h4, if_neg (by omega)]
    · rw [if_neg h4]
      by_cases h5 : i = a.off + a.len
      · subst h5; simp
      · rw [if_neg (by omega), if_neg h5]
  · rw [if_neg e, if_neg (fun h => e h.1)]

example : (Slices.run (fun n => n) [.make [.str "a", .str "b"] 0, .reslice 0 0 1]).held[1]? = some ⟨0, 0, 1, 2⟩ := by decide

/-- **C91 does not hold in full.** The program has `full := []any{"a", "b"}` and calls `EmitWithAck("e", full[:1]...)`; then `full[1]`
is the callback. -/
theorem C91_fails : ∃ (h : List Slices.Ev) (e : Slices.Ev) (full : Slices.Slice), (Slices.run (fun n => n) h).held[0]? = some full ∧
    Slices.cells (Slices.run (fun n => n) h).mem full = [.str "a", .str "b"] ∧
    (∃ kind ev k f, e = .emitAck kind ev k f) ∧
    Slices.cells (Slices.run (fun n => n) (h ++ [e])).mem full = [.str "a", .fn 5] :=
  ⟨[.make [.str "a", .str "b"] 0, .reslice 0 0 1], .emitAck (.direct 0) "e" 1 5, ⟨0, 0, 2, 2⟩, by decide, by decide, ⟨_, _, _, _, rfl⟩, by decide⟩

/-- **C91, the callback (partial).** If the slice given to `EmitWithAck` has no room behind it, the callback that is registered for the
emission is the one that was given, whatever other goroutines do in between, also with the same slice; nothing is sent before; and what
is sent to many is the event with the arguments given.
What is missing: slices with room behind them (`C91_callback_fails`). -/
theorem C91_callback_partial (spare : Nat → Nat) (h t : List Slices.Ev) (kind : Slices.Kind) (ev : String) (i f : Nat) (a : Slices.Slice)
    (hp : (Slices.run spare h).panicked = false) (ha : (Slices.run spare h).held[i]? = some a) (hc : a.len = a.cap) :
    let s := Slices.run spare (h ++ .emitAck kind ev i f :: t)
    let k := (Slices.run spare h).ths.length
    let args := Slices.cells (Slices.run spare h).mem a
    (ofNum k s.callbacks = [] ∧ ofNum k s.sent = [] ∨ ofNum k s.callbacks = [f]) ∧
      (∀ id n, kind = .cast id n → ofNum k s.sent = [] ∨ ofNum k s.sent = [.str ev :: args]) := by
  intro s k args
  have hi := inv_run (spare := spare) h
  obtain ⟨u, hu⟩ := waiting_start (spare := spare) hi hp (kind := kind) (ev := ev) (f := f) ha hc
  rw [← run_snoc] at hu
  have hs : s = Slices.run spare (h ++ [.emitAck kind ev i f] ++ t) := by simp [s]
  have hcb : callbackIn (args ++ [.fn f]) = some f := by simp [callbackIn]
  have hwa : withoutAck (args ++ [.fn f]) = args := by simp [withoutAck]
  have hpay : payload kind ev (args ++ [.fn f]) = .str ev :: args := by
    unfold payload; rw [hcb, hwa]; split <;> simp
  rcases waiting_run hu t with hw | ⟨p, q, t', rfl, h1, h2⟩
  · rw [hs]
    obtain ⟨l1, l2, l3, l4, l5, l6⟩ := hw.logs
    exact ⟨.inl ⟨l4, l2⟩, fun _ _ _ => .inl l2⟩
  · rw [hcb, hpay, hwa] at h1
    have hpl := plan_ok kind ev (args ++ [.fn f])
    rw [hcb, hpay, hwa] at hpl
    rw [← List.append_assoc] at hs
    constructor
    · right
      -- the callback stays whatever happens
      have cb : ∀ q, (∀ v, (Slices.run spare (h ++ [.emitAck kind ev i f] ++ p ++ q)).ths[k]? = some v → ∀ c, Slices.Act.copy c ∉ v.todo) ∧
          k < (Slices.run spare (h ++ [.emitAck kind ev i f] ++ p ++ q)).ths.length ∧
          ofNum k (Slices.run spare (h ++ [.emitAck kind ev i f] ++ p ++ q)).callbacks = [f] := by
        intro q
        induction q using snocRec with
        | nil =>
          rw [List.append_nil]
          refine ⟨fun v hv c hc' => ?_, (List.getElem?_eq_some_iff.mp h1.th).1, h1.callbacks⟩
          rw [h1.th] at hv; cases hv
          exact hpl.copies c (by rw [← h1.split]; simp [hc'])
        | append_singleton q e ih =>
          obtain ⟨c1, c2, c3⟩ := ih
          rw [← List.append_assoc, run_snoc]
          exact callbacks_stay (inv_run _) c1 c2 c3 e
      rw [hs]
      exact (cb q).2.2
    · rintro id n rfl
      have hcast : Casting (Slices.run spare (h ++ [.emitAck (.cast id n) ev i f] ++ p)) k (plan (.cast id n) true) (.str ev :: args) (.str ev :: args) [f] [] t' :=
        ⟨h1, h2, by simp, n, .inl (by have := h1.split; simpa [plan] using this)⟩
      rw [hs]
      rcases casting_run hpl hcast q with ⟨g, v, hg⟩ | ⟨v, -, -, hd, -⟩
      · left
        rw [hg.track.sent, List.filterMap_eq_nil_iff]
        intro b hb
        obtain ⟨id', rfl⟩ := hg.unsent b hb
        rfl
      · exact .inr hd

/-- Two goroutines call `EmitWithAck` with the same slice, which has no room behind it. -/
example : (Slices.run (fun _ => 0) [.make [.str "a"] 0]).held[0]? = some ⟨0, 0, 1, 1⟩ ∧
    (Slices.run (fun _ => 0) [.make [.str "a"] 0, .emitAck (.cast none 0) "e" 0 5, .emitAck (.cast none 0) "e" 0 6, .adv 0, .adv 1, .adv 0]).callbacks =
      [(0, 5), (1, 6)] ∧
    (Slices.run (fun _ => 0) [.make [.str "a"] 0, .emitAck (.cast none 0) "e" 0 5, .emitAck (.cast none 0) "e" 0 6, .adv 0, .adv 1, .adv 0]).sent =
      [(0, [.str "e", .str "a"])] := by decide

/-- **C91, the callback, does not hold in full.** Two goroutines call `EmitWithAck` with the same slice, which has room behind it; the
answers to both emissions go to the callback of the second. -/
theorem C91_callback_fails : ∃ (h : List Slices.Ev), h = [.make [.str "a"] 1, .emitAck (.direct 0) "e" 0 5, .emitAck (.direct 0) "e" 0 6, .adv 0, .adv 1] ∧
    (Slices.run (fun n => n) h).callbacks = [(0, 6), (1, 6)] := ⟨_, rfl, by decide⟩

/-- **C92, packets for many.** What a broadcast sends is the event name and the arguments as they were when it was called (and the offset,
if the adapter keeps the packet), whatever the listeners and other goroutines do with the slices they get, and whatever the program then
does with its own. -/
theorem C92_cast (spare : Nat → Nat) (h t : List Slices.Ev) (id : Option String) (n : Nat) (ev : String) (i : Nat) (a : Slices.Slice)
    (hp : (Slices.run spare h).panicked = false) (ha : (Slices.run spare h).held[i]? = some a) :
    let s := Slices.run spare (h ++ .emit (.cast id n) ev i :: t)
    let k := (Slices.run spare h).ths.length
    let args := Slices.cells (Slices.run spare h).mem a
    (ofNum k s.sent = [] ∨ ofNum k s.sent = [payload (.cast id n) ev args]) ∧ ofNum k s.callbacks = (callbackIn args).toList := by
  intro s k args
  obtain ⟨u, h1, h2⟩ := emit_track (spare := spare) (inv_run h) hp (kind := .cast id n) (ev := ev) ha
  rw [← run_snoc] at h1 h2
  have hs : s = Slices.run spare (h ++ [.emit (.cast id n) ev i] ++ t) := by simp [s]
  have hcast : Casting (Slices.run spare (h ++ [.emit (.cast id n) ev i])) k (plan (.cast id n) (callbackIn args).isSome) (.str ev :: withoutAck args)
      (payload (.cast id n) ev args) (callbackIn args).toList [] u := by
    refine ⟨h1, h2, by simp, n, ?_⟩
    have hsp : u.todo = plan (.cast id n) (callbackIn args).isSome := h1.split
    rw [hsp]
    cases (callbackIn args).isSome <;> cases id <;> simp [plan]
  rw [hs]
  rcases casting_run (plan_ok _ _ _) hcast t with ⟨g, v, hg⟩ | ⟨v, -, -, hd, hcb⟩
  · refine ⟨.inl ?_, hg.track.callbacks⟩
    rw [hg.track.sent, List.filterMap_eq_nil_iff]
    intro b hb
    obtain ⟨id', rfl⟩ := hg.unsent b hb
    rfl
  · exact ⟨.inr hd, hcb⟩

example : (Slices.run (fun n => n) [.make [.str "a", .str "b"] 3]).held[0]? = some ⟨0, 0, 2, 5⟩ ∧
    ofNum 0 (Slices.run (fun n => n) (.make [.str "a", .str "b"] 3 :: Demo.slicesHist)).sent = [[.str "news", .str "a", .str "b", .str "7"]] := by decide

/-- **C92, emissions (partial).** As long as the program writes into no slice its listeners are called with, every emission sends what it
was called with; its catch-all listeners are called with this, and clients that recover are sent this.  Once the emission is through,
exactly one packet was sent and all `n` listeners were called.
What is missing: programs that do write into these slices (`C92_sent_fails`, `C92_replay_fails`). -/
theorem C92_partial (spare : Nat → Nat) (h t : List Slices.Ev) (kind : Slices.Kind) (ev : String) (i : Nat) (a : Slices.Slice)
    (hp : (Slices.run spare h).panicked = false) (ha : (Slices.run spare h).held[i]? = some a) (ho : HandsOff spare (h ++ [.emit kind ev i]) t) :
    let s := Slices.run spare (h ++ .emit kind ev i :: t)
    let k := (Slices.run spare h).ths.length
    let p := payload kind ev (Slices.cells (Slices.run spare h).mem a)
    let n := watchers kind
    (ofNum k s.sent <+: [p]) ∧ (ofNum k s.seen <+: List.replicate n p) ∧ (∀ x ∈ ofNum k s.replayed, x = p) ∧
      (s.ths[k]?.map (·.todo) = some [] → ofNum k s.sent = [p] ∧ ofNum k s.seen = List.replicate n p) := by
  intro s k p n
  obtain ⟨u, h1, -⟩ := emit_track (spare := spare) (inv_run h) hp (kind := kind) (ev := ev) ha
  rw [← run_snoc] at h1
  have hs : s = Slices.run spare (h ++ [.emit kind ev i] ++ t) := by simp [s]
  obtain ⟨g, v, hv⟩ := track_run (plan_ok _ _ _) h1 t ho
  rw [← hs] at hv
  have e1 : (plan kind (callbackIn (Slices.cells (Slices.run spare h).mem a)).isSome).filterMap (sentOf p) = [p] := by
    rw [plan_sent]
  have e2 : (plan kind (callbackIn (Slices.cells (Slices.run spare h).mem a)).isSome).filterMap (heardOf p) = List.replicate n p := by
    rw [plan_heard]
  have q1 : ofNum k s.sent ++ v.todo.filterMap (sentOf p) = [p] := by rw [hv.sent, ← List.filterMap_append, hv.split, e1]
  have q2 : ofNum k s.seen ++ v.todo.filterMap (heardOf p) = List.replicate n p := by rw [hv.seen, ← List.filterMap_append, hv.split, e2]
  refine ⟨⟨_, q1⟩, ⟨_, q2⟩, hv.replayed, fun hd => ?_⟩
  rw [hv.th] at hd
  have hd' : v.todo = [] := by simpa using hd
  rw [hd'] at q1 q2
  exact ⟨by simpa using q1, by simpa using q2⟩

/-- **C92, `EmitWithAck` (partial).** The same for `EmitWithAck` with a slice that has no room behind it. -/
theorem C92_ack_partial (spare : Nat → Nat) (h t : List Slices.Ev) (kind : Slices.Kind) (ev : String) (i f : Nat) (a : Slices.Slice)
    (hp : (Slices.run spare h).panicked = false) (ha : (Slices.run spare h).held[i]? = some a) (hc : a.len = a.cap)
    (ho : HandsOff spare (h ++ [.emitAck kind ev i f]) t) :
    let s := Slices.run spare (h ++ .emitAck kind ev i f :: t)
    let k := (Slices.run spare h).ths.length
    let p := .str ev :: Slices.cells (Slices.run spare h).mem a
    let n := watchers kind
    (ofNum k s.sent <+: [p]) ∧ (ofNum k s.seen <+: List.replicate n p) ∧
      (s.ths[k]?.map (·.todo) = some [] → ofNum k s.sent = [p] ∧ ofNum k s.seen = List.replicate n p ∧ ofNum k s.callbacks = [f]) := by
  intro s k p n
  have hi := inv_run (spare := spare) h
  obtain ⟨u, hu⟩ := waiting_start (spare := spare) hi hp (kind := kind) (ev := ev) (f := f) ha hc
  rw [← run_snoc] at hu
  have hs : s = Slices.run spare (h ++ [.emitAck kind ev i f] ++ t) := by simp [s]
  have hcb : callbackIn (Slices.cells (Slices.run spare h).mem a ++ [.fn f]) = some f := by simp [callbackIn]
  have hwa : withoutAck (Slices.cells (Slices.run spare h).mem a ++ [.fn f]) = Slices.cells (Slices.run spare h).mem a := by simp [withoutAck]
  have hpay : payload kind ev (Slices.cells (Slices.run spare h).mem a ++ [.fn f]) = p := by
    unfold payload; rw [hcb, hwa]; split <;> simp [p]
  rcases waiting_run hu t with hw | ⟨t1, t2, t', rfl, h1, h2⟩
  · rw [hs]
    obtain ⟨l1, l2, l3, l4, l5, l6⟩ := hw.logs
    refine ⟨by rw [l2]; exact List.nil_prefix, by rw [l1]; exact List.nil_prefix, fun hd => ?_⟩
    rw [hw.th] at hd
    simp [hw.todo] at hd
  · have hpl := plan_ok kind ev (Slices.cells (Slices.run spare h).mem a ++ [.fn f])
    rw [hcb, hpay, hwa] at h1 hpl
    rw [← List.append_assoc] at hs
    obtain ⟨g, v, hv⟩ := track_run hpl h1 t2 fun b e c hb x hx => by
      have := ho (t1 ++ b) e c (by rw [hb]; simp) x
      rw [← List.append_assoc] at this
      exact this hx
    rw [← hs] at hv
    have q1 : ofNum k s.sent ++ v.todo.filterMap (sentOf p) = [p] := by rw [hv.sent, ← List.filterMap_append, hv.split, plan_sent]
    have q2 : ofNum k s.seen ++ v.todo.filterMap (heardOf p) = List.replicate n p := by rw [hv.seen, ← List.filterMap_append, hv.split, plan_heard]
    refine ⟨⟨_, q1⟩, ⟨_, q2⟩, fun hd => ?_⟩
    rw [hv.th] at hd
    have hd' : v.todo = [] := by simpa using hd
    rw [hd'] at q1 q2
    exact ⟨by simpa using q1, by simpa using q2, hv.callbacks⟩

/-- **C92, events that arrive (partial).** As long as the program writes into no slice its listeners are called with, all the catch-all
listeners and middlewares of an event get the name, the arguments and the function to answer with as they arrived, and all the listeners of
the event, which are those of the name that arrived, the same without the name.
What is missing: programs that do write into these slices (`C92_seen_fails`, `C92_name_fails`). -/
theorem C92_received_partial (spare : Nat → Nat) (h t : List Slices.Ev) (name : String) (args : List Val) (ack : Option Nat) (n m : Nat)
    (hp : (Slices.run spare h).panicked = false) (ho : HandsOff spare (h ++ [.recv (.str name :: args) ack n m]) t) :
    let s := Slices.run spare (h ++ .recv (.str name :: args) ack n m :: t)
    let k := (Slices.run spare h).ths.length
    let c := args ++ ack.toList.map .fn
    (ofNum k s.seen <+: List.replicate n (.str name :: c) ++ List.replicate m c) ∧ (ofNum k s.fired <+: [name]) ∧
      (s.ths[k]?.map (·.todo) = some [] → ofNum k s.seen = List.replicate n (.str name :: c) ++ List.replicate m c ∧ ofNum k s.fired = [name]) := by
  intro s k c
  obtain ⟨u, h1⟩ := recv_track (spare := spare) (inv_run h) hp (.str name :: args) ack n m
  rw [← run_snoc] at h1
  have hs : s = Slices.run spare (h ++ [.recv (.str name :: args) ack n m] ++ t) := by simp [s]
  obtain ⟨g, v, hv⟩ := track_run (recv_ok n m _) h1 t ho
  rw [← hs] at hv
  have e1 : (recvPlan n m).filterMap (heardOf (.str name :: c)) = List.replicate n (.str name :: c) ++ List.replicate m c := recvPlan_heard n m name c
  have e2 : (recvPlan n m).filterMap (firedOf (.str name :: c)) = [name] := recvPlan_fired n m name c
  have q1 : ofNum k s.seen ++ v.todo.filterMap (heardOf (.str name :: c)) = List.replicate n (.str name :: c) ++ List.replicate m c := by
    rw [← e1, ← hv.split, List.filterMap_append]; exact congrArg (· ++ _) hv.seen
  have q2 : ofNum k s.fired ++ v.todo.filterMap (firedOf (.str name :: c)) = [name] := by
    rw [← e2, ← hv.split, List.filterMap_append]; exact congrArg (· ++ _) hv.fired
  refine ⟨⟨_, q1⟩, ⟨_, q2⟩, fun hd => ?_⟩
  rw [hv.th] at hd
  have hd' : v.todo = [] := by simpa using hd
  rw [hd'] at q1 q2
  exact ⟨by simpa using q1, by simpa using q2⟩

/-- **C92, the process (partial).** … and the process does not crash over the name of an event, if every event the decoder hands over begins
with one.
What is missing: programs that do write into these slices (`C92_crash`). -/
theorem C92_runs_partial (spare : Nat → Nat) (h : List Slices.Ev) (ho : HandsOff spare [] h)
    (hr : ∀ args ack n m, Slices.Ev.recv args ack n m ∈ h → ∃ name rest, args = .str name :: rest) : (Slices.run spare h).panicked = false := by
  refine (calm_run h ho fun args ack n m hm => ?_).1
  obtain ⟨name, rest, rfl⟩ := hr args ack n m hm
  rfl

/-- **C92 does not hold in full: what is sent.** A socket has a catch-all listener for outgoing packets, which changes the arguments in
the slice it is called with; the client gets the changed ones. -/
theorem C92_sent_fails : ∃ h : List Slices.Ev, h = [.make [.str "a"] 0, .emit (.direct 1) "e" 0, .adv 0, .scribble 1 [.str "e", .str "b"], .adv 0] ∧
    (Slices.run (fun n => n) h).sent = [(0, [.str "e", .str "b"])] ∧ (Slices.run (fun n => n) h).mem 0 = [.str "a"] := ⟨_, rfl, by decide⟩

/-- **C92 does not hold in full: what later listeners see.** Of the two listeners of an event the first changes its argument; the second
gets the changed one. -/
theorem C92_seen_fails : ∃ h : List Slices.Ev, h = [.recv [.str "e", .str "a"] none 0 2, .adv 0, .adv 0, .scribble 0 [.str "b"], .adv 0] ∧
    (Slices.run (fun n => n) h).seen = [(0, [.str "a"]), (0, [.str "b"])] := ⟨_, rfl, by decide⟩

/-- **C92 does not hold in full: recovery.** A catch-all listener for outgoing packets changes the arguments of a broadcast; the clients that
were there got the right ones, a client that recovers is sent the changed ones. -/
theorem C92_replay_fails : ∃ h : List Slices.Ev,
    h = [.make [.str "a"] 0, .emit (.cast (some "1") 1) "e" 0, .adv 0, .adv 0, .adv 0, .scribble 1 [.str "e", .str "b"], .replay 0] ∧
    (Slices.run (fun n => n) h).sent = [(0, [.str "e", .str "a", .str "1"])] ∧
    (Slices.run (fun n => n) h).replayed = [(0, [.str "e", .str "b", .str "1"])] := ⟨_, rfl, by decide⟩

/-- **C92 does not hold in full: whose listeners are called.** A catch-all listener changes the name of an event. -/
theorem C92_name_fails : ∃ h : List Slices.Ev, h = [.recv [.str "e", .str "a"] none 1 1, .adv 0, .scribble 0 [.str "other"], .adv 0] ∧
    (Slices.run (fun n => n) h).fired = [(0, "other")] := ⟨_, rfl, by decide⟩

/-- **C92 does not hold in full: a crash.** A catch-all listener puts a number where the name was; the process ends. -/
theorem C92_crash : ∃ h : List Slices.Ev, h = [.recv [.str "e", .str "a"] none 1 1, .adv 0, .scribble 0 [.num 1], .adv 0] ∧
    (Slices.run (fun n => n) h).panicked = true := ⟨_, rfl, by decide⟩

/-- The program keeps its hands off: it writes only into its own slice. -/
def Demo.slicesOff : List Slices.Ev :=
  [.adv 0, .adv 0, .scribble 0 [.str "z"], .adv 0, .recv [.str "ping", .str "q"] (some 3) 1 2, .adv 1, .adv 1, .adv 1, .adv 1, .replay 0]

theorem Demo.slicesOff_ok : HandsOff (fun n => n) ([.make [.str "a", .str "b"] 3] ++ [.emit (.cast (some "7") 1) "news" 0]) Demo.slicesOff := by
  intro a e b hb x hx
  -- the only step that writes is the second, into slice 0
  have hlen : a.length < 10 := by
    have := congrArg List.length hb
    simp [Demo.slicesOff] at this; omega
  have ha : a = Demo.slicesOff.take a.length := by rw [hb]; simp
  have he : Demo.slicesOff[a.length]? = some e := by rw [hb]; simp
  generalize a.length = n at ha he hlen
  subst ha
  have hn : n = 0 ∨ n = 1 ∨ n = 2 ∨ n = 3 ∨ n = 4 ∨ n = 5 ∨ n = 6 ∨ n = 7 ∨ n = 8 ∨ n = 9 := by omega
  rcases hx with ⟨k, xs, s, rfl, hk, rfl⟩ | ⟨kind, ev, k, f, s, rfl, -⟩
  · rcases hn with rfl | rfl | rfl | rfl | rfl | rfl | rfl | rfl | rfl | rfl <;>
      simp only [Demo.slicesOff, List.getElem?_cons_zero, List.getElem?_cons_succ, Option.some.injEq, reduceCtorEq, Slices.Ev.scribble.injEq] at he
    obtain ⟨rfl, rfl⟩ := he
    have e1 : (Slices.run (fun n => n) ([.make [.str "a", .str "b"] 3] ++ [.emit (.cast (some "7") 1) "news" 0] ++ Demo.slicesOff.take 2)).held[0]? = some ⟨0, 0, 2, 5⟩ := by
      decide
    rw [e1] at hk
    cases hk
    decide
  · rcases hn with rfl | rfl | rfl | rfl | rfl | rfl | rfl | rfl | rfl | rfl <;>
      simp [Demo.slicesOff] at he

/-- What the theorems then say of an emission that is kept and an event that arrives. -/
example :
    let s := Slices.run (fun n => n) ([.make [.str "a", .str "b"] 3] ++ .emit (.cast (some "7") 1) "news" 0 :: Demo.slicesOff)
    s.sent = [(0, [.str "news", .str "a", .str "b", .str "7"])] ∧ s.replayed = s.sent ∧
      s.seen = [(0, [.str "news", .str "a", .str "b", .str "7"]), (1, [.str "ping", .str "q", .fn 3]), (1, [.str "q", .fn 3]), (1, [.str "q", .fn 3])] ∧
      s.fired = [(1, "ping")] ∧ s.panicked = false := by decide

end Verif.Props
