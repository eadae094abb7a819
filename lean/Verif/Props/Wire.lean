import Verif.Spec.Wire
import Verif.Proof.Wire

/-! # C84: messages of other servers -/

namespace Verif.Props
open Verif Verif.Spec Verif.Wire

/-- **C84**, messages that make no sense.  Whatever the state of the server: a message whose data is not of the type its kind
calls for, or of an unknown kind, does nothing but tell that its sender is alive; as a response it does nothing at all. -/
theorem C84_ignored (self : Uid) (recovery : Bool) (s : Wire.St) (m : Wire.Message) (offset : String) (hm : dataFits m = false) :
    (∃ s', Wire.onMessage self recovery s m offset = some s' ∧ s'.log = s.log ∧ s'.custom = s.custom ∧ s'.base = s.base ∧
      s'.acks = s.acks ∧ ∀ u, u ∈ s'.nodes ↔ u ∈ s.nodes ∨ (u = m.uid ∧ u ≠ self ∧ u ≠ .emitter)) ∧
    Wire.onResponse s m = some s := by
  refine ⟨?_, onResponse_ignored hm⟩
  unfold Wire.onMessage
  split
  · next h => exact ⟨s, rfl, rfl, rfl, rfl, rfl, fun u => ⟨Or.inl, fun hu => hu.elim id (fun hu => absurd (hu.1.trans h) hu.2.1)⟩⟩
  next h =>
  dsimp only
  have h1 : m.type ≠ 1 := fun e => by simp [dataFits, e] at hm
  have h2 : m.type ≠ 2 := fun e => by simp [dataFits, e] at hm
  have h13 : m.type ≠ 13 := fun e => by simp [dataFits, e] at hm
  split
  · next e => exact absurd e h1
  · next e => exact absurd e h2
  · next e => exact absurd e h13
  · refine ⟨_, onMessageBase_ignored hm, ?_⟩
    split
    · next he =>
      refine ⟨rfl, rfl, rfl, rfl, fun u => ?_⟩
      show u ∈ LSet.add s.nodes m.uid ↔ _
      rw [LSet.mem_add]
      constructor
      · rintro (rfl | hu)
        · exact Or.inr ⟨rfl, h, he⟩
        · exact Or.inl hu
      · rintro (hu | ⟨rfl, _⟩)
        · exact Or.inr hu
        · exact Or.inl rfl
    · next he =>
      refine ⟨rfl, rfl, rfl, rfl, fun u => ⟨Or.inl, fun hu => hu.elim id (fun hu => ?_)⟩⟩
      exact absurd (fun e => hu.2.2 (hu.1.trans e)) he

example : dataFits ⟨.server 1, 3, .rooms (some ⟨none, ["r"]⟩)⟩ = false ∧ dataFits ⟨.server 1, 77, .other⟩ = false ∧
    dataFits ⟨.server 1, 8, .other⟩ = false ∧
    Wire.onMessage (.server 0) true {} ⟨.server 1, 3, .rooms (some ⟨none, ["r"]⟩)⟩ "o" = some { nodes := [.server 1] } := by decide

/-- **C84**, messages that make sense.  A server that gets any messages and responses, in any order and number, among calls of
its own, timers and servers given up, does not panic, if the data of each of them is there, broadcasts carry a packet, with
recovery one with a list of arguments if it is an event, the sockets in answers are there, and no answer to a server-side
event has the id of a `FetchSockets` request. -/
theorem C84_partial (self : Uid) (recovery : Bool) (h : List Wire.Ev)
    (data : ∀ m ∈ arriving h, dataThere m) (packet : ∀ m ∈ arriving h, packetThere m)
    (list : recovery = true → ∀ m ∈ arriving h, packetList m) (sockets : ∀ m ∈ arriving h, socketsThere m)
    (apart : idsKeptApart h) : Wire.run self recovery h ≠ none := by
  obtain ⟨s, hs, _⟩ := fold_good (P := (· ∈ fetchIds h)) (Q := fun _ => True) (self := self) (recovery := recovery) h (good_init _ _)
    (fun m hm => ⟨data m hm, packet m hm, fun hr => list hr m hm, sockets m hm, apart m hm, fun _ _ _ _ => trivial⟩)
    (fun r hr => hr)
  unfold Wire.run
  rw [hs]
  simp

/-- **C84, own messages**: a message that this server has published itself does nothing when it comes back. -/
theorem C84_own (self : Uid) (recovery : Bool) (s : Wire.St) (m : Wire.Message) (offset : String) (hm : m.uid = self) :
    Wire.onMessage self recovery s m offset = some s := by
  unfold Wire.onMessage; rw [if_pos hm]

/-- **C84, what messages do**: whatever the state of the server, a message of another server does exactly what it says, once, and
touches no request of this server. -/
theorem C84_acts (self : Uid) (recovery : Bool) (s : Wire.St) (m : Wire.Message) (offset : String) (es : List Effect)
    (u : Uid) (hu : u ≠ self) (hm : Says recovery s.acks offset u m es) :
    ∃ s', Wire.onMessage self recovery s m offset = some s' ∧ s'.log = s.log ++ es ∧ s'.custom = s.custom ∧ s'.base = s.base ∧
      s'.acks = s.acks := by
  have hd (o) : decode o = some (optionsIn o) := by cases o <;> rfl
  have h0 : (if u ≠ .emitter then { s with nodes := LSet.add s.nodes u } else s : Wire.St).acks = s.acks := by split <;> rfl
  have h1 : (if u ≠ .emitter then { s with nodes := LSet.add s.nodes u } else s : Wire.St).log = s.log := by split <;> rfl
  have h2 : (if u ≠ .emitter then { s with nodes := LSet.add s.nodes u } else s : Wire.St).custom = s.custom := by split <;> rfl
  have h3 : (if u ≠ .emitter then { s with nodes := LSet.add s.nodes u } else s : Wire.St).base = s.base := by split <;> rfl
  have hnv (o : Opts) : Cluster.notVolatile (some o) = true ↔ ∀ f, o.flags = some f → f.volatile = false := by
    obtain ⟨_, _, _ | f⟩ := o <;> simp [Cluster.notVolatile]
  unfold Wire.onMessage
  cases hm <;> simp only [if_neg hu] <;>
    generalize (if u ≠ .emitter then { s with nodes := LSet.add s.nodes u } else s : Wire.St) = v at * <;>
    (try simp only [onMessageBase, onResponseBase, hd, if_neg hu])
  case event hr hv =>
    have := (hnv _).2 hv
    simp only [addOffsetW, hr, Bool.true_eq_false, if_false, this, and_self, if_true]
    exact ⟨_, rfl, by simp [h1], h2, h3, h0⟩
  case plain opts p hp =>
    have : addOffsetW recovery (some p) (some (optionsIn opts)) offset = some (some p) := by
      unfold addOffsetW
      split
      · rfl
      · next hr =>
        dsimp only
        rw [if_neg]
        rintro ⟨a, b, c⟩
        rcases hp with h | h | h | ⟨f, hf, hv⟩
        · exact hr h
        · exact h a
        · exact h b
        · have := (hnv _).1 c f hf
          rw [hv] at this; simp at this
    rw [this]
    exact ⟨_, rfl, by simp [h1], h2, h3, h0⟩
  case count hr => rw [if_pos (by rw [h0]; exact hr)]; exact ⟨_, rfl, by simp [h1], h2, h3, h0⟩
  case answer hr => rw [if_pos (by rw [h0]; exact hr)]; exact ⟨_, rfl, by simp [h1], h2, h3, h0⟩
  case countLate hr => rw [if_neg (by rw [h0]; exact hr)]; exact ⟨_, rfl, by simp [h1], h2, h3, h0⟩
  case answerLate hr => rw [if_neg (by rw [h0]; exact hr)]; exact ⟨_, rfl, by simp [h1], h2, h3, h0⟩
  all_goals exact ⟨_, rfl, by simp [h1], h2, h3, h0⟩

/-- Non-vacuity: a volatile event and one that is not. -/
example : Says true [] "o" (.server 1) ⟨.server 1, 3, .broadcast (some ⟨some ⟨["r"], [], none⟩, some { type := .event, data := .args [.str "e"] }, none⟩)⟩
      [.broadcast { type := .event, data := .args [.str "e", .str "o"] } (some { rooms := some ["r"], except := some [] })] ∧
    Says true [] "o" (.server 1) ⟨.server 1, 3, .broadcast (some ⟨some ⟨["r"], [], some { volatile := true }⟩, some { type := .event, data := .args [.str "e"] }, none⟩)⟩
      [.broadcast { type := .event, data := .args [.str "e"] } (some { rooms := some ["r"], except := some [], flags := some { volatile := true } })] :=
  ⟨.event rfl (by simp [optionsIn]), .plain (.inr (.inr (.inr ⟨_, rfl, rfl⟩)))⟩

/-- **C84, answers to requests**: an answer to a request of this server is added to those that have come; if its sender was the last one
missing the request ends with all of them, otherwise it waits for the others. -/
theorem C84_answers (s : Wire.St) (m : Wire.Message) (req : Nat) (q : Custom) (hq : s.custom.get? req = some q) (l : List Item)
    (hm : (m.type = 8 ∧ q.kind = .fetch ∧ (∀ i ∈ q.responses, ∃ id, i = .socket id) ∧
        ∃ ids : List Sid, m.data = .sockets (some ⟨req, ids.map some⟩) ∧ l = ids.map .socket) ∨
      (m.type = 10 ∧ q.kind = .sse ∧ ∃ p, m.data = .reply (some ⟨req, p⟩) ∧ l = [.packet p])) :
    ∃ s', Wire.onResponse s m = some s' ∧ (∀ r, r ≠ req → s'.custom.get? r = s.custom.get? r) ∧ s'.nodes = s.nodes ∧ s'.acks = s.acks ∧
      ((∀ u ∈ q.missing, u = m.uid) → s'.log = s.log ++ [.resolved req (q.responses ++ l)] ∧ s'.custom.get? req = none) ∧
      ((∃ u ∈ q.missing, u ≠ m.uid) → s'.log = s.log ∧ ∃ q', s'.custom.get? req = some q' ∧ q'.kind = q.kind ∧
        q'.responses = q.responses ++ l ∧ ∀ u, u ∈ q'.missing ↔ u ∈ q.missing ∧ u ≠ m.uid) := by
  have hpush : ∃ s', pushCustom s m.uid req (some l) = some s' ∧ (∀ r, r ≠ req → s'.custom.get? r = s.custom.get? r) ∧ s'.nodes = s.nodes ∧
      s'.acks = s.acks ∧
      ((∀ u ∈ q.missing, u = m.uid) → s'.log = s.log ++ [.resolved req (q.responses ++ l)] ∧ s'.custom.get? req = none) ∧
      ((∃ u ∈ q.missing, u ≠ m.uid) → s'.log = s.log ∧ ∃ q', s'.custom.get? req = some q' ∧ q'.kind = q.kind ∧
        q'.responses = q.responses ++ l ∧ ∀ u, u ∈ q'.missing ↔ u ∈ q.missing ∧ u ≠ m.uid) := by
    have hres : resolve q.kind req (q.responses ++ l) s = some { s with log := s.log ++ [.resolved req (q.responses ++ l)] } := by
      unfold resolve
      rcases hm with ⟨-, hk, ha, ids, -, rfl⟩ | ⟨-, hk, -⟩
      · rw [hk]; dsimp only; rw [if_pos]
        simp only [List.all_append, List.all_eq_true, Bool.and_eq_true, List.all_map]
        refine ⟨fun i hi => ?_, fun _ _ => rfl⟩
        obtain ⟨id, rfl⟩ := ha i hi; rfl
      · rw [hk]
    have hmem : ∀ u, u ∈ LSet.del q.missing m.uid ↔ u ∈ q.missing ∧ u ≠ m.uid := fun u => by rw [LSet.mem_del]; constructor <;> (rintro ⟨a, b⟩; exact ⟨b, a⟩)
    unfold pushCustom
    rw [hq]
    dsimp only
    split
    · next h0 =>
      have hnil := List.eq_nil_of_length_eq_zero h0
      rw [hres]
      refine ⟨_, rfl, fun r hr => FMap.get?_erase_ne hr.symm, rfl, rfl, fun _ => ⟨rfl, FMap.get?_erase_self _ _⟩, ?_⟩
      rintro ⟨u, h1, h2⟩
      have := (hmem u).2 ⟨h1, h2⟩
      rw [hnil] at this; simp at this
    · next h0 =>
      refine ⟨_, rfl, fun r hr => FMap.get?_insert_ne hr.symm, rfl, rfl, fun h1 => ?_, fun _ => ⟨rfl, _, FMap.get?_insert_self _ _ _, rfl, rfl, hmem⟩⟩
      refine absurd ?_ h0
      rw [List.length_eq_zero_iff, List.eq_nil_iff_forall_not_mem]
      intro u hu
      exact ((hmem u).1 hu).2 (h1 u ((hmem u).1 hu).1)
  have hrem : ∀ ids : List Sid, remoteSockets (ids.map some) = some (ids.map .socket) := by
    intro ids; induction ids with
    | nil => rfl
    | cons a l ih => simp [remoteSockets, ih]
  have : Wire.onResponse s m = pushCustom s m.uid req (some l) := by
    unfold Wire.onResponse
    rcases hm with ⟨ht, -, -, ids, hd, rfl⟩ | ⟨ht, -, p, hd, rfl⟩
    · rw [ht, hd]; simp only [hrem]
    · rw [ht, hd]; rfl
  rw [this]; exact hpush

/-- Non-vacuity: two servers are asked, one answers, then the other. -/
example : let s : Wire.St := { nodes := [.server 1, .server 2], custom := [(5, ⟨.fetch, [.server 1, .server 2], [.socket "a"]⟩)] }
    Wire.onResponse s ⟨.server 1, 8, .sockets (some ⟨5, [some "b"]⟩)⟩ =
      some { s with custom := [(5, ⟨.fetch, [.server 2], [.socket "a", .socket "b"]⟩)] } ∧
    (Wire.onResponse s ⟨.server 1, 8, .sockets (some ⟨5, [some "b"]⟩)⟩).bind
        (fun s => Wire.onResponse s ⟨.server 2, 8, .sockets (some ⟨5, [some "c"]⟩)⟩) =
      some { nodes := [.server 1, .server 2], log := [.resolved 5 [.socket "a", .socket "b", .socket "c"]] } := by decide

/-- **C84, servers given up**: when a server says farewell or is given up, no request waits for it any more; exactly those that waited for
nobody else end, each once, with the answers they have; nothing else changes. -/
theorem C84_given_up (s : Wire.St) (u : Uid)
    (hs : ∀ r q, s.custom.get? r = some q → q.kind = .fetch → ∀ i ∈ q.responses, ∃ id, i = .socket id) :
    ∃ (s' : Wire.St) (ended : List (Nat × List Item)), Wire.removeNode s u = some s' ∧
      (∀ w, w ∈ s'.nodes ↔ w ∈ s.nodes ∧ w ≠ u) ∧ s'.acks = s.acks ∧
      s'.log = s.log ++ ended.map (fun e => .resolved e.1 e.2) ∧ (ended.map (·.1)).Nodup ∧
      (∀ r l, (r, l) ∈ ended ↔ ∃ q, s.custom.get? r = some q ∧ q.responses = l ∧ ∀ w ∈ q.missing, w = u) ∧
      (∀ r q, s'.custom.get? r = some q → ∃ q0, s.custom.get? r = some q0 ∧ q.kind = q0.kind ∧ q.responses = q0.responses ∧
        (∀ w, w ∈ q.missing ↔ w ∈ q0.missing ∧ w ≠ u) ∧ q.missing ≠ []) ∧
      (∀ r q, s.custom.get? r = some q → (∃ w ∈ q.missing, w ≠ u) → s'.custom.get? r ≠ none) := by
  obtain ⟨s1, ended, h1, hn, ha, -, hl, hd, he, hc⟩ := dropAll_spec (s := s) (fun r q h k i hi => by
    obtain ⟨id, rfl⟩ := hs r q h k i hi; rfl) u s.custom.keys
  refine ⟨{ s1 with nodes := LSet.del s1.nodes u }, ended, by simp [Wire.removeNode, h1], fun w => ?_, ha, hl, hd, fun r l => ?_, ?_, ?_⟩
  · show w ∈ LSet.del s1.nodes u ↔ _
    rw [hn, LSet.mem_del, and_comm]
  · rw [he]
    exact ⟨fun h => h.2, fun h => ⟨(FMap.mem_keys_iff _ _).2 ⟨_, h.choose_spec.1⟩, h⟩⟩
  · intro r q h
    obtain ⟨q0, hq, ⟨hr, -⟩ | ⟨-, ⟨w, hw, hne⟩, rfl⟩⟩ := (hc r q).1 h
    · exact absurd ((FMap.mem_keys_iff _ _).2 ⟨_, hq⟩) hr
    · refine ⟨q0, hq, rfl, rfl, fun w => by simp [LSet.mem_del, and_comm], ?_⟩
      exact List.ne_nil_of_mem ((LSet.mem_del _ _ _).2 ⟨hne, hw⟩)
  · intro r q hq hw hnone
    have := (hc r _).2 ⟨q, hq, Or.inr ⟨(FMap.mem_keys_iff _ _).2 ⟨_, hq⟩, hw, rfl⟩⟩
    rw [show s1.custom.get? r = none from hnone] at this; cases this

/-- Non-vacuity: two requests; one waits only for the server that is given up. -/
example : Wire.removeNode { nodes := [.server 1, .server 2], custom := [(5, ⟨.fetch, [.server 1, .server 2], [.socket "a"]⟩), (6, ⟨.sse, [.server 1], []⟩)] }
      (.server 1) = some { nodes := [.server 2], custom := [(5, ⟨.fetch, [.server 2], [.socket "a"]⟩)], log := [.resolved 6 []] } := by decide

/-- **C84, asking**: a request of this server ends at once with what is here if it knows no other server; otherwise it waits for
exactly the servers it knows, and what is here is its first answer.  If its time is over while it waits it ends with an error. -/
theorem C84_asked (s : Wire.St) (req : Nat) (here : List Sid) :
    (s.nodes = [] → Wire.request s req .fetch here = { s with log := s.log ++ [.resolved req (here.map .socket)] }) ∧
    (s.nodes ≠ [] → let s' := Wire.request s req .fetch here
      s'.log = s.log ∧ s'.custom.get? req = some ⟨.fetch, s.nodes, here.map .socket⟩ ∧
      (∀ r, r ≠ req → s'.custom.get? r = s.custom.get? r) ∧ (Wire.timeout s' req).log = s.log ++ [.timedOut req] ∧
      (Wire.timeout s' req).custom.get? req = none) := by
  unfold Wire.request
  refine ⟨fun h => by rw [h]; rfl, fun h => ?_⟩
  rw [if_neg (by rw [List.length_eq_zero_iff]; exact h)]
  refine ⟨rfl, FMap.get?_insert_self _ _ _, fun r hr => FMap.get?_insert_ne hr.symm, ?_⟩
  unfold Wire.timeout
  rw [show FMap.get? (FMap.insert s.custom req _) req = _ from FMap.get?_insert_self _ _ _]
  exact ⟨rfl, FMap.get?_erase_self _ _⟩

/-- **C84, waiting**: whatever happens, a broadcast waits for acknowledgements from the call on until it is told to stop. -/
theorem C84_waits (self : Uid) (recovery : Bool) (h : List Wire.Ev) (s : Wire.St) (hs : Wire.run self recovery h = some s) (req : Nat) :
    req ∈ s.acks ↔ ∃ a b, h = a ++ Wire.Ev.await req :: b ∧ Wire.Ev.forget req ∉ b := by
  induction h using snocRec generalizing s with
  | nil => cases hs; simp
  | append_singleton h e ih =>
    unfold Wire.run at hs ih
    rw [List.foldl_append, List.foldl_cons, List.foldl_nil] at hs
    cases h1 : h.foldl (Wire.step self recovery) (some {}) with
    | none => rw [h1] at hs; cases hs
    | some s1 =>
      rw [h1] at hs
      rw [step_acks hs req, ih s1 h1]
      constructor
      · rintro (rfl | ⟨⟨a, b, rfl, hb⟩, hne⟩)
        · exact ⟨h, [], rfl, by simp⟩
        · exact ⟨a, b ++ [e], by simp, by simp [hb, Ne.symm hne]⟩
      · rintro ⟨a, b, hab, hb⟩
        rcases List.eq_nil_or_concat b with rfl | ⟨b', x, rfl⟩
        · obtain ⟨-, h2⟩ := List.append_inj' hab rfl
          exact Or.inl (List.singleton_inj.1 h2)
        · rw [List.concat_eq_append, ← List.cons_append, ← List.append_assoc] at hab
          obtain ⟨h2, h3⟩ := List.append_inj' hab rfl
          cases List.singleton_inj.1 h3
          refine Or.inr ⟨⟨a, b', h2, fun h => hb (by simp [h])⟩, fun h => hb (by simp [h])⟩

/-- Non-vacuity: an acknowledgement arrives while the broadcast waits and after. -/
example : (Wire.run (.server 0) true [.await 3, .message ⟨.server 1, 12, .ack (some ⟨3, [.num 1]⟩)⟩ "", .forget 3,
    .message ⟨.server 1, 12, .ack (some ⟨3, [.num 2]⟩)⟩ ""]).map (·.log) = some [.answer 3 [.num 1]] := by decide

/-- **C84, nil pointers**: every message with a nil pointer of the type its kind calls for makes the server panic. -/
theorem C84_nil (self : Uid) (recovery : Bool) (s : Wire.St) (m : Wire.Message) (offset : String) (hm : dataNil m = true) :
    (m.uid ≠ self → Wire.onMessage self recovery s m offset = none) ∧
    (m.type ∈ [8, 10, 11, 12] → Wire.onResponse s m = none) := by
  obtain ⟨u, t, d⟩ := m
  unfold dataNil at hm
  split at hm <;> simp at hm <;> rename_i ht hd <;> simp only at ht hd <;> subst ht <;> subst hd <;>
    refine ⟨fun hu => ?_, fun h => ?_⟩ <;>
    first
    | (unfold Wire.onMessage; rw [if_neg hu]; simp only [onMessageBase, if_neg hu, onResponseBase])
    | rfl
    | simp at h

/-- A server that knows another asks for sockets and is answered; a broadcast and nonsense arrive meanwhile. -/
def Demo.wire : List Wire.Ev :=
  [.message ⟨.server 1, 1, .other⟩ "", .request 5 .fetch ["a"],
   .message ⟨.server 1, 3, .broadcast (some ⟨none, some { type := .event, data := .args [.str "e"] }, none⟩)⟩ "o",
   .message ⟨.server 2, 4, .count (some ⟨5, 1⟩)⟩ "", .response ⟨.server 1, 8, .sockets (some ⟨5, [some "b"]⟩)⟩]

example : Wire.run (.server 0) true Demo.wire = some
    { nodes := [.server 2, .server 1]
      log := [.heartbeat, .broadcast { type := .event, data := .args [.str "e", .str "o"] } (some { rooms := some [], except := some [] }),
        .resolved 5 [.socket "a", .socket "b"]] } := by decide

example : (∀ m ∈ arriving Demo.wire, dataThere m) ∧ (∀ m ∈ arriving Demo.wire, packetThere m) ∧
    (∀ m ∈ arriving Demo.wire, packetList m) ∧ (∀ m ∈ arriving Demo.wire, socketsThere m) ∧ idsKeptApart Demo.wire := by
  refine ⟨?_, ?_, ?_, ?_, ?_⟩ <;> simp [Demo.wire, arriving, dataThere, packetThere, packetList, socketsThere, idsKeptApart]
  rintro d p rfl hp _
  cases hp
  exact ⟨_, rfl⟩

/-- **C84**, a cluster of servers that all run this code.  Whatever is called on which server, in whatever order, as often and
as late as messages and responses arrive, if at all, and whether responses are handed to `OnResponse` or to `OnMessage`: no
server panics. -/
theorem C84_cluster (recovery : Bool) (h : List Wire.NetEv) (i : Nat) : (Wire.netRun recovery h).nodes i ≠ none := by
  obtain ⟨s, hs, _⟩ := (netOK_run recovery h).nodes i
  rw [hs]
  simp

/-- Three servers: one fetches sockets and emits a server-side event with acknowledgement; one answers both; one response
arrives twice, one as a message. -/
def Demo.wireNet : List Wire.NetEv :=
  [.init 1 "", .deliver 0 0, .fetch 0 none ["a"] "", .emitAck 0 [.str "e"] "", .deliver 1 1, .deliver 1 2,
   .finds 1 0 0 ["b"], .replies 1 0 1 [.num 7], .back 1 true, .back 0 false, .back 0 false, .back 1 false,
   .broadcast 2 [.str "x"] none "o", .deliver 0 3]

example : (Wire.netRun true Demo.wireNet).backs.length = 2 := by decide

example : ((Wire.netRun true Demo.wireNet).nodes 0).map (·.log) = some
    [.heartbeat, .resolved 0 [.socket "a", .socket "b"], .resolved 1 [.packet [.num 7]],
      .broadcast { type := .event, data := .args [.str "x", .str "o"] } (some { rooms := some [], except := some [] })] := by
  decide

/-- **C84, who is answered**: in a cluster of servers that run this code, every response goes to a server that has asked, answers that
question, and comes from another server. -/
theorem C84_answered (recovery : Bool) (h : List Wire.NetEv) (to : Nat) (m : Wire.Message) (hm : (to, m) ∈ (Wire.netRun recovery h).backs) :
    m.uid ≠ .server to ∧ ∃ q off, (q, off) ∈ (Wire.netRun recovery h).sent ∧ q.uid = .server to ∧ AnswerTo q m := by
  obtain ⟨h1, ⟨q, off⟩, hq, h2, h3⟩ := (asked_run recovery h).backs _ hm
  exact ⟨h1, q, off, hq, h2, h3⟩

/-- **C84 fails for messages of servers that do not run this code**: each of the five conditions of `C84_partial` is needed.
A message with a nil pointer for data; a broadcast without a packet; with recovery, an event without a list of arguments; an
answer with a nil socket; an answer to a server-side event with the id of a `FetchSockets` request: each makes the server
panic. -/
theorem C84_fails :
    (∃ h, ¬ (∀ m ∈ arriving h, dataThere m) ∧ (∀ m ∈ arriving h, packetThere m) ∧ (∀ m ∈ arriving h, packetList m) ∧
      (∀ m ∈ arriving h, socketsThere m) ∧ idsKeptApart h ∧ Wire.run (.server 0) true h = none) ∧
    (∃ h, (∀ m ∈ arriving h, dataThere m) ∧ ¬ (∀ m ∈ arriving h, packetThere m) ∧ (∀ m ∈ arriving h, packetList m) ∧
      (∀ m ∈ arriving h, socketsThere m) ∧ idsKeptApart h ∧ Wire.run (.server 0) false h = none) ∧
    (∃ h, (∀ m ∈ arriving h, dataThere m) ∧ (∀ m ∈ arriving h, packetThere m) ∧ ¬ (∀ m ∈ arriving h, packetList m) ∧
      (∀ m ∈ arriving h, socketsThere m) ∧ idsKeptApart h ∧ Wire.run (.server 0) true h = none) ∧
    (∃ h, (∀ m ∈ arriving h, dataThere m) ∧ (∀ m ∈ arriving h, packetThere m) ∧ (∀ m ∈ arriving h, packetList m) ∧
      ¬ (∀ m ∈ arriving h, socketsThere m) ∧ idsKeptApart h ∧ Wire.run (.server 0) true h = none) ∧
    (∃ h, (∀ m ∈ arriving h, dataThere m) ∧ (∀ m ∈ arriving h, packetThere m) ∧ (∀ m ∈ arriving h, packetList m) ∧
      (∀ m ∈ arriving h, socketsThere m) ∧ ¬ idsKeptApart h ∧ Wire.run (.server 0) true h = none) := by
  refine ⟨⟨[.message ⟨.server 1, 7, .fetch none⟩ ""], ?_⟩, ⟨[.message ⟨.server 1, 3, .broadcast (some {})⟩ ""], ?_⟩,
    ⟨[.message ⟨.server 1, 3, .broadcast (some ⟨none, some { type := .event }, none⟩)⟩ ""], ?_⟩,
    ⟨[.message ⟨.server 1, 2, .other⟩ "", .request 5 .fetch [], .response ⟨.server 1, 8, .sockets (some ⟨5, [none]⟩)⟩], ?_⟩,
    ⟨[.message ⟨.server 1, 2, .other⟩ "", .request 5 .fetch [], .response ⟨.server 1, 10, .reply (some ⟨5, []⟩)⟩], ?_⟩⟩
  all_goals
    refine ⟨?_, ?_, ?_, ?_, ?_, by decide⟩ <;>
    simp [arriving, dataThere, packetThere, packetList, socketsThere, idsKeptApart, fetchIds]
  rintro d p rfl hp
  cases hp

end Verif.Props
