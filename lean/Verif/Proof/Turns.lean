import Verif.Spec.Turns
import Verif.Spec.Heartbeat
import Verif.Lib.ListExtra

/-! A goroutine that nobody interrupts does what the call does. -/

namespace Verif
open Verif.Spec

theorem last_get {α : Type} (T : List α) (t : α) : (T ++ [t])[T.length]? = some t := by simp

theorem last_set {α : Type} (T : List α) (t u : α) : (T ++ [t]).set T.length u = T ++ [u] := by simp

namespace Acks

/-- The two states say the same. -/
structure SameAcks (c : CSt) (s : St) : Prop where
  ids : c.ids = s.ids
  log : c.log = s.log
  acks : ∀ id, c.acks.get? id = s.acks.get? (0, id)
  timers : ∀ id, s.timers.get? id = (c.timers.get? id).map fun cb => (0, cb)

theorem cstep_adv (c : CSt) (T : List Thread) (t : Thread) (h : c.threads = T ++ [t]) :
    cstep c (.adv T.length) = { (advThread c t).1 with threads := T ++ [(advThread c t).2] } := by
  simp only [cstep, h, last_get, last_set]

theorem same_emit {c : CSt} {s : St} (i : SameAcks c s) (cb : Nat) (timed : Bool) :
    SameAcks ((.emit cb timed :: List.replicate 2 (.adv c.threads.length)).foldl cstep c) (step s (.emit 0 cb timed)) := by
  obtain ⟨ids, acks, timers, T, log⟩ := c
  obtain ⟨i1, i2, i3, i4⟩ := i
  simp only at i1 i2 i3 i4
  have e : (Ev.emit cb timed :: List.replicate 2 (.adv T.length)).foldl cstep ⟨ids, acks, timers, T, log⟩ =
      { ids := ids + 1, acks := acks.insert (ids + 1) ⟨cb, if timed then some (ids + 1) else none⟩,
        timers := if timed then timers.insert (ids + 1) cb else timers, threads := T ++ [.emitter (ids + 1) cb timed 2], log := log } := by
    simp only [List.replicate, List.foldl_cons, List.foldl_nil]
    cases timed <;> simp [cstep, advThread]
  rw [e]
  subst i1 i2
  cases timed
  · refine ⟨rfl, rfl, fun id => ?_, i4⟩
    simp only [step, emit, register, nextId, Bool.false_eq_true, if_false, FMap.get?_insert, i3, Prod.mk.injEq, true_and]
  · refine ⟨rfl, rfl, fun id => ?_, fun id => ?_⟩
    · simp only [step, emit, register, nextId, if_true, FMap.get?_insert, i3, Prod.mk.injEq, true_and]
    · simp only [step, emit, register, nextId, if_true, FMap.get?_insert, i4]
      split <;> rfl

theorem same_answer {c : CSt} {s : St} (i : SameAcks c s) (id : Nat) (args : List Val) :
    SameAcks ((.recv id args :: List.replicate 4 (.adv c.threads.length)).foldl cstep c) (step s (.answer 0 (some id) args)) := by
  obtain ⟨ids, acks, timers, T, log⟩ := c
  obtain ⟨i1, i2, i3, i4⟩ := i
  simp only at i1 i2 i3 i4
  subst i1 i2
  cases ha : acks.get? id with
  | none =>
    have e : (Ev.recv id args :: List.replicate 4 (.adv T.length)).foldl cstep ⟨s.ids, acks, timers, T, s.log⟩ =
        { ids := s.ids, acks := acks, timers := timers, threads := T ++ [.handler id args 4 none], log := s.log } := by
      simp [List.replicate, cstep, advThread, ha]
    rw [e]
    have e2 : step s (.answer 0 (some id) args) = s := by simp only [step, onack, ← i3, ha]
    rw [e2]
    exact ⟨rfl, rfl, i3, i4⟩
  | some en =>
    obtain ⟨cb, tm⟩ := en
    have e : (Ev.recv id args :: List.replicate 4 (.adv T.length)).foldl cstep ⟨s.ids, acks, timers, T, s.log⟩ =
        { ids := s.ids, acks := acks.erase id, timers := (match tm with | some t => timers.erase t | none => timers),
          threads := T ++ [.handler id args 4 (some ⟨cb, tm⟩)], log := s.log ++ [(cb, .ok args)] } := by
      cases tm <;> simp [List.replicate, cstep, advThread, ha]
    rw [e]
    have e2 : step s (.answer 0 (some id) args) =
        { s with timers := (match tm with | some t => s.timers.erase t | none => s.timers), log := s.log ++ [(cb, .ok args)],
                 acks := s.acks.erase (0, id) } := by
      simp only [step, onack, ← i3, ha, call]
      cases tm <;> rfl
    rw [e2]
    refine ⟨rfl, rfl, fun j => ?_, fun j => ?_⟩
    · simp only [FMap.get?_erase, i3, Prod.mk.injEq, true_and]
    · cases tm with
      | none => exact i4 j
      | some t =>
        simp only [FMap.get?_erase, i4]
        split <;> rfl

theorem same_expire {c : CSt} {s : St} (i : SameAcks c s) (id : Nat) :
    SameAcks ((.fire id :: List.replicate 2 (.adv c.threads.length)).foldl cstep c) (step s (.expire id)) := by
  obtain ⟨ids, acks, timers, T, log⟩ := c
  obtain ⟨i1, i2, i3, i4⟩ := i
  simp only at i1 i2 i3 i4
  subst i1 i2
  cases ht : timers.get? id with
  | none =>
    have e : (Ev.fire id :: List.replicate 2 (.adv T.length)).foldl cstep ⟨s.ids, acks, timers, T, s.log⟩ = ⟨s.ids, acks, timers, T, s.log⟩ := by
      simp [List.replicate, cstep, ht]
    rw [e]
    have e2 : step s (.expire id) = s := by simp only [step, expire, i4, ht, Option.map]
    rw [e2]
    exact ⟨rfl, rfl, i3, i4⟩
  | some cb =>
    have e : (Ev.fire id :: List.replicate 2 (.adv T.length)).foldl cstep ⟨s.ids, acks, timers, T, s.log⟩ =
        { ids := s.ids, acks := acks.erase id, timers := timers.erase id, threads := T ++ [.timer id cb 2], log := s.log ++ [(cb, .timeout)] } := by
      simp [List.replicate, cstep, advThread, ht]
    rw [e]
    have e2 : step s (.expire id) = { s with timers := s.timers.erase id, acks := s.acks.erase (0, id), log := s.log ++ [(cb, .timeout)] } := by
      simp only [step, expire, i4, ht, Option.map]
    rw [e2]
    refine ⟨rfl, rfl, fun j => ?_, fun j => ?_⟩
    · simp only [FMap.get?_erase, i3, Prod.mk.injEq, true_and]
    · simp only [FMap.get?_erase, i4]
      split <;> rfl

theorem inTurn_same {h : List Ev} {ops : List Op} (t : AcksInTurn h ops) : SameAcks (crun h) (run ops) := by
  induction t with
  | nil => exact ⟨rfl, rfl, fun _ => rfl, fun _ => rfl⟩
  | emit cb timed _ ih =>
    simp only [crun, run, List.foldl_append] at ih ⊢
    exact same_emit ih cb timed
  | answer id args _ ih =>
    simp only [crun, run, List.foldl_append] at ih ⊢
    exact same_answer ih id args
  | expire id _ ih =>
    simp only [crun, run, List.foldl_append] at ih ⊢
    exact same_expire ih id

end Acks

namespace Collector

/-- `n` steps of one goroutine. -/
def turns : Nat → St → Thread → St
  | 0, s, _ => s
  | n + 1, s, ⟨m :: rest, reg⟩ => turns n (micro s reg rest m).1 (micro s reg rest m).2
  | _ + 1, s, ⟨[], _⟩ => s

theorem advs (n : Nat) (s : St) (T : List Thread) (t : Thread) :
    ((List.replicate n (CEv.adv T.length)).foldl cstep ⟨s, T ++ [t]⟩).s = turns n s t := by
  induction n generalizing s t with
  | zero => rfl
  | succ n ih =>
    obtain ⟨p, reg⟩ := t
    rw [List.replicate_succ, List.foldl_cons]
    cases p with
    | nil =>
      have : cstep ⟨s, T ++ [⟨[], reg⟩]⟩ (.adv T.length) = ⟨s, T ++ [⟨[], reg⟩]⟩ := by simp [cstep]
      rw [this, ih]
      cases n <;> rfl
    | cons m rest =>
      have : cstep ⟨s, T ++ [⟨m :: rest, reg⟩]⟩ (.adv T.length) = ⟨(micro s reg rest m).1, T ++ [(micro s reg rest m).2]⟩ := by simp [cstep]
      rw [this, ih]
      rfl

theorem check_turns (s : St) (reg : Nat) : turns 6 s ⟨checkProg, reg⟩ = check false s := by
  unfold check finish
  by_cases h1 : s.timedOut = false
  · by_cases h2 : s.expectedServers = s.actualServers
    · by_cases h3 : s.responses.length = s.expectedClients
      · simp [checkProg, turns, micro, h1, h2, h3]
      · simp [checkProg, turns, micro, h1, h2, h3]
    · simp [checkProg, turns, micro, h1, h2]
  · simp [checkProg, turns, micro, h1]

theorem step_panicked (s : St) (e : Ev) : (step false s e).panicked = s.panicked := by
  unfold step
  split
  · rfl
  · cases e <;> simp only [check, finish, fire] <;> split <;> simp

theorem run_panicked (es : List Ev) : (run false es).panicked = false := by
  induction es using snocRec with
  | nil => rfl
  | append_singleton es e ih =>
    have : run false (es ++ [e]) = step false (run false es) e := by simp [run]
    rw [this, step_panicked, ih]

theorem inTurn_same {h : List CEv} {es : List Ev} (t : ClosuresInTurn h es) : (crun h).s = run false es := by
  induction t with
  | nil => rfl
  | @next h es e _ ih =>
    have hp := run_panicked es
    have e1 : run false (es ++ [e]) = step false (run false es) e := by simp [run]
    have e2 : crun (h ++ .start e :: List.replicate (prog e).length (.adv (crun h).threads.length)) =
        (List.replicate (prog e).length (CEv.adv (crun h).threads.length)).foldl cstep (cstep (crun h) (.start e)) := by
      simp [crun]
    rw [e1, e2]
    rw [← ih] at hp ⊢
    generalize crun h = c at *
    obtain ⟨s, T⟩ := c
    simp only at hp ⊢
    cases e with
    | count n =>
      have : cstep ⟨s, T⟩ (.start (.count n)) = ⟨s, T ++ [⟨prog (.count n), 0⟩]⟩ := rfl
      have hs : step false s (.count n) = check false { s with expectedClients := s.expectedClients + n, actualServers := s.actualServers + 1 } := if_neg (by simp [hp])
      rw [this, advs, hs]
      exact check_turns { s with expectedClients := s.expectedClients + n, actualServers := s.actualServers + 1 } 0
    | answer a =>
      have : cstep ⟨s, T⟩ (.start (.answer a)) = ⟨s, T ++ [⟨prog (.answer a), 0⟩]⟩ := rfl
      have hs : step false s (.answer a) = check false { s with responses := s.responses ++ a } := if_neg (by simp [hp])
      rw [this, advs, hs]
      exact check_turns { s with responses := s.responses ++ a } 0
    | servers k =>
      have : cstep ⟨s, T⟩ (.start (.servers k)) = ⟨s, T ++ [⟨prog (.servers k), 0⟩]⟩ := rfl
      have hs : step false s (.servers k) = check false { s with expectedServers := k } := if_neg (by simp [hp])
      rw [this, advs, hs]
      exact check_turns { s with expectedServers := k } 0
    | fire =>
      have hs : step false s .fire = fire false s := if_neg (by simp [hp])
      cases ht : s.timer with
      | true =>
        have : cstep ⟨s, T⟩ (.start .fire) = ⟨{ s with timer := false }, T ++ [⟨prog .fire, 0⟩]⟩ := by simp [cstep, ht]
        rw [this, advs, hs]
        simp [prog, turns, micro, fire, ht]
      | false =>
        have : cstep ⟨s, T⟩ (.start .fire) = ⟨s, T⟩ := by simp [cstep, ht]
        rw [this, hs]
        simp [prog, cstep, fire, ht, List.replicate]

end Collector

namespace RequestsConc
open Heartbeat

/-- The request as the two models have it. -/
structure SameReq (id : Nat) (kind : Kind) (before : List Heartbeat.Call) (c : RequestsConc.St) (s : Heartbeat.St) : Prop where
  entry : s.custom.get? id = if c.stored then some ⟨kind, c.missing, c.responses⟩ else none
  calls : requestCalls id s.calls = before ++ c.calls.map .ok

theorem same_answer {id : Nat} {kind : Kind} {before : List Heartbeat.Call} {c : RequestsConc.St} {s : Heartbeat.St}
    (i : SameReq id kind before c s) (u : Uid) (x : List Val) :
    SameReq id kind before ((RequestsConc.Ev.respond u x :: List.replicate 6 (.adv c.threads.length)).foldl RequestsConc.step c)
      (Heartbeat.onResponse s u (.fetch id x)) := by
  obtain ⟨stored, missing, responses, calls, T⟩ := c
  obtain ⟨i1, i2⟩ := i
  simp only at i1 i2
  cases stored with
  | false =>
    have e : (RequestsConc.Ev.respond u x :: List.replicate 6 (.adv T.length)).foldl RequestsConc.step ⟨false, missing, responses, calls, T⟩ =
        ⟨false, missing, responses, calls, T ++ [(u, x, .done)]⟩ := by
      simp [List.replicate, RequestsConc.step, advance]
    have e2 : Heartbeat.onResponse s u (.fetch id x) = s := by simp only [onResponse, answer, i1]; rfl
    rw [e, e2]
    exact ⟨i1, i2⟩
  | true =>
    simp only [if_true] at i1
    by_cases hm : (LSet.del missing u).length = 0
    · have e : (RequestsConc.Ev.respond u x :: List.replicate 6 (.adv T.length)).foldl RequestsConc.step ⟨true, missing, responses, calls, T⟩ =
          ⟨false, LSet.del missing u, responses ++ x, calls ++ [responses ++ x], T ++ [(u, x, .done)]⟩ := by
        simp [List.replicate, RequestsConc.step, advance, List.length_eq_zero_iff.mp hm]
      rw [e]
      simp only [onResponse, answer, i1, hm, if_true]
      refine ⟨by simp, ?_⟩
      simp only [requestCalls, List.filterMap_append] at i2 ⊢
      rw [i2]
      simp
    · have e : (RequestsConc.Ev.respond u x :: List.replicate 6 (.adv T.length)).foldl RequestsConc.step ⟨true, missing, responses, calls, T⟩ =
          ⟨true, LSet.del missing u, responses ++ x, calls, T ++ [(u, x, .done)]⟩ := by
        have hm' : LSet.del missing u ≠ [] := fun e => hm (by rw [e]; rfl)
        simp [List.replicate, RequestsConc.step, advance, hm']
      rw [e]
      simp only [onResponse, answer, i1, if_neg hm]
      exact ⟨by simp, i2⟩

theorem inTurn_same {missing : List Uid} {here : List Val} {h : List RequestsConc.Ev} {l : List (Uid × List Val)}
    (t : AnswersInTurn missing here h l) (s : Heartbeat.St) (id : Nat) (kind : Kind) (hs : s.custom.get? id = some ⟨kind, missing, here⟩) :
    SameReq id kind (requestCalls id s.calls) (RequestsConc.run missing here h) (answersInOrder s id l) := by
  induction t with
  | nil => exact ⟨by simpa [RequestsConc.run, answersInOrder] using hs, by simp [RequestsConc.run, answersInOrder]⟩
  | next u x _ ih =>
    simp only [RequestsConc.run, answersInOrder, List.foldl_append, List.foldl_cons, List.foldl_nil] at ih ⊢
    exact same_answer ih u x

end RequestsConc

namespace OfRace

/-- Nobody is under way, and everybody got the namespace registered under the name. -/
def Settled (s : St) : Prop := ∀ t ∈ s.ths, ∃ n, t.pc = .done n ∧ s.nsps.get? t.name = some n

theorem settled_next {s : St} (i : Settled s) (name : String) (joins : Bool) :
    Settled ((Ev.spawn name joins :: List.replicate 3 (.adv s.ths.length)).foldl step s) := by
  obtain ⟨nsps, next, T⟩ := s
  cases hn : nsps.get? name with
  | some n =>
    have e : (Ev.spawn name joins :: List.replicate 3 (.adv T.length)).foldl step ⟨nsps, next, T⟩ = ⟨nsps, next, T ++ [⟨name, joins, .done n⟩]⟩ := by
      cases joins <;> simp [List.replicate, step, advance, hn]
    rw [e]
    intro t ht
    rcases List.mem_append.mp ht with h | h
    · exact i t h
    · rw [List.mem_singleton] at h; subst h; exact ⟨n, rfl, hn⟩
  | none =>
    have e : (Ev.spawn name joins :: List.replicate 3 (.adv T.length)).foldl step ⟨nsps, next, T⟩ =
        ⟨nsps.insert name next, next + 1, T ++ [⟨name, joins, .done next⟩]⟩ := by
      cases joins <;> simp [List.replicate, step, advance, hn]
    rw [e]
    intro t ht
    rcases List.mem_append.mp ht with h | h
    · obtain ⟨m, h1, h2⟩ := i t h
      refine ⟨m, h1, ?_⟩
      simp only [FMap.get?_insert]
      split
      · rename_i e; rw [← e] at h2; rw [hn] at h2; cases h2
      · exact h2
    · rw [List.mem_singleton] at h; subst h; exact ⟨next, rfl, by simp⟩

theorem names_next (s : St) (name : String) (joins : Bool) :
    ((Ev.spawn name joins :: List.replicate 3 (.adv s.ths.length)).foldl step s).ths.map (·.name) = s.ths.map (·.name) ++ [name] := by
  obtain ⟨nsps, next, T⟩ := s
  cases hn : nsps.get? name <;> cases joins <;> simp [List.replicate, step, advance, hn]

theorem inTurn_settled {h : List Ev} {l : List String} (t : OfsInTurn h l) : Settled (run h) ∧ (run h).ths.map (·.name) = l := by
  induction t with
  | nil => exact ⟨fun t ht => (by cases ht), rfl⟩
  | next name joins _ ih =>
    simp only [run, List.foldl_append] at ih ⊢
    exact ⟨settled_next ih.1 name joins, by rw [names_next, ih.2]⟩

end OfRace

namespace RecoverRace
open Session

/-- `n` steps of the recovery. -/
def recs (mine : Nat → Bool) (o n : Nat) (s : St) : St := (List.replicate n Ev.recover).foldl (step mine o) s

theorem recs_succ (mine : Nat → Bool) (o n : Nat) (s : St) : recs mine o (n + 1) s = recs mine o n (recStep mine o s s.rpc) := rfl

theorem recs_stop (mine : Nat → Bool) (o n : Nat) (s : St) (h : s.rpc = .done ∨ s.rpc = .fresh) : recs mine o n s = s := by
  induction n with
  | zero => rfl
  | succ n ih =>
    rw [recs_succ]
    have : recStep mine o s s.rpc = s := by rcases h with h | h <;> rw [h] <;> rfl
    rw [this, ih]

theorem recs_get (mine : Nat → Bool) (o : Nat) (l : List Nat) : ∀ (n i : Nat) (s : St), s.rpc = .get i → s.packets.drop i = l → l.length + 5 ≤ n →
    (recs mine o n s).rpc = .done ∧ (recs mine o n s).replayed = s.missed ++ l.filter mine := by
  induction l with
  | nil =>
    intro n i s hp hd hn
    obtain ⟨n, rfl⟩ : ∃ m, n = m + 5 := ⟨n - 5, by simp at hn; omega⟩
    have hg : s.packets[i]? = none := by
      rw [List.getElem?_eq_none_iff]; exact List.drop_eq_nil_iff.mp hd
    obtain ⟨pk, cs, rpc, ms, ir, sd, rp, lv⟩ := s
    simp only at hp hg ⊢
    subst hp
    have : recs mine o (n + 5) ⟨pk, cs, .get i, ms, ir, sd, rp, lv⟩ = recs mine o n ⟨pk, cs, .done, ms, true, true, ms, lv⟩ := by
      simp [recs_succ, recStep, hg]
    rw [this, recs_stop _ _ _ _ (.inl rfl)]
    simp
  | cons p l ih =>
    intro n i s hp hd hn
    obtain ⟨n, rfl⟩ : ∃ m, n = m + 1 := ⟨n - 1, by simp at hn; omega⟩
    have hg : s.packets[i]? = some p := by
      rw [← List.head?_drop, hd]; rfl
    have hd' : s.packets.drop (i + 1) = l := by rw [← List.drop_drop, hd]; rfl
    rw [recs_succ, hp]
    simp only [recStep, hg]
    obtain ⟨h1, h2⟩ := ih n (i + 1) { s with rpc := .get (i + 1), missed := s.missed ++ (if mine p then [p] else []) } rfl hd'
      (by simp at hn; omega)
    refine ⟨h1, ?_⟩
    rw [h2]
    cases hm : mine p <;> simp [hm]

theorem findIndex_lt {o : Nat} {l : List Nat} {i : Nat} (h : findIndex o l = some i) : i < l.length := by
  induction l generalizing i with
  | nil => cases h
  | cons p l ih =>
    unfold findIndex at h
    split at h
    · cases h; simp
    · cases hf : findIndex o l with
      | none => rw [hf] at h; cases h
      | some j => rw [hf] at h; cases h; have := ih hf; simp; omega

theorem afterOffset_names (pkt : Nat → Stored) (hi : ∀ i j, (pkt i).id = (pkt j).id → i = j) (o : Nat) (l : List Nat) :
    afterOffset (pkt o).id (l.map pkt) = (findIndex o l).map fun i => (l.drop (i + 1)).map pkt := by
  induction l with
  | nil => rfl
  | cons p l ih =>
    unfold afterOffset findIndex
    simp only [List.map_cons]
    by_cases h : p = o
    · subst h; simp
    · rw [if_neg (fun e => h (hi _ _ e)), if_neg h, ih]
      cases findIndex o l <;> simp

theorem collect_names (pkt : Nat → Stored) (rooms : List Room) (mine : Nat → Bool) (l : List Nat)
    (hm : ∀ i ∈ l, shouldInclude rooms (pkt i).opts = some (mine i)) :
    collect rooms (l.map pkt) = some ((l.filter mine).map fun i => (pkt i).data) := by
  induction l with
  | nil => rfl
  | cons p l ih =>
    have h1 := hm p (by simp)
    have h2 := ih (fun i hi => hm i (by simp [hi]))
    simp only [List.map_cons, collect, h1, h2]
    cases hp : mine p <;> simp [hp]

theorem alone_same (pkt : Nat → Stored) (hi : ∀ i j, (pkt i).id = (pkt j).id → i = j) (mine : Nat → Bool) (o : Nat) (old : List Nat)
    (c : Cfg) (now : Int) (pid : Pid) (st : Session.St) (x : Sess) (t : Int) (hx : st.sessions.get? pid = some (x, t)) (ht : ¬ t + c.max < now)
    (hp : st.packets = old.map pkt) (hm : ∀ i ∈ old, shouldInclude x.rooms (pkt i).opts = some (mine i)) (n : Nat) (hn : old.length + 7 ≤ n) :
    ((run mine o old (List.replicate n .recover)).rpc = .done ∧
      restore c now pid (pkt o).id st = (st, .ok x ((run mine o old (List.replicate n .recover)).replayed.map fun i => (pkt i).data))) ∨
    ((run mine o old (List.replicate n .recover)).rpc = .fresh ∧ restore c now pid (pkt o).id st = (st, .none)) := by
  obtain ⟨n, rfl⟩ : ∃ m, n = m + 2 := ⟨n - 2, by omega⟩
  have e : run mine o old (List.replicate (n + 2) .recover) = recs mine o (n + 2) { packets := old } := rfl
  simp only [restore, hx, if_neg ht, hp, afterOffset_names pkt hi]
  rw [e]
  cases hf : findIndex o old with
  | none =>
    refine .inr ?_
    have : recs mine o (n + 2) { packets := old } = recs mine o (n + 1) { packets := old, rpc := .fresh } := by
      rw [recs_succ]; simp [recStep, hf]
    rw [this, recs_stop _ _ _ _ (.inr rfl)]
    exact ⟨rfl, rfl⟩
  | some i =>
    refine .inl ?_
    have hl := findIndex_lt hf
    have : recs mine o (n + 2) { packets := old } = recs mine o n { packets := old, rpc := .get (i + 1) } := by
      rw [recs_succ, recs_succ]; simp [recStep, hf, show ¬ old.length < i + 1 by omega]
    rw [this]
    obtain ⟨h1, h2⟩ := recs_get mine o (old.drop (i + 1)) n (i + 1) { packets := old, rpc := .get (i + 1) } rfl rfl
      (by have := List.length_drop (i := i + 1) (l := old); omega)
    refine ⟨h1, ?_⟩
    rw [h2]
    simp only [Option.map]
    rw [collect_names pkt x.rooms mine _ (fun j hj => hm j (List.mem_of_mem_drop hj))]
    rfl

end RecoverRace
end Verif
