import Verif.Spec.Acks
import Verif.Proof.AcksInTime
import Verif.Proof.Ids
import Verif.Proof.Once

/-! # C29, C30, C31: acknowledgements -/

namespace Verif.Props
open Verif Verif.Spec

/-! ## C29 -/

/-- **C29**, packets and timers handled one at a time.  In every history of emissions, broadcasts, answers
(of any socket, with any or no id, repeated at will) and timer expiries, a callback passed to one
`socket.Emit` is called exactly as its own fate says: once with the arguments of the first answer of that
socket to that id, or once with the timeout error if that comes first, or not at all if neither
happens. -/
theorem C29_outcome_partial (pre post : List Acks.Op) (sock cb : Nat) (timed : Bool)
    (once : ∀ op ∈ pre ++ post, cbOf op ≠ some cb) :
    callsOf cb (Acks.run (pre ++ .emit sock cb timed :: post)).log =
      (outcome sock (idAfter pre) timed post).toList := by
  have hi := Acks.inv_run pre
  have fresh : ∀ c, (∃ op ∈ pre, cbOf op = some c) → c ≠ cb := by
    rintro c ⟨op, hop, h⟩ rfl
    exact once op (by simp [hop]) h
  have hid : idAfter pre = (Acks.run pre).ids + 1 := by rw [hi.ids]; rfl
  have hw : Acks.Waiting cb sock (idAfter pre) timed (Acks.step (Acks.run pre) (.emit sock cb timed)) := by
    rw [hid]
    have he : ∀ k i e, (k, i) ≠ (sock, (Acks.run pre).ids + 1) →
        (Acks.run pre).acks.get? (k, i) = some e → e.cb ≠ cb ∧ e.timer ≠ some ((Acks.run pre).ids + 1) := by
      intro k i e _ hg
      refine ⟨fresh _ (hi.cb k i e hg), fun ht => ?_⟩
      have h1 := hi.own k i e _ hg ht
      have h2 := hi.bound k i e hg
      omega
    have ht : (Acks.run pre).timers.get? ((Acks.run pre).ids + 1) = none := by
      cases h : (Acks.run pre).timers.get? ((Acks.run pre).ids + 1) with
      | none => rfl
      | some p => have := hi.tbound _ _ h; omega
    have hc : ∀ i k c, i ≠ (Acks.run pre).ids + 1 → (Acks.run pre).timers.get? i = some (k, c) → c ≠ cb :=
      fun i k c _ hg => fresh _ (hi.tcb i k c hg)
    cases timed
    · simp only [Acks.step, Acks.emit, Acks.nextId, Acks.register]
      constructor
      · simp
      · simpa using ht
      · intro k i e hne
        simp only [Bool.false_eq_true, if_false, FMap.get?_insert, if_neg (Ne.symm hne)]
        exact he k i e hne
      · simpa using hc
      · simp
    · simp only [Acks.step, Acks.emit, Acks.nextId, Acks.register]
      constructor
      · simp
      · simp
      · intro k i e hne
        simp only [if_true, FMap.get?_insert, if_neg (Ne.symm hne)]
        exact he k i e hne
      · intro i k c hne
        simp only [if_true, FMap.get?_insert, if_neg (Ne.symm hne)]
        exact hc i k c hne
      · simp
  rw [Acks.run_append, List.foldl_cons,
    Acks.waiting_fold post hw (fun op ho => once op (by simp [ho]))]
  have : callsOf cb (Acks.step (Acks.run pre) (.emit sock cb timed)).log = [] := by
    have : (Acks.step (Acks.run pre) (.emit sock cb timed)).log = (Acks.run pre).log := by
      simp only [Acks.step, Acks.emit, Acks.nextId, Acks.register]; cases timed <;> rfl
    rw [this]
    simp only [callsOf, List.filterMap_eq_nil_iff]
    intro p hp
    simp [fresh _ (hi.log p hp)]
  rw [this]; simp

/-- The callback is called at most once. -/
theorem C29_at_most_once_partial (pre post : List Acks.Op) (sock cb : Nat) (timed : Bool)
    (once : ∀ op ∈ pre ++ post, cbOf op ≠ some cb) :
    (callsOf cb (Acks.run (pre ++ .emit sock cb timed :: post)).log).length ≤ 1 := by
  rw [C29_outcome_partial pre post sock cb timed once]
  cases outcome sock (idAfter pre) timed post <;> simp

/-- **C29** for broadcasts: the function given to `BroadcastWithAck` is called with the first answer of
each socket reached, and with nothing else. -/
theorem C29_broadcast_partial (pre post : List Acks.Op) (socks : List Nat) (cb : Nat)
    (once : ∀ op ∈ pre ++ post, cbOf op ≠ some cb) :
    callsOf cb (Acks.run (pre ++ .bcast socks cb :: post)).log =
      (firstAnswers (idAfter pre) socks post).map Acks.Res.ok := by
  have hi := Acks.inv_run pre
  have fresh : ∀ c, (∃ op ∈ pre, cbOf op = some c) → c ≠ cb := by
    rintro c ⟨op, hop, h⟩ rfl
    exact once op (by simp [hop]) h
  have hid : idAfter pre = (Acks.run pre).ids + 1 := by rw [hi.ids]; rfl
  obtain ⟨h1, h2, h3, h4⟩ := Acks.bcast_acks socks ((Acks.run pre).ids + 1) cb
    { Acks.run pre with ids := (Acks.run pre).ids + 1 }
  have hw : Acks.WaitingAll cb (idAfter pre) socks (Acks.step (Acks.run pre) (.bcast socks cb)) := by
    rw [hid]
    constructor
    · intro k hk
      simp only [Acks.step, Acks.bcast, Acks.nextId]
      rw [h4]; simp [hk]
    · intro k i e hn
      simp only [Acks.step, Acks.bcast, Acks.nextId]
      rw [h4]
      by_cases hh : i = (Acks.run pre).ids + 1 ∧ k ∈ socks
      · exact absurd hh.2 (hn hh.1)
      · intro hg
        have hg' : (Acks.run pre).acks.get? (k, i) = some e := by
          revert hg; grind
        exact fresh _ (hi.cb k i e hg')
    · intro i k c
      simp only [Acks.step, Acks.bcast, Acks.nextId]
      rw [h2]; exact fun hg => fresh _ (hi.tcb i k c hg)
    · simp only [Acks.step, Acks.bcast, Acks.nextId]
      rw [h1]; exact Nat.le_refl _
  have nt : (Acks.step (Acks.run pre) (.bcast socks cb)).timers.get? (idAfter pre) = none := by
    simp only [Acks.step, Acks.bcast, Acks.nextId]
    rw [h2, hid]
    cases h : (Acks.run pre).timers.get? ((Acks.run pre).ids + 1) with
    | none => rfl
    | some p => have := hi.tbound _ _ h; omega
  rw [Acks.run_append, List.foldl_cons,
    Acks.waitingAll_fold post hw (fun op ho => once op (by simp [ho])) nt]
  have : callsOf cb (Acks.step (Acks.run pre) (.bcast socks cb)).log = [] := by
    have : (Acks.step (Acks.run pre) (.bcast socks cb)).log = (Acks.run pre).log := by
      simp only [Acks.step, Acks.bcast, Acks.nextId]; exact h3
    rw [this]
    simp only [callsOf, List.filterMap_eq_nil_iff]
    intro p hp
    simp [fresh _ (hi.log p hp)]
  rw [this]; simp

/-- An emission with timeout (callback 7, id 2) amid other traffic: a wrong socket and an unknown id answer
first, then the timer fires, then the answer comes too late. -/
def lateAnswer : List Acks.Op :=
  [.answer 2 (some 2) [], .answer 1 (some 9) [], .answer 1 none [], .expire 1, .expire 2,
   .answer 1 (some 2) [.at (.str "late")]]

example : (∀ op ∈ [Acks.Op.bcast [1, 2] 5] ++ lateAnswer, cbOf op ≠ some 7) ∧
    outcome 1 (idAfter [.bcast [1, 2] 5]) true lateAnswer = some .timeout ∧
    outcome 1 (idAfter [.bcast [1, 2] 5]) false lateAnswer = some (.ok [.at (.str "late")]) ∧
    callsOf 7 (Acks.run ([.bcast [1, 2] 5] ++ .emit 1 7 true :: lateAnswer)).log = [.timeout] := by decide

/-- Two sockets reached by a broadcast, one of which answers twice. -/
example : callsOf 5 (Acks.run ([.emit 3 4 false] ++ .bcast [1, 2] 5 ::
    [.answer 2 (some 2) [.at (.str "b")], .answer 2 (some 2) [], .answer 3 (some 2) [],
     .answer 1 (some 2) [.at (.str "a")]])).log = [.ok [.at (.str "b")], .ok [.at (.str "a")]] := by decide

/-- Two answers with the same id, handled in two goroutines that both look up the callback before either
deletes it. -/
def doubleAnswer : List Acks.Ev :=
  [.emit 7 false, .adv 0, .adv 0, .recv 1 [.at (.str "a")], .recv 1 [.at (.str "b")],
   .adv 1, .adv 2, .adv 1, .adv 2, .adv 1, .adv 2, .adv 1, .adv 2]

/-- The timer fires while the answer is being handled. -/
def timerRace : List Acks.Ev :=
  [.emit 7 true, .adv 0, .adv 0, .recv 1 [.at (.str "a")], .adv 1, .fire 1, .adv 2, .adv 2, .adv 1, .adv 1]

/-- The timer fires before the callback has been stored: the answer is still accepted afterwards. -/
def earlyTimer : List Acks.Ev :=
  [.emit 7 true, .adv 0, .fire 1, .adv 1, .adv 0, .adv 1, .recv 1 [.at (.str "a")], .adv 2, .adv 2, .adv 2]

/-- **C29 fails under concurrency**: with the goroutines the code actually starts, a callback can be called
twice by a duplicate answer, or with both the answer and the timeout error. -/
theorem C29_concurrent_false :
    callsOf 7 (Acks.crun doubleAnswer).log = [.ok [.at (.str "a")], .ok [.at (.str "b")]] ∧
    callsOf 7 (Acks.crun timerRace).log = [.timeout, .ok [.at (.str "a")]] ∧
    callsOf 7 (Acks.crun earlyTimer).log = [.timeout, .ok [.at (.str "a")]] := by decide

theorem potential_fold {cb id : Nat} (h : List Acks.Ev) {s : Acks.CSt} (hi : Acks.CInv cb id s)
    (hp : ∀ e ∈ h, passes cb e = false) :
    Acks.CInv cb id (h.foldl Acks.cstep s) ∧
    Acks.potential cb id (h.foldl Acks.cstep s) ≤ Acks.potential cb id s + answersTo id h := by
  induction h generalizing s with
  | nil => exact ⟨hi, Nat.le_add_right _ _⟩
  | cons e h ih =>
    have he := hp e (by simp)
    obtain ⟨h1, h2⟩ := Acks.cstep_potential hi e (by rintro timed rfl; simp [passes] at he)
    obtain ⟨h3, h4⟩ := ih h1 (fun e' he' => hp e' (by simp [he']))
    refine ⟨h3, ?_⟩
    have hg : Acks.gain cb id e ≤ answersTo id [e] := by
      cases e with
      | emit c t => simp [passes] at he; simp [Acks.gain, he]
      | recv i a => by_cases hii : i = id <;> simp [Acks.gain, answersTo, hii]
      | fire => simp [Acks.gain]
      | adv => simp [Acks.gain]
    have : answersTo id (e :: h) = answersTo id [e] + answersTo id h := by
      simp only [answersTo, ← List.countP_append]; rfl
    simp only [List.foldl_cons]
    omega

/-- **C29**, every interleaving of the individual map operations.  A callback is called at most as often as
answers with its id arrive, plus once if it has a timeout.  So without a timeout and with a single answer,
or with a timeout and no answer, it is called at most once. -/
theorem C29_interleaved_partial (pre post : List Acks.Ev) (cb : Nat) (timed : Bool)
    (once : ∀ e ∈ pre ++ post, passes cb e = false) :
    (callsOf cb (Acks.crun (pre ++ .emit cb timed :: post)).log).length ≤
      answersTo (emitId pre) (pre ++ post) + (if timed then 1 else 0) := by
  have h0 : Acks.CInv cb (emitId pre) ({} : Acks.CSt) := by constructor <;> simp
  obtain ⟨h1, h2⟩ := potential_fold pre h0 (fun e he => once e (by simp [he]))
  have hids : (pre.foldl Acks.cstep {}).ids + 1 = emitId pre := by
    rw [Acks.cids]; simp [emitId]
  obtain ⟨h3, h4⟩ := Acks.cstep_potential h1 (.emit cb timed) (fun _ _ => hids)
  obtain ⟨h5, h6⟩ := potential_fold post h3 (fun e he => once e (by simp [he]))
  have hr : Acks.crun (pre ++ .emit cb timed :: post) =
      post.foldl Acks.cstep (Acks.cstep (pre.foldl Acks.cstep {}) (.emit cb timed)) := by
    simp [Acks.crun]
  rw [hr]
  have hz : Acks.potential cb (emitId pre) {} = 0 := by simp [Acks.potential, callsOf]
  have hg : Acks.gain cb (emitId pre) (.emit cb timed) = if timed then 1 else 0 := by simp [Acks.gain]
  have hle : ∀ s : Acks.CSt, (callsOf cb s.log).length ≤ Acks.potential cb (emitId pre) s := by
    intro s; simp only [Acks.potential]; omega
  have ha : answersTo (emitId pre) (pre ++ post) = answersTo (emitId pre) pre + answersTo (emitId pre) post := by
    simp [answersTo]
  have := hle (post.foldl Acks.cstep (Acks.cstep (pre.foldl Acks.cstep {}) (.emit cb timed)))
  omega

/-- A schedule with one answer, no timeout, and unrelated traffic: the bound is one and it is reached. -/
example : (∀ e ∈ [Acks.Ev.emit 3 true, .adv 0] ++ [.adv 1, .adv 1, .recv 2 [], .adv 2, .adv 2, .adv 2, .adv 2, .fire 1],
      passes 7 e = false) ∧
    answersTo (emitId [.emit 3 true, .adv 0]) ([.emit 3 true, .adv 0] ++
      [.adv 1, .adv 1, .recv 2 [], .adv 2, .adv 2, .adv 2, .adv 2, .fire 1]) = 1 ∧
    callsOf 7 (Acks.crun ([.emit 3 true, .adv 0] ++ .emit 7 false ::
      [.adv 1, .adv 1, .recv 2 [], .adv 2, .adv 2, .adv 2, .adv 2, .fire 1])).log = [.ok []] := by decide

/-- **C29**, every interleaving: an answer that is passed to the callback before the time is up stops the timer: whatever happens
afterwards, the callback is never told that the time is up. -/
theorem C29_in_time_partial (pre mid post : List Acks.Ev) (cb : Nat) (args : List Val)
    (once : ∀ e ∈ pre ++ mid ++ post, passes cb e = false) (early : .fire (emitId pre) ∉ mid)
    (answered : .ok args ∈ callsOf cb (Acks.crun (pre ++ .emit cb true :: mid)).log) :
    .timeout ∉ callsOf cb (Acks.crun (pre ++ .emit cb true :: mid ++ post)).log := by
  have hids : (Acks.crun pre).ids + 1 = emitId pre := by
    rw [Acks.crun, Acks.cids]; simp [emitId]
  have f0 := Acks.inTime_emit (Acks.fresh_run pre (fun e he => once e (by simp [he])))
  rw [hids] at f0
  have f1 := Acks.inTime_run mid f0 (fun e he => once e (by simp [he])) early
  have e1 : Acks.crun (pre ++ .emit cb true :: mid) = mid.foldl Acks.cstep (Acks.cstep (Acks.crun pre) (.emit cb true)) := by
    simp [Acks.crun]
  rw [← e1] at f1
  obtain ⟨x, hx, hq⟩ := List.mem_filterMap.1 answered
  have hc : x.1 = cb := by
    by_cases h : x.1 = cb
    · exact h
    · rw [if_neg h] at hq; cases hq
  have f2 := Acks.answered_run post f1 (fun e he => once e (by simp [he])) x hx hc
  have e2 : Acks.crun (pre ++ .emit cb true :: mid ++ post) = post.foldl Acks.cstep (Acks.crun (pre ++ .emit cb true :: mid)) := by
    rw [Acks.crun, List.foldl_append]; rfl
  rw [← e2] at f2
  intro h
  obtain ⟨y, hy, hq'⟩ := List.mem_filterMap.1 h
  by_cases hc' : y.1 = cb
  · rw [if_pos hc'] at hq'
    exact (f2.late y hy hc').1 (Option.some.inj hq')
  · rw [if_neg hc'] at hq'; cases hq'

/-- An answer, and the timer afterwards. -/
example : let pre : List Acks.Ev := [.emit 3 true, .adv 0]
    let mid : List Acks.Ev := [.adv 1, .adv 1, .recv 2 [], .adv 2, .adv 2, .adv 2]
    let post : List Acks.Ev := [.fire 2, .adv 2, .fire 1, .adv 3, .adv 3]
    (∀ e ∈ pre ++ mid ++ post, passes 7 e = false) ∧ .fire (emitId pre) ∉ mid ∧
    .ok [] ∈ callsOf 7 (Acks.crun (pre ++ .emit 7 true :: mid)).log ∧
    callsOf 3 (Acks.crun (pre ++ .emit 7 true :: mid ++ post)).log = [.timeout] := by decide

/-! ## C30 -/

/-- **C30**.  In every interleaving of fewer than 2^64 requests, two different requests never draw the same
id. -/
theorem C30_distinct (h : List Ids.Ev) (hb : requests h < 2 ^ 64) (i j : Nat) (id : BitVec 64)
    (hi : drawn (Ids.run h) i = some id) (hj : drawn (Ids.run h) j = some id) : i = j := by
  have hl := Ids.threads_run h {}
  have hinv := Ids.inv_fold h {} Ids.inv_init (by
    rw [hl]; simpa using hb)
  simp only [drawn, Option.bind_eq_some_iff] at hi hj
  obtain ⟨t, ht, hti⟩ := hi
  obtain ⟨u, hu, huj⟩ := hj
  exact hinv.distinct i j t u id ht hu hti huj

/-- **C30**, seen from the tables of the sockets: what is stored for a socket under an id is the callback of
the one request that drew this id; no other request ever replaces it. -/
theorem C30_owner (h₁ h₂ : List Ids.Ev) (hb : requests (h₁ ++ h₂) < 2 ^ 64) (sock : Nat) (id : BitVec 64)
    (k k' : Nat) (h : (Ids.run h₁).acks.get? (sock, id) = some k)
    (h' : (Ids.run (h₁ ++ h₂)).acks.get? (sock, id) = some k') :
    k' = k ∧ drawn (Ids.run (h₁ ++ h₂)) k = some id := by
  have hl₁ := Ids.threads_run h₁ {}
  have hl := Ids.threads_run (h₁ ++ h₂) {}
  have hc : requests (h₁ ++ h₂) = requests h₁ + requests h₂ := by simp [requests]
  have hi₁ := Ids.inv_fold h₁ {} Ids.inv_init (by
    rw [hl₁]; simp only [requests] at *; simp; omega)
  have hi₂ := Ids.inv_fold (h₁ ++ h₂) {} Ids.inv_init (by
    rw [hl]; simp only [requests] at *; simpa using hb)
  obtain ⟨t, ht, hti⟩ := hi₁.owner sock id k h
  obtain ⟨t', ht', hti'⟩ := hi₂.owner sock id k' h'
  have hk : drawn (Ids.run (h₁ ++ h₂)) k = some id := by
    have : ∃ t₂, ((h₁ ++ h₂).foldl Ids.step {}).threads[k]? = some t₂ ∧ t₂.id = some id := by
      rw [List.foldl_append]
      exact Ids.id_kept h₂ _ k t id ht hti
    obtain ⟨t₂, h1, h2⟩ := this
    simp only [drawn, Ids.run]; rw [h1]; exact h2
  refine ⟨?_, hk⟩
  refine C30_distinct (h₁ ++ h₂) hb k' k id ?_ hk
  simp only [drawn, Ids.run]; rw [ht']; exact hti'

/-- Three requests, two of them interleaved. -/
example : requests [.request [1], .request [1, 2], .adv 1, .adv 0, .adv 0, .request [2], .adv 1, .adv 1] < 2 ^ 64 ∧
    (Ids.run [.request [1], .request [1, 2], .adv 1, .adv 0, .adv 0, .request [2], .adv 1, .adv 1]).acks =
      [((2, 1), 1), ((1, 1), 1), ((1, 2), 0)] ∧
    drawn (Ids.run [.request [1], .request [1, 2], .adv 1, .adv 0]) 1 = some 1 := by decide

/-! ## C31 -/

/-- **C31**.  However many goroutines call the acknowledgement function of an event, and however their
steps interleave: at most one packet is sent; it is an ACK with the id of the event and the arguments of one
of the calls; once sent it stays the only one; and as soon as one of the calls has returned, it has been
sent. -/
theorem C31_once (nsp : String) (id : Nat) (h₁ h₂ : List Once.Ev) :
    ((Once.run (Once.ackPkt nsp id) h₁).sent = [] ∨
      ∃ (k : Nat) (args : List Val) (pc : Once.Pc), (Once.run (Once.ackPkt nsp id) h₁).calls[k]? = some (args, pc) ∧
        (Once.run (Once.ackPkt nsp id) h₁).sent = [{ type := .ack, nsp := nsp, data := .args args, id := some id }] ∧
        (Once.run (Once.ackPkt nsp id) (h₁ ++ h₂)).sent = (Once.run (Once.ackPkt nsp id) h₁).sent) ∧
    (∀ (k : Nat) (args : List Val), (Once.run (Once.ackPkt nsp id) h₁).calls[k]? = some (args, .returned) →
      (Once.run (Once.ackPkt nsp id) h₁).sent ≠ []) :=
  Once.once_spec (Once.ackPkt nsp id) h₁ h₂

/-- **C31**, "the first arguments given": if a call has returned before any other call was made, the packet
carries its arguments, whatever happens later. -/
theorem C31_first_wins (nsp : String) (id : Nat) (h₁ h₂ : List Once.Ev) (args : List Val)
    (only : (Once.run (Once.ackPkt nsp id) h₁).calls = [(args, .returned)]) :
    (Once.run (Once.ackPkt nsp id) (h₁ ++ h₂)).sent = [{ type := .ack, nsp := nsp, data := .args args, id := some id }] := by
  obtain ⟨h1, h2⟩ := C31_once nsp id h₁ h₂
  have hne := h2 0 args (by rw [only]; rfl)
  rcases h1 with h1 | ⟨k, a, pc, hk, hs, hst⟩
  · exact absurd h1 hne
  · rw [only] at hk
    cases k with
    | zero => simp at hk; rw [hst, hs, ← hk.1]
    | succ k => simp at hk

/-- Three calls from three goroutines; the second enters first. -/
example : (Once.run (Once.ackPkt "/" 9) [.call [.at (.str "a")], .call [.at (.str "b")], .adv 1, .adv 0, .adv 1, .call [],
      .adv 2, .adv 1, .adv 0, .adv 2]) =
    { once := .done, calls := [([.at (.str "a")], .returned), ([.at (.str "b")], .returned), ([], .returned)],
      sent := [{ type := .ack, nsp := "/", data := .args [.at (.str "b")], id := some 9 }] } := by decide

example : (Once.run (Once.ackPkt "/" 9) [.call [.at (.str "a")], .adv 0, .adv 0, .adv 0]).calls = [([.at (.str "a")], .returned)] := by
  decide

end Verif.Props
