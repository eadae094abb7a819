import Verif.Proof.Heartbeat
import Verif.Proof.RequestsConc

/-! # C40, C41, C42, C43: membership and cluster-wide requests -/

namespace Verif.Props
open Verif Verif.Spec Verif.Heartbeat

/-! ## C40 -/

/-- **C40**: after any history, `ServerCount()` is one plus the number of distinct other servers whose last
message was no goodbye and is not out of date at any clean-up since. -/
theorem C40_count (self : Uid) (T : Nat) (h : List Ev) :
    ∃ others : List Uid, others.Nodup ∧ (∀ u, u ∈ others ↔ Known self T h u) ∧
      serverCount (run self T h) = 1 + others.length :=
  ⟨(run self T h).nodes.keys, nodes_wf self T h, known_iff self T h, by
    simp [serverCount, FMap.keys]; omega⟩

/-- A server that keeps sending is counted: if since some message of `u` it has not said goodbye and every
clean-up comes at most `T` after its preceding messages, then `u` is known. -/
theorem C40_steady (self : Uid) (T : Nat) (pre post : List Ev) (u : Uid) (m : MType) (τ : Nat)
    (hs : u ≠ self) (he : u ≠ "emitter") (hm : m ≠ .close)
    (stays : ∀ t, .message u .close t ∉ post)
    (steady : ∀ a t o b, post = a ++ .cleanup t o :: b →
      ∀ a1 m' τ' a2, .message u m τ :: a = a1 ++ .message u m' τ' :: a2 →
        (∀ m'' t'', .message u m'' t'' ∉ a2) → t ≤ τ' + T) :
    Known self T (pre ++ .message u m τ :: post) u := by
  refine ⟨hs, he, ?_⟩
  have key : ∀ p : List Ev, (∃ r, post = p ++ r) → ∃ (τ' : Nat) (a1 : List Ev) (m' : MType) (a2 : List Ev),
      .message u m τ :: p = a1 ++ .message u m' τ' :: a2 ∧ m' ≠ .close ∧
      (∀ m'' t'', .message u m'' t'' ∉ a2) ∧ ∀ t o, .cleanup t o ∈ a2 → t ≤ τ' + T := by
    intro p
    induction p using snocRec with
    | nil => intro _; exact ⟨τ, [], m, [], rfl, hm, by simp, by simp⟩
    | append_singleton p e ih =>
      rintro ⟨r, hr⟩
      obtain ⟨τ', a1, m', a2, h1, h2, h3, h4⟩ := ih ⟨e :: r, by simp [hr]⟩
      by_cases hmsg : ∃ m'' t'', e = .message u m'' t''
      · obtain ⟨m'', t'', rfl⟩ := hmsg
        refine ⟨t'', .message u m τ :: p, m'', [], by simp, ?_, by simp, by simp⟩
        rintro rfl
        exact stays t'' (by simp [hr])
      · refine ⟨τ', a1, m', a2 ++ [e], by rw [← List.cons_append, h1]; simp, h2, ?_, ?_⟩
        · intro m'' t'' hmem
          rcases List.mem_append.1 hmem with hmem | hmem
          · exact h3 m'' t'' hmem
          · exact hmsg ⟨m'', t'', (List.mem_singleton.1 hmem).symm⟩
        · intro t o hmem
          rcases List.mem_append.1 hmem with hmem | hmem
          · exact h4 t o hmem
          · have : e = .cleanup t o := (List.mem_singleton.1 hmem).symm
            subst this
            exact steady p t o r (by simp [hr]) a1 m' τ' a2 h1 h3
  obtain ⟨τ', a1, m', a2, h1, h2, h3, h4⟩ := key post ⟨[], by simp⟩
  exact ⟨τ', pre ++ a1, m', a2, by rw [h1]; simp, h2, h3, h4⟩

/-- A silent server is dropped by the first clean-up more than `T` after its last message. -/
theorem C40_silent (self : Uid) (T : Nat) (pre post : List Ev) (u : Uid) (m : MType) (τ t : Nat)
    (order : List Uid) (silent : ∀ m' t', .message u m' t' ∉ post) (late : τ + T < t) :
    ¬ Known self T (pre ++ .message u m τ :: post ++ [.cleanup t order]) u := by
  rintro ⟨_, _, τ', hh⟩
  rw [heard_snoc] at hh
  rcases hh with ⟨m', h, _⟩ | ⟨hh, _, h2⟩
  · cases h
  · have h3 := h2 t order rfl
    have : ∀ p : List Ev, (∀ m' t', .message u m' t' ∉ p) → ∀ τ', Heard T (pre ++ .message u m τ :: p) u τ' →
        τ' = τ := by
      intro p
      induction p using snocRec with
      | nil =>
        intro _ τ' h
        rw [heard_snoc] at h
        rcases h with ⟨_, h, _⟩ | ⟨_, h, _⟩
        · cases h; rfl
        · exact absurd rfl (h m τ)
      | append_singleton p e ih =>
        intro hno τ' h
        rw [show pre ++ Ev.message u m τ :: (p ++ [e]) = (pre ++ .message u m τ :: p) ++ [e] by simp,
          heard_snoc] at h
        rcases h with ⟨m', rfl, _⟩ | ⟨h, _⟩
        · exact absurd (by simp) (hno m' τ')
        · exact ih (fun m' t' hm => hno m' t' (by simp [hm])) τ' h
    have := this post silent τ' hh
    omega

/-- Neither the server itself nor the emitter is ever counted. -/
theorem C40_never_self (self : Uid) (T : Nat) (h : List Ev) :
    self ∉ (run self T h).nodes.keys ∧ "emitter" ∉ (run self T h).nodes.keys := by
  constructor
  · intro hm; exact ((known_iff self T h self).1 hm).1 rfl
  · intro hm; exact ((known_iff self T h "emitter").1 hm).2.1 rfl

/-- **C40**: a server answers every other server that announces itself, and itself never: the number of heartbeats it publishes in
answer is the number of initial heartbeats of others that it has received. -/
theorem C40_answers (self : Uid) (T : Nat) (h : List Ev) :
    (run self T h).heartbeats = h.countP (isAnnouncement self) := by
  induction h using snocRec with
  | nil => rfl
  | append_singleton h e ih =>
    rw [run_snoc, step_heartbeats, ih, List.countP_append]
    simp [List.countP_cons]

example : (run "me" 10 [.message "a" .initialHeartbeat 0, .message "me" .initialHeartbeat 1, .message "a" .close 2,
    .message "b" .initialHeartbeat 3]).heartbeats = 2 := by decide

/-- Three servers heard, one out of date, one closed; the emitter and the server itself do not count. -/
example : serverCount (run "me" 10 [.message "a" .initialHeartbeat 0, .message "b" .heartbeat 3,
    .message "c" .other 4, .message "emitter" .other 5, .message "me" .heartbeat 5, .message "d" .heartbeat 5,
    .message "c" .close 6, .cleanup 12 ["d"]]) = 3 := by decide

/-- The hypotheses of `C40_steady` are met by a server that sends at 0, 8 and 16 with clean-ups at 5, 15. -/
example : Known "me" 10 ([.message "b" .heartbeat 0] ++ .message "a" .heartbeat 0 :: [.cleanup 5 [],
    .message "a" .other 8, .cleanup 15 [], .message "a" .other 16]) "a" :=
  (known_iff _ _ _ _).1 (by decide)

/-! ## C41 -/

/-- **C41**, calls handled one at a time: while some server known at the time of the request has neither
answered nor left and the timer has not fired, the callback is not called. -/
theorem C41_waits_partial (self : Uid) (T id : Nat) (pre : List Ev) (kind : Kind) (here : List Val) (p : List Ev)
    (hpre : ∀ k l, .request id k l ∉ pre) (hp : ∀ k l, .request id k l ∉ p) (htm : .timeout id ∉ p)
    (hnd : ¬ Done self T pre (.request id kind here) id p) :
    requestCalls id (run self T (pre ++ .request id kind here :: p)).calls = [] := by
  have := request_run self T id pre kind here p hpre hp htm ?_
  · rcases this with ⟨q, hv, _⟩ | ⟨h, _⟩
    · exact congrArg Prod.snd hv
    · exact absurd (fun u hu => Classical.byContradiction fun hs => h u ⟨hu, hs⟩) hnd
  · rintro p1 e p2 rfl h
    exact hnd fun u hu => settled_append (e :: p2) (h u hu)

/-- **C41**, calls handled one at a time: at the first moment at which every server known at the time of the
request has answered or left, the callback is called with the local values and all the answers received; and
never again, whatever happens later. -/
theorem C41_resolves_partial (self : Uid) (T id : Nat) (pre : List Ev) (kind : Kind) (here : List Val)
    (p later : List Ev) (hpre : ∀ k l, .request id k l ∉ pre) (hp : ∀ k l, .request id k l ∉ p)
    (hl : ∀ k l, .request id k l ∉ later) (htm : .timeout id ∉ p)
    (hd : FirstDone self T pre (.request id kind here) id p) :
    requestCalls id (run self T (pre ++ .request id kind here :: (p ++ later))).calls =
      [.ok (here ++ receivedFor id p)] := by
  have := request_run self T id pre kind here p hpre hp htm hd.2
  have hv : view id (run self T (pre ++ .request id kind here :: p)) = (none, [.ok (here ++ receivedFor id p)]) := by
    rcases this with ⟨q, _, _, _, _, u, hu, hs⟩ | ⟨_, h⟩
    · exact absurd (hd.1 u hu) hs
    · exact h
  have := over_forever self T id _ later _ hl hv
  rw [List.append_assoc] at this
  exact congrArg Prod.snd this

/-- **C41**, calls handled one at a time: if the timer fires first, the callback is called with an error; and
never again. -/
theorem C41_timeout_partial (self : Uid) (T id : Nat) (pre : List Ev) (kind : Kind) (here : List Val)
    (p later : List Ev) (hpre : ∀ k l, .request id k l ∉ pre) (hp : ∀ k l, .request id k l ∉ p)
    (hl : ∀ k l, .request id k l ∉ later) (htm : .timeout id ∉ p)
    (hnd : ¬ Done self T pre (.request id kind here) id p) :
    requestCalls id (run self T (pre ++ .request id kind here :: (p ++ .timeout id :: later))).calls =
      [failure kind (here ++ receivedFor id p)] := by
  have := request_run self T id pre kind here p hpre hp htm ?_
  · rcases this with ⟨q, hv, hk, hr, _⟩ | ⟨h, _⟩
    · have hv' : view id (run self T ((pre ++ .request id kind here :: p) ++ [.timeout id])) =
          (none, [failure kind (here ++ receivedFor id p)]) := by
        rw [run_snoc]
        have hg : (run self T (pre ++ .request id kind here :: p)).custom.get? id = some q := congrArg Prod.fst hv
        have hc : requestCalls id (run self T (pre ++ .request id kind here :: p)).calls = [] :=
          congrArg Prod.snd hv
        simp only [step, timeout, hg, view, FMap.get?_erase_self, requestCalls_snoc, hc, if_true, List.nil_append]
        rw [← hr, ← hk]
        cases q.kind <;> rfl
      have := over_forever self T id _ later _ hl hv'
      rw [show (pre ++ Ev.request id kind here :: p) ++ [.timeout id] ++ later =
        pre ++ .request id kind here :: (p ++ .timeout id :: later) by simp] at this
      exact congrArg Prod.snd this
    · exact absurd (fun u hu => Classical.byContradiction fun hs => h u ⟨hu, hs⟩) hnd
  · rintro p1 e p2 rfl h
    exact hnd fun u hu => settled_append (e :: p2) (h u hu)

/-- **C41**, calls handled one at a time: the callback is never called twice. -/
theorem C41_once_partial (self : Uid) (T id : Nat) (pre : List Ev) (kind : Kind) (here : List Val) (p : List Ev)
    (hpre : ∀ k l, .request id k l ∉ pre) (hp : ∀ k l, .request id k l ∉ p) :
    (requestCalls id (run self T (pre ++ .request id kind here :: p)).calls).length ≤ 1 := by
  rcases first_prefix (fun q => Done self T pre (.request id kind here) id q ∨ .timeout id ∈ q) p with
    ⟨q, r, rfl, h, hm⟩ | hn
  · by_cases htm : .timeout id ∈ q
    · obtain ⟨q1, q2, rfl, hq1⟩ := List.append_of_mem htm |>.elim fun a h => h.elim fun b h =>
        (⟨a, b, h, trivial⟩ : ∃ q1 q2, q = q1 ++ .timeout id :: q2 ∧ True)
      have hh := hm q1 (.timeout id) q2 rfl
      have h1 : ¬ Done self T pre (.request id kind here) id q1 := fun h => hh (.inl h)
      have h2 : .timeout id ∉ q1 := fun h => hh (.inr h)
      have := C41_timeout_partial self T id pre kind here q1 (q2 ++ r) hpre
        (fun k l h => hp k l (by simp [h])) (fun k l h => hp k l (by
          rcases List.mem_append.1 h with h | h <;> simp [h])) h2 h1
      rw [show q1 ++ Ev.timeout id :: q2 ++ r = q1 ++ .timeout id :: (q2 ++ r) by simp, this]
      simp
    · have hd : Done self T pre (.request id kind here) id q := by
        rcases h with h | h
        · exact h
        · exact absurd h htm
      rw [C41_resolves_partial self T id pre kind here q r hpre (fun k l h => hp k l (by simp [h]))
        (fun k l h => hp k l (by simp [h])) htm ⟨hd, fun q1 e q2 h1 h2 => hm q1 e q2 h1 (.inl h2)⟩]
      simp
  · have := hn p [] (by simp)
    rw [C41_waits_partial self T id pre kind here p hpre hp (fun h => this (.inr h)) (fun h => this (.inl h))]
    simp

/-- A request to two servers: one answers, the other leaves; a late duplicate changes nothing. -/
example : requestCalls 7 (run "me" 10 ([.message "a" .heartbeat 0, .message "b" .heartbeat 0] ++
    .request 7 .fetch [.str "here"] :: ([.response "a" (.fetch 7 [.str "x"]), .message "b" .close 4] ++
      [.response "a" (.fetch 7 [.str "x"]), .timeout 7]))).calls = [.ok [.str "here", .str "x"]] := by decide

/-- That history has its first moment of completion where the theorem says. -/
example : FirstDone "me" 10 [.message "a" .heartbeat 0, .message "b" .heartbeat 0]
    (.request 7 .fetch [.str "here"]) 7 [.response "a" (.fetch 7 [.str "x"]), .message "b" .close 4] := by
  have hk : ∀ h u, Known "me" 10 h u ↔ u ∈ (run "me" 10 h).nodes.keys := fun h u => (known_iff _ _ _ _).symm
  constructor
  · intro u hu
    rw [hk] at hu
    have : u = "b" ∨ u = "a" := by simpa [run, step, onMessage, FMap.keys, FMap.insert, FMap.erase, EMITTER] using hu
    rcases this with rfl | rfl
    · exact .inr ⟨_, [], (List.append_nil _).symm, by rw [hk]; decide⟩
    · exact .inl ⟨_, List.mem_cons_self, .inl ⟨_, rfl⟩⟩
  · intro p1 e p2 h hd
    have hb := hd "b" ((hk _ _).2 (by decide))
    have : p1 = [] ∨ p1 = [.response "a" (.fetch 7 [.str "x"])] := by
      match p1, h with
      | [], _ => exact .inl rfl
      | [a], h => simp only [List.cons_append, List.nil_append, List.cons.injEq] at h; exact .inr (by rw [h.1])
      | a :: b :: l, h => simp at h
    rcases hb with ⟨x, hx, hax⟩ | ⟨q1, q2, hq, hnk⟩
    · rcases this with rfl | rfl
      · cases hx
      · rw [List.mem_singleton] at hx; subst hx
        rcases hax with ⟨_, h⟩ | ⟨_, h⟩ <;> simp at h
    · rw [hk] at hnk
      have : q1 = [] ∨ q1 = [.response "a" (.fetch 7 [.str "x"])] := by
        rcases this with rfl | rfl
        · exact .inl (List.append_eq_nil_iff.1 hq.symm).1
        · match q1, hq with
          | [], _ => exact .inl rfl
          | [a], h => simp only [List.cons_append, List.nil_append, List.cons.injEq] at h; exact .inr (by rw [h.1])
          | a :: b :: l, h => simp at h
      rcases this with rfl | rfl <;> exact hnk (by decide)

/-- **C41 is false** under concurrency: two answers handled by two goroutines can both find that nobody is
missing any more, and the callback is called twice. -/
theorem C41_twice_false : ¬ ∀ (missing : List Uid) (h : List RequestsConc.Ev),
    (RequestsConc.run missing [] h).calls.length ≤ 1 := by
  intro hall
  exact absurd (hall ["a", "b"] [.respond "a" [], .respond "b" [], .adv 0, .adv 1, .adv 0, .adv 1, .adv 0, .adv 1,
    .adv 0, .adv 1, .adv 0, .adv 1]) (by decide)

/-- What remains under concurrency: for every interleaving of any number of answers, once all the calls have
returned and every server asked has answered, the callback was called at least once. -/
theorem C41_called_partial (missing : List Uid) (here : List Val) (h : List RequestsConc.Ev)
    (ne : missing ≠ []) (answered : ∀ u ∈ missing, ∃ l, .respond u l ∈ h)
    (returned : ∀ t ∈ (RequestsConc.run missing here h).threads, t.2.2 = .done) :
    1 ≤ (RequestsConc.run missing here h).calls.length :=
  RequestsConc.called missing here h ne answered returned

/-- And whatever the interleaving, whenever the callback is called it is given the whole answer of every server asked, and no value
more often than this server and the answers have it. -/
theorem C41_values (missing : List Uid) (here : List Val) (h : List RequestsConc.Ev) (c : List Val)
    (hc : c ∈ (RequestsConc.run missing here h).calls) :
    (∀ u ∈ missing, ∃ l, .respond u l ∈ h ∧ l <:+: c) ∧ ∀ x, c.count x ≤ (here ++ valuesAnswered h).count x := by
  have v := RequestsConc.vals_run missing here h
  obtain ⟨h1, h2⟩ := v.calls c hc
  refine ⟨h1, fun x => ?_⟩
  have := h2 x
  have := v.books x
  rw [List.count_append]
  rw [← RequestsConc.answers_eq]
  omega

/-- Two servers answer at the same time. -/
example : (RequestsConc.run ["a", "b"] [.str "0"] [.respond "a" [.str "1", .str "2"], .respond "b" [.str "3"], .adv 0, .adv 1, .adv 1, .adv 0,
    .adv 1, .adv 1, .adv 0, .adv 0, .adv 0]).calls = [[.str "0", .str "3", .str "1", .str "2"]] := by decide

/-- The hypotheses of `C41_called_partial` are met by the double resolution above, completed. -/
example : ∀ t ∈ (RequestsConc.run ["a", "b"] [] [.respond "a" [], .respond "b" [], .adv 0, .adv 1, .adv 0, .adv 1,
    .adv 0, .adv 1, .adv 0, .adv 1, .adv 0, .adv 1, .adv 0, .adv 1]).threads, t.2.2 = .done := by decide

/-! ## C42 -/

/-- **C42 is false** for the adapter with heartbeats: whatever the request waited for, a
FETCH_SOCKETS_RESPONSE or SERVER_SIDE_EMIT_RESPONSE of the last missing server resolves it when given to
`OnResponse` and is lost when given to `OnMessage`. -/
theorem C42_false (self : Uid) (T : Nat) (h : List Ev) (u : Uid) (hu : u ≠ self) (id now : Nat) (q : Custom)
    (l : List Val) (hq : (run self T h).custom.get? id = some q) (last : q.missing = [u]) :
    requestCalls id (run self T (h ++ [.response u (.fetch id l)])).calls =
      requestCalls id (run self T h).calls ++ [.ok (q.responses ++ l)] ∧
    requestCalls id (run self T (h ++ [.message u (.response (.fetch id l)) now])).calls =
      requestCalls id (run self T h).calls := by
  constructor
  · rw [run_snoc]
    have := answer_view (run self T h) u id id l
    simp only [if_true] at this
    have h2 := congrArg Prod.snd this
    simp only [step, onResponse]
    rw [show requestCalls id (answer (run self T h) u id l).calls = (view id (answer (run self T h) u id l)).2 from rfl,
      h2]
    simp [view, hq, answerView, Heartbeat.drop, last, LSet.del]
  · rw [run_snoc]
    have hs' : ∀ s' : St, s' = (if u ≠ EMITTER then { (run self T h) with nodes := (run self T h).nodes.insert u now }
        else run self T h) → s'.base = [] ∧ view id s' = view id (run self T h) := by
      rintro s' rfl; split <;> exact ⟨base_nil _ _ _, rfl⟩
    obtain ⟨h1, h2⟩ := hs' _ rfl
    have := (onResponseBase_base _ (.fetch id l) h1).2 id
    rw [h2] at this
    simp only [step, onMessage, if_neg hu, onMessageBase]
    exact congrArg Prod.snd this

/-- A state as `C42_false` assumes exists. -/
example : (run "me" 10 [.message "a" .heartbeat 0, .request 1 .fetch []]).custom.get? 1 =
    some ⟨.fetch, ["a"], []⟩ := by decide

/-- **C42**, what holds: for the plain cluster adapter every response of another server has, in every state, the same effect
whichever way it comes, and that effect is: a client count or an acknowledgement reaches the callback of the broadcast it is for,
if that is still open; an answer is added to the request it is for, and the callback is called with all of them when it is the last
one expected. -/
theorem C42_plain_partial (self : Uid) (s : St) (u : Uid) (hu : u ≠ self) :
    (∀ r, onMessageBase self s u r = onResponseBase s r) ∧
    (∀ req n, (onMessageBase self s u (.clientCount req n)).ackCalls =
      s.ackCalls ++ if req ∈ s.acks then [.count req n] else []) ∧
    (∀ req p, (onMessageBase self s u (.ack req p)).ackCalls =
      s.ackCalls ++ if req ∈ s.acks then [.answer req p] else []) ∧
    (∀ req r l, (r = .fetch req l ∨ ∃ v, r = .sse req v ∧ l = [v]) → ∀ q, s.base.get? req = some q →
      if q.current + 1 = q.expected then
        (onMessageBase self s u r).calls = s.calls ++ [(req, .ok (q.responses ++ l))] ∧
        (onMessageBase self s u r).base.get? req = none
      else
        (onMessageBase self s u r).calls = s.calls ∧
        (onMessageBase self s u r).base.get? req = some ⟨q.expected, q.current + 1, q.responses ++ l⟩) := by
  refine ⟨fun r => by simp [onMessageBase, hu], fun req n => ?_, fun req p => ?_, ?_⟩
  · by_cases ha : req ∈ s.acks <;> simp [onMessageBase, hu, onResponseBase, ha]
  · by_cases ha : req ∈ s.acks <;> simp [onMessageBase, hu, onResponseBase, ha]
  · intro req r l hr q hq
    by_cases hc : q.current + 1 = q.expected
    · rw [if_pos hc]
      rcases hr with rfl | ⟨v, rfl, rfl⟩ <;> simp [onMessageBase, hu, onResponseBase, hq, hc]
    · rw [if_neg hc]
      rcases hr with rfl | ⟨v, rfl, rfl⟩ <;> simp [onMessageBase, hu, onResponseBase, hq, hc]

/-- The last of two answers. -/
example : (onMessageBase "me" { base := [(3, ⟨2, 1, [.num 1]⟩)] } "a" (.sse 3 (.num 2))).calls = [(3, .ok [.num 1, .num 2])] := by
  decide

/-- **C42**, what holds: for the adapter with heartbeats the responses to a broadcast with acknowledgement
have the same effect on every callback either way: they reach the callback of that broadcast, if it is still open. -/
theorem C42_broadcast_partial (self : Uid) (s : St) (u : Uid) (hu : u ≠ self) (now : Nat) (r : Resp) (req : Nat) (a : AckCall)
    (hr : (∃ n, r = .clientCount req n ∧ a = .count req n) ∨ ∃ p, r = .ack req p ∧ a = .answer req p) :
    (onMessage self s u (.response r) now).ackCalls = s.ackCalls ++ (if req ∈ s.acks then [a] else []) ∧
    (onResponse s u r).ackCalls = s.ackCalls ++ (if req ∈ s.acks then [a] else []) ∧
    (onMessage self s u (.response r) now).calls = (onResponse s u r).calls ∧
    (onMessage self s u (.response r) now).custom = (onResponse s u r).custom := by
  rcases hr with ⟨n, rfl, rfl⟩ | ⟨p, rfl, rfl⟩ <;>
  · simp only [onMessage, if_neg hu, onMessageBase, onResponse, onResponseBase]
    by_cases he : u = EMITTER <;> by_cases ha : req ∈ s.acks <;> simp [he, ha]

/-- A client count that counts. -/
example : (onMessage "me" { acks := [4] } "a" (.response (.clientCount 4 2)) 0).ackCalls = [.count 4 2] := by decide

/-! ## C43 -/

/-- **C43 is false**: whatever number of servers the adapter reports, `FetchSockets` of the base cluster adapter
asks nobody and returns the local sockets only. -/
theorem C43_false (reported : Int) (isLocal : Bool) (here : List Val) :
    fetchSocketsBase reported isLocal here = .callback here := by
  simp [fetchSocketsBase, inMemoryServerCount]

/-- **C43**, what holds: the adapter with heartbeats asks every server it knows.  If all of them stay and
answer before the timer fires, the callback is called once, with the sockets of this server and of every one of
them. -/
theorem C43_heartbeat_partial (self : Uid) (T id : Nat) (pre : List Ev) (here : List Val) (p later : List Ev)
    (hpre : ∀ k l, .request id k l ∉ pre) (hp : ∀ k l, .request id k l ∉ p ++ later) (htm : .timeout id ∉ p)
    (kind : ∀ u v, .response u (.sse id v) ∉ p)
    (stay : ∀ u p1 p2, Known self T pre u → p = p1 ++ p2 → Known self T (pre ++ .request id .fetch here :: p1) u)
    (all : ∀ u, Known self T pre u → ∃ l, .response u (.fetch id l) ∈ p) :
    ∃ values,
      requestCalls id (run self T (pre ++ .request id .fetch here :: (p ++ later))).calls = [.ok values] ∧
      (∀ v ∈ here, v ∈ values) ∧
      ∀ u, Known self T pre u → ∃ l, .response u (.fetch id l) ∈ p ∧ ∀ v ∈ l, v ∈ values := by
  have hd : Done self T pre (.request id .fetch here) id p := by
    intro u hu
    obtain ⟨l, hl⟩ := all u hu
    exact .inl ⟨_, hl, .inl ⟨l, rfl⟩⟩
  rcases first_prefix (Done self T pre (.request id .fetch here) id) p with ⟨q, r, rfl, hq, hm⟩ | hn
  · have := C41_resolves_partial self T id pre .fetch here q (r ++ later) hpre
      (fun k l h => hp k l (by simp [h])) (fun k l h => hp k l (by
        rcases List.mem_append.1 h with h | h <;> simp [h])) (fun h => htm (by simp [h])) ⟨hq, hm⟩
    refine ⟨_, by rw [List.append_assoc]; exact this, fun v hv => by simp [hv], fun u hu => ?_⟩
    rcases hq u hu with ⟨e, he, ha⟩ | ⟨q1, q2, rfl, h⟩
    · rcases ha with ⟨l, rfl⟩ | ⟨v, rfl⟩
      · refine ⟨l, by simp [he], fun v hv => ?_⟩
        simp only [List.mem_append, receivedFor, List.mem_flatMap]
        exact .inr ⟨_, he, by simpa [broughtBy] using hv⟩
      · exact absurd (by simp [he]) (kind u v)
    · exact absurd (stay u q1 (q2 ++ r) hu (by simp)) h
  · exact absurd hd (hn p [] (by simp))

/-- Two servers, both answering. -/
example : requestCalls 7 (run "me" 10 ([.message "a" .heartbeat 0, .message "b" .heartbeat 0] ++
    .request 7 .fetch [.str "here"] :: ([.response "b" (.fetch 7 [.str "y"]), .response "a" (.fetch 7 [.str "x"])] ++
      []))).calls = [.ok [.str "here", .str "y", .str "x"]] := by decide

end Verif.Props
