import Verif.Proof.Collector

/-! # The collector with interleaved goroutines -/

namespace Verif.Collector
open Verif Verif.Spec

theorem started_append (a b : List CEv) : started (a ++ b) = started a ++ started b := by
  induction a with
  | nil => rfl
  | cons e a ih => cases e <;> simp [started, ih]

/-- Sum over all operations still to be done. -/
def pend (f : Micro → Nat) (ts : List Thread) : Nat := (ts.map (fun t => (t.prog.map f).sum)).sum

def fAdd : Micro → Nat | .add n => n | _ => 0
def fSrv : Micro → Nat | .addServer => 1 | _ => 0
def fSet : Micro → Nat | .set _ => 1 | _ => 0
def pushArgs : Micro → List Val | .push a => a | _ => []
def pending (ts : List Thread) : List Val := ts.flatMap (fun t => t.prog.flatMap pushArgs)

theorem pend_snoc (f : Micro → Nat) (ts : List Thread) (t : Thread) :
    pend f (ts ++ [t]) = pend f ts + (t.prog.map f).sum := by simp [pend]

theorem pend_set (f : Micro → Nat) (ts : List Thread) (k : Nat) (t t' : Thread) (h : ts[k]? = some t) :
    pend f (ts.set k t') + (t.prog.map f).sum = pend f ts + (t'.prog.map f).sum :=
  sum_set (fun t => (t.prog.map f).sum) ts k t t' h

theorem pend_zero {f : Micro → Nat} {ts : List Thread} (h : pend f ts = 0) (t : Thread) (ht : t ∈ ts) :
    (t.prog.map f).sum = 0 := by
  induction ts with
  | nil => simp at ht
  | cons a ts ih =>
    simp only [pend, List.map_cons, List.sum_cons] at h
    rcases List.mem_cons.1 ht with rfl | ht
    · omega
    · exact ih (by simp only [pend]; omega) ht

theorem pend_zero_of {f : Micro → Nat} {ts : List Thread} (h : ∀ t ∈ ts, (t.prog.map f).sum = 0) :
    pend f ts = 0 := by
  induction ts with
  | nil => rfl
  | cons a ts ih =>
    simp only [pend, List.map_cons, List.sum_cons]
    have h1 := h a (by simp)
    have h2 := ih (fun t ht => h t (by simp [ht]))
    simp only [pend] at h2
    omega

/-- The possible remaining programs. -/
inductive Shape (K : Nat) : List Micro → Prop where
  | done : Shape K []
  | add (n) : Shape K (.add n :: .addServer :: checkProg)
  | srv : Shape K (.addServer :: checkProg)
  | push (a) : Shape K (.push a :: checkProg)
  | set : Shape K (.set K :: checkProg)
  | c0 : Shape K [.ckTimeout, .ckServers, .ckLen, .ckClients, .clear, .call]
  | c1 : Shape K [.ckServers, .ckLen, .ckClients, .clear, .call]
  | c2 : Shape K [.ckLen, .ckClients, .clear, .call]
  | c3 : Shape K [.ckClients, .clear, .call]
  | c4 : Shape K [.clear, .call]
  | c5 : Shape K [.call]
  | t0 : Shape K [.markTimeout, .callErr]
  | t1 : Shape K [.callErr]

theorem shape_prog {K : Nat} (e : Ev) (h : ∀ k, e = .servers k → k = K) : Shape K (prog e) := by
  cases e with
  | count n => exact .add n
  | answer a => exact .push a
  | servers k => rw [h k rfl]; exact .set
  | fire => exact .t0

/-- The tests a goroutine has passed tell something about the (monotone) variables. -/
def Passed (K A : Nat) (s : St) (t : Thread) : Prop :=
  match t.prog with
  | .ckLen :: _ => K ≤ s.actualServers
  | .ckClients :: _ => K ≤ s.actualServers ∧ t.reg ≤ s.responses.length
  | .clear :: _ => A ≤ s.responses.length
  | .call :: _ => A ≤ s.responses.length
  | _ => True

theorem Passed.mono {K A : Nat} {s s' : St} {t : Thread} (h : Passed K A s t)
    (h1 : s.actualServers ≤ s'.actualServers) (h2 : s.responses.length ≤ s'.responses.length) :
    Passed K A s' t := by
  unfold Passed at *
  split <;> simp_all <;> omega

structure CInv (K A : Nat) (ev : List Ev) (c : CSt) : Prop where
  answers : (c.s.responses ++ pending c.threads).Perm (answersOf ev)
  clients : c.s.expectedClients + pend fAdd c.threads = notified ev
  actual : c.s.actualServers + pend fSrv c.threads = reports ev
  shape : ∀ t ∈ c.threads, Shape K t.prog
  expected : c.s.expectedServers = -1 ∨ c.s.expectedServers = K
  passed : ∀ t ∈ c.threads, Passed K A c.s t
  calls : ∀ l, .ok l ∈ c.s.calls → l.Perm (answersOf ev) ∧ A ≤ l.length
  read : 1 ≤ serverReads ev → c.s.expectedServers = K ∨ 1 ≤ pend fSet c.threads

/-- A step of goroutine `k` that takes `a` out of its pending pushes. -/
theorem CInv.upd {K A : Nat} {ev : List Ev} {c : CSt} (hi : CInv K A ev c) {k : Nat} {t : Thread}
    (hk : c.threads[k]? = some t) (s' : St) (t' : Thread) (a : List Val)
    (h1 : s'.responses = c.s.responses ++ a) (h1' : t.prog.flatMap pushArgs = a ++ t'.prog.flatMap pushArgs)
    (h2 : s'.expectedClients + (t'.prog.map fAdd).sum = c.s.expectedClients + (t.prog.map fAdd).sum)
    (h3 : s'.actualServers + (t'.prog.map fSrv).sum = c.s.actualServers + (t.prog.map fSrv).sum)
    (h3' : c.s.actualServers ≤ s'.actualServers)
    (h4 : Shape K t'.prog) (h5 : s'.expectedServers = -1 ∨ s'.expectedServers = K)
    (h6 : Passed K A s' t')
    (h7 : ∀ l, .ok l ∈ s'.calls → .ok l ∈ c.s.calls ∨ (l.Perm (answersOf ev) ∧ A ≤ l.length))
    (h8 : s'.expectedServers = K ∨
      (s'.expectedServers = c.s.expectedServers ∧ (t'.prog.map fSet).sum = (t.prog.map fSet).sum)) :
    CInv K A ev { s := s', threads := c.threads.set k t' } := by
  have pa := pend_set fAdd c.threads k t t' hk
  have ps := pend_set fSrv c.threads k t t' hk
  have pt := pend_set fSet c.threads k t t' hk
  have hl : c.s.responses.length ≤ s'.responses.length := by rw [h1]; simp
  refine ⟨?_, ?_, ?_, ?_, h5, ?_, ?_, ?_⟩
  · show (s'.responses ++ pending (c.threads.set k t')).Perm _
    rw [h1, List.append_assoc]
    refine List.Perm.trans (List.Perm.append_left _ ?_) hi.answers
    exact flatMap_set_perm _ _ _ _ _ _ hk h1'
  · have := hi.clients; simp only; omega
  · have := hi.actual; simp only; omega
  · intro u hu
    rcases mem_of_set hu with hu | rfl
    · exact hi.shape u hu
    · exact h4
  · intro u hu
    rcases mem_of_set hu with hu | rfl
    · exact (hi.passed u hu).mono h3' hl
    · exact h6
  · intro l hl
    rcases h7 l hl with h | h
    · exact hi.calls l h
    · exact h
  · intro hr
    rcases h8 with h | ⟨h, h'⟩
    · exact .inl h
    · rcases hi.read hr with h9 | h9
      · exact .inl (h.trans h9)
      · right; simp only; omega

theorem srv_zero {K : Nat} {ts : List Thread} (hs : ∀ t ∈ ts, Shape K t.prog) (h : pend fSrv ts = 0) :
    pend fAdd ts = 0 := by
  refine pend_zero_of (fun t ht => ?_)
  have h0 := pend_zero h t ht
  have h1 := hs t ht
  generalize t.prog = p at *
  cases h1 <;> simp_all [fSrv, fAdd, checkProg]

theorem cinv_adv {K A : Nat} {ev : List Ev} {c : CSt} (hi : CInv K A ev c) (k : Nat)
    (b1 : reports ev ≤ K) (b2 : reports ev = K → notified ev = A) (b3 : (answersOf ev).length ≤ A) :
    CInv K A ev (cstep c (.adv k)) := by
  simp only [cstep]
  cases hk : c.threads[k]? with
  | none => exact hi
  | some t =>
    obtain ⟨p, reg⟩ := t
    have hm : (⟨p, reg⟩ : Thread) ∈ c.threads := List.mem_iff_getElem?.2 ⟨k, hk⟩
    have hs := hi.shape _ hm
    have hp := hi.passed _ hm
    have hact := hi.actual
    simp only at hs
    cases hs with
    | done => exact hi
    | add n =>
      refine hi.upd hk _ _ [] ?_ ?_ ?_ ?_ ?_ .srv hi.expected ?_ ?_ ?_ <;>
        try simp [micro, pushArgs, fAdd, fSrv, fSet, checkProg, Passed]
      · exact fun l h => .inl h
    | srv =>
      refine hi.upd hk _ _ [] ?_ ?_ ?_ ?_ ?_ .c0 hi.expected ?_ ?_ ?_ <;>
        try simp [micro, pushArgs, fAdd, fSrv, fSet, checkProg, Passed]
      · exact fun l h => .inl h
    | push a =>
      refine hi.upd hk _ _ a ?_ ?_ ?_ ?_ ?_ .c0 hi.expected ?_ ?_ ?_ <;>
        try simp [micro, pushArgs, fAdd, fSrv, fSet, checkProg, Passed]
      · exact fun l h => .inl h
    | set =>
      refine hi.upd hk _ _ [] ?_ ?_ ?_ ?_ ?_ .c0 (.inr rfl) ?_ ?_ ?_ <;>
        try simp [micro, pushArgs, fAdd, fSrv, fSet, checkProg, Passed]
      · exact fun l h => .inl h
    | c0 =>
      simp only [micro]
      split
      · refine hi.upd hk _ _ [] ?_ ?_ ?_ ?_ ?_ .done hi.expected ?_ ?_ ?_ <;>
          try simp [pushArgs, fAdd, fSrv, fSet, Passed]
        exact fun l h => .inl h
      · refine hi.upd hk _ _ [] ?_ ?_ ?_ ?_ ?_ .c1 hi.expected ?_ ?_ ?_ <;>
          try simp [pushArgs, fAdd, fSrv, fSet, Passed]
        exact fun l h => .inl h
    | c1 =>
      simp only [micro]
      split
      · rename_i heq
        have hK : K ≤ c.s.actualServers := by
          rcases hi.expected with h | h <;> rw [h] at heq <;> omega
        refine hi.upd hk _ _ [] ?_ ?_ ?_ ?_ ?_ .c2 hi.expected ?_ ?_ ?_ <;>
          try simp [pushArgs, fAdd, fSrv, fSet, Passed]
        · exact hK
        · exact fun l h => .inl h
      · refine hi.upd hk _ _ [] ?_ ?_ ?_ ?_ ?_ .done hi.expected ?_ ?_ ?_ <;>
          try simp [pushArgs, fAdd, fSrv, fSet, Passed]
        exact fun l h => .inl h
    | c2 =>
      refine hi.upd hk _ _ [] ?_ ?_ ?_ ?_ ?_ .c3 hi.expected ?_ ?_ ?_ <;>
        try simp [micro, pushArgs, fAdd, fSrv, fSet, checkProg, Passed]
      · simpa [Passed] using hp
      · exact fun l h => .inl h
    | c3 =>
      simp only [Passed] at hp
      simp only [micro]
      split
      · rename_i heq
        have hz : pend fSrv c.threads = 0 := by omega
        have hA : c.s.expectedClients = A := by
          have h1 := srv_zero hi.shape hz
          have h2 := hi.clients
          have h3 := b2 (by omega)
          omega
        refine hi.upd hk _ _ [] ?_ ?_ ?_ ?_ ?_ .c4 hi.expected ?_ ?_ ?_ <;>
          try simp [pushArgs, fAdd, fSrv, fSet, Passed]
        · omega
        · exact fun l h => .inl h
      · refine hi.upd hk _ _ [] ?_ ?_ ?_ ?_ ?_ .done hi.expected ?_ ?_ ?_ <;>
          try simp [pushArgs, fAdd, fSrv, fSet, Passed]
        exact fun l h => .inl h
    | c4 =>
      refine hi.upd hk _ _ [] ?_ ?_ ?_ ?_ ?_ .c5 hi.expected ?_ ?_ ?_ <;>
        try simp [micro, pushArgs, fAdd, fSrv, fSet, checkProg, Passed]
      · simpa [Passed] using hp
      · exact fun l h => .inl h
    | c5 =>
      simp only [Passed] at hp
      refine hi.upd hk _ _ [] ?_ ?_ ?_ ?_ ?_ .done hi.expected ?_ ?_ ?_ <;>
        try simp [micro, pushArgs, fAdd, fSrv, fSet, checkProg, Passed]
      intro l hl
      rcases hl with h | rfl
      · exact .inl h
      · refine .inr ⟨?_, hp⟩
        have hlen := hi.answers.length_eq
        rw [List.length_append] at hlen
        have : pending c.threads = [] := List.length_eq_zero_iff.1 (by omega)
        have := hi.answers
        simp_all
    | t0 =>
      refine hi.upd hk _ _ [] ?_ ?_ ?_ ?_ ?_ .t1 hi.expected ?_ ?_ ?_ <;>
        try simp [micro, pushArgs, fAdd, fSrv, fSet, checkProg, Passed]
      · exact fun l h => .inl h
    | t1 =>
      refine hi.upd hk _ _ [] ?_ ?_ ?_ ?_ ?_ .done hi.expected ?_ ?_ ?_ <;>
        try simp [micro, pushArgs, fAdd, fSrv, fSet, checkProg, Passed]
      · exact fun l h => .inl h

theorem cinv_start {K A : Nat} {ev : List Ev} {c : CSt} (hi : CInv K A ev c) (e : Ev)
    (he : ∀ k, e = .servers k → k = K)
    (b3 : (answersOf (ev ++ [e])).length ≤ A) : CInv K A (ev ++ [e]) (cstep c (.start e)) := by
  have hcalls : ∀ l, Call.ok l ∈ c.s.calls → l.Perm (answersOf (ev ++ [e])) ∧ A ≤ l.length := by
    intro l hl
    obtain ⟨h1, h2⟩ := hi.calls l hl
    have hlen := h1.length_eq
    rw [answersOf_append] at b3 ⊢
    rw [List.length_append] at b3
    have : answersOf [e] = [] := List.length_eq_zero_iff.1 (by omega)
    rw [this]; simpa using ⟨h1, h2⟩
  have gen : ∀ s' : St, s'.responses = c.s.responses → s'.expectedClients = c.s.expectedClients →
      s'.actualServers = c.s.actualServers → s'.expectedServers = c.s.expectedServers → s'.calls = c.s.calls →
      CInv K A (ev ++ [e]) { s := s', threads := c.threads ++ [⟨prog e, 0⟩] } := by
    intro s' e1 e2 e3 e4 e5
    refine ⟨?_, ?_, ?_, ?_, ?_, ?_, ?_, ?_⟩
    · show (s'.responses ++ pending (c.threads ++ [⟨prog e, 0⟩])).Perm _
      have : pending (c.threads ++ [⟨prog e, 0⟩]) = pending c.threads ++ answersOf [e] := by
        simp only [pending, List.flatMap_append]
        congr 1
        cases e <;> simp [prog, pushArgs, answersOf, checkProg]
      rw [this, e1, ← List.append_assoc, answersOf_append]
      exact hi.answers.append_right _
    · have := hi.clients
      rw [notified_append, pend_snoc]; simp only
      have : ((prog e).map fAdd).sum = notified [e] := by cases e <;> simp [prog, fAdd, notified, checkProg]
      omega
    · have := hi.actual
      rw [reports_append, pend_snoc]; simp only
      have : ((prog e).map fSrv).sum = reports [e] := by cases e <;> simp [prog, fSrv, reports, checkProg]
      omega
    · intro u hu
      rcases List.mem_append.1 hu with hu | hu
      · exact hi.shape u hu
      · simp at hu; subst hu; exact shape_prog e he
    · simp only; rw [e4]; exact hi.expected
    · intro u hu
      rcases List.mem_append.1 hu with hu | hu
      · exact (hi.passed u hu).mono (by simp [e3]) (by simp [e1])
      · simp at hu; subst hu; cases e <;> simp [prog, Passed]
    · simp only; rw [e5]; exact hcalls
    · intro hr
      rw [serverReads_append] at hr
      rw [pend_snoc]; simp only
      have : ((prog e).map fSet).sum = serverReads [e] := by cases e <;> simp [prog, fSet, serverReads, checkProg]
      rw [e4]
      by_cases h1 : 1 ≤ serverReads ev
      · rcases hi.read h1 with h | h
        · exact .inl h
        · right; omega
      · right; omega
  cases e with
  | fire =>
    simp only [cstep]
    split
    · exact gen _ rfl rfl rfl rfl rfl
    · refine ⟨?_, ?_, ?_, hi.shape, hi.expected, hi.passed, hcalls, ?_⟩
      · rw [answersOf_append]; simpa [answersOf] using hi.answers
      · rw [notified_append]; simpa [notified] using hi.clients
      · rw [reports_append]; simpa [reports] using hi.actual
      · rw [serverReads_append]; simpa [serverReads] using hi.read
  | count n => exact gen c.s rfl rfl rfl rfl rfl
  | answer a => exact gen c.s rfl rfl rfl rfl rfl
  | servers k => exact gen c.s rfl rfl rfl rfl rfl

/-- Facts about the part `ev` of a full history. -/
theorem full_bounds {K : Nat} {ev post : List Ev} (hf : Full K (ev ++ post)) :
    reports ev ≤ K ∧ (reports ev = K → notified ev = notified (ev ++ post)) ∧
    (answersOf ev).length ≤ notified (ev ++ post) := by
  have h1 := hf.servers; rw [reports_append] at h1
  have h3 := hf.clients
  have hl := answersOf_length ev (fun a ha => hf.one a (by simp [ha]))
  refine ⟨by omega, ?_, ?_⟩
  · intro h
    rw [notified_append, notified_zero post (by omega)]; omega
  · rw [← h3, answered_append]; omega

theorem cinv_run {K : Nat} (h : List CEv) : ∀ post, Full K (started h ++ post) →
    CInv K (notified (started h ++ post)) (started h) (crun h) := by
  induction h using snocRec with
  | nil =>
    intro post _
    constructor <;> simp [crun, pending, pend, started, answersOf, notified, reports, serverReads]
  | append_singleton h e ih =>
    intro post hf
    have hr : crun (h ++ [e]) = cstep (crun h) e := by simp [crun, List.foldl_append]
    rw [hr, started_append]
    cases e with
    | adv k =>
      simp only [started, List.append_nil]
      have hf' : Full K (started h ++ post) := by simpa [started_append, started] using hf
      obtain ⟨b1, b2, b3⟩ := full_bounds hf'
      exact cinv_adv (ih post hf') k b1 b2 b3
    | start e =>
      have hf' : Full K (started h ++ (e :: post)) := by
        simpa [started_append, started] using hf
      have := ih (e :: post) hf'
      have heq : started h ++ e :: post = started h ++ started [.start e] ++ post := by simp [started]
      rw [heq] at this
      have hf2 : Full K ((started h ++ [e]) ++ post) := by simpa [started] using hf'
      obtain ⟨b1, b2, b3⟩ := full_bounds hf2
      refine cinv_start this e (fun k hk => hf'.readVal k (by simp [hk])) ?_
      simpa [started] using b3

/-! ## Completion is not missed -/

def Complete (K A : Nat) (s : St) : Prop :=
  s.responses.length = A ∧ s.actualServers = K ∧ s.expectedServers = (K : Int) ∧ s.expectedClients = A

/-- A goroutine in the middle of a test that is going to succeed. -/
inductive Good (A : Nat) : Thread → Prop where
  | c0 (reg) : Good A ⟨[.ckTimeout, .ckServers, .ckLen, .ckClients, .clear, .call], reg⟩
  | c1 (reg) : Good A ⟨[.ckServers, .ckLen, .ckClients, .clear, .call], reg⟩
  | c2 (reg) : Good A ⟨[.ckLen, .ckClients, .clear, .call], reg⟩
  | c3 : Good A ⟨[.ckClients, .clear, .call], A⟩
  | c4 (reg) : Good A ⟨[.clear, .call], reg⟩
  | c5 (reg) : Good A ⟨[.call], reg⟩

structure Live (K A : Nat) (c : CSt) : Prop where
  noTimeout : c.s.timedOut = false
  noTimer : ∀ t ∈ c.threads, .markTimeout ∉ t.prog
  live : c.s.calls ≠ [] ∨ ¬ Complete K A c.s ∨ ∃ (j : Nat) (t : Thread), c.threads[j]? = some t ∧ Good A t

theorem micro_calls (s : St) (reg : Nat) (rest : List Micro) (m : Micro) (h : s.calls ≠ []) :
    (micro s reg rest m).1.calls ≠ [] := by
  cases m <;> simp [micro, h]

theorem live_adv {K A : Nat} {ev : List Ev} {c : CSt} (hi : CInv K A ev c) (hl : Live K A c) (k : Nat)
    (b1 : reports ev ≤ K) : Live K A (cstep c (.adv k)) := by
  simp only [cstep]
  cases hk : c.threads[k]? with
  | none => exact hl
  | some t =>
    obtain ⟨p, reg⟩ := t
    have hm : (⟨p, reg⟩ : Thread) ∈ c.threads := List.mem_iff_getElem?.2 ⟨k, hk⟩
    have hnt := hl.noTimer _ hm
    cases p with
    | nil => exact hl
    | cons m rest =>
      simp only
      have hm1 : m ≠ .markTimeout := by rintro rfl; simp at hnt
      have hrest : .markTimeout ∉ rest := by intro h; exact hnt (by simp [h])
      refine ⟨?_, ?_, ?_⟩
      · cases m <;> simp_all [micro, hl.noTimeout]
      · intro u hu
        rcases mem_of_set hu with hu | rfl
        · exact hl.noTimer u hu
        · cases m <;> simp only [micro] <;> try exact hrest
          all_goals (split <;> simp [hrest])
      · rcases hl.live with h | h | ⟨j, u, hj, hu⟩
        · exact .inl (micro_calls _ _ _ _ h)
        · right
          have hs := hi.shape _ hm
          simp only at hs
          have back : ∀ s' : St, s'.responses = c.s.responses → s'.actualServers = c.s.actualServers →
              s'.expectedServers = c.s.expectedServers → s'.expectedClients = c.s.expectedClients →
              ¬ Complete K A s' := by
            intro s' e1 e2 e3 e4 hc
            apply h
            simpa only [Complete, e1, e2, e3, e4] using hc
          cases hs with
          | add n =>
            left
            rintro ⟨_, hact, _, _⟩
            have h1 := hi.actual
            have hpos : 1 ≤ pend fSrv c.threads := by
              rcases Nat.eq_zero_or_pos (pend fSrv c.threads) with h0 | h0
              · have := pend_zero h0 _ hm
                simp [fSrv, checkProg] at this
              · exact h0
            simp only [micro] at hact
            omega
          | srv => exact .inr ⟨k, _, get_set_self hk, .c0 _⟩
          | push a => exact .inr ⟨k, _, get_set_self hk, .c0 _⟩
          | set => exact .inr ⟨k, _, get_set_self hk, .c0 _⟩
          | c0 => exact .inl (back _ rfl rfl rfl rfl)
          | c1 => exact .inl (back _ rfl rfl rfl rfl)
          | c2 => exact .inl (back _ rfl rfl rfl rfl)
          | c3 => exact .inl (back _ rfl rfl rfl rfl)
          | c4 => exact .inl (back _ rfl rfl rfl rfl)
          | c5 => exact .inl (back _ rfl rfl rfl rfl)
          | t0 => exact .inl (back _ rfl rfl rfl rfl)
          | t1 => exact .inl (back _ rfl rfl rfl rfl)
        · by_cases hc : Complete K A c.s
          · by_cases hjk : j = k
            · subst hjk
              rw [hk] at hj
              have hj := Option.some.inj hj
              subst hj
              obtain ⟨c1, c2, c3, c4⟩ := hc
              cases hu with
              | c0 reg => exact .inr (.inr ⟨j, _, get_set_self hk, by simp only [micro, hl.noTimeout]; exact .c1 _⟩)
              | c1 reg => exact .inr (.inr ⟨j, _, get_set_self hk, by simp only [micro, c2, c3, if_true]; exact .c2 _⟩)
              | c2 reg => exact .inr (.inr ⟨j, _, get_set_self hk, by simp only [micro, c1]; exact .c3⟩)
              | c3 => exact .inr (.inr ⟨j, _, get_set_self hk, by simp only [micro, c4, if_true]; exact .c4 _⟩)
              | c4 reg => exact .inr (.inr ⟨j, _, get_set_self hk, .c5 _⟩)
              | c5 reg => exact .inl (by simp [micro])
            · refine .inr (.inr ⟨j, u, ?_, hu⟩)
              rw [List.getElem?_set]
              have : ¬ k = j := fun e => hjk e.symm
              simp [this, hj]
          · by_cases hjk : j = k
            · subst hjk
              rw [hk] at hj
              have hj := Option.some.inj hj
              subst hj
              refine .inr (.inl ?_)
              intro hc'
              apply hc
              cases hu <;> exact hc'
            · refine .inr (.inr ⟨j, u, ?_, hu⟩)
              rw [List.getElem?_set]
              have : ¬ k = j := fun e => hjk e.symm
              simp [this, hj]

theorem live_start {K A : Nat} {c : CSt} (hl : Live K A c) (e : Ev) (he : e ≠ .fire) :
    Live K A (cstep c (.start e)) := by
  have gen : Live K A { c with threads := c.threads ++ [⟨prog e, 0⟩] } := by
    refine ⟨hl.noTimeout, ?_, ?_⟩
    · intro u hu
      rcases List.mem_append.1 hu with hu | hu
      · exact hl.noTimer u hu
      · simp at hu; subst hu
        cases e with
        | fire => exact absurd rfl he
        | _ => simp [prog, checkProg]
    · rcases hl.live with h | h | ⟨j, u, hj, hu⟩
      · exact .inl h
      · exact .inr (.inl h)
      · refine .inr (.inr ⟨j, u, ?_, hu⟩)
        simp only
        rw [List.getElem?_append_left (List.getElem?_eq_some_iff.1 hj).1]; exact hj
  cases e with
  | fire => exact absurd rfl he
  | _ => exact gen

theorem live_run {K : Nat} (h : List CEv) : ∀ post, Full K (started h ++ post) → .fire ∉ started h →
    Live K (notified (started h ++ post)) (crun h) := by
  induction h using snocRec with
  | nil =>
    intro post hf _
    refine ⟨rfl, by simp [crun], .inr (.inl ?_)⟩
    rintro ⟨_, _, h3, _⟩
    have : (crun []).s.expectedServers = -1 := rfl
    rw [this] at h3
    omega
  | append_singleton h e ih =>
    intro post hf hn
    have hr : crun (h ++ [e]) = cstep (crun h) e := by simp [crun, List.foldl_append]
    rw [hr]
    rw [started_append] at hn
    cases e with
    | adv k =>
      have heq : started (h ++ [.adv k]) = started h := by simp [started_append, started]
      rw [heq] at hf ⊢
      obtain ⟨b1, b2, b3⟩ := full_bounds hf
      exact live_adv (cinv_run h post hf) (ih post hf (fun h' => hn (by simp [h']))) k b1
    | start e =>
      have heq : started (h ++ [.start e]) ++ post = started h ++ (e :: post) := by simp [started_append, started]
      rw [heq] at hf ⊢
      refine live_start (ih _ hf (fun h' => hn (by simp [h']))) e ?_
      rintro rfl
      exact hn (by simp [started])

/-! ## The timer -/

def fErr : Micro → Nat
  | .callErr => 1
  | _ => 0

/-- Once the timer is off, the callback has been called or is going to be. -/
structure TimerInv (h : List CEv) (c : CSt) : Prop where
  due : c.s.timer = false → c.s.calls ≠ [] ∨ ∃ t ∈ c.threads, t.prog = [.call] ∨ .callErr ∈ t.prog
  fired : .fire ∈ started h → c.s.timer = false
  suf : ∀ t ∈ c.threads, ∃ e, t.prog <:+ prog e
  errs : c.s.calls.countP isErr + pend fErr c.threads + (if c.s.timer then 1 else 0) ≤ 1
  none : .fire ∉ started h → c.s.calls.countP isErr + pend fErr c.threads = 0

theorem err_tail (e : Ev) (m : Micro) (rest : List Micro) (h : m :: rest <:+ prog e) (h3 : .callErr ∈ rest) : m = .markTimeout := by
  have h4 : .callErr ∈ prog e := h.subset (List.mem_cons_of_mem _ h3)
  cases e with
  | fire =>
    simp [prog, List.suffix_cons_iff] at h
    rcases h with ⟨h, _⟩ | ⟨_, rfl⟩
    · exact h
    · cases h3
  | _ => simp [prog, checkProg] at h4

theorem timer_step (h : List CEv) (c : CSt) (e : CEv) (hi : TimerInv h c) : TimerInv (h ++ [e]) (cstep c e) := by
  cases e with
  | start e =>
    have hst : started (h ++ [.start e]) = started h ++ [e] := by rw [started_append]; rfl
    by_cases he : e = .fire
    · subst he
      by_cases ht : c.s.timer = true
      · have hs : cstep c (.start .fire) = { s := { c.s with timer := false }, threads := c.threads ++ [⟨prog .fire, 0⟩] } := by
          simp [cstep, ht]
        rw [hs]
        refine ⟨fun _ => .inr ⟨⟨prog .fire, 0⟩, by simp, .inr (by decide)⟩, fun _ => rfl, ?_, ?_, ?_⟩
        · intro t ht
          rcases List.mem_append.1 ht with h | h
          · exact hi.suf t h
          · simp only [List.mem_singleton] at h; subst h; exact ⟨.fire, List.suffix_rfl⟩
        · have := hi.errs
          rw [ht] at this
          simp only [pend_snoc]
          simp only [if_true] at this
          have h1 : ((prog .fire).map fErr).sum = 1 := rfl
          simp only [h1, Bool.false_eq_true, if_false]
          omega
        · intro hf; rw [hst] at hf; simp at hf
      · have hs : cstep c (.start .fire) = c := by simp [cstep, ht]
        rw [hs]
        exact ⟨hi.due, fun _ => by simpa using ht, hi.suf, hi.errs, fun hf => by rw [hst] at hf; simp at hf⟩
    · have hs : cstep c (.start e) = { c with threads := c.threads ++ [⟨prog e, 0⟩] } := by
        cases e <;> first | rfl | exact absurd rfl he
      have h0 : ((prog e).map fErr).sum = 0 := by cases e <;> first | rfl | exact absurd rfl he
      rw [hs]
      refine ⟨fun ht => (hi.due ht).elim .inl fun ⟨t, h1, h2⟩ => .inr ⟨t, by simp [h1], h2⟩, ?_, ?_, ?_, ?_⟩
      · intro hf; rw [hst] at hf
        rcases List.mem_append.1 hf with h | h
        · exact hi.fired h
        · simp only [List.mem_singleton] at h; exact absurd h.symm he
      · intro t ht
        rcases List.mem_append.1 ht with h | h
        · exact hi.suf t h
        · simp only [List.mem_singleton] at h; subst h; exact ⟨e, List.suffix_rfl⟩
      · simp only [pend_snoc, h0]; exact hi.errs
      · intro hf; rw [hst] at hf
        simp only [pend_snoc, h0]
        exact hi.none fun h => hf (by simp [h])
  | adv k =>
    have hst : started (h ++ [.adv k]) = started h := by rw [started_append]; simp [started]
    simp only [cstep]
    split
    · rename_i m rest reg hk
      have hmem : (⟨m :: rest, reg⟩ : Thread) ∈ c.threads := List.mem_of_getElem? hk
      have hset : ∀ t', t' ∈ c.threads.set k (micro c.s reg rest m).2 → t' ∈ c.threads ∨ t' = (micro c.s reg rest m).2 := by
        intro t' h; exact List.mem_or_eq_of_mem_set h
      have hself : (micro c.s reg rest m).2 ∈ c.threads.set k (micro c.s reg rest m).2 :=
        List.mem_iff_getElem?.2 ⟨k, by rw [List.getElem?_set, if_pos rfl, if_pos (List.getElem?_eq_some_iff.1 hk).1]⟩
      have hoth : ∀ t ∈ c.threads, t ≠ ⟨m :: rest, reg⟩ → t ∈ c.threads.set k (micro c.s reg rest m).2 := by
        intro t ht hne
        obtain ⟨j, hj⟩ := List.mem_iff_getElem?.1 ht
        have : k ≠ j := by rintro rfl; rw [hk] at hj; exact hne (Option.some.inj hj).symm
        exact List.mem_iff_getElem?.2 ⟨j, by rw [List.getElem?_set, if_neg this, hj]⟩
      have hprog : (micro c.s reg rest m).2.prog = rest ∨ (micro c.s reg rest m).2.prog = [] := by
        cases m <;> simp only [micro] <;> (try split) <;> simp
      obtain ⟨e, hsuf⟩ := hi.suf _ hmem
      have hrest : rest <:+ prog e := (List.suffix_cons m rest).trans hsuf
      have hp : pend fErr (c.threads.set k (micro c.s reg rest m).2) + ((m :: rest).map fErr).sum =
          pend fErr c.threads + ((micro c.s reg rest m).2.prog.map fErr).sum := pend_set fErr c.threads k ⟨m :: rest, reg⟩ (micro c.s reg rest m).2 hk
      have herr : (micro c.s reg rest m).1.calls.countP isErr + ((micro c.s reg rest m).2.prog.map fErr).sum ≤
          c.s.calls.countP isErr + ((m :: rest).map fErr).sum := by
        cases m <;> simp only [micro, List.map_cons, List.sum_cons, List.countP_append, fErr] <;> (try split) <;>
          simp [isErr] <;> omega
      have htm : (micro c.s reg rest m).1.timer = true → c.s.timer = true := by cases m <;> simp [micro]
      refine ⟨?_, ?_, ?_, ?_, ?_⟩
      · intro ht
        simp only at ht ⊢
        by_cases hc : m = .clear
        · subst hc
          have : rest = [.call] := by
            cases e <;> simp [prog, checkProg, List.suffix_cons_iff] at hsuf <;> simp_all
          exact .inr ⟨_, hself, .inl this⟩
        · have ht' : c.s.timer = false := by
            revert ht; cases m <;> simp [micro] at hc ⊢
          rcases hi.due ht' with h | ⟨t, h1, h2⟩
          · exact .inl (micro_calls c.s reg rest m h)
          · by_cases hne : t = ⟨m :: rest, reg⟩
            · subst hne
              rcases h2 with h2 | h2
              · cases h2; exact .inl (by simp [micro])
              · rcases List.mem_cons.1 h2 with rfl | h3
                · exact .inl (by simp [micro])
                · have := err_tail e m rest hsuf h3
                  subst this
                  exact .inr ⟨_, hself, .inr h3⟩
            · exact .inr ⟨t, hoth t h1 hne, h2⟩
      · intro hf; rw [hst] at hf
        have := hi.fired hf
        cases hx : (micro c.s reg rest m).1.timer with
        | false => rfl
        | true => rw [htm hx] at this; cases this
      · intro t ht
        rcases hset t ht with h | rfl
        · exact hi.suf t h
        · rcases hprog with h | h <;> rw [h]
          · exact ⟨e, hrest⟩
          · exact ⟨e, List.nil_suffix⟩
      · have h1 := hi.errs
        simp only
        have : (if (micro c.s reg rest m).1.timer = true then 1 else 0) ≤ (if c.s.timer = true then 1 else 0) := by
          by_cases hx : (micro c.s reg rest m).1.timer = true
          · rw [if_pos hx, if_pos (htm hx)]; exact Nat.le_refl _
          · rw [if_neg hx]; exact Nat.zero_le _
        omega
      · intro hf; rw [hst] at hf
        have := hi.none hf
        simp only
        omega
    · exact ⟨hi.due, fun hf => hi.fired (by rwa [hst] at hf), hi.suf, hi.errs, fun hf => hi.none (by rwa [hst] at hf)⟩

theorem timer_run (h : List CEv) : TimerInv h (crun h) := by
  induction h using snocRec with
  | nil => exact ⟨by simp [crun], by simp [started], by simp [crun], by decide, by intro; decide⟩
  | append_singleton h e ih =>
    have : crun (h ++ [e]) = cstep (crun h) e := by simp [crun, List.foldl_append]
    rw [this]
    exact timer_step h _ e ih

/-! ### After the timeout -/

/-- The timeout is on record before it is reported. -/
structure Marked (c : CSt) : Prop where
  calls : ∀ x ∈ c.s.calls, isErr x = true → c.s.timedOut = true
  next : ∀ t ∈ c.threads, t.prog = [.callErr] → c.s.timedOut = true
  suf : ∀ t ∈ c.threads, ∃ e, t.prog <:+ prog e

theorem marked_step (c : CSt) (e : CEv) (hi : Marked c) : Marked (cstep c e) := by
  have start : ∀ (e : Ev) (s : St), s.calls = c.s.calls → s.timedOut = c.s.timedOut → Marked { s := s, threads := c.threads ++ [⟨prog e, 0⟩] } := by
    intro e s h1 h2
    refine ⟨?_, ?_, ?_⟩
    · simp only [h1, h2]; exact hi.calls
    · intro t ht hp
      simp only [h2]
      rcases List.mem_append.1 ht with h | h
      · exact hi.next t h hp
      · simp only [List.mem_singleton] at h; subst h; cases e <;> simp [prog, checkProg] at hp
    · intro t ht
      rcases List.mem_append.1 ht with h | h
      · exact hi.suf t h
      · simp only [List.mem_singleton] at h; subst h; exact ⟨e, List.suffix_rfl⟩
  cases e with
  | start e =>
    cases e with
    | fire =>
      simp only [cstep]; split
      · exact start .fire _ rfl rfl
      · exact hi
    | count n => exact start (.count n) _ rfl rfl
    | answer l => exact start (.answer l) _ rfl rfl
    | servers k => exact start (.servers k) _ rfl rfl
  | adv k =>
    simp only [cstep]
    split
    · rename_i m rest reg hk
      have hmem : (⟨m :: rest, reg⟩ : Thread) ∈ c.threads := List.mem_of_getElem? hk
      obtain ⟨e, hsuf⟩ := hi.suf _ hmem
      have hrest : rest <:+ prog e := (List.suffix_cons m rest).trans hsuf
      have hprog : (micro c.s reg rest m).2.prog = rest ∨ (micro c.s reg rest m).2.prog = [] := by
        cases m <;> simp only [micro] <;> (try split) <;> simp
      have hto : c.s.timedOut = true → (micro c.s reg rest m).1.timedOut = true := by
        intro h; cases m <;> simp [micro, h]
      refine ⟨?_, ?_, ?_⟩
      · intro x hx he
        by_cases hm : m = .callErr
        · subst hm
          have : rest = [] := by
            cases e <;> simp [prog, checkProg, List.suffix_cons_iff] at hsuf
            exact hsuf
          subst this
          exact hto (hi.next _ hmem rfl)
        · by_cases hm' : m = .call
          · subst hm'
            simp only [micro] at hx
            rcases List.mem_append.1 hx with h | h
            · exact hto (hi.calls x h he)
            · simp only [List.mem_singleton] at h; subst h; cases he
          · have : (micro c.s reg rest m).1.calls = c.s.calls := by
              cases m <;> simp [micro] at hm hm' ⊢
            simp only [this] at hx
            exact hto (hi.calls x hx he)
      · intro t ht hp
        rcases List.mem_or_eq_of_mem_set ht with h | rfl
        · exact hto (hi.next t h hp)
        · rcases hprog with h | h
          · rw [h] at hp; subst hp
            have := err_tail e m [.callErr] hsuf (by simp)
            subst this
            simp [micro]
          · rw [h] at hp; cases hp
      · intro t ht
        rcases List.mem_or_eq_of_mem_set ht with h | rfl
        · exact hi.suf t h
        · rcases hprog with h | h <;> rw [h]
          · exact ⟨e, hrest⟩
          · exact ⟨e, List.nil_suffix⟩
    · exact hi

theorem marked_run (h : List CEv) : Marked (crun h) := by
  induction h using snocRec with
  | nil => constructor <;> simp [crun]
  | append_singleton h e ih =>
    rw [show crun (h ++ [e]) = cstep (crun h) e by simp [crun]]
    exact marked_step _ _ ih

theorem sum_pos {l : List Nat} {n : Nat} (h : n ∈ l) (hn : 1 ≤ n) : 1 ≤ l.sum := by
  induction l with
  | nil => cases h
  | cons a l ih =>
    rw [List.sum_cons]
    rcases List.mem_cons.1 h with rfl | h
    · omega
    · have := ih h; omega

theorem pend_pos {ts : List Thread} {t : Thread} (ht : t ∈ ts) (hc : .callErr ∈ t.prog) : 1 ≤ pend fErr ts := by
  refine sum_pos (List.mem_map.2 ⟨t, ht, rfl⟩) ?_
  exact sum_pos (List.mem_map.2 ⟨_, hc, rfl⟩) (Nat.le_refl 1)

/-- Nobody is going to call the callback. -/
structure Over (c : CSt) : Prop where
  timedOut : c.s.timedOut = true
  timer : c.s.timer = false
  call : ∀ t ∈ c.threads, .call ∈ t.prog → .ckTimeout ∈ t.prog
  err : ∀ t ∈ c.threads, .callErr ∉ t.prog

theorem over_step (c : CSt) (e : CEv) (hs : ∀ t ∈ c.threads, ∃ e, t.prog <:+ prog e) (hi : Over c) :
    Over (cstep c e) ∧ (cstep c e).s.calls = c.s.calls := by
  have start : ∀ e : Ev, e ≠ .fire → Over { c with threads := c.threads ++ [⟨prog e, 0⟩] } := by
    intro e he
    refine ⟨hi.timedOut, hi.timer, ?_, ?_⟩
    · intro t ht hc
      rcases List.mem_append.1 ht with h | h
      · exact hi.call t h hc
      · simp only [List.mem_singleton] at h; subst h; cases e <;> simp [prog, checkProg] at he ⊢
    · intro t ht hc
      rcases List.mem_append.1 ht with h | h
      · exact hi.err t h hc
      · simp only [List.mem_singleton] at h; subst h; cases e <;> simp [prog, checkProg] at he hc
  cases e with
  | start e =>
    cases e with
    | fire => simp only [cstep, hi.timer, Bool.false_eq_true, if_false]; exact ⟨hi, trivial⟩
    | count n => exact ⟨start (.count n) (by simp), rfl⟩
    | answer l => exact ⟨start (.answer l) (by simp), rfl⟩
    | servers k => exact ⟨start (.servers k) (by simp), rfl⟩
  | adv k =>
    simp only [cstep]
    split
    · rename_i m rest reg hk
      have hmem : (⟨m :: rest, reg⟩ : Thread) ∈ c.threads := List.mem_of_getElem? hk
      obtain ⟨e, hsuf⟩ := hs _ hmem
      have hne : m ≠ .callErr := by rintro rfl; exact hi.err _ hmem (by simp)
      have hnc : m ≠ .call := by
        rintro rfl
        have := hi.call _ hmem (by simp)
        cases e <;> simp [prog, checkProg, List.suffix_cons_iff] at hsuf <;> simp [hsuf] at this
      refine ⟨⟨?_, ?_, ?_, ?_⟩, ?_⟩
      · have := hi.timedOut; cases m <;> simp [micro, this]
      · have := hi.timer; cases m <;> simp [micro, this]
      · intro t ht hc
        rcases List.mem_or_eq_of_mem_set ht with h | rfl
        · exact hi.call t h hc
        · by_cases hm : m = .ckTimeout
          · subst hm; simp [micro, hi.timedOut] at hc
          · have hcall : Micro.call ∈ rest := by
              cases m <;> simp only [micro] at hc <;> (try split at hc) <;> first | exact hc | simp at hc
            have := hi.call _ hmem (List.mem_cons_of_mem _ hcall)
            rcases List.mem_cons.1 this with h | h
            · exact absurd h.symm hm
            · have hprog : (micro c.s reg rest m).2.prog = rest ∨ (micro c.s reg rest m).2.prog = [] := by
                cases m <;> simp only [micro] <;> (try split) <;> simp
              rcases hprog with hp | hp
              · rw [hp]; exact h
              · rw [hp] at hc; cases hc
      · intro t ht hc
        rcases List.mem_or_eq_of_mem_set ht with h | rfl
        · exact hi.err t h hc
        · have : Micro.callErr ∈ rest := by
            cases m <;> simp only [micro] at hc <;> (try split at hc) <;> first | exact hc | simp at hc
          exact hi.err _ hmem (List.mem_cons_of_mem _ this)
      · cases m <;> simp [micro] at hne hnc ⊢
    · exact ⟨hi, rfl⟩

end Verif.Collector
