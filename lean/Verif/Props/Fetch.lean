import Verif.Spec.Fetch
import Verif.Proof.Fetch
import Verif.Proof.ClusterSel
import Verif.Props.Operator

/-! # C76: what `FetchSockets` returns on a cluster -/

namespace Verif.Props
open Verif Verif.Spec Verif.Adapter Verif.Delivery

/-- What a server finds are the sockets selected on it, each once. -/
theorem found_spec (o : Option Opts) (x : Nsp) (hx : OK x) :
    (Fetch.found o x).Nodup ∧ ∀ s, s ∈ Fetch.found o x ↔ Sel x (Spec.targeted o) (Spec.excepted o) s := by
  obtain ⟨ids, ptr, h1, h2, h3, h4⟩ := C03_fetchSockets x hx (Spec.targeted o) (Spec.excepted o) (o.bind (·.flags))
  have h5 : fetchSockets x o = ids.map ptr := by
    rw [← h4]; unfold fetchSockets; rw [apply_explicit]
  have he : Fetch.found o x = ids := by
    unfold Fetch.found
    rw [h5, List.map_map]
    have : ids.map (x.sidOf ∘ ptr) = ids.map id := by
      apply List.map_congr_left
      intro s hs
      exact hx.ownId s (ptr s) (h3 s hs)
    rw [this, List.map_id]
  rw [he]; exact ⟨h1, h2⟩

theorem found_local (o : Option Opts) (x : Nsp) (hx : OK x) (s : Sid) :
    s ∈ Fetch.found (Fetch.localOpts o) x ↔ Sel x (Spec.targeted o) (Spec.excepted o) s := by
  rw [(found_spec _ x hx).2]
  rcases o with _ | ⟨r, e, f⟩ <;> rfl

theorem found_remote (o : Option Opts) (x : Nsp) (hx : OK x) (s : Sid) :
    s ∈ Fetch.found (Fetch.remoteOpts o) x ↔ Sel x (Spec.targeted o) (Spec.excepted o) s := by
  rw [(found_spec _ x hx).2]
  apply sel_congr
  · rcases o with _ | ⟨_ | r, e, f⟩ <;> simp [Spec.targeted, Fetch.remoteOpts, Cluster.decodeOptions, Cluster.encodeOptions, LSet.mem_addAll]
  · rcases o with _ | ⟨r, _ | e, f⟩ <;> simp [Spec.excepted, Fetch.remoteOpts, Cluster.decodeOptions, Cluster.encodeOptions, LSet.mem_addAll]

section
variable (me n : Nat) (o : Option Opts) (init : Nat → Nsp)

/-- Every server's namespace is as servers keep it (`Model/World` proves so). -/
theorem nsps_ok (h : List Fetch.Ev) (hi : ∀ j, OK (init j)) (hc : ∀ j x, Fetch.Ev.change j x ∈ h → OK x) (j : Nat) :
    OK ((Fetch.run me n o init h).nsps j) := by
  induction h using snocRec with
  | nil => exact hi j
  | append_singleton h e ih =>
    have ih := ih fun j x hx => hc j x (by simp [hx])
    rw [Fetch.run_snoc]
    cases e with
    | change i x =>
      simp only [Fetch.step, World.upd_apply]
      split
      · exact hc i x (by simp)
      · exact ih
    | learn u => simp only [Fetch.step]; split <;> exact ih
    | forget u => exact ih
    | fetch => simp only [Fetch.step]; split <;> exact ih
    | main ok =>
      simp only [Fetch.step]
      cases (Fetch.run me n o init h).main <;> simp only [Fetch.main]
      case count => split <;> exact ih
      all_goals exact ih
    | way i => simp only [Fetch.step]; cases (Fetch.run me n o init h).ways i <;> exact ih
    | rem k =>
      simp only [Fetch.step]
      split
      · rename_i u pc hk
        cases pc <;> exact ih
      · exact ih
    | tick =>
      simp only [Fetch.step]
      split <;> first | exact ih | (cases (Fetch.run me n o init h).timer <;> exact ih)

/-- **C76**: every socket in the list matched on some server at some moment between the call and the callback. -/
theorem C76_only (h : List Fetch.Ev) (e : Fetch.Ev) (l : List Sid) (hi : ∀ j, OK (init j))
    (hc : ∀ j x, Fetch.Ev.change j x ∈ h → OK x) (hr : Returns me n o init h e l) (s : Sid) (hs : s ∈ l) :
    ∃ j p, (j = me ∨ j < n) ∧ Since h p ∧
      Sel ((Fetch.run me n o init p).nsps j) (Spec.targeted o) (Spec.excepted o) s := by
  have okp : ∀ p q, h = p ++ q → ∀ j, OK ((Fetch.run me n o init p).nsps j) := fun p q hh j =>
    nsps_ok me n o init p hi (fun j x hx => hc j x (by rw [hh]; exact List.mem_append_left _ hx)) j
  have hsrc := Fetch.src_run (me := me) (n := n) (o := o) init h
  have hinv := Fetch.inv_run (me := me) (n := n) (o := o) init h
  have here : ∀ l', Fetch.At me n o init h (Fetch.localOpts o) me l' → s ∈ l' → ∃ j p, (j = me ∨ j < n) ∧ Since h p ∧
      Sel ((Fetch.run me n o init p).nsps j) (Spec.targeted o) (Spec.excepted o) s := by
    rintro l' ⟨p, q, hp, hf, rfl⟩ hs'
    exact ⟨me, p, .inl rfl, ⟨q, hp, hf⟩, (found_local o _ (okp p q hp me) s).1 hs'⟩
  unfold Returns at hr
  rw [Fetch.run_snoc] at hr
  rcases Fetch.call_cases hr with ⟨hm, _⟩ | ⟨rfl, hres⟩
  · exact here l (hsrc.here l (.inl hm)) hs
  · obtain ⟨l0, h1, _, h3⟩ := hsrc.responses (Fetch.resolving_late hinv hres).1
    rcases h3 s hs with h3 | ⟨j, l', h3, hx⟩
    · exact here l0 h1 h3
    · obtain ⟨p, q, hp, hf, rfl⟩ := hsrc.ways j l' (Fetch.carries_of_past h3)
      refine ⟨j, p, .inr (hinv.bound j ?_), ⟨q, hp, hf⟩, (found_remote o _ (okp p q hp j) s).1 hx⟩
      intro hn; rw [hn] at h3; exact h3

/-- **C76**: every socket of the calling server that matched from the call to the callback is in the list. -/
theorem C76_here (h : List Fetch.Ev) (e : Fetch.Ev) (l : List Sid) (hi : ∀ j, OK (init j))
    (hc : ∀ j x, Fetch.Ev.change j x ∈ h → OK x) (hr : Returns me n o init h e l) (s : Sid)
    (always : ∀ p, Since h p → Sel ((Fetch.run me n o init p).nsps me) (Spec.targeted o) (Spec.excepted o) s) : s ∈ l := by
  have hsrc := Fetch.src_run (me := me) (n := n) (o := o) init h
  have hinv := Fetch.inv_run (me := me) (n := n) (o := o) init h
  have here : ∀ l', Fetch.At me n o init h (Fetch.localOpts o) me l' → s ∈ l' := by
    rintro l' ⟨p, q, hp, hf, rfl⟩
    exact (found_local o _ (nsps_ok me n o init p hi (fun j x hx => hc j x (by rw [hp]; exact List.mem_append_left _ hx)) me) s).2
      (always p ⟨q, hp, hf⟩)
  unfold Returns at hr
  rw [Fetch.run_snoc] at hr
  rcases Fetch.call_cases hr with ⟨hm, _⟩ | ⟨rfl, hres⟩
  · exact here l (hsrc.here l (.inl hm))
  · obtain ⟨l0, h1, h2, _⟩ := hsrc.responses (Fetch.resolving_late hinv hres).1
    exact h2 s (here l0 h1)

/-- **C76**: so is every socket that matched all that time on another server, if the calling server had heard of that server
before and has not removed it meanwhile, and the call was not restricted to the local server. -/
theorem C76_there (h : List Fetch.Ev) (e : Fetch.Ev) (l : List Sid) (hi : ∀ j, OK (init j))
    (hc : ∀ j x, Fetch.Ev.change j x ∈ h → OK x) (hr : Returns me n o init h e l) (hl : Cluster.onlyLocal o = false)
    (j : Nat) (hj : j ≠ me) (counted : Counted me n o init h j) (s : Sid)
    (always : ∀ p, Since h p → Sel ((Fetch.run me n o init p).nsps j) (Spec.targeted o) (Spec.excepted o) s) : s ∈ l := by
  have hsrc := Fetch.src_run (me := me) (n := n) (o := o) init h
  have hinv := Fetch.inv_run (me := me) (n := n) (o := o) init h
  obtain ⟨a, b, rfl, ha, hb, hrem⟩ := counted
  have hk := Fetch.kept_run (me := me) (n := n) (o := o) init a b j hj ha hrem hb hl
  unfold Returns at hr
  rw [Fetch.run_snoc] at hr
  rcases Fetch.call_cases hr with ⟨hm, hh⟩ | ⟨rfl, hres⟩
  · rcases hh with hh | hh
    · rw [hl] at hh; cases hh
    · have := hk.known
      rw [List.length_eq_zero_iff.1 hh] at this; cases this
  · obtain ⟨hlate, hmiss⟩ := Fetch.resolving_late hinv hres
    rcases hk.got hlate with hg | ⟨l', hg, hx⟩
    · rw [hmiss] at hg; cases hg
    · obtain ⟨p, q, hp, hf, rfl⟩ := hsrc.ways j l' hg
      exact hx s ((found_remote o _ (nsps_ok me n o init p hi
        (fun j x hx => hc j x (by rw [hp]; exact List.mem_append_left _ hx)) j) s).2 (always p ⟨q, hp, hf⟩))

/-- **C76**: no socket is in the list twice, if meanwhile no id is used on two servers. -/
theorem C76_once (h : List Fetch.Ev) (e : Fetch.Ev) (l : List Sid) (hi : ∀ j, OK (init j))
    (hc : ∀ j x, Fetch.Ev.change j x ∈ h → OK x) (hr : Returns me n o init h e l)
    (home : ∀ p p' j j' s, Since h p → Since h p' → Connected ((Fetch.run me n o init p).nsps j) s →
      Connected ((Fetch.run me n o init p').nsps j') s → j = j') : l.Nodup := by
  have okp : ∀ p q, h = p ++ q → ∀ j, OK ((Fetch.run me n o init p).nsps j) := fun p q hh j =>
    nsps_ok me n o init p hi (fun j x hx => hc j x (by rw [hh]; exact List.mem_append_left _ hx)) j
  have hsrc := Fetch.src_run (me := me) (n := n) (o := o) init h
  have hinv := Fetch.inv_run (me := me) (n := n) (o := o) init h
  have nl : ∀ l', Fetch.At me n o init h (Fetch.localOpts o) me l' → l'.Nodup := by
    rintro l' ⟨p, q, hp, hf, rfl⟩; exact (found_spec _ _ (okp p q hp me)).1
  unfold Returns at hr
  rw [Fetch.run_snoc] at hr
  rcases Fetch.call_cases hr with ⟨hm, _⟩ | ⟨rfl, hres⟩
  · exact nl l (hsrc.here l (.inl hm))
  · refine Fetch.nodup_run init h _ _ (fun _ _ hh => hh) (fun _ hh => hh) ?_ nl ?_ ?_ (Fetch.resolving_late hinv hres).1
    · rintro j l' ⟨p, q, hp, hf, rfl⟩; exact (found_spec _ _ (okp p q hp j)).1
    · rintro i j l₁ l₂ x ⟨p, q, hp, hf, rfl⟩ ⟨p', q', hp', hf', rfl⟩ hx hx'
      exact home p p' i j x ⟨q, hp, hf⟩ ⟨q', hp', hf'⟩ ((found_remote o _ (okp p q hp i) x).1 hx).1
        ((found_remote o _ (okp p' q' hp' j) x).1 hx').1
    · rintro j l₁ l₂ x ⟨p, q, hp, hf, rfl⟩ ⟨p', q', hp', hf', rfl⟩ hx hx'
      exact home p p' j me x ⟨q, hp, hf⟩ ⟨q', hp', hf'⟩ ((found_remote o _ (okp p q hp j) x).1 hx).1
        ((found_local o _ (okp p' q' hp' me) x).1 hx').1

/-- **C76**: once every server has answered and its answer has been handled, the callback has been called with a list,
unless the timer fired. -/
theorem C76_called (h : List Fetch.Ev) (real : ∀ u, Fetch.Ev.learn u ∈ h → u < n) (published : Fetch.Ev.main false ∉ h)
    (quiet : Fetch.Ev.tick ∉ h) (answered : AllAnswered me n (Fetch.run me n o init h)) :
    ∃ l, some l ∈ (Fetch.run me n o init h).calls := by
  have he := Fetch.no_error (me := me) (n := n) (o := o) init h quiet
  have hne : (Fetch.run me n o init h).calls ≠ [] := by
    rcases Fetch.live_run (me := me) (n := n) (o := o) init h real published with hl | hl
    · exact hl
    · obtain ⟨h1, h2, h3⟩ := answered
      have hlate : Fetch.Late (Fetch.run me n o init h).main := by rw [h1]; trivial
      exfalso
      have done_out : ∀ j, j < n → j ≠ me → j ∉ (Fetch.run me n o init h).missing := by
        intro j a b
        obtain ⟨l, hd⟩ := h2 j a b
        rcases hl.out j with ho | ho
        · rw [hd] at ho; exact ho.elim
        · exact ho
      rcases hl.notice hlate with hh | (⟨j, l, hh⟩ | ⟨k, u, hh⟩) | hh
      · obtain ⟨u, t, ht⟩ := List.exists_cons_of_ne_nil hh
        have hu : u ∈ (Fetch.run me n o init h).missing := by rw [ht]; simp
        obtain ⟨a, b⟩ := hl.missing hlate u hu
        exact done_out u a b hu
      · have hb : j < n ∧ j ≠ me := by
          constructor
          · exact (Fetch.inv_run (me := me) (n := n) (o := o) init h).bound j (by rcases hh with hh | hh <;> simp [hh])
          · rintro rfl
            have := (Fetch.inv_run (me := j) (n := n) (o := o) init h).self
            rcases hh with hh | hh <;> rw [this] at hh <;> cases hh
        obtain ⟨l', hd⟩ := h2 j hb.1 hb.2
        rcases hh with hh | hh <;> rw [hd] at hh <;> cases hh
      · rcases hh with hh | hh <;> simpa using h3 u _ (List.mem_of_getElem? hh)
      · obtain ⟨u, a, b⟩ := hl.other (by simp [h1]) (by simp [h1])
        obtain ⟨l', hd⟩ := h2 u a b
        have := hh u
        rw [hd] at this; exact this
  obtain ⟨c, t, ht⟩ := List.exists_cons_of_ne_nil hne
  cases c with
  | some l => exact ⟨l, by rw [ht]; simp⟩
  | none => exact absurd (by rw [ht]; simp) he

/-- **C76**: if the callback is called with a list before the timer fired, it is never called with an error, whatever happens
later. -/
theorem C76_settled (h t : List Fetch.Ev) (e : Fetch.Ev) (l : List Sid) (quiet : Fetch.Ev.tick ∉ h)
    (hr : Returns me n o init h e l) : none ∉ (Fetch.run me n o init (h ++ [e] ++ t)).calls := by
  have key : Fetch.Settled (Fetch.run me n o init (h ++ [e] ++ t)) := by
    induction t using snocRec with
    | nil =>
      unfold Returns at hr
      rw [Fetch.run_snoc] at hr
      rw [List.append_nil, Fetch.run_snoc]
      exact Fetch.settled_call (Fetch.no_error init h quiet) (Fetch.timer_idle init h quiet) hr
    | append_singleton t x ih =>
      rw [← List.append_assoc, Fetch.run_snoc]; exact Fetch.settled_step ih x
  exact key.1

/-- **C76**: the callback is called with an error at most once. -/
theorem C76_error_once (h : List Fetch.Ev) : ((Fetch.run me n o init h).calls.filter (·.isNone)).length ≤ 1 := by
  refine Nat.le_trans (Fetch.fin_run init h).errs ?_
  split <;> simp

/-- **C76**: once the callback has been called and nothing is going on, it is never called again, whatever answers still come and
even if the timer fires. -/
theorem C76_over (h t : List Fetch.Ev) (called : (Fetch.run me n o init h).calls ≠ []) (rest : NothingGoesOn (Fetch.run me n o init h)) :
    (Fetch.run me n o init (h ++ t)).calls = (Fetch.run me n o init h).calls := by
  refine (Fetch.still_run init h t ⟨rest.main, ?_, ?_, ?_, ?_⟩).2
  · rcases (Fetch.fin_run init h).gone called with h1 | ⟨j, l, h1⟩ | ⟨u, h1⟩ | h1
    · exact h1
    · rcases rest.ways j with h2 | h2 | ⟨_, h2⟩ | ⟨_, h2⟩ <;> rw [h1] at h2 <;> cases h2
    · have := rest.rems u _ h1; cases this
    · rcases rest.timer with h2 | h2 <;> rw [h1] at h2 <;> cases h2
  · intro j
    rcases rest.ways j with h2 | h2 | h2 | h2
    · exact .inl h2
    · exact .inr (.inl h2)
    · exact .inr (.inr (.inl h2))
    · exact .inr (.inr (.inr (.inr h2)))
  · intro u pc hm; exact .inr (.inr (rest.rems u pc hm))
  · rcases rest.timer with h | h
    · exact .inl h
    · exact .inr (.inr h)

end

/-- A server with one socket `s`, in room `x`. -/
def Demo.solo (s : Sid) : Nsp where
  ad := (addAll {} s [s, "x"]).1
  sockets := [(s, 1)]
  sidOf := fun _ => s
  canJoin := fun _ => true

theorem Demo.solo_ok (s : Sid) : OK (Demo.solo s) := by
  have hd := addAll_spec inv_empty s [s, "x"]
  refine ok_of_inv hd.1 ?_ (fun _ _ _ => rfl) ?_
  all_goals
    intro s' ref h
    simp only [Demo.solo, FMap.get?_cons] at h ⊢
    split at h
    · rename_i hs
      first | exact hs | exact (hd.2.2 s').2 (.inl (by first | exact hs.symm | exact hs))
    · simp at h

/-- Three servers: the first with socket `z`, the second with `a`, `b` and `c`, the third with `d`. -/
def Demo.trio (j : Nat) : Nsp := if j = 0 then Demo.solo "z" else if j = 1 then demo else Demo.solo "d"

/-- Server 0, which has heard of the others, fetches the sockets of room `x`, but not those of `b`.  Server 1 answers.  Server 2 is
removed, and its answer comes late. -/
def Demo.fetching : List Fetch.Ev :=
  [.learn 1, .learn 2, .fetch, .main true, .main true, .main true, .main true, .way 1, .way 1, .way 2, .forget 2,
   .rem 0, .rem 0, .rem 0, .way 1, .change 1 nosy, .way 1, .way 1, .way 1]

/-- Non-vacuity for C76: the next step calls the callback, server 1 was counted, socket `a` matched on it all the time. -/
example : (∀ j, OK (Demo.trio j)) ∧ (∀ j x, Fetch.Ev.change j x ∈ Demo.fetching → OK x) ∧
    Returns 0 3 (some { rooms := some ["x"], except := some ["b"] }) Demo.trio Demo.fetching (.way 1) ["z", "a"] ∧
    Counted 0 3 (some { rooms := some ["x"], except := some ["b"] }) Demo.trio Demo.fetching 1 := by
  refine ⟨?_, ?_, by unfold Returns; decide, [], Demo.fetching.tail, rfl, by simp, by simp [Demo.fetching], fun _ h => by cases h⟩
  · intro j; unfold Demo.trio; split
    · exact Demo.solo_ok _
    · split
      · exact demo_ok
      · exact Demo.solo_ok _
  · intro j x h
    simp [Demo.fetching] at h
    rw [h.2]; exact nosy_ok

/-- Non-vacuity for `C76_called`: two servers, the second of which has answered. -/
example : AllAnswered 0 2 (Fetch.run 0 2 none Demo.trio
      [.learn 1, .fetch, .main true, .main true, .main true, .main true, .way 1, .way 1, .way 1, .way 1, .way 1, .way 1, .way 1, .way 1]) ∧
    (Fetch.run 0 2 none Demo.trio
      [.learn 1, .fetch, .main true, .main true, .main true, .main true, .way 1, .way 1, .way 1, .way 1, .way 1, .way 1, .way 1, .way 1]).calls =
      [some ["z", "c", "b", "a"]] := by
  refine ⟨⟨by decide, ?_, fun _ _ h => by cases h⟩, by decide⟩
  intro j h1 h2
  have : j = 1 := by omega
  subst this
  exact ⟨_, rfl⟩

/-- Non-vacuity for `C76_settled`: the timer comes due when the answer has been handled. -/
example : let h : List Fetch.Ev := [.learn 1, .fetch, .main true, .main true, .main true, .main true, .way 1, .way 1, .way 1, .way 1, .way 1, .way 1]
    Returns 0 2 none Demo.trio h (.way 1) ["z", "c", "b", "a"] ∧
    (Fetch.run 0 2 none Demo.trio (h ++ [.way 1] ++ [.tick, .tick, .tick, .way 1])).calls = [some ["z", "c", "b", "a"]] := by
  unfold Returns; decide

/-- Non-vacuity for `C76_over` and `C76_error_once`: the timer fires before the answer comes; the answer then changes nothing. -/
example :
    let h : List Fetch.Ev := [.learn 1, .fetch, .main true, .main true, .main true, .main true, .way 1, .tick, .tick, .tick, .tick]
    (Fetch.run 0 2 none Demo.trio h).calls = [none] ∧ NothingGoesOn (Fetch.run 0 2 none Demo.trio h) ∧
    (Fetch.run 0 2 none Demo.trio (h ++ [.way 1, .way 1, .way 1, .way 1, .way 1, .way 1, .way 1, .tick])).calls = [none] := by
  refine ⟨by decide, ⟨.inl (by decide), ?_, (fun _ _ h => by cases h), .inr (by decide)⟩, by decide⟩
  intro j
  by_cases hj : j = 1
  · subst hj; exact .inr (.inr (.inl ⟨_, rfl⟩))
  · left
    by_cases h0 : j < 2 ∧ j ≠ 0
    · omega
    · simp [Fetch.run, Fetch.step, Fetch.main, Fetch.tick, Fetch.way, World.upd_apply, LSet.add, Cluster.onlyLocal, hj, h0]

end Verif.Props
