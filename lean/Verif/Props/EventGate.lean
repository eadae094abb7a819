import Verif.Proof.EventGate

/-! # C47, C54: incoming events, their middlewares and handlers -/

namespace Verif.Props
open Verif Verif.Spec Verif.EventGate

/-! ## C54 -/

/-- **C54, which middlewares**: the middlewares an event passes are those registered before it arrived, in order of
registration. -/
theorem C54_registered (h t : List EventGate.Ev) :
    (EventGate.run (h ++ .recv :: t)).evs[eventsArrived h]? = some (uses h) := by
  have key : ∀ h : List EventGate.Ev, (EventGate.run h).evs.length = eventsArrived h ∧ (EventGate.run h).fns = uses h := by
    have a1 (h : List EventGate.Ev) (e : EventGate.Ev) : eventsArrived (h ++ [e]) = eventsArrived h + eventsArrived [e] := by
      induction h with
      | nil => simp [eventsArrived]
      | cons x h ih => cases x <;> simp only [List.cons_append, eventsArrived, ih] <;> omega
    have a2 (h : List EventGate.Ev) (e : EventGate.Ev) : uses (h ++ [e]) = uses h ++ uses [e] := by
      induction h with
      | nil => simp [uses]
      | cons x h ih => cases x <;> simp [uses, ih]
    intro h
    induction h using snocRec with
    | nil => exact ⟨rfl, rfl⟩
    | append_singleton h e ih =>
      rw [run_snoc, a1, a2, ← ih.1, ← ih.2]
      generalize EventGate.run h = s
      cases e with
      | use m => simp [EventGate.step, eventsArrived, uses]
      | recv => simp only [EventGate.step, recv]; split <;> simp [eventsArrived, uses]
      | next e i ok =>
        simp only [EventGate.step, EventGate.next, goOn, eventsArrived, uses]
        (repeat' split) <;> simp
      | adv k =>
        simp only [EventGate.step, adv, eventsArrived, uses]
        (repeat' split) <;> simp
      | close => simp only [EventGate.step, EventGate.close, eventsArrived, uses]; split <;> simp
  have hrun : EventGate.run (h ++ .recv :: t) = t.foldl EventGate.step (recv (EventGate.run h)) := by
    simp [EventGate.run, EventGate.step]
  rw [hrun]
  obtain ⟨d, hd⟩ := foldl_evs t (recv (EventGate.run h))
  have hr : (recv (EventGate.run h)).evs = (EventGate.run h).evs ++ [(EventGate.run h).fns] := by
    unfold recv; split <;> rfl
  rw [hd, hr, ← (key h).1, ← (key h).2]
  simp

/-- **C54, the gate**: whenever the handlers are called for an event, before that every middleware registered when it arrived has
been entered, one after the other in the order of registration, and has let the event pass before the next was entered. -/
theorem C54_gate (h : List EventGate.Ev) (e : Nat) (pre post : List Obs)
    (hlog : (EventGate.run h).log = pre ++ .handler e :: post) :
    ∃ fns, (EventGate.run h).evs[e]? = some fns ∧ (passing e 0 fns).Sublist pre := by
  induction h using snocRec generalizing pre post with
  | nil => simp [EventGate.run] at hlog
  | append_singleton h ev ih =>
    rw [run_snoc] at hlog ⊢
    obtain ⟨d, hd, hh⟩ := step_log (EventGate.run h) ev
    obtain ⟨de, hde⟩ := step_evs (EventGate.run h) ev
    rw [hd] at hlog
    rw [hde]
    have up {fns : List Nat} (hf : (EventGate.run h).evs[e]? = some fns) : ((EventGate.run h).evs ++ de)[e]? = some fns := by
      rw [List.getElem?_append_left (List.getElem?_eq_some_iff.mp hf).1]; exact hf
    rcases split_append hlog.symm with ⟨post', hp⟩ | ⟨d1, h1, h2⟩
    · obtain ⟨fns, hf, hs⟩ := ih pre post' hp
      exact ⟨fns, up hf, hs⟩
    · obtain ⟨hd', g, hg, hge, hgp⟩ := hh e (by rw [h2]; simp)
      obtain ⟨fns, hf, hs, hok⟩ := (EventGate.inv_run h).gos g hg
      rw [hge] at hf hs
      refine ⟨fns, up hf, ?_⟩
      rw [h1]
      exact (hs (hok hgp)).trans (List.sublist_append_left _ _)

theorem mem_passing {e : Nat} {fns : List Nat} {j : Nat} (hj : j < fns.length) : Obs.next e j true ∈ passing e 0 fns := by
  have hm : fns[j]? = some fns[j] := List.getElem?_eq_getElem hj
  have h1 := passing_take_succ (e := e) hm
  have h2 := passing_take_sub (e := e) fns (show j + 1 ≤ fns.length by omega)
  rw [List.take_length] at h2
  exact h2.subset (by rw [h1]; simp)

theorem once_unique {log : List Obs} (h : NextAtMostOnce log) {e i : Nat} (h1 : Obs.next e i true ∈ log)
    (h2 : Obs.next e i false ∈ log) : False := by
  have := h e i
  generalize hp : (fun o => match o with | Obs.next e' i' _ => e' == e && i' == i | _ => false) = p at this
  have p1 : p (.next e i true) = true := by rw [← hp]; simp
  have p2 : p (.next e i false) = true := by rw [← hp]; simp
  have m1 : Obs.next e i true ∈ log.filter p := List.mem_filter.mpr ⟨h1, p1⟩
  have m2 : Obs.next e i false ∈ log.filter p := List.mem_filter.mpr ⟨h2, p2⟩
  match hl : log.filter p with
  | [] => rw [hl] at m1; cases m1
  | [x] => rw [hl] at m1 m2; simp at m1 m2; rw [← m1] at m2; cases m2
  | x :: y :: l => rw [hl] at this; simp at this

/-- **C54, errors**: if no middleware calls `next` twice for an event, an error given to `next` stops the chain: no later
middleware is entered and the handlers are not called. -/
theorem C54_error (h : List EventGate.Ev) (ho : NextAtMostOnce (EventGate.run h).log) (e i : Nat)
    (herr : Obs.next e i false ∈ (EventGate.run h).log) :
    (∀ j m, i < j → Obs.enter e j m ∉ (EventGate.run h).log) ∧ Obs.handler e ∉ (EventGate.run h).log := by
  have hi := EventGate.inv_run h
  obtain ⟨fns, m, hf, hm, _⟩ := hi.nxt e i false herr
  have hil := (List.getElem?_eq_some_iff.mp hm).1
  constructor
  · intro j m' hij hent
    obtain ⟨fns', hf', hm', hs⟩ := hi.ent e j m' hent
    rw [hf] at hf'; cases hf'
    have hjl := (List.getElem?_eq_some_iff.mp hm').1
    have : Obs.next e i true ∈ passing e 0 (fns.take j) := mem_passing (by rw [List.length_take]; omega)
    exact once_unique ho (hs.subset (List.mem_append_left _ this)) herr
  · intro hh
    obtain ⟨pre, post, hp⟩ := List.append_of_mem hh
    obtain ⟨fns', hf', hs⟩ := C54_gate h e pre post hp
    rw [hf] at hf'; cases hf'
    have : Obs.next e i true ∈ pre := hs.subset (mem_passing hil)
    exact once_unique ho (by rw [hp]; exact List.mem_append_left _ this) herr

theorem terminal_le {h : List EventGate.Ev} (ho : NextAtMostOnce (EventGate.run h).log) {e : Nat} {fns : List Nat}
    (hf : (EventGate.run h).evs[e]? = some fns) : (EventGate.run h).log.countP (terminal e fns.length) ≤ 1 := by
  have hi := EventGate.inv_run h
  -- all terminal steps are at one position
  have uniq : ∀ i ok j ok', Obs.next e i ok ∈ (EventGate.run h).log → terminal e fns.length (.next e i ok) = true →
      Obs.next e j ok' ∈ (EventGate.run h).log → terminal e fns.length (.next e j ok') = true → i ≤ j := by
    intro i ok j ok' h1 t1 h2 t2
    rcases Nat.lt_or_ge j i with hlt | hge
    · exfalso
      obtain ⟨f, m, a1, a2, a3⟩ := hi.nxt e i ok h1
      rw [hf] at a1; cases a1
      obtain ⟨f', b1, b2, b3⟩ := hi.ent e i m a3
      rw [hf] at b1; cases b1
      have hil := (List.getElem?_eq_some_iff.mp a2).1
      have hj : Obs.next e j true ∈ (EventGate.run h).log :=
        b3.subset (List.mem_append_left _ (mem_passing (by rw [List.length_take]; omega)))
      cases ok' with
      | false => exact once_unique ho hj h2
      | true => simp [terminal] at t2; omega
    · exact hge
  rcases Nat.eq_zero_or_pos ((EventGate.run h).log.countP (terminal e fns.length)) with hz | hpos
  · omega
  · obtain ⟨o, hom, hot⟩ := List.countP_pos_iff.mp hpos
    cases o <;> simp only [terminal, Bool.false_eq_true] at hot
    rename_i e' i ok
    have he : e' = e := by simp at hot; exact hot.1
    subst he
    have hsub : (EventGate.run h).log.countP (terminal e' fns.length) ≤
        ((EventGate.run h).log.filter fun o => match o with | .next a b _ => a == e' && b == i | _ => false).length := by
      rw [← List.countP_eq_length_filter]
      apply List.countP_mono_left
      intro o ho' hot'
      cases o <;> simp only [terminal, Bool.false_eq_true] at hot'
      rename_i a b ok'
      have ha : a = e' := by simp at hot'; exact hot'.1
      subst ha
      have := Nat.le_antisymm (uniq i ok b ok' hom hot ho' hot') (uniq b ok' i ok ho' hot' hom hot)
      simp [this]
    exact Nat.le_trans hsub (ho e' i)

/-- **C54, one outcome**: if no middleware calls `next` twice for an event, at most one of these happens, and at most once: the
handlers are called, "error" is fired, the event is ignored because the socket is disconnected. -/
theorem C54_one_outcome (h : List EventGate.Ev) (ho : NextAtMostOnce (EventGate.run h).log) (e : Nat) :
    (EventGate.run h).log.countP (isOutcome e) ≤ 1 := by
  have hi := EventGate.inv_run h
  rw [hi.outs e]
  have hle : (EventGate.run h).gos.countP (fun g => g.e == e && g.phase == .finished) ≤
      (EventGate.run h).gos.countP (fun g => g.e == e) := by
    apply List.countP_mono_left
    intro g _ hg; simp at hg; simp [hg.1]
  cases hf : (EventGate.run h).evs[e]? with
  | none =>
    have : (EventGate.run h).gos.countP (fun g => g.e == e) = 0 := by
      rw [List.countP_eq_zero]
      intro g hg
      obtain ⟨f, a, _⟩ := hi.gos g hg
      intro hge; simp at hge; rw [hge, hf] at a; cases a
    omega
  | some fns =>
    have ht := hi.term e fns hf
    have htl := terminal_le ho hf
    by_cases hfn : fns = []
    · have : (EventGate.run h).log.countP (terminal e fns.length) = 0 := by
        rw [List.countP_eq_zero]
        intro o hom hot
        cases o <;> simp only [terminal, Bool.false_eq_true] at hot
        rename_i e' i ok
        have he : e' = e := by simp at hot; exact hot.1
        subst he
        obtain ⟨f, m, a1, a2, _⟩ := hi.nxt e' i ok hom
        rw [hf] at a1; cases a1; rw [hfn] at a2; simp at a2
      rw [if_pos hfn, this] at ht; omega
    · rw [if_neg hfn] at ht; omega

/-- **C54, disconnected**: from the moment the socket is disconnected, no handler is called for any event, except by a goroutine
that had already found the socket connected. -/
theorem C54_disconnected_partial (h t : List EventGate.Ev) (hdis : (EventGate.run h).connected = false)
    (hnone : ∀ g ∈ (EventGate.run h).gos, g.phase ≠ .passed) :
    handled (EventGate.run (h ++ t)).log = handled (EventGate.run h).log := by
  have key : ∀ t : List EventGate.Ev, (EventGate.run (h ++ t)).connected = false ∧
      (∀ g ∈ (EventGate.run (h ++ t)).gos, g.phase ≠ .passed) ∧
      handled (EventGate.run (h ++ t)).log = handled (EventGate.run h).log := by
    have happ (l d : List Obs) (hd : ∀ e, Obs.handler e ∉ d) : handled (l ++ d) = handled l := by
      have hnil : ∀ d : List Obs, (∀ e, Obs.handler e ∉ d) → handled d = [] := by
        intro d
        induction d with
        | nil => intro _; rfl
        | cons o d ih =>
          intro hd
          have := ih (fun e he => hd e (by simp [he]))
          cases o with
          | handler e => exact absurd (by simp) (hd e)
          | _ => simpa [handled] using this
      induction l with
      | nil => exact hnil d hd
      | cons o l ih => cases o <;> simp [handled, ih]
    intro t
    induction t using snocRec with
    | nil => rw [List.append_nil]; exact ⟨hdis, hnone, rfl⟩
    | append_singleton t e ih =>
      rw [← List.append_assoc, run_snoc]
      generalize EventGate.run (h ++ t) = s at ih ⊢
      obtain ⟨i1, i2, i3⟩ := ih
      obtain ⟨d, hd, hh⟩ := step_log s e
      refine ⟨?_, ?_, ?_⟩
      · cases e with
        | use m => exact i1
        | recv => simp only [EventGate.step, recv]; split <;> exact i1
        | next e i ok =>
          simp only [EventGate.step, EventGate.next, goOn]
          (repeat' split) <;> exact i1
        | adv k =>
          simp only [EventGate.step, adv]
          (repeat' split) <;> exact i1
        | close => simp only [EventGate.step, EventGate.close, i1, Bool.false_eq_true, if_false]
      · have hadd (x : Go) (hx : x.phase = .start) : ∀ g ∈ s.gos ++ [x], g.phase ≠ .passed := by
          intro g hg
          rcases List.mem_append.mp hg with hg | hg
          · exact i2 g hg
          · rw [List.mem_singleton] at hg; subst hg; rw [hx]; simp
        have hset (k : Nat) (x : Go) (hx : x.phase = .finished) : ∀ g ∈ s.gos.set k x, g.phase ≠ .passed := by
          intro g hg
          rcases List.mem_or_eq_of_mem_set hg with hg | rfl
          · exact i2 g hg
          · rw [hx]; simp
        cases e with
        | use m => exact i2
        | recv => simp only [EventGate.step, recv]; split; exact hadd _ rfl; exact i2
        | next e i ok =>
          simp only [EventGate.step, EventGate.next, goOn]
          split
          · exact i2
          split
          · exact i2
          split
          · split
            · split
              · exact hadd _ rfl
              · exact i2
            · exact hadd _ rfl
          · exact i2
        | adv k =>
          simp only [EventGate.step, adv, i1]
          split
          · exact i2
          split
          · exact i2
          · exact hset _ _ rfl
          · split
            · exact hset _ _ rfl
            · exact hset _ _ rfl
        | close => simp only [EventGate.step, EventGate.close, i1]; exact i2
      · rw [hd, happ _ _ ?_, i3]
        intro e' he'
        obtain ⟨_, g, hg, _, hgp⟩ := hh e' he'
        exact i2 g hg hgp
  exact (key t).2.2

/-- **C54 fails at the moment of disconnection**: a goroutine that has found the socket connected can call the handlers after
"disconnect" has been fired. -/
theorem C54_race_fail : ¬ ∀ (h : List EventGate.Ev) (e : Nat) (pre post : List Obs),
    (EventGate.run h).log = pre ++ .handler e :: post → Obs.disconnect ∉ pre := by
  intro hall
  exact absurd (hall [.recv, .adv 0, .close, .adv 0] 0 [.disconnect] [] (by decide)) (by decide)

namespace Demo
/-- Two middlewares; the first event passes both, the second is refused by the second, the third arrives after the socket was
disconnected. -/
def eventGate : List EventGate.Ev :=
  [.use 10, .use 11, .recv, .next 0 0 true, .recv, .next 0 1 true, .adv 0, .adv 0, .next 1 0 true, .next 1 1 false,
   .adv 1, .close, .recv, .next 2 0 true, .next 2 1 true, .adv 2]
end Demo

example : (EventGate.run Demo.eventGate).log =
    [.enter 0 0 10, .next 0 0 true, .enter 0 1 11, .enter 1 0 10, .next 0 1 true, .handler 0, .next 1 0 true, .enter 1 1 11,
     .next 1 1 false, .error 1, .disconnect, .enter 2 0 10, .next 2 0 true, .enter 2 1 11, .next 2 1 true, .dropped 2] ∧
    (EventGate.run (Demo.eventGate.take 12)).connected = false ∧
    (∀ g ∈ (EventGate.run (Demo.eventGate.take 12)).gos, g.phase ≠ .passed) := by decide

example : NextAtMostOnce (EventGate.run Demo.eventGate).log := by
  intro e i
  have : (EventGate.run Demo.eventGate).log = [.enter 0 0 10, .next 0 0 true, .enter 0 1 11, .enter 1 0 10, .next 0 1 true, .handler 0,
     .next 1 0 true, .enter 1 1 11, .next 1 1 false, .error 1, .disconnect, .enter 2 0 10, .next 2 0 true, .enter 2 1 11,
     .next 2 1 true, .dropped 2] := by decide
  rw [this]
  match e, i with
  | 0, 0 => decide
  | 0, 1 => decide
  | 1, 0 => decide
  | 1, 1 => decide
  | 2, 0 => decide
  | 2, 1 => decide
  | 0, i + 2 => simp
  | 1, i + 2 => simp
  | 2, i + 2 => simp
  | e + 3, i => simp

/-! ## C47 -/

/-- **C47, partial**: if every event has come to its end (handled, refused or ignored) before the next one arrives, and no
middleware calls `next` twice, the handlers are called in the order of arrival. -/
theorem C47_partial (h : List EventGate.Ev) (ho : NextAtMostOnce (EventGate.run h).log)
    (hseq : ∀ h1 h2, h = h1 ++ .recv :: h2 → ∀ e < (EventGate.run h1).evs.length,
      ∃ o ∈ (EventGate.run h1).log, isOutcome e o = true)
    (e e' : Nat) (pre mid post : List Obs)
    (hlog : (EventGate.run h).log = pre ++ .handler e :: mid ++ .handler e' :: post) : e < e' := by
  rcases Nat.lt_or_ge e e' with hlt | hge
  · exact hlt
  exfalso
  have cnt := C54_one_outcome h ho e'
  rw [hlog] at cnt
  simp only [List.countP_append, List.countP_cons] at cnt
  have o1 : isOutcome e' (.handler e') = true := by simp [isOutcome]
  rw [if_pos o1] at cnt
  rcases Nat.eq_or_lt_of_le hge with he | hlt
  · subst he
    rw [if_pos o1] at cnt; omega
  · -- `e'` was over when `e` arrived
    have hex : ∀ h : List EventGate.Ev, ∀ e, e < (EventGate.run h).evs.length → ∃ h1 h2, h = h1 ++ .recv :: h2 ∧
        (EventGate.run h1).evs.length = e := by
      intro h
      induction h using snocRec with
      | nil => intro e he; exact absurd he (by simp [EventGate.run])
      | append_singleton h ev ih =>
        intro e he
        rw [run_snoc] at he
        rcases Nat.lt_or_ge e (EventGate.run h).evs.length with hl | hl
        · obtain ⟨h1, h2, heq, hle⟩ := ih e hl
          exact ⟨h1, h2 ++ [ev], by simp [heq], hle⟩
        · have hev : ev = .recv ∧ e = (EventGate.run h).evs.length := by
            cases ev with
            | recv =>
              refine ⟨rfl, ?_⟩
              have : (EventGate.step (EventGate.run h) .recv).evs = (EventGate.run h).evs ++ [(EventGate.run h).fns] := by
                simp only [EventGate.step, recv]; split <;> rfl
              rw [this] at he; simp at he; omega
            | use m => simp only [EventGate.step] at he; omega
            | next a b ok =>
              exfalso
              have : (EventGate.step (EventGate.run h) (.next a b ok)).evs = (EventGate.run h).evs := by
                simp only [EventGate.step, EventGate.next, goOn]
                (repeat' split) <;> rfl
              rw [this] at he; omega
            | adv k =>
              exfalso
              have : (EventGate.step (EventGate.run h) (.adv k)).evs = (EventGate.run h).evs := by
                simp only [EventGate.step, adv]
                (repeat' split) <;> rfl
              rw [this] at he; omega
            | close =>
              exfalso
              have : (EventGate.step (EventGate.run h) .close).evs = (EventGate.run h).evs := by
                simp only [EventGate.step, EventGate.close]; split <;> rfl
              rw [this] at he; omega
          exact ⟨h, [], by rw [hev.1], hev.2.symm⟩
    have hmem : Obs.handler e ∈ (EventGate.run h).log := by rw [hlog]; simp
    obtain ⟨p1, p2, hp⟩ := List.append_of_mem hmem
    obtain ⟨fns, hf, _⟩ := C54_gate h e p1 p2 hp
    obtain ⟨h1, h2, heq, hle⟩ := hex h e (List.getElem?_eq_some_iff.mp hf).1
    obtain ⟨o, hom, hoo⟩ := hseq h1 h2 heq e' (by omega)
    have hpre : ∃ d, (EventGate.run h).log = (EventGate.run h1).log ++ d := by
      obtain ⟨d, hd⟩ := foldl_log (.recv :: h2) (EventGate.run h1)
      exact ⟨d, by rw [heq, ← hd]; simp [EventGate.run]⟩
    obtain ⟨d, hd⟩ := hpre
    have hno : Obs.handler e ∉ (EventGate.run h1).log := by
      intro hm
      obtain ⟨q1, q2, hq⟩ := List.append_of_mem hm
      obtain ⟨f, hf', _⟩ := C54_gate h1 e q1 q2 hq
      have := (List.getElem?_eq_some_iff.mp hf').1
      omega
    rw [hlog, List.append_assoc, List.cons_append] at hd
    rcases split_append hd with ⟨post', hp'⟩ | ⟨d1, h3, _⟩
    · exact hno (by rw [hp']; simp)
    · have : 1 ≤ pre.countP (isOutcome e') := by
        rw [h3, List.countP_append]
        have : 0 < (EventGate.run h1).log.countP (isOutcome e') := List.countP_pos_iff.mpr ⟨o, hom, hoo⟩
        omega
      omega

/-- **C47 fails**: two events arrive one after the other and their handlers are called in the opposite order (without any
middleware). -/
theorem C47_fail : ¬ ∀ (h : List EventGate.Ev) (e e' : Nat) (pre mid post : List Obs),
    (EventGate.run h).log = pre ++ .handler e :: mid ++ .handler e' :: post → e < e' := by
  intro hall
  exact absurd (hall [.recv, .recv, .adv 1, .adv 1, .adv 0, .adv 0] 1 0 [] [] [] (by decide)) (by decide)

/-- A case of `C47_partial`: one event is refused, two are handled. -/
example : (EventGate.run [.use 7, .recv, .next 0 0 true, .adv 0, .adv 0, .recv, .next 1 0 false, .adv 1, .recv, .next 2 0 true, .adv 2,
    .adv 2]).log = [.enter 0 0 7, .next 0 0 true, .handler 0, .enter 1 0 7, .next 1 0 false, .error 1, .enter 2 0 7,
      .next 2 0 true, .handler 2] := by decide

end Verif.Props
