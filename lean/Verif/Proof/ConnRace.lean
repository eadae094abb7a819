import Verif.Spec.ConnRace
import Verif.Proof.Once

/-! # Invariants of `Model/ConnRace` -/

namespace Verif.ConnRace
open Verif Verif.Spec Verif.Once

theorem run_snoc (h : List Ev) (e : Ev) : run (h ++ [e]) = step (run h) e := by simp [run]

/-- A call of `_onclose` that found the socket connected and has not yet marked it as not connected. -/
def Active (t : Bool × KPC) : Prop :=
  t.2 = .disconnecting ∨ t.2 = .leave ∨ t.2 = .remove ∨ t.2 = .forbid ∨ t.2 = .unregister ∨ t.2 = .unflag

def Ending (s : St) : Prop := s.connected = false ∨ ∃ t ∈ s.closers, Active t

/-- What each call has done. -/
def Done (s : St) (t : Bool × KPC) : Prop :=
  match t.2 with
  | .remove => s.inRoom = false
  | .forbid | .unregister | .unflag => s.inRoom = false ∧ s.inNsp = false
  | .disconnect => s.connected = false
  | .clear => Ending s
  | .done => t.1 = true → Ending s ∧ s.registered = false
  | _ => True

structure Late (s : St) : Prop where
  gone : s.connected = false → s.inNsp = false ∧ s.inRoom = false
  told : s.connected = false → Out.disconnect ∈ s.log ∨ ∃ t ∈ s.closers, t.2 = .disconnect
  reg : s.registered = false → Ending s
  each : ∀ t ∈ s.closers, Done s t

structure Early (s : St) : Prop where
  nsp : s.inNsp = false
  conn : s.connected = false
  room : s.inRoom = false
  reg : s.registered = false
  named : s.named = false
  log : s.log = []
  each : ∀ t ∈ s.closers, t.2 = .range ∨ t.2 = .clear ∨ t.2 = .done
  shut : s.isOpen = true → s.closers = []
  forbid : s.conn = .refused → s.canJoin = false

structure Mid (s : St) : Prop where
  isOpen : s.isOpen = true
  closers : s.closers = []
  conn : s.conn = .join ∨ s.conn = .write ∨ s.conn = .register → s.connected = true
  log : Out.connection ∉ s.log ∧ Out.disconnect ∉ s.log

def Inv (s : St) : Prop :=
  match s.conn with
  | .idle | .test | .refused => Early s
  | .store | .flag | .join | .write | .register => Mid s
  | .name | .announce | .done => Late s

theorem ending_set {s s' : St} (k : Nat) (t t' : Bool × KPC) (hk : s.closers[k]? = some t)
    (hc : s'.closers = s.closers.set k t') (hcon : s.connected = false → s'.connected = false)
    (ht : Active t → Active t' ∨ s'.connected = false) (h : Ending s) : Ending s' := by
  rcases h with h | ⟨u, hu, hu'⟩
  · exact .inl (hcon h)
  · obtain ⟨i, hi⟩ := List.getElem?_of_mem hu
    by_cases hik : i = k
    · subst hik
      rw [hk] at hi; cases hi
      rcases ht hu' with h | h
      · refine .inr ⟨t', ?_, h⟩
        rw [hc]; exact List.mem_of_getElem? (set_self hk)
      · exact .inl h
    · refine .inr ⟨u, ?_, hu'⟩
      rw [hc]; exact List.mem_of_getElem? (set_other hi hik)

theorem done_mono {s s' : St} (h1 : s.connected = false → s'.connected = false) (h2 : s.inRoom = false → s'.inRoom = false)
    (h3 : s.inNsp = false → s'.inNsp = false) (h4 : s.registered = false → s'.registered = false) (h5 : Ending s → Ending s')
    (t : Bool × KPC) (h : Done s t) : Done s' t := by
  obtain ⟨w, pc⟩ := t
  cases pc <;> simp only [Done] at h ⊢ <;> grind

/-- One step of a call, once the client knows the socket. -/
theorem late_set {s s' : St} (hl : Late s) (k : Nat) (w : Bool) (pc pc' : KPC) (hk : s.closers[k]? = some (w, pc))
    (hc : s'.closers = s.closers.set k (w, pc'))
    (h1 : s.connected = false → s'.connected = false) (h2 : s.inRoom = false → s'.inRoom = false)
    (h3 : s.inNsp = false → s'.inNsp = false) (h4 : s.registered = false → s'.registered = false)
    (ha : Active (w, pc) → Active (w, pc') ∨ s'.connected = false)
    (hg : s'.connected = false → s.connected = false ∨ s'.inNsp = false ∧ s'.inRoom = false ∧ pc' = .disconnect)
    (ht : ∀ x ∈ s.log, x ∈ s'.log) (ht' : pc = .disconnect → Out.disconnect ∈ s'.log)
    (hr : s'.registered = false → s.registered = false ∨ Ending s')
    (hd : (Ending s → Ending s') → Done s' (w, pc')) : Late s' := by
  have he : Ending s → Ending s' := ending_set k _ _ hk hc h1 ha
  have hmem : (w, pc') ∈ s'.closers := by rw [hc]; exact List.mem_of_getElem? (set_self hk)
  refine ⟨?_, ?_, ?_, ?_⟩
  · intro h
    rcases hg h with hg | hg
    · exact ⟨h3 (hl.gone hg).1, h2 (hl.gone hg).2⟩
    · exact ⟨hg.1, hg.2.1⟩
  · intro h
    rcases hg h with hg | hg
    · rcases hl.told hg with h | ⟨u, hu, hu'⟩
      · exact .inl (ht _ h)
      · obtain ⟨i, hi⟩ := List.getElem?_of_mem hu
        by_cases hik : i = k
        · subst hik; rw [hk] at hi; cases hi
          exact .inl (ht' hu')
        · exact .inr ⟨u, by rw [hc]; exact List.mem_of_getElem? (set_other hi hik), hu'⟩
    · exact .inr ⟨_, hmem, hg.2.2⟩
  · intro h
    rcases hr h with h | h
    · exact he (hl.reg h)
    · exact h
  · intro t hm
    rw [hc] at hm
    rcases mem_of_set hm with hm | rfl
    · exact done_mono h1 h2 h3 h4 he t (hl.each t hm)
    · exact hd he

theorem late_advance {s : St} (hl : Late s) (k : Nat) : Late (advance s k) := by
  unfold advance
  cases hk : s.closers[k]? with
  | none => exact hl
  | some t =>
    obtain ⟨w, pc⟩ := t
    have hd := hl.each _ (List.mem_of_getElem? hk)
    have hmem : ∀ x, x ∈ s.closers.set k x := fun x => List.mem_of_getElem? (set_self hk)
    have act : ∀ {pc' : KPC} (s' : St), s'.closers = s.closers.set k (w, pc') → Active (w, pc') → Ending s' := by
      intro pc' s' hs ha
      exact .inr ⟨_, by rw [hs]; exact hmem _, ha⟩
    cases pc with
    | range =>
      simp only [close]
      by_cases hr : s.registered = true
      · rw [if_pos hr]
        refine late_set hl k w _ _ hk rfl ?_ ?_ ?_ ?_ ?_ ?_ ?_ ?_ ?_ ?_ <;> simp_all [Active, Done]
      · rw [if_neg hr]
        refine late_set hl k w _ _ hk rfl ?_ ?_ ?_ ?_ ?_ ?_ ?_ ?_ ?_ (fun he => he (hl.reg (by simpa using hr))) <;> simp_all [Active]
    | check =>
      simp only [close]
      by_cases hr : s.connected = true
      · rw [if_pos hr]
        refine late_set hl k w _ _ hk rfl ?_ ?_ ?_ ?_ ?_ ?_ ?_ ?_ ?_ ?_ <;> simp_all [Active, Done]
      · rw [if_neg hr]
        have hf : s.connected = false := by simpa using hr
        cases w <;> refine late_set hl k _ _ _ hk rfl ?_ ?_ ?_ ?_ ?_ ?_ ?_ ?_ ?_ ?_ <;> simp_all [Active, Done, after, Ending]
    | disconnecting =>
      refine late_set hl k w _ _ hk rfl ?_ ?_ ?_ ?_ ?_ ?_ ?_ ?_ ?_ ?_ <;> simp_all [Active, Done, close]
    | leave =>
      refine late_set hl k w _ _ hk rfl ?_ ?_ ?_ ?_ ?_ ?_ ?_ ?_ ?_ ?_ <;> simp_all [Active, Done, close]
    | remove =>
      refine late_set hl k w _ _ hk rfl ?_ ?_ ?_ ?_ ?_ ?_ ?_ ?_ ?_ ?_ <;> simp_all [Active, Done, close]
    | forbid =>
      refine late_set hl k w _ _ hk rfl ?_ ?_ ?_ ?_ ?_ ?_ ?_ ?_ ?_ ?_ <;> simp_all [Active, Done, close]
    | unregister =>
      have he : ∀ s' : St, s'.closers = s.closers.set k (w, .unflag) → Ending s' := fun s' hs => act s' hs (by simp [Active])
      simp only [close]
      by_cases hr : s.registered = true
      · rw [if_pos hr]
        refine late_set hl k w _ _ hk rfl ?_ ?_ ?_ ?_ ?_ ?_ ?_ ?_ (fun _ => .inr (he _ rfl)) ?_ <;> simp_all [Active, Done]
      · rw [if_neg hr]
        refine late_set hl k w _ _ hk rfl ?_ ?_ ?_ ?_ ?_ ?_ ?_ ?_ (fun _ => .inr (he _ rfl)) ?_ <;> simp_all [Active, Done]
    | unflag =>
      refine late_set hl k w _ _ hk rfl ?_ ?_ ?_ ?_ ?_ ?_ ?_ ?_ ?_ ?_ <;> simp_all [Active, Done, close]
    | disconnect =>
      cases w <;> refine late_set hl k _ _ _ hk rfl ?_ ?_ ?_ ?_ ?_ ?_ ?_ ?_ ?_ ?_ <;> simp_all [Active, Done, close, after, Ending]
    | clear =>
      have he : Ending { s with registered := false, closers := s.closers.set k (w, .done) } :=
        ending_set k _ _ hk rfl (fun h => h) (by simp [Active]) hd
      refine late_set hl k w _ _ hk rfl ?_ ?_ ?_ ?_ ?_ ?_ ?_ ?_ (fun _ => .inr he) (fun _ _ => ⟨he, rfl⟩) <;> simp_all [Active, close]
    | done =>
      refine late_set hl k w _ _ hk rfl ?_ ?_ ?_ ?_ ?_ ?_ ?_ ?_ ?_ (fun he hw => ⟨he (hd hw).1, (hd hw).2⟩) <;> simp_all [Active, close]

theorem late_new {s : St} (hl : Late s) (t : Bool × KPC) (ht : Done { s with closers := s.closers ++ [t] } t) :
    Late { s with closers := s.closers ++ [t] } := by
  have he : Ending s → Ending { s with closers := s.closers ++ [t] } := by
    rintro (h | ⟨u, hu, hu'⟩)
    · exact .inl h
    · exact .inr ⟨u, by simp [hu], hu'⟩
  refine ⟨hl.gone, ?_, fun h => he (hl.reg h), ?_⟩
  · intro h
    rcases hl.told h with h | ⟨u, hu, hu'⟩
    · exact .inl h
    · exact .inr ⟨u, by simp [hu], hu'⟩
  · intro u hu
    simp only [List.mem_append, List.mem_singleton] at hu
    rcases hu with hu | rfl
    · exact done_mono (s := s) (s' := { s with closers := s.closers ++ [t] }) (fun h => h) (fun h => h) (fun h => h) (fun h => h) he u (hl.each u hu)
    · exact ht

theorem late_other {s : St} (hl : Late s) (o n : Bool) (c : CPC) (l : List Out) :
    Late { s with isOpen := o, named := n, conn := c, log := s.log ++ l } := by
  refine ⟨hl.gone, ?_, hl.reg, hl.each⟩
  intro h
  rcases hl.told h with h | h
  · exact .inl (by simp [h])
  · exact .inr h

theorem early_advance {s : St} (he : Early s) (k : Nat) : Early (advance s k) ∧ (advance s k).conn = s.conn := by
  unfold advance
  cases hk : s.closers[k]? with
  | none => exact ⟨he, rfl⟩
  | some t =>
    obtain ⟨w, pc⟩ := t
    have hd := he.each _ (List.mem_of_getElem? hk)
    have hshut : s.isOpen = false := by
      cases ho : s.isOpen with
      | false => rfl
      | true => rw [he.shut ho] at hk; cases hk
    have key : ∀ (pc' : KPC), (pc' = .clear ∨ pc' = .done) → ∀ r : Bool, r = false →
        Early { s with registered := r, closers := s.closers.set k (w, pc') } := by
      rintro pc' hpc r rfl
      refine ⟨he.nsp, he.conn, he.room, rfl, he.named, he.log, ?_, ?_, ?_⟩
      · intro u hu
        rcases mem_of_set hu with hu | rfl
        · exact he.each u hu
        · exact .inr hpc
      · intro h; rw [hshut] at h; cases h
      · exact he.forbid
    rcases hd with hd | hd | hd <;> simp only at hd <;> subst hd
    · have : s.registered = false := he.reg
      have e : close s w .range = (s, .clear) := by simp [close, this]
      simp only [e]
      exact ⟨key _ (.inl rfl) _ he.reg, trivial⟩
    · exact ⟨key _ (.inr rfl) _ rfl, rfl⟩
    · exact ⟨key _ (.inr rfl) _ he.reg, rfl⟩

theorem early_step {s : St} (he : Early s) (hc : s.conn = .idle ∨ s.conn = .test ∨ s.conn = .refused) (e : Ev) : Inv (step s e) := by
  have conv : ∀ {s' : St}, Early s' → s'.conn = .idle ∨ s'.conn = .test ∨ s'.conn = .refused → Inv s' := by
    rintro s' h (h' | h' | h') <;> simp only [Inv, h'] <;> exact h
  cases e with
  | pass =>
    simp only [step]
    split
    · exact conv ⟨he.nsp, he.conn, he.room, he.reg, he.named, he.log, he.each, he.shut, by simp⟩ (.inr (.inl rfl))
    · exact conv he hc
  | conn =>
    simp only [step]
    rcases hc with h' | h' | h'
    · simp only [connect, h']; exact conv he (.inl h')
    · simp only [connect, h']
      by_cases ho : s.isOpen = true
      · rw [if_pos ho]
        exact ⟨ho, he.shut ho, by simp, by simp [he.log]⟩
      · rw [if_neg ho]
        exact conv ⟨rfl, he.conn, rfl, he.reg, he.named, he.log, he.each, he.shut, fun _ => rfl⟩ (.inr (.inr rfl))
    · simp only [connect, h']; exact conv he (.inr (.inr h'))
  | hangup => exact conv ⟨he.nsp, he.conn, he.room, he.reg, he.named, he.log, he.each, by simp [step], he.forbid⟩ hc
  | onclose =>
    simp only [step]
    by_cases ho : s.isOpen = true
    · rw [if_pos ho]; exact conv he hc
    · rw [if_neg ho]
      refine conv ⟨he.nsp, he.conn, he.room, he.reg, he.named, he.log, ?_, fun h => absurd h ho, he.forbid⟩ hc
      intro t ht
      simp only [List.mem_append, List.mem_singleton] at ht
      rcases ht with ht | rfl
      · exact he.each t ht
      · exact .inl rfl
  | leave =>
    have : ¬ (s.connected = true ∨ s.named = true) := by simp [he.conn, he.named]
    simp only [step]; rw [if_neg this]; exact conv he hc
  | adv k =>
    obtain ⟨h1, h2⟩ := early_advance he k
    exact conv h1 (by simpa only [step, h2] using hc)

theorem mid_step {s : St} (hm : Mid s) (hc : s.conn = .store ∨ s.conn = .flag ∨ s.conn = .join ∨ s.conn = .write ∨ s.conn = .register)
    (e : Ev) (hne : ¬ (e = .hangup ∨ e = .leave)) : Inv (step s e) := by
  have stay : ∀ {s' : St}, Mid s' → s'.conn = .store ∨ s'.conn = .flag ∨ s'.conn = .join ∨ s'.conn = .write ∨ s'.conn = .register → Inv s' := by
    rintro s' h (h' | h' | h' | h' | h') <;> simp only [Inv, h'] <;> exact h
  cases e with
  | pass =>
    simp only [step]
    rw [if_neg (by rcases hc with h | h | h | h | h <;> simp [h])]
    exact stay hm hc
  | conn =>
    simp only [step]
    rcases hc with h' | h' | h' | h' | h' <;> simp only [connect, h']
    · exact ⟨hm.isOpen, hm.closers, by simp, hm.log⟩
    · exact ⟨hm.isOpen, hm.closers, by simp, hm.log⟩
    · exact ⟨hm.isOpen, hm.closers, fun _ => hm.conn (by simp [h']), hm.log⟩
    · refine ⟨hm.isOpen, hm.closers, fun _ => hm.conn (by simp [h']), ?_⟩
      simp only [hm.isOpen, if_true]
      simp [hm.log]
    · have h1 := hm.conn (by simp [h'])
      refine ⟨?_, ?_, ?_, ?_⟩
      · intro h; rw [h1] at h; cases h
      · intro h; rw [h1] at h; cases h
      · intro h; cases h
      · intro t ht; simp only [hm.closers] at ht; cases ht
  | hangup => exact absurd (.inl rfl) hne
  | onclose => simp only [step]; rw [if_pos hm.isOpen]; exact stay hm hc
  | leave => exact absurd (.inr rfl) hne
  | adv k =>
    have : advance s k = s := by simp [advance, hm.closers]
    simp only [step, this]; exact stay hm hc

theorem advance_conn (s : St) (k : Nat) : (advance s k).conn = s.conn := by
  unfold advance
  split
  · rename_i w pc _
    cases pc <;> simp only [close] <;> try rfl
    split <;> rfl
  · rfl

theorem late_step {s : St} (hl : Late s) (hc : s.conn = .name ∨ s.conn = .announce ∨ s.conn = .done) (e : Ev) : Inv (step s e) := by
  have stay : ∀ {s' : St}, Late s' → s'.conn = .name ∨ s'.conn = .announce ∨ s'.conn = .done → Inv s' := by
    rintro s' h (h' | h' | h') <;> simp only [Inv, h'] <;> exact h
  cases e with
  | pass =>
    simp only [step]
    rw [if_neg (by rcases hc with h | h | h <;> simp [h])]
    exact stay hl hc
  | conn =>
    simp only [step]
    rcases hc with h' | h' | h' <;> simp only [connect, h']
    · exact stay (by simpa using late_other hl s.isOpen true .announce []) (.inr (.inl rfl))
    · exact stay (late_other hl s.isOpen s.named .done _) (.inr (.inr rfl))
    · exact stay hl (.inr (.inr h'))
  | hangup => exact stay (by simpa [step] using late_other hl false s.named s.conn []) hc
  | onclose =>
    simp only [step]
    split
    · exact stay hl hc
    · exact stay (late_new hl _ trivial) hc
  | leave =>
    simp only [step]
    split
    · exact stay (late_new hl _ trivial) hc
    · exact stay hl hc
  | adv k => exact stay (late_advance hl k) (by simpa only [step, advance_conn] using hc)

theorem inv_run (h : List Ev) (hm : NotMeanwhile h) : Inv (run h) := by
  induction h using snocRec with
  | nil => exact ⟨rfl, rfl, rfl, rfl, rfl, rfl, by simp [run], fun _ => rfl, by simp [run]⟩
  | append_singleton h e ih =>
    have ih := ih fun p e' t hh he => hm p e' (t ++ [e]) (by simp [hh]) he
    have hm := hm h e [] rfl
    rw [run_snoc]
    generalize run h = s at ih hm
    cases hc : s.conn <;> simp only [hc, Inv] at ih hm
    case idle => exact early_step ih (.inl hc) e
    case test => exact early_step ih (.inr (.inl hc)) e
    case refused => exact early_step ih (.inr (.inr hc)) e
    case name => exact late_step ih (.inl hc) e
    case announce => exact late_step ih (.inr (.inl hc)) e
    case done => exact late_step ih (.inr (.inr hc)) e
    all_goals exact mid_step ih (by simp [hc]) e (fun h => hm h (by simp))

/-- Once the handlers of `connection` have been called, and if nobody closes before, the log begins so. -/
theorem order_run (h : List Ev) (hm : OnlyAfter h) :
    ((run h).conn ≠ .done ∧ (run h).closers = [] ∧ (run h).isOpen = true ∧ Out.connection ∉ (run h).log ∧ Out.disconnect ∉ (run h).log) ∨
    ((run h).conn = .done ∧ ∃ a b, (run h).log = a ++ Out.connection :: b ∧ Out.disconnect ∉ a ∧ Out.connection ∉ b) := by
  induction h using snocRec with
  | nil => left; simp [run]
  | append_singleton h e ih =>
    have ih := ih fun p e' t hh he => hm p e' (t ++ [e]) (by simp [hh]) he
    have hm := hm h e [] rfl
    rw [run_snoc]
    generalize run h = s at ih hm
    rcases ih with ⟨h1, h2, h3, h4, h5⟩ | ⟨h1, a, b, h2, h3, h4⟩
    · cases e with
      | pass =>
        left; simp only [step]; split
        · exact ⟨by simp, h2, h3, h4, h5⟩
        · exact ⟨h1, h2, h3, h4, h5⟩
      | conn =>
        cases hc : s.conn <;> simp only [step, connect, hc, h3, if_true]
        case announce => right; exact ⟨trivial, s.log, [], rfl, h5, by simp⟩
        case done => exact absurd hc h1
        all_goals left; simp_all
      | hangup => exact absurd (hm (.inl rfl)) h1
      | onclose => left; simp only [step]; rw [if_pos h3]; exact ⟨h1, h2, h3, h4, h5⟩
      | leave => exact absurd (hm (.inr rfl)) h1
      | adv k =>
        have : advance s k = s := by simp [advance, h2]
        left; simp only [step, this]; exact ⟨h1, h2, h3, h4, h5⟩
    · right
      cases e with
      | pass => simp only [step]; rw [if_neg (by simp [h1])]; exact ⟨h1, a, b, h2, h3, h4⟩
      | conn => simp only [step, connect, h1]; exact ⟨trivial, a, b, h2, h3, h4⟩
      | hangup => exact ⟨h1, a, b, h2, h3, h4⟩
      | onclose => simp only [step]; split <;> exact ⟨h1, a, b, h2, h3, h4⟩
      | leave => simp only [step]; split <;> exact ⟨h1, a, b, h2, h3, h4⟩
      | adv k =>
        refine ⟨by simpa only [step, advance_conn] using h1, a, ?_⟩
        simp only [step, advance]
        split
        · rename_i w pc _
          cases pc <;> simp only [close]
          case disconnecting => exact ⟨b ++ [.disconnecting], by simp [h2], h3, by simp [h4]⟩
          case disconnect => exact ⟨b ++ [.disconnect], by simp [h2], h3, by simp [h4]⟩
          case unregister => split <;> exact ⟨b, h2, h3, h4⟩
          all_goals exact ⟨b, h2, h3, h4⟩
        · exact ⟨b, h2, h3, h4⟩

/-- The state while a socket is being connected and nothing closes. -/
def stage : CPC → St
  | .idle => {}
  | .test => { conn := .test }
  | .store => { conn := .store }
  | .flag => { conn := .flag, inNsp := true }
  | .join => { conn := .join, inNsp := true, connected := true }
  | .write => { conn := .write, inNsp := true, connected := true, inRoom := true }
  | .register => { conn := .register, inNsp := true, connected := true, inRoom := true, log := [.connectPacket] }
  | .name => { conn := .name, inNsp := true, connected := true, inRoom := true, registered := true, log := [.connectPacket] }
  | .announce => { conn := .announce, inNsp := true, connected := true, inRoom := true, registered := true, named := true, log := [.connectPacket] }
  | .done => { conn := .done, inNsp := true, connected := true, inRoom := true, registered := true, named := true,
               log := [.connectPacket, .connection] }
  | .refused => { conn := .refused }

theorem stage_step (c : CPC) (hc : c ≠ .refused) (e : Ev) (hne : ¬ (e = .hangup ∨ e = .leave)) :
    ∃ c', c' ≠ .refused ∧ step (stage c) e = stage c' := by
  cases e with
  | hangup => simp at hne
  | leave => simp at hne
  | adv k => exact ⟨c, hc, by cases c <;> simp [step, advance, stage]⟩
  | pass => cases c <;> first | exact ⟨.test, by decide, rfl⟩ | exact ⟨_, hc, rfl⟩
  | onclose => exact ⟨c, hc, by cases c <;> rfl⟩
  | conn =>
    cases c
    · exact ⟨.idle, by decide, rfl⟩
    · exact ⟨.store, by decide, rfl⟩
    · exact ⟨.flag, by decide, rfl⟩
    · exact ⟨.join, by decide, rfl⟩
    · exact ⟨.write, by decide, rfl⟩
    · exact ⟨.register, by decide, rfl⟩
    · exact ⟨.name, by decide, rfl⟩
    · exact ⟨.announce, by decide, rfl⟩
    · exact ⟨.done, by decide, rfl⟩
    · exact ⟨.done, by decide, rfl⟩
    · exact absurd rfl hc

theorem stage_conn (c : CPC) : (stage c).conn = c := by cases c <;> rfl

theorem stage_run (h : List Ev) (hq : ∀ e ∈ h, ¬ (e = .hangup ∨ e = .leave)) : ∃ c, c ≠ .refused ∧ run h = stage c := by
  induction h using snocRec with
  | nil => exact ⟨.idle, by decide, rfl⟩
  | append_singleton h e ih =>
    obtain ⟨c, h1, h2⟩ := ih fun x hx => hq x (by simp [hx])
    rw [run_snoc, h2]
    exact stage_step c h1 e (hq e (by simp))

/-- Once the socket was announced: what the calls have undone. -/
structure Undone (s : St) : Prop where
  conn : s.conn = .done
  reg : s.registered = false → s.named = false ∧ s.canJoin = false
  gone : s.connected = false → s.registered = false
  each : ∀ t ∈ s.closers, (t.2 = .unregister → s.canJoin = false) ∧
    (t.2 = .unflag ∨ t.2 = .disconnect ∨ t.2 = .clear ∨ t.2 = .done → s.registered = false)

theorem undone_advance {s : St} (hu : Undone s) (k : Nat) : Undone (advance s k) := by
  unfold advance
  cases hk : s.closers[k]? with
  | none => exact hu
  | some t =>
    obtain ⟨w, pc⟩ := t
    have hd := hu.each _ (List.mem_of_getElem? hk)
    have key : ∀ (s' : St) (pc' : KPC), s'.closers = s.closers.set k (w, pc') → s'.conn = s.conn →
        (s.canJoin = false → s'.canJoin = false) → (s.registered = false → s'.registered = false) →
        (s'.registered = false → s'.named = false ∧ s'.canJoin = false) → (s'.connected = false → s'.registered = false) →
        (pc' = .unregister → s'.canJoin = false) →
        (pc' = .unflag ∨ pc' = .disconnect ∨ pc' = .clear ∨ pc' = .done → s'.registered = false) → Undone s' := by
      intro s' pc' h1 h2 h3 h4 h5 h6 h7 h8
      refine ⟨by rw [h2]; exact hu.conn, h5, h6, ?_⟩
      intro t ht
      rw [h1] at ht
      rcases mem_of_set ht with ht | rfl
      · exact ⟨fun h => h3 ((hu.each t ht).1 h), fun h => h4 ((hu.each t ht).2 h)⟩
      · exact ⟨h7, h8⟩
    have h1 := hu.reg
    have h2 := hu.gone
    cases pc <;> simp only [close] at hd ⊢
    case range => 
      by_cases hr : s.registered = true
      · rw [if_pos hr]; refine key _ _ rfl rfl ?_ ?_ ?_ ?_ ?_ ?_ <;> simp_all
      · rw [if_neg hr]; refine key _ _ rfl rfl ?_ ?_ ?_ ?_ ?_ ?_ <;> simp_all
    case check =>
      by_cases hr : s.connected = true
      · rw [if_pos hr]; refine key _ _ rfl rfl ?_ ?_ ?_ ?_ ?_ ?_ <;> simp_all
      · rw [if_neg hr]; cases w <;> refine key _ _ rfl rfl ?_ ?_ ?_ ?_ ?_ ?_ <;> simp_all [after]
    case unregister =>
      by_cases hr : s.registered = true
      · rw [if_pos hr]; refine key _ _ rfl rfl ?_ ?_ ?_ ?_ ?_ ?_ <;> simp_all
      · rw [if_neg hr]; refine key _ _ rfl rfl ?_ ?_ ?_ ?_ ?_ ?_ <;> simp_all
    case disconnect => cases w <;> refine key _ _ rfl rfl ?_ ?_ ?_ ?_ ?_ ?_ <;> simp_all [after]
    all_goals refine key _ _ rfl rfl ?_ ?_ ?_ ?_ ?_ ?_ <;> simp_all

theorem undone_run (h : List Ev) (hm : OnlyAfter h) : (∃ c, c ≠ .refused ∧ run h = stage c) ∨ Undone (run h) := by
  induction h using snocRec with
  | nil => exact .inl ⟨.idle, by decide, rfl⟩
  | append_singleton h e ih =>
    have ih := ih fun p e' t hh he => hm p e' (t ++ [e]) (by simp [hh]) he
    have hm := hm h e [] rfl
    rw [run_snoc]
    have late : Undone (run h) → Undone (step (run h) e) := by
      intro hu
      generalize run h = s at hu
      cases e with
      | pass => simp only [step]; rw [if_neg (by simp [hu.conn])]; exact hu
      | conn => simp only [step, connect, hu.conn]; exact hu
      | hangup => exact ⟨hu.conn, hu.reg, hu.gone, hu.each⟩
      | onclose =>
        simp only [step]; split
        · exact hu
        · refine ⟨hu.conn, hu.reg, hu.gone, fun t ht => ?_⟩
          simp only [List.mem_append, List.mem_singleton] at ht
          rcases ht with ht | rfl
          · exact hu.each t ht
          · simp
      | leave =>
        simp only [step]; split
        · refine ⟨hu.conn, hu.reg, hu.gone, fun t ht => ?_⟩
          simp only [List.mem_append, List.mem_singleton] at ht
          rcases ht with ht | rfl
          · exact hu.each t ht
          · simp
        · exact hu
      | adv k => exact undone_advance hu k
    rcases ih with ⟨c, h1, h2⟩ | hu
    · by_cases he : e = .hangup ∨ e = .leave
      · have hd := hm he
        rw [h2, stage_conn] at hd
        subst hd
        right
        exact late (by rw [h2]; exact ⟨rfl, by simp [stage], by simp [stage], by simp [stage]⟩)
      · left; rw [h2]; exact stage_step c h1 e he
    · exact .inr (late hu)

end Verif.ConnRace
