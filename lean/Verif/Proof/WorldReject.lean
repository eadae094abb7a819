import Verif.Proof.WorldFirst
import Verif.Proof.WorldClose

/-! # The server: rejected sockets, finished middleware chains -/

namespace Verif.World
open Verif Verif.Adapter Verif.Spec

/-- The socket was rejected, or its connection closed before it was let in. -/
def Refused (r : Nat) (w : W) : Prop := Over r w ∧ Obs.connection r ∉ w.log

theorem grow_refused (cfg : Cfg) (r : Nat) : Grow cfg (fun _ => True) (Refused r) where
  inert w t ch now h := ⟨(grow_over cfg r).inert w t ch now h.1, h.2⟩
  use w n h := ⟨(grow_over cfg r).use w n h.1, h.2⟩
  data w ref v h := ⟨(grow_over cfg r).data w ref v h.1, h.2⟩
  newNs w s a b c d e h := ⟨(grow_over cfg r).newNs w s a b c d e h.1, h.2⟩
  newClient w p a h := ⟨(grow_over cfg r).newClient w p a h.1, h.2⟩
  create w n c auth a b d h := ⟨(grow_over cfg r).create w n c auth a b d h.1, fun hm => h.2 ((same_create cfg w n c auth).2.2 r hm)⟩
  doConnect w ref a b ho hj d e h := by
    refine ⟨(grow_over cfg r).doConnect w ref a b ho hj d e h.1, fun hm => ?_⟩
    obtain ⟨-, -, -, -, -, -, -, -, -, -, d11⟩ := doConnect_fields w ref
    rw [d11 (by assumption)] at hm
    simp only [List.mem_append, List.mem_cons, List.not_mem_nil, or_false, reduceCtorEq, false_or] at hm
    rcases hm with hm | hm
    · exact h.2 hm
    · cases hm
      have := h.1.2.2
      simp_all
  cleanup w ref a b ho hj d h := by
    refine ⟨(grow_over cfg r).cleanup w ref a b ho hj d h.1, ?_⟩
    obtain ⟨-, -, -, -, -, -, -, -, -, d10, -⟩ := cleanup_fields cfg w ref
    rw [d10]; exact h.2
  packet w c ref x he a h := ⟨(grow_over cfg r).packet w c ref x he a h.1, fun hm => h.2 ((same_packet w c ref x).2.2 r hm)⟩
  received w ref type h := ⟨(grow_over cfg r).received w ref type h.1, by simpa [obs] using h.2⟩

theorem refused_step {r : Nat} {cfg : Cfg} {h : List Ev} {e : Ev} (hn : NextOnce h) (ho : Refused r (run cfg h)) :
    Refused r (step cfg (run cfg h) e) := by
  have hcalm {rec : Bool} {Q : String → Prop} {w w' : W} (hw : Refused r w) (c : Calm w w') (t : Traced rec Q w w') : Refused r w' :=
    ⟨hw.1.calm c, fun hm => hw.2 ((traced_connection t r).1 hm)⟩
  by_cases he : e.calm = true
  · exact hcalm ho (calm_step cfg _ e he) (traced_step cfg _ e he)
  · obtain ⟨i1, i2⟩ := inv_run cfg h
    exact (grow_refused cfg r).step i1 i2 (invT_run cfg h hn) e he trivial trivial
      (fun c hP => hcalm hP (calm_clientClose _ _ _) ((prim_traced cfg fun _ => True).clientClose _ c (fun _ _ => trivial) trivial))
      (fun v ref reason _ _ hP => hcalm hP (calm_onclose _ _ _ _) (traced_onclose cfg _ _ _)) ho

theorem refused_run {r : Nat} {cfg : Cfg} {h t : List Ev} (hn : NextOnce (h ++ t)) (ho : Refused r (run cfg h)) :
    Refused r (run cfg (h ++ t)) := by
  induction t using snocRec with
  | nil => simpa using ho
  | append_singleton t e ih =>
    rw [← List.append_assoc] at hn ⊢
    rw [run_snoc]
    exact refused_step (nextOnce_prefix hn) (ih (nextOnce_prefix hn))

/-! ## Tasks wait until they run, chains grow at the end -/

/-- What a step that is no call of `next` does to the waiting goroutines and the chains. -/
theorem tasks_step (cfg : Cfg) (w : W) (e : Ev) :
    ((∀ k i err, e ≠ .next k i err) → ∃ l, (step cfg w e).chains = w.chains ++ l) ∧
    ∀ t ∈ w.tasks, t ∈ (step cfg w e).tasks ∨ ∃ k, e = .task k ∧ w.tasks[k]? = some t := by
  have hsame {w' : W} (h1 : w'.chains = w.chains) (h2 : w'.tasks = w.tasks) :
      ((∀ k i err, e ≠ .next k i err) → ∃ l, w'.chains = w.chains ++ l) ∧
      ∀ t ∈ w.tasks, t ∈ w'.tasks ∨ ∃ k, e = .task k ∧ w.tasks[k]? = some t :=
    ⟨fun _ => ⟨[], by rw [h1]; simp⟩, fun t ht => .inl (by rw [h2]; exact ht)⟩
  have hcalm {w' : W} (c : Calm w w') := hsame (w' := w') c.chains c.tasks
  have hconn {w0 : W} (h1 : w0.chains = w.chains) (h2 : w0.tasks = w.tasks) (c : Nat) (name : String) (auth : Option (Session.Pid × String)) :
      ((∀ k i err, e ≠ .next k i err) → ∃ l, (connect cfg w0 c name auth).chains = w.chains ++ l) ∧
      ∀ t ∈ w.tasks, t ∈ (connect cfg w0 c name auth).tasks ∨ ∃ k, e = .task k ∧ w.tasks[k]? = some t := by
    rcases adds_connect cfg w0 c name auth with ⟨s1, s2, -⟩ | ⟨n, -, -, a3⟩
    · exact hsame (s1.trans h1) (s2.trans h2)
    · rcases a3 with ⟨-, -, b3, b4, -⟩ | ⟨-, b2, b3, -⟩ | ⟨-, b2, b3, -⟩
      · exact hsame (b3.trans h1) (b4.trans h2)
      · exact ⟨fun _ => ⟨[], by rw [b2, h1]; simp⟩, fun t ht => .inl (by rw [b3, h2]; simp [ht])⟩
      · exact ⟨fun _ => ⟨_, by rw [b2, h1]⟩, fun t ht => .inl (by rw [b3, h2]; exact ht)⟩
  by_cases he : e.calm = true
  · exact hcalm (calm_step cfg w e he)
  · cases e <;> simp only [Ev.calm, not_true_eq_false] at he <;> simp only [step]
    case accept p =>
      unfold accept; dsimp only; split
      · exact hconn (w0 := { w with
          clients := upd w.clients w.nClient { proto3 := p, conn := .opened, timer := true, listening := true }
          nClient := w.nClient + 1 }) rfl rfl _ _ _
      · exact hsame rfl rfl
    case recv c type name auth =>
      split
      · unfold ondecoded; split
        · split
          · exact hconn rfl rfl _ _ _
          · exact hcalm (calm_clientClose _ _ _)
        · split
          · exact ⟨fun _ => ⟨[], by simp⟩, fun t ht => .inl (by simp [ht])⟩
          · exact hcalm (calm_clientClose _ _ _)
      · exact hsame rfl rfl
    case task k =>
      have her {w' : W} (h1 : w'.chains = w.chains) (h2 : w'.tasks = w.tasks.eraseIdx k) :
          ((∀ k' i err, Ev.task k ≠ .next k' i err) → ∃ l, w'.chains = w.chains ++ l) ∧
          ∀ t ∈ w.tasks, t ∈ w'.tasks ∨ ∃ k', Ev.task k = .task k' ∧ w.tasks[k']? = some t := by
        refine ⟨fun _ => ⟨[], by rw [h1]; simp⟩, fun t ht => ?_⟩
        cases hk : w.tasks[k]? with
        | none =>
          left; rw [h2, List.eraseIdx_of_length_le (by simpa using hk)]; exact ht
        | some x =>
          have := (ClusterAck.eraseIdx_perm hk).mem_iff.2 ht
          rcases List.mem_cons.1 this with rfl | h
          · exact .inr ⟨k, rfl, hk⟩
          · exact .inl (by rw [h2]; exact h)
      split
      · rename_i t hk
        cases t with
        | result ref err =>
          obtain ⟨-, -, -, -, -, -, d7, d8, -⟩ := cleanup_fields cfg { w with tasks := w.tasks.eraseIdx k } ref
          simp only [runTask, result]; split
          · exact her d8 d7
          · split
            · rw [sockPacket_eq]; exact her d8 d7
            · obtain ⟨-, -, -, -, -, -, d7, d8, -⟩ := doConnect_fields { w with tasks := w.tasks.eraseIdx k } ref
              exact her d8 d7
        | packet ref type =>
          simp only [runTask, onpacket]; split
          · have cm := calm_onclose cfg { w with tasks := w.tasks.eraseIdx k } ref "client namespace disconnect"
            exact her cm.chains cm.tasks
          · exact her rfl rfl
      · exact hsame rfl rfl
    case next k i err =>
      refine ⟨fun h => absurd rfl (h k i err), fun t ht => .inl ?_⟩
      unfold next; split
      · exact ht
      · split
        · dsimp only; split
          · simp [ht]
          · exact ht
        · exact ht
    case «of» => split <;> exact hsame rfl rfl
    case use => split <;> exact hsame rfl rfl
    case setData => split <;> exact hsame rfl rfl
    case clock => exact hsame rfl rfl

/-- A socket for which an error was reported is refused once the goroutine has run, and never connected. -/
def Doomed (r : Nat) (w : W) : Prop := Refused r w ∨ ∃ err, Task.result r (some err) ∈ w.tasks

theorem refused_result {cfg : Cfg} {used : List (Nat × Nat)} {w : W} (hr : Refs w) (ht : InvT cfg.recovery.isSome used w) {k r : Nat} {err : Err}
    (hk : w.tasks[k]? = some (.result r (some err))) : Refused r (step cfg w (.task k)) := by
  have hm := List.mem_of_getElem? hk
  have hp : r ∈ pending w := List.mem_append_left _ (List.mem_filterMap.2 ⟨_, hm, rfl⟩)
  obtain ⟨u1, u2⟩ := ht.undecided r hp
  have hnc := ht.notConnected u1 u2
  have hlt := hr.tasks _ hm
  obtain ⟨-, d2, -, -, d5, -, -, -, -, d10, -⟩ := cleanup_fields cfg { w with tasks := w.tasks.eraseIdx k } r
  have hcl : Refused r (cleanup cfg { w with tasks := w.tasks.eraseIdx k } r) :=
    ⟨⟨by rw [d5]; exact hlt, by rw [d2, upd_same]; exact u1, by rw [d2, upd_same]⟩, by rw [d10]; exact hnc⟩
  simp only [step, hk, runTask, result]; split
  · exact hcl
  · exact ⟨hcl.1.calm (calm_sockPacket _ _ _), fun hm => hcl.2 ((same_packet _ _ _ _).2.2 r hm)⟩

theorem doomed_run {r : Nat} {cfg : Cfg} {h t : List Ev} (hn : NextOnce (h ++ t)) (ho : Doomed r (run cfg h)) :
    Doomed r (run cfg (h ++ t)) := by
  induction t using snocRec with
  | nil => simpa using ho
  | append_singleton t e ih =>
    rw [← List.append_assoc] at hn ⊢
    rw [run_snoc]
    have hn' := nextOnce_prefix hn
    rcases ih hn' with h1 | ⟨err, h1⟩
    · exact .inl (refused_step hn' h1)
    · rcases (tasks_step cfg (run cfg (h ++ t)) e).2 _ h1 with h2 | ⟨k, rfl, hk⟩
      · exact .inr ⟨err, h2⟩
      · exact .inl (refused_result (inv_run cfg _).2 (invT_run cfg _ hn') hk)

theorem Doomed.notConnected {cfg : Cfg} {used : List (Nat × Nat)} {r : Nat} {w : W} (h : Doomed r w) (ht : InvT cfg.recovery.isSome used w) :
    Obs.connection r ∉ w.log ∧ (w.socks r).connected = false := by
  rcases h with h | ⟨err, h⟩
  · exact ⟨h.2, h.1.2.1⟩
  · have hp : r ∈ pending w := List.mem_append_left _ (List.mem_filterMap.2 ⟨_, h, rfl⟩)
    obtain ⟨u1, u2⟩ := ht.undecided r hp
    exact ⟨ht.notConnected u1 u2, u1⟩

/-- A chain whose last middleware has called `next` does not move any more. -/
theorem chain_stays {cfg : Cfg} {h t : List Ev} (hn : NextOnce (h ++ t)) {k : Nat} {ch : Chain}
    (hk : (run cfg h).chains[k]? = some ch) (hu : ch.reached ∈ ch.used) : (run cfg (h ++ t)).chains[k]? = some ch := by
  induction t using snocRec with
  | nil => simpa using hk
  | append_singleton t e ih =>
    rw [← List.append_assoc] at hn ⊢
    have hn' := nextOnce_prefix hn
    have ih := ih hn'
    rw [run_snoc]
    have hlt : k < (run cfg (h ++ t)).chains.length := by
      rcases Nat.lt_or_ge k (run cfg (h ++ t)).chains.length with hl | hl
      · exact hl
      · rw [List.getElem?_eq_none hl] at ih; simp at ih
    by_cases hne : ∃ k' i err, e = .next k' i err
    · obtain ⟨k', i, err, rfl⟩ := hne
      have hi := invT_run cfg (h ++ t) hn'
      obtain ⟨-, hfresh⟩ := nextOnce_snoc hn
      simp only [step]
      by_cases hkk : k' = k
      · subst hkk
        unfold next; rw [ih]; dsimp only
        split
        · rename_i hle
          exfalso
          obtain ⟨-, c2, c3⟩ := hi.chain k' ch ih
          have hiu : i ∈ ch.used := by
            rcases Nat.lt_or_eq_of_le hle with hl | rfl
            · exact c2 i hl
            · exact hu
          exact hfresh _ rfl (c3 i hiu).2
        · exact ih
      · unfold next; split
        · exact ih
        · split
          · dsimp only; split <;> (dsimp only; rw [List.getElem?_set_ne hkk]; exact ih)
          · exact ih
    · obtain ⟨l, e1⟩ := (tasks_step cfg (run cfg (h ++ t)) e).1 fun k' i err he => hne ⟨k', i, err, he⟩
      rw [e1, List.getElem?_append_left hlt]; exact ih

end Verif.World
