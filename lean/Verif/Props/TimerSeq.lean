import Verif.Spec.TimerSeq
import Verif.Proof.WorldClose

/-! # C97: undisturbed, the connect timeout does what it does in the model of the whole server -/

namespace Verif.Props
open Verif Verif.Spec

/-- Two ids are enough. -/
def Demo.connTimer : World.Cfg := { newSid := fun n => if n = 0 then "a" else "b", newPid := fun _ => "p", connId := fun _ => "c" }

/-- **C97**: a client that was just accepted and set up. -/
theorem C97_setup_in_turn (cfg : World.Cfg) (h : List World.Ev) :
    SameTimer (World.run cfg (h ++ [.accept false])) (World.run cfg h).nClient (TimerRace.run [.setup, .setup]) := by
  have e : ((World.run cfg (h ++ [.accept false])).clients (World.run cfg h).nClient) = { proto3 := false, conn := .opened, timer := true, listening := true } := by
    simp [World.run, World.step, World.accept]
  constructor <;> (try simp only [e]) <;> decide

/-- **C97**: the goroutine that connects a socket, if nothing else happens meanwhile, stops the timer and notes the socket as `Model/World` does
at once. -/
theorem C97_connect_in_turn (cfg : World.Cfg) (h : List World.Ev) (ref k : Nat) (s : TimerRace.St)
    (ht : (World.run cfg h).tasks[k]? = some (.result ref none))
    (ho : ((World.run cfg h).clients ((World.run cfg h).socks ref).client).conn = .opened)
    (hs : SameTimer (World.run cfg h) ((World.run cfg h).socks ref).client s) :
    SameTimer (World.run cfg (h ++ [.task k])) ((World.run cfg h).socks ref).client
      ((.come :: List.replicate 6 (.adv s.ths.length)).foldl TimerRace.step s) := by
  have he : World.run cfg (h ++ [.task k]) = World.doConnect { World.run cfg h with tasks := (World.run cfg h).tasks.eraseIdx k } ref := by
    rw [show World.run cfg (h ++ [.task k]) = World.step cfg (World.run cfg h) (.task k) from by simp [World.run]]
    simp only [World.step, ht, World.runTask, World.result]
    rw [if_neg (by simpa using ho)]
  generalize hw : ({ World.run cfg h with tasks := (World.run cfg h).tasks.eraseIdx k } : World.W) = w at he
  have hk : w.clients = (World.run cfg h).clients := by rw [← hw]
  have hr : w.socks = (World.run cfg h).socks := by rw [← hw]
  rw [he]
  rw [← hr] at hs ho ⊢
  rw [← hk] at ho
  obtain ⟨_, _, h3, _⟩ := World.doConnect_fields w ref
  have e : (World.doConnect w ref).clients (w.socks ref).client = { w.clients (w.socks ref).client with
        sockets := (w.clients (w.socks ref).client).sockets.insert (w.socks ref).sid ref
        nsps := (w.clients (w.socks ref).client).nsps.insert (w.nss (w.socks ref).ns).name ref
        timer := false } := by rw [h3]; simp
  have hs' : SameTimer w (w.socks ref).client s :=
    ⟨by rw [hk]; exact hs.isOpen, by rw [hk]; exact hs.armed, by rw [hk]; exact hs.nsps, hs.ptr, hs.setup, hs.rest⟩
  have hop : s.isOpen = true := hs'.isOpen.2 ho
  have hne : LSet.add s.nsps s.ths.length ≠ [] := by
    intro h0
    have : s.ths.length ∈ LSet.add s.nsps s.ths.length := by simp
    rw [h0] at this; cases this
  obtain ⟨p1, p2, p3, p4, p5, p6⟩ := hs'
  obtain ⟨o, tm, ptr, st, ths, live, told, nsps, tmo, cut⟩ := s
  simp only at hop hne p1 p2 p3 p4 p5 p6
  subst hop
  have hins : ¬ (w.clients (w.socks ref).client).nsps.insert (w.nss (w.socks ref).ns).name ref = [] := by simp [FMap.insert]
  by_cases hptr : ptr = true
  · subst hptr
    have es : (TimerRace.Ev.come :: List.replicate 6 (.adv ths.length)).foldl TimerRace.step
        ⟨true, tm, true, st, ths, live, told, nsps, tmo, cut⟩ =
        ⟨true, if tm = .armed then .cleared else tm, false, st, ths ++ [.done], LSet.add live ths.length, LSet.add told ths.length,
          LSet.add nsps ths.length, tmo, cut⟩ := by
      simp [List.replicate, TimerRace.step, TimerRace.advance]
    rw [es]
    refine ⟨by rw [e]; simpa using ho, fun _ => ?_, fun _ => ?_, fun _ h' => ?_, p5, p6⟩
    · rw [e]; dsimp only; split <;> simp_all
    · rw [e]; exact ⟨fun h' => absurd h' hne, fun h' => absurd h' hins⟩
    · dsimp only at h'; split at h' <;> simp_all
  · have hptr' : ptr = false := by simpa using hptr
    subst hptr'
    have hna : tm ≠ .armed := fun h' => by have := p4 rfl h'; cases this
    have es : (TimerRace.Ev.come :: List.replicate 6 (.adv ths.length)).foldl TimerRace.step
        ⟨true, tm, false, st, ths, live, told, nsps, tmo, cut⟩ =
        ⟨true, tm, false, st, ths ++ [.done], LSet.add live ths.length, LSet.add told ths.length,
          LSet.add nsps ths.length, tmo, cut⟩ := by
      simp [List.replicate, TimerRace.step, TimerRace.advance]
    rw [es]
    refine ⟨by rw [e]; simpa using ho, fun _ => ?_, fun _ => ?_, fun _ h' => absurd h' hna, p5, p6⟩
    · rw [e]; simp [hna]
    · rw [e]; exact ⟨fun h' => absurd h' hne, fun h' => absurd h' hins⟩

/-- **C97**: the function of the timer, if nothing else happens meanwhile, closes the connection or leaves it as `Model/World` does at once. -/
theorem C97_fires_in_turn (cfg : World.Cfg) (h : List World.Ev) (c : Nat) (s : TimerRace.St) (hc : c < (World.run cfg h).nClient)
    (hs : SameTimer (World.run cfg h) c s) :
    SameTimer (World.run cfg (h ++ [.timer c])) c ((.fire :: List.replicate 3 .tick).foldl TimerRace.step s) := by
  rw [show World.run cfg (h ++ [.timer c]) = World.step cfg (World.run cfg h) (.timer c) from by simp [World.run]]
  generalize World.run cfg h = w at *
  simp only [World.step, if_pos hc]
  obtain ⟨p1, p2, p3, p4, p5, p6⟩ := hs
  obtain ⟨o, tm, ptr, st, ths, live, told, nsps, tmo, cut⟩ := s
  simp only at p1 p2 p3 p4 p5 p6
  cases o with
  | false =>
    have hno : ¬ (w.clients c).conn = .opened := fun h' => by have := p1.2 h'; cases this
    have hn : ¬ ((World.timerFires cfg w c).clients c).conn = .opened := by
      unfold World.timerFires
      split
      · dsimp only
        split
        · exact World.clientClose_conn cfg _ c
        · simpa [World.setClient] using hno
      · exact hno
    obtain ⟨s', hs'⟩ : ∃ s', (TimerRace.Ev.fire :: List.replicate 3 TimerRace.Ev.tick).foldl TimerRace.step
        ⟨false, tm, ptr, st, ths, live, told, nsps, tmo, cut⟩ = s' := ⟨_, rfl⟩
    have : s'.isOpen = false ∧ s'.setup = st ∧ (s'.tmo = .idle ∨ s'.tmo = .done) := by
      rw [← hs']
      by_cases ha : tm = .armed
      · subst ha
        by_cases h0 : nsps = [] <;> simp [List.replicate, TimerRace.step, TimerRace.tmoStep, h0]
      · rcases p6 with h' | h' <;> simp [List.replicate, TimerRace.step, TimerRace.tmoStep, ha, h']
    rw [hs']
    obtain ⟨q1, q2, q3⟩ := this
    exact ⟨by simp [q1, hn], by simp [q1], by simp [q1], by simp [q1], q2.trans p5, q3⟩
  | true =>
    have hop := p1.1 rfl
    by_cases ha : tm = .armed
    · have htm : (w.clients c).timer = true := (p2 rfl).1 ha
      subst ha
      by_cases h0 : nsps = []
      · have h0' := (p3 rfl).1 h0
        have es : (TimerRace.Ev.fire :: List.replicate 3 TimerRace.Ev.tick).foldl TimerRace.step
            ⟨true, .armed, ptr, st, ths, live, told, nsps, tmo, cut⟩ = ⟨false, .fired, ptr, st, ths, live, told, nsps, .done, some live⟩ := by
          simp [List.replicate, TimerRace.step, TimerRace.tmoStep, h0]
        rw [es]
        have hw : World.timerFires cfg w c = World.clientClose cfg (World.setClient w c fun k => { k with timer := false }) c := by
          simp [World.timerFires, htm, World.setClient, h0']
        rw [hw]
        have hn := World.clientClose_conn cfg (World.setClient w c fun k => { k with timer := false }) c
        exact ⟨by simp [hn], by simp, by simp, by simp, p5, .inr rfl⟩
      · have h0' : ¬ (w.clients c).nsps = [] := fun h' => h0 ((p3 rfl).2 h')
        have es : (TimerRace.Ev.fire :: List.replicate 3 TimerRace.Ev.tick).foldl TimerRace.step
            ⟨true, .armed, ptr, st, ths, live, told, nsps, tmo, cut⟩ = ⟨true, .fired, ptr, st, ths, live, told, nsps, .done, cut⟩ := by
          simp [List.replicate, TimerRace.step, TimerRace.tmoStep, h0]
        rw [es]
        have hw : World.timerFires cfg w c = World.setClient w c fun k => { k with timer := false } := by
          simp [World.timerFires, htm, World.setClient, h0']
        rw [hw]
        refine ⟨by simpa [World.setClient] using hop, fun _ => by simp [World.setClient], fun _ => ?_, fun _ h' => by simp at h', p5, .inr rfl⟩
        simpa [World.setClient] using p3 rfl
    · have htm : ¬ (w.clients c).timer = true := fun h' => ha ((p2 rfl).2 h')
      have hw : World.timerFires cfg w c = w := by simp [World.timerFires, htm]
      have es : (TimerRace.Ev.fire :: List.replicate 3 TimerRace.Ev.tick).foldl TimerRace.step
          ⟨true, tm, ptr, st, ths, live, told, nsps, tmo, cut⟩ = ⟨true, tm, ptr, st, ths, live, told, nsps, tmo, cut⟩ := by
        rcases p6 with h' | h' <;> simp [List.replicate, TimerRace.step, TimerRace.tmoStep, ha, h']
      rw [hw, es]
      exact ⟨p1, p2, p3, p4, p5, p6⟩

/-- Non-vacuity: a client is accepted, asks for "/" and is about to be connected; another is accepted and never asks. -/
example : (World.run Demo.connTimer [.accept false, .recv 0 .connect "/" none]).tasks[0]? = some (.result 0 none) ∧
    SameTimer (World.run Demo.connTimer [.accept false, .recv 0 .connect "/" none]) 0 (TimerRace.run [.setup, .setup]) ∧
    ((World.run Demo.connTimer [.accept false, .recv 0 .connect "/" none, .task 0, .timer 0]).clients 0).conn = .opened ∧
    (TimerRace.run ([.setup, .setup] ++ .come :: List.replicate 6 (.adv 0) ++ .fire :: List.replicate 3 .tick)).isOpen = true ∧
    ((World.run Demo.connTimer [.accept false, .timer 0]).clients 0).conn = .closing ∧
    (TimerRace.run ([.setup, .setup] ++ .fire :: List.replicate 3 .tick)).isOpen = false :=
  ⟨by decide, ⟨by decide, by decide, by decide, by decide, by decide, by decide⟩, by decide, by decide, by decide, by decide⟩

end Verif.Props
