import Verif.Proof.Turns
import Verif.Spec.OfRace

/-!
# C29, C32, C41, C56, C63: goroutines that do not overlap

The models in which every operation on a shared table is a step and those in which a call is a step render the same code.  When no two
goroutines overlap they say the same, so that what is proved
about whole calls (`C29_outcome_partial`, `C32_complete_partial`, `C41_resolves_partial`, C09, C10) also holds in the other models.
-/

namespace Verif.Props
open Verif Verif.Spec

/-- **C29**, when no two goroutines of a socket overlap: the callbacks are called as by `Acks.run`, of which
`C29_outcome_partial` says how, and the same callbacks and timers are left. -/
theorem C29_in_turn (h : List Acks.Ev) (ops : List Acks.Op) (t : AcksInTurn h ops) :
    (Acks.crun h).log = (Acks.run ops).log ∧ (Acks.crun h).ids = (Acks.run ops).ids ∧
    (∀ id, (Acks.crun h).acks.get? id = (Acks.run ops).acks.get? (0, id)) ∧
    (∀ id, (Acks.run ops).timers.get? id = ((Acks.crun h).timers.get? id).map fun cb => (0, cb)) :=
  let s := Acks.inTurn_same t
  ⟨s.log, s.ids, s.acks, s.timers⟩

/-- One event is answered, one times out; the answer to the latter comes too late. -/
example : ∃ h, AcksInTurn h [.emit 0 10 true, .emit 0 20 true, .answer 0 (some 1) [.num 5], .expire 2, .answer 0 (some 2) [], .expire 1] ∧
    (Acks.crun h).log = [(10, .ok [.num 5]), (20, .timeout)] :=
  ⟨_, .expire 1 (.answer 2 [] (.expire 2 (.answer 1 [.num 5] (.emit 20 true (.emit 10 true .nil))))), by decide⟩

/-- **C32**, when no two closures of a broadcast with acknowledgement overlap: every variable is as
`Collector.run` has it, of which `C32_complete_partial` says what becomes of it. -/
theorem C32_in_turn (h : List Collector.CEv) (es : List Collector.Ev) (t : ClosuresInTurn h es) :
    (Collector.crun h).s = Collector.run false es := Collector.inTurn_same t

example : ∃ h, ClosuresInTurn h [.servers 1, .count 2, .answer [.num 1], .answer [.num 2], .fire] ∧
    (Collector.crun h).s.calls = [.ok [.num 1, .num 2]] :=
  ⟨_, .next .fire (.next (.answer [.num 2]) (.next (.answer [.num 1]) (.next (.count 2) (.next (.servers 1) .nil)))), by decide⟩

/-- **C41**, when the answers to a request are handled one after the other: the caller gets what the adapter with heartbeats gives it
(`C41_resolves_partial`), and the request is kept or dropped alike. -/
theorem C41_in_turn (missing : List Heartbeat.Uid) (here : List Val) (h : List RequestsConc.Ev) (l : List (Heartbeat.Uid × List Val))
    (t : AnswersInTurn missing here h l) (s : Heartbeat.St) (id : Nat) (kind : Heartbeat.Kind)
    (hs : s.custom.get? id = some ⟨kind, missing, here⟩) :
    requestCalls id (answersInOrder s id l).calls = requestCalls id s.calls ++ (RequestsConc.run missing here h).calls.map .ok ∧
    ((answersInOrder s id l).custom.get? id).isSome = (RequestsConc.run missing here h).stored := by
  have i := RequestsConc.inTurn_same t s id kind hs
  refine ⟨i.calls, ?_⟩
  rw [i.entry]
  cases (RequestsConc.run missing here h).stored <;> rfl

/-- Two servers are asked; the second answers twice. -/
example : ∃ h, AnswersInTurn ["a", "b"] [.num 0] h [("b", [.num 2]), ("a", [.num 1]), ("b", [.num 2])] ∧
    (RequestsConc.run ["a", "b"] [.num 0] h).calls = [[.num 0, .num 2, .num 1]] ∧
    (Heartbeat.request { nodes := [("a", 0), ("b", 0)] } 7 .fetch [.num 0]).custom.get? 7 = some ⟨.fetch, ["a", "b"], [.num 0]⟩ :=
  ⟨_, .next "b" [.num 2] (.next "a" [.num 1] (.next "b" [.num 2] .nil)), by decide, by decide⟩

/-- **C56**, when nothing else happens during a recovery: it sends the packets that `RestoreSession` returns when it is one step (C09,
C10), and the client gets a new socket exactly when that finds no session. -/
theorem C56_in_turn (pkt : Nat → Session.Stored) (hi : ∀ i j, (pkt i).id = (pkt j).id → i = j) (mine : Nat → Bool) (o : Nat) (old : List Nat)
    (c : Session.Cfg) (now : Int) (pid : Session.Pid) (st : Session.St) (x : Session.Sess) (t : Int)
    (hx : st.sessions.get? pid = some (x, t)) (ht : ¬ t + c.max < now)
    (hp : st.packets = old.map pkt) (hm : ∀ i ∈ old, Session.shouldInclude x.rooms (pkt i).opts = some (mine i))
    (n : Nat) (hn : old.length + 7 ≤ n) :
    ((RecoverRace.run mine o old (List.replicate n .recover)).rpc = .done ∧
      Session.restore c now pid (pkt o).id st =
        (st, .ok x ((RecoverRace.run mine o old (List.replicate n .recover)).replayed.map fun i => (pkt i).data))) ∨
    ((RecoverRace.run mine o old (List.replicate n .recover)).rpc = .fresh ∧ Session.restore c now pid (pkt o).id st = (st, .none)) :=
  RecoverRace.alone_same pkt hi mine o old c now pid st x t hx ht hp hm n hn

/-- Packet `i` is kept under the `i`-th name; the odd ones are for room "r". -/
def Demo.numbered (i : Nat) : Session.Stored :=
  ⟨String.ofList (List.replicate i 'i'), 0, [.num i], some { rooms := some [if i % 2 = 1 then "r" else "q"], except := some [] }⟩

example : (∀ i j, (Demo.numbered i).id = (Demo.numbered j).id → i = j) ∧
    (∀ i ∈ [0, 1, 2, 3], Session.shouldInclude ["r"] (Demo.numbered i).opts = some (decide (i % 2 = 1))) ∧
    (RecoverRace.run (fun i => decide (i % 2 = 1)) 0 [0, 1, 2, 3] (List.replicate 11 .recover)).rpc = .done ∧
    (RecoverRace.run (fun i => decide (i % 2 = 1)) 0 [0, 1, 2, 3] (List.replicate 11 .recover)).replayed = [1, 3] ∧
    (RecoverRace.run (fun i => decide (i % 2 = 1)) 9 [0, 1, 2, 3] (List.replicate 11 .recover)).rpc = .fresh := by
  refine ⟨fun i j h => ?_, by decide, by decide, by decide, by decide⟩
  have := congrArg (fun s => s.toList.length) h
  simpa [Demo.numbered] using this

/-- **C63**, when no two goroutines that need a namespace overlap: those that ask for the same name get the same namespace, and it is
the one registered. -/
theorem C63_in_turn (h : List OfRace.Ev) (l : List String) (t : OfsInTurn h l) (i : Nat) (name : String) (hi : l[i]? = some name) :
    ∃ n, gotSpace (OfRace.run h) i = some n ∧ (OfRace.run h).nsps.get? name = some n := by
  obtain ⟨hs, hl⟩ := OfRace.inTurn_settled t
  rw [← hl, List.getElem?_map] at hi
  cases hg : (OfRace.run h).ths[i]? with
  | none => rw [hg] at hi; cases hi
  | some th =>
    rw [hg] at hi; cases hi
    obtain ⟨n, h1, h2⟩ := hs th (List.mem_of_getElem? hg)
    refine ⟨n, ?_, h2⟩
    obtain ⟨nm, jn, pc⟩ := th
    simp only at h1; subst h1
    simp [gotSpace, hg]

example : ∃ h, OfsInTurn h ["/a", "/b", "/a"] ∧ gotSpace (OfRace.run h) 0 = some 0 ∧ gotSpace (OfRace.run h) 2 = some 0 ∧
    gotSpace (OfRace.run h) 1 = some 1 :=
  ⟨_, .next "/a" true (.next "/b" false (.next "/a" false .nil)), by decide, by decide, by decide⟩

end Verif.Props
