import Verif.Model.Types

/-!
# The heartbeat timer, goroutine by goroutine (adapter/cluster-adapter-with-heartbeat.go:93-111, 147-151)

One adapter of one server.  `Publish` schedules the next heartbeat before it sends; `Close` says goodbye by `Publish` and stops the timer.
-/

namespace Verif.BeatRace
open Verif

inductive Msg where
  | message
  | heartbeat
  | goodbye
deriving DecidableEq, Repr

inductive Timer where
  | armed | fired | stopped
deriving DecidableEq, Repr

/-- Where a call of `Publish` or `Close` is: before `heartbeatTimer.Load` (:94), before `Refresh` (:95), before `SetTimeout` (:97), before
`heartbeatTimer.Store` (:97), before the message is sent (:150), before `ClearTimeout` (:109; only `Close`), after. -/
inductive Pc where
  | load
  | refresh (t : Nat)
  | create
  | store (t : Nat)
  | send
  | clear
  | done
deriving DecidableEq, Repr

structure Th where
  msg : Msg
  pc : Pc := .load
deriving DecidableEq, Repr

/-- `timers`: all timers made; `field`: the one `heartbeatTimer` points to; `log`: the messages sent. -/
structure St where
  timers : List Timer := []
  field : Option Nat := none
  ths : List Th := []
  log : List Msg := []
deriving DecidableEq, Repr

/-- `Timer.Refresh`: a timer that has fired starts again, which the heartbeats rely on; `revive`: so does one that was stopped (neither is
said in /repo). -/
def refreshed (revive : Bool) : Timer → Timer
  | .armed => .armed
  | .fired => .armed
  | .stopped => if revive then .armed else .stopped

def advance (revive : Bool) (s : St) (m : Msg) : Pc → St × Pc
  | .load => (s, match s.field with
      | some t => .refresh t
      | none => .create)
  | .refresh t => ({ s with timers := s.timers.modify t (refreshed revive) }, .send)
  | .create => ({ s with timers := s.timers ++ [.armed] }, .store s.timers.length)
  | .store t => ({ s with field := some t }, .send)
  | .send => ({ s with log := s.log ++ [m] }, if m = .goodbye then .clear else .done)
  | .clear => (match s.field with
      | some t => { s with timers := s.timers.modify t fun _ => .stopped }
      | none => s, .done)
  | .done => (s, .done)

/-- `publish`: a message is published (`Init`, a request, the answer to the first heartbeat of another server); `close`: `Close` is called;
`fire`: timer `t` goes off, its goroutine publishes a heartbeat (:97-101); `adv`: the next step of the `k`-th call. -/
inductive Ev where
  | publish
  | close
  | fire (t : Nat)
  | adv (k : Nat)
deriving DecidableEq, Repr

def step (revive : Bool) (s : St) : Ev → St
  | .publish => { s with ths := s.ths ++ [⟨.message, .load⟩] }
  | .close => { s with ths := s.ths ++ [⟨.goodbye, .load⟩] }
  | .fire t =>
    if s.timers[t]? = some .armed then { s with timers := s.timers.set t .fired, ths := s.ths ++ [⟨.heartbeat, .load⟩] } else s
  | .adv k =>
    match s.ths[k]? with
    | none => s
    | some t => { (advance revive s t.msg t.pc).1 with ths := s.ths.set k { t with pc := (advance revive s t.msg t.pc).2 } }

def run (revive : Bool) (h : List Ev) : St := h.foldl (step revive) {}

end Verif.BeatRace
