import Verif.Proof.Session

/-! # C10-C13: connection state recovery -/

namespace Verif.Props
open Verif Verif.Session Verif.Spec

/-- **C10, soundness.**  Whatever happened before (`h`: any history of broadcasts, saves, restores and
clean-up runs, at any times), if a restore succeeds then
* the session returned is the one saved last under this private id,
* there is a point in the complete log of broadcasts (`fullLog`, from which nothing is ever removed)
  that carries the given offset, and the packets replayed are *all* the packets after that point that
  match the saved rooms, in order. -/
theorem C10_replay_exact (c : Cfg) (h : History) (now : Int) (pid : Pid) (offset : String)
    (x : Sess) (missed : List (List Val))
    (hr : (restore c now pid offset (run c h)).2 = .ok x missed) :
    (∃ t, LastSaved h pid x t ∧ now ≤ t + c.max) ∧
    ∃ before p after, fullLog c.yeast h = before ++ p :: after ∧ p.id = offset ∧
      missed = (after.filter (packetMatches x.rooms)).map (·.data) := by
  unfold restore at hr
  split at hr
  · simp at hr
  · rename_i y t hg
    split at hr
    · simp at hr
    · rename_i hage
      split at hr
      · simp at hr
      · rename_i ps hps
        split at hr
        · rename_i m hm
          simp only [Restored.ok.injEq] at hr
          obtain ⟨rfl, rfl⟩ := hr
          refine ⟨⟨t, run_session_sound c h pid y t hg, by omega⟩, ?_⟩
          obtain ⟨pre, p, e1, e2⟩ := afterOffset_some hps
          obtain ⟨pre0, e0⟩ := (run_log c h).1
          refine ⟨pre0 ++ pre, p, ps, ?_, e2, collect_eq _ _ _ hm⟩
          rw [← e0, e1]; simp
        · simp at hr

/-- With distinct offsets the point in the log is unique, so the replayed list is determined by the
history alone. -/
theorem C10_offset_unique (yeast : Nat → String) (hy : ∀ i j, yeast i = yeast j → i = j) (h : History)
    (b₁ b₂ : List Stored) (p₁ p₂ : Stored) (a₁ a₂ : List Stored)
    (h₁ : fullLog yeast h = b₁ ++ p₁ :: a₁) (h₂ : fullLog yeast h = b₂ ++ p₂ :: a₂)
    (he : p₁.id = p₂.id) : b₁ = b₂ ∧ p₁ = p₂ ∧ a₁ = a₂ := by
  have hn := fullLog_ids_nodup yeast hy h
  rw [h₁] at h₂
  have hn1 := hn
  rw [h₁] at hn1
  clear h₁ hn
  induction b₁ generalizing b₂ with
  | nil =>
    cases b₂ with
    | nil => simp at h₂; exact ⟨rfl, h₂⟩
    | cons q b₂ =>
      simp only [List.nil_append, List.cons_append, List.cons.injEq] at h₂
      obtain ⟨rfl, rfl⟩ := h₂
      simp only [List.nil_append, List.map_cons, List.map_append, List.nodup_cons, he] at hn1
      exact absurd (by simp) hn1.1
  | cons q b₁ ih =>
    cases b₂ with
    | nil =>
      simp only [List.nil_append, List.cons_append, List.cons.injEq] at h₂
      obtain ⟨rfl, rfl⟩ := h₂
      simp only [List.cons_append, List.map_cons, List.map_append, List.nodup_cons, ← he] at hn1
      exact absurd (by simp) hn1.1
    | cons q' b₂ =>
      simp only [List.cons_append, List.cons.injEq] at h₂
      obtain ⟨rfl, h₂⟩ := h₂
      simp only [List.cons_append, List.map_cons, List.nodup_cons] at hn1
      obtain ⟨r1, r2, r3⟩ := ih b₂ h₂ hn1.2
      exact ⟨by rw [r1], r2, r3⟩

/-- **C10, completeness.**  If the clock does not go backwards, the session was saved at most
`MaxDisconnectionDuration` ago, the packet with the offset is at most that old, and every broadcast
was made through an operator (non-nil options), then the restore succeeds. -/
theorem C10_restores (c : Cfg) (h : History) (hm : Monotone h) (now : Int)
    (hnow : ∀ e ∈ h, e.1 ≤ now) (pid : Pid) (x : Sess) (t : Int) (hs : LastSaved h pid x t)
    (hage : now ≤ t + c.max) (p : Stored) (hp : p ∈ fullLog c.yeast h) (hpage : now - c.max ≤ p.emittedAt)
    (hopts : ∀ q ∈ fullLog c.yeast h, optRooms q.opts ≠ none) :
    ∃ missed, (restore c now pid p.id (run c h)).2 = .ok x missed := by
  have hg := run_session_complete c h pid x t now hs hnow hage
  have hk := run_keeps c h hm now hnow p hp hpage
  obtain ⟨ps, hps⟩ := afterOffset_mem hk rfl
  have hsub : ∀ q ∈ ps, q ∈ fullLog c.yeast h := by
    intro q hq
    obtain ⟨pre, q', e1, _⟩ := afterOffset_some hps
    apply (run_log c h).1.subset
    rw [e1]; simp [hq]
  obtain ⟨missed, hm'⟩ := collect_some x.rooms ps (fun q hq => hopts q (hsub q hq))
  refine ⟨missed, ?_⟩
  unfold restore
  rw [hg]
  dsimp only
  rw [if_neg (by omega), hps]
  dsimp only
  rw [hm']

/-- A history used for the examples: two broadcasts, a save, a broadcast to a room of the session, one
to another room, a clean-up. -/
def demoCfg : Cfg := { max := 100, yeast := fun n => String.ofList (List.replicate (n + 1) 'y') }
def ev (l : List Val) : Pkt := { type := .event, data := .args l }
def demoH : History :=
  [ (0, .broadcast (ev [.str "a"]) (some { rooms := some [], except := some [] })),
    (10, .broadcast (ev [.str "b"]) (some { rooms := some [], except := some [] })),
    (20, .persist { sid := "s", pid := "p", rooms := ["s", "r"] }),
    (105, .tick),
    (106, .broadcast (ev [.str "c"]) (some { rooms := some ["q"], except := some [] })),
    (107, .broadcast (ev [.str "d"]) (some { rooms := some ["q", "r"], except := some [] })) ]

theorem demo_saved : LastSaved demoH "p" { sid := "s", pid := "p", rooms := ["s", "r"] } 20 :=
  ⟨demoH.take 2, demoH.drop 3, rfl, rfl, by simp [demoH]⟩

/-- Non-vacuity for C10: at time 110 the session is restored and the one matching packet is replayed. -/
example : Monotone demoH ∧ LastSaved demoH "p" { sid := "s", pid := "p", rooms := ["s", "r"] } 20 ∧
    (restore demoCfg 110 "p" "yy" (run demoCfg demoH)).2 =
      .ok { sid := "s", pid := "p", rooms := ["s", "r"] } [[.str "d", .str "yyyy"]] :=
  ⟨by simp [Monotone, demoH], demo_saved, by decide⟩

/-- **C11, sessions not too late.**  A restore more than `MaxDisconnectionDuration` after the last save
fails, whatever happened. -/
theorem C11_not_late (c : Cfg) (h : History) (now : Int) (pid : Pid) (offset : String) (x : Sess) (t : Int)
    (hs : LastSaved h pid x t) (hlate : t + c.max < now) :
    (restore c now pid offset (run c h)).2 = .none := by
  unfold restore
  cases hg : (run c h).sessions.get? pid with
  | none => rfl
  | some y =>
    obtain ⟨y, t'⟩ := y
    have := lastSaved_unique (run_session_sound c h pid y t' hg) hs
    dsimp only
    rw [if_pos (by omega)]

/-- C11: a session never saved is never restored. -/
theorem C11_unknown (c : Cfg) (h : History) (now : Int) (pid : Pid) (offset : String)
    (hs : ∀ t x, (t, .persist x) ∈ h → x.pid ≠ pid) :
    (restore c now pid offset (run c h)).2 = .none := by
  unfold restore
  cases hg : (run c h).sessions.get? pid with
  | none => rfl
  | some y =>
    obtain ⟨y, t'⟩ := y
    obtain ⟨pre, post, e, hp, _⟩ := run_session_sound c h pid y t' hg
    exact absurd hp (hs t' y (by rw [e]; simp))

/-- **C11, nothing discarded too early.**  With a clock that does not go backwards, a session saved at
most `MaxDisconnectionDuration` ago is still stored, and so is every packet broadcast at most that
long ago, for every schedule of the clean-up timer. -/
theorem C11_not_early (c : Cfg) (h : History) (hm : Monotone h) (now : Int) (hnow : ∀ e ∈ h, e.1 ≤ now) :
    (∀ pid x t, LastSaved h pid x t → now ≤ t + c.max → (run c h).sessions.get? pid = some (x, t)) ∧
    (∀ p ∈ fullLog c.yeast h, now - c.max ≤ p.emittedAt → p ∈ (run c h).packets) :=
  ⟨fun pid x t hs hage => run_session_complete c h pid x t now hs hnow hage,
   run_keeps c h hm now hnow⟩

/-- C11: what the clean-up leaves is not older than `MaxDisconnectionDuration`. -/
theorem C11_cleanup (c : Cfg) (now : Int) (s : St) :
    (∀ p ∈ (tick c now s).packets, now - c.max ≤ p.emittedAt) ∧
    (∀ pid x t, (tick c now s).sessions.get? pid = some (x, t) → now ≤ t + c.max) := by
  refine ⟨prune_young _ _, ?_⟩
  intro pid x t hg
  have := FMap.mem_of_get? hg
  simp only [tick, pruneSessions, List.mem_filter, Bool.not_eq_true', decide_eq_false_iff_not] at this
  omega

/-- Non-vacuity for C11. -/
example : LastSaved demoH "p" { sid := "s", pid := "p", rooms := ["s", "r"] } 20 ∧
    (restore demoCfg 121 "p" "yy" (run demoCfg demoH)).2 = .none ∧
    (run demoCfg demoH).packets.map (·.id) = ["yy", "yyy", "yyyy"] :=
  ⟨demo_saved, by decide, by decide⟩

/-- **C12.**  For every history and every further broadcast: if it is an event with arguments `l`, has
no acknowledgement id and is not volatile then exactly one packet is appended to the store; the packet
put on the wire carries the same arguments, which are `l` followed by the stored offset.  Otherwise
store and packet are unchanged. -/
theorem C12_stored_iff (c : Cfg) (h : History) (now : Int) (p : Pkt) (opts : Option Opts) :
    match storable (now, .broadcast p opts) with
    | some (_, l, _) =>
      p.type = .event ∧ p.id = none ∧ p.data = .args l ∧
      (∃ offset,
        (broadcast c now p opts (run c h)).1.packets =
          (run c h).packets ++ [{ id := offset, emittedAt := now, data := l ++ [.str offset], opts := opts }] ∧
        (broadcast c now p opts (run c h)).2 = { p with data := .args (l ++ [.str offset]) })
    | none => broadcast c now p opts (run c h) = (run c h, p) := by
  rw [storable_broadcast]
  rcases p with ⟨ty, nsp, data, id⟩
  cases data with
  | args l =>
    dsimp only
    split
    · rename_i hc
      split at hc
      · rename_i hc'
        cases hc
        refine ⟨hc'.1, hc'.2.1, rfl, c.yeast (run c h).next, ?_, ?_⟩
        · unfold broadcast; dsimp only; rw [if_pos hc']
        · unfold broadcast; dsimp only; rw [if_pos hc']
      · simp at hc
    · rename_i hc
      split at hc
      · simp at hc
      · rename_i hc'
        unfold broadcast; dsimp only; rw [if_neg hc']
  | _ => simp [broadcast]

/-- C12: no two stored packets have the same offset. -/
theorem C12_offsets_distinct (c : Cfg) (hy : ∀ i j, c.yeast i = c.yeast j → i = j) (h : History) :
    ((run c h).packets.map (·.id)).Nodup := by
  have := (run_log c h).1
  exact (fullLog_ids_nodup c.yeast hy h).sublist (this.sublist.map _)

/-- Non-vacuity for C12: injective ids exist, and a volatile or acknowledged broadcast is not stored. -/
example : (∀ i j, demoCfg.yeast i = demoCfg.yeast j → i = j) ∧
    (broadcast demoCfg 0 (ev [.str "e"]) (some { flags := some { volatile := true } }) {}).1.packets = [] ∧
    (broadcast demoCfg 0 { ev [.str "e"] with id := some 3 } none {}).1.packets = [] ∧
    (broadcast demoCfg 0 (ev [.str "e"]) none {}).2 = ev [.str "e", .str "y"] := by
  refine ⟨?_, by decide, by decide, by decide⟩
  intro i j h
  have := congrArg String.length h
  simp [demoCfg] at this
  omega

/-- **C13 is false.**  `RestoreSession` does not remove the session: the same private id and offset can
be restored again, with no save in between. -/
theorem C13_single_use_false :
    ¬ ∀ (c : Cfg) (h : History) (now : Int) (pid : Pid) (off : String) (x : Sess) (m : List (List Val)),
      (restore c now pid off (run c h)).2 = .ok x m →
      ∀ now', now ≤ now' →
        (restore c now' pid off (run c (h ++ [(now, .restore pid off)]))).2 = .none := by
  intro hall
  have := hall demoCfg demoH 110 "p" "yy" { sid := "s", pid := "p", rooms := ["s", "r"] }
    [[.str "d", .str "yyyy"]] (by decide) 111 (by omega)
  revert this; decide

/-- **C13 is false for every session**, not only for the one of `C13_single_use_false`: whoever was restored can be restored again with the
same private id and offset and is given the same packets, as often as anybody likes, until the retention time since the last save has passed,
whoever else is restored meanwhile. -/
theorem C13_reused_false (c : Cfg) (h rest : History) (now now' : Int) (pid : Pid) (off : String) (x y : Sess) (m : List (List Val)) (t : Int)
    (ok : (restore c now pid off (run c h)).2 = .ok x m) (hs : LastSaved h pid y t)
    (only : ∀ e ∈ rest, ∃ p o, e.2 = .restore p o ∧ (p = pid → e.1 ≤ t + c.max)) (young : now' ≤ t + c.max) :
    (restore c now' pid off (run c (h ++ rest))).2 = .ok x m := by
  obtain ⟨ps, hg, hp, hc⟩ : ∃ ps, (run c h).sessions.get? pid = some (x, t) ∧ afterOffset off (run c h).packets = some ps ∧
      collect x.rooms ps = some m := by
    unfold restore at ok
    cases hg : (run c h).sessions.get? pid with
    | none => simp [hg] at ok
    | some z =>
      obtain ⟨z, t'⟩ := z
      have hu := lastSaved_unique (run_session_sound c h pid z t' hg) hs
      obtain ⟨rfl, rfl⟩ := hu
      simp only [hg] at ok
      split at ok
      · cases ok
      · cases hp : afterOffset off (run c h).packets with
        | none => simp [hp] at ok
        | some ps =>
          cases hc : collect z.rooms ps with
          | none => simp [hp, hc] at ok
          | some m' =>
            simp only [hp, hc, Restored.ok.injEq] at ok
            obtain ⟨rfl, rfl⟩ := ok
            exact ⟨ps, rfl, rfl, hc⟩
  have inv : (run c (h ++ rest)).sessions.get? pid = some (x, t) ∧ (run c (h ++ rest)).packets = (run c h).packets := by
    clear young ok hs
    induction rest using snocRec with
    | nil => simpa using hg
    | append_singleton rest e ih =>
      obtain ⟨ig, ip⟩ := ih (fun e he => only e (by simp [he]))
      rw [← List.append_assoc, run_snoc]
      obtain ⟨p, o, he, ht⟩ := only e (by simp)
      obtain ⟨te, op⟩ := e
      dsimp only at he ht; subst he
      simp only [step, restore]
      by_cases hpp : p = pid
      · subst hpp
        simp only [ig]
        rw [if_neg (by have := ht rfl; omega)]
        split
        · exact ⟨ig, ip⟩
        · split <;> exact ⟨ig, ip⟩
      · split
        · exact ⟨ig, ip⟩
        · split
          · exact ⟨by rw [FMap.get?_erase_ne hpp]; exact ig, ip⟩
          · split
            · exact ⟨ig, ip⟩
            · split <;> exact ⟨ig, ip⟩
  simp only [restore, inv.1, inv.2, hp, hc]
  rw [if_neg (by omega)]

/-- Non-vacuity. -/
example : (restore demoCfg 110 "p" "yy" (run demoCfg demoH)).2 = .ok { sid := "s", pid := "p", rooms := ["s", "r"] } [[.str "d", .str "yyyy"]] ∧
    LastSaved demoH "p" { sid := "s", pid := "p", rooms := ["s", "r"] } 20 ∧
    (∀ e ∈ ([(110, .restore "p" "yy"), (500, .restore "q" "z"), (112, .restore "p" "no")] : History),
      ∃ p o, e.2 = .restore p o ∧ (p = "p" → e.1 ≤ 20 + demoCfg.max)) ∧ (115 : Int) ≤ 20 + demoCfg.max :=
  ⟨by decide, demo_saved, by simp [demoCfg], by decide⟩

/-- **C13, the part that holds.**  Missing: that a *successful* restore uses the session up.  What
holds: once the retention time since the last save has passed, the private id restores nothing, and
keeps restoring nothing until a session is saved again under this id. -/
theorem C13_single_use_partial (c : Cfg) (h rest : History) (pid : Pid) (off : String) (x : Sess)
    (t now : Int) (hs : LastSaved h pid x t) (hno : ∀ t' y, (t', .persist y) ∈ rest → y.pid ≠ pid)
    (hlate : t + c.max < now) :
    (restore c now pid off (run c (h ++ rest))).2 = .none := by
  apply C11_not_late c (h ++ rest) now pid off x t _ hlate
  obtain ⟨pre, post, e, hp, hl⟩ := hs
  refine ⟨pre, post ++ rest, by simp [e], hp, ?_⟩
  intro t' y hy
  rcases List.mem_append.1 hy with hy | hy
  · exact hl t' y hy
  · exact hno t' y hy

/-- Non-vacuity for C13. -/
example : LastSaved demoH "p" { sid := "s", pid := "p", rooms := ["s", "r"] } 20 ∧
    (∀ t' y, (t', Op.persist y) ∈ ([(111, .restore "p" "yy")] : History) → y.pid ≠ "p") ∧
    (20 : Int) + demoCfg.max < 121 := ⟨demo_saved, by simp, by decide⟩

end Verif.Props

namespace Verif.Props
open Verif Verif.Session Verif.Spec

/-- **C58 is false.**  A client that was idle: the last packet it got is older than the retention time
and was pruned, so it is not recovered although it reconnects one unit of time after the
disconnection. -/
theorem C58_reconnect_in_time_false :
    ¬ ∀ (c : Cfg) (h : History), Monotone h → ∀ (now : Int), (∀ e ∈ h, e.1 ≤ now) →
      ∀ (pid : Pid) (x : Sess) (t : Int), LastSaved h pid x t → now ≤ t + c.max →
      ∀ p ∈ fullLog c.yeast h, ∃ missed, (restore c now pid p.id (run c h)).2 = .ok x missed := by
  intro hall
  let h : History :=
    [ (0, .broadcast (ev [.str "a"]) (some { rooms := some [], except := some [] })), (150, .tick),
      (200, .persist { sid := "s", pid := "p", rooms := ["s"] }) ]
  obtain ⟨m, hm⟩ := hall demoCfg h (by simp [Monotone, h]) 201 (by simp [h]) "p"
    { sid := "s", pid := "p", rooms := ["s"] } 200 ⟨h.take 2, [], rfl, rfl, by simp⟩ (by decide)
    ⟨"y", 0, [.str "a", .str "y"], some { rooms := some [], except := some [] }⟩ (by decide)
  have : (restore demoCfg 201 "p" "y" (run demoCfg h)).2 = .none := by decide
  rw [this] at hm; exact absurd hm (by simp)

/-- **C58, the part that holds**: if in addition the last packet the client got is at most
`MaxDisconnectionDuration` old, the client is recovered and gets every later packet that matches.
Missing: clients whose last packet is older, or that never got one. -/
theorem C58_reconnect_in_time_partial (c : Cfg) (hy : ∀ i j, c.yeast i = c.yeast j → i = j)
    (h : History) (hm : Monotone h) (now : Int)
    (hnow : ∀ e ∈ h, e.1 ≤ now) (pid : Pid) (x : Sess) (t : Int) (hs : LastSaved h pid x t)
    (hage : now ≤ t + c.max) (before after : List Stored) (p : Stored)
    (hp : fullLog c.yeast h = before ++ p :: after) (hpage : now - c.max ≤ p.emittedAt)
    (hopts : ∀ q ∈ fullLog c.yeast h, optRooms q.opts ≠ none) :
    (restore c now pid p.id (run c h)).2 = .ok x ((after.filter (packetMatches x.rooms)).map (·.data)) := by
  obtain ⟨missed, hr⟩ := C10_restores c h hm now hnow pid x t hs hage p (by rw [hp]; simp) hpage hopts
  obtain ⟨_, b', p', a', e1, e2, e3⟩ := C10_replay_exact c h now pid p.id x missed hr
  obtain ⟨rfl, rfl, rfl⟩ := C10_offset_unique c.yeast hy h _ _ _ _ _ _ hp e1 e2.symm
  rw [hr, e3]

/-- Non-vacuity for C58. -/
example : LastSaved demoH "p" { sid := "s", pid := "p", rooms := ["s", "r"] } 20 ∧
    (fullLog demoCfg.yeast demoH).map (·.id) = ["y", "yy", "yyy", "yyyy"] ∧
    (∀ q ∈ fullLog demoCfg.yeast demoH, optRooms q.opts ≠ none) := ⟨demo_saved, by decide, by decide⟩

end Verif.Props
