import Verif.Spec.Session
import Verif.Lib.ListExtra
import Verif.Spec.Targeting

/-! # Lemmas about the session store -/

namespace Verif.Session
open Verif Verif.Spec

theorem includeLoop_spec (rooms except : List Room) (l : List Room) (inc ne : Bool) :
    let p := includeLoop rooms except l inc ne
    (p.1 && p.2) = ((inc || l.any (· ∈ rooms)) && (ne && !l.any (· ∈ except))) := by
  induction l generalizing inc ne with
  | nil => simp [includeLoop]
  | cons r rs ih =>
    unfold includeLoop
    by_cases h : (inc && !ne) = true
    · simp only [h, if_true]
      simp at h; simp [h]
    · simp only [h]
      rw [if_neg (by simp)]
      have := ih (if (!inc && decide (r ∈ rooms)) = true then true else inc)
        (if (ne && decide (r ∈ except)) = true then false else ne)
      simp only at this
      rw [this]
      cases inc <;> cases ne <;> by_cases h1 : r ∈ rooms <;> by_cases h2 : r ∈ except <;>
        simp [h1, h2]

theorem shouldInclude_some (sr rooms except : List Room) (f : Option Flags) :
    shouldInclude sr (some { rooms := some rooms, except := some except, flags := f }) =
      some ((rooms.isEmpty || sr.any (· ∈ rooms)) && !sr.any (· ∈ except)) := by
  unfold shouldInclude
  simp only
  rw [includeLoop_spec]
  cases rooms <;> simp

theorem any_comm (a b : List Room) : a.any (· ∈ b) = b.any (· ∈ a) := by
  rw [Bool.eq_iff_iff]; simp only [List.any_eq_true, decide_eq_true_eq]
  exact ⟨fun ⟨x, h, h'⟩ => ⟨x, h', h⟩, fun ⟨x, h, h'⟩ => ⟨x, h', h⟩⟩

theorem shouldInclude_eq (sr : List Room) (p : Stored) :
    shouldInclude sr p.opts = (optRooms p.opts).map (fun _ => packetMatches sr p) := by
  unfold packetMatches
  rcases h : p.opts with _ | ⟨_ | rooms, _ | except, f⟩
  · simp [shouldInclude, optRooms]
  · simp [shouldInclude, optRooms]
  · simp [shouldInclude, optRooms]
  · simp [shouldInclude, optRooms]
  · rw [shouldInclude_some, any_comm sr rooms, any_comm sr except]; simp [optRooms]

theorem collect_eq (sr : List Room) (ps : List Stored) (missed : List (List Val))
    (h : collect sr ps = some missed) :
    missed = (ps.filter (packetMatches sr)).map (·.data) := by
  induction ps generalizing missed with
  | nil => simp [collect] at h; simp [h]
  | cons p ps ih =>
    unfold collect at h
    rw [shouldInclude_eq] at h
    cases hs : optRooms p.opts with
    | none => simp [hs] at h
    | some q =>
      cases hc : collect sr ps with
      | none => simp [hs, hc] at h
      | some l =>
        have := ih l hc
        cases hm : packetMatches sr p <;> simp [hs, hc, hm] at h <;> simp [hm, ← h, this]

theorem collect_some (sr : List Room) (ps : List Stored)
    (h : ∀ p ∈ ps, optRooms p.opts ≠ none) : ∃ missed, collect sr ps = some missed := by
  induction ps with
  | nil => exact ⟨[], rfl⟩
  | cons p ps ih =>
    obtain ⟨l, hl⟩ := ih (fun q hq => h q (by simp [hq]))
    unfold collect
    rw [shouldInclude_eq, hl]
    cases hs : optRooms p.opts with
    | none => exact absurd hs (h p (by simp))
    | some q => cases packetMatches sr p <;> simp

theorem afterOffset_some {offset : String} {l ps : List Stored} (h : afterOffset offset l = some ps) :
    ∃ pre p, l = pre ++ p :: ps ∧ p.id = offset := by
  induction l with
  | nil => simp [afterOffset] at h
  | cons p l ih =>
    unfold afterOffset at h
    split at h
    · rename_i e; cases h; exact ⟨[], p, rfl, e⟩
    · obtain ⟨pre, q, e1, e2⟩ := ih h
      exact ⟨p :: pre, q, by simp [e1], e2⟩

theorem afterOffset_mem {offset : String} {l : List Stored} {p : Stored} (h : p ∈ l)
    (hp : p.id = offset) : ∃ ps, afterOffset offset l = some ps := by
  induction l with
  | nil => simp at h
  | cons q l ih =>
    unfold afterOffset
    split
    · exact ⟨_, rfl⟩
    · rename_i hne
      rcases List.mem_cons.1 h with rfl | h
      · exact absurd hp hne
      · exact ih h

theorem prune_suffix (th : Int) (l : List Stored) : prunePackets th l <:+ l := by
  induction l with
  | nil => exact List.suffix_refl _
  | cons p ps ih =>
    unfold prunePackets
    split
    · exact ih.trans (List.suffix_cons _ _)
    · split
      · exact List.suffix_cons _ _
      · exact List.suffix_refl _

theorem prune_young (th : Int) (l : List Stored) : ∀ p ∈ prunePackets th l, th ≤ p.emittedAt := by
  induction l with
  | nil => simp [prunePackets]
  | cons p ps ih =>
    unfold prunePackets
    split
    · exact ih
    · rename_i hany
      simp only [List.any_eq_true, decide_eq_true_eq, not_exists, not_and, Int.not_lt] at hany
      split
      · exact fun q hq => hany q hq
      · rename_i hp
        intro q hq
        rcases List.mem_cons.1 hq with rfl | hq
        · exact Int.not_lt.1 hp
        · exact hany q hq

theorem prune_keeps (th : Int) (l : List Stored)
    (hs : l.Pairwise (fun a b => a.emittedAt ≤ b.emittedAt)) :
    ∀ p ∈ l, th ≤ p.emittedAt → p ∈ prunePackets th l := by
  induction l with
  | nil => simp
  | cons p ps ih =>
    rw [List.pairwise_cons] at hs
    intro q hq hth
    unfold prunePackets
    split
    · rename_i hany
      simp only [List.any_eq_true, decide_eq_true_eq] at hany
      obtain ⟨x, hx, hlt⟩ := hany
      rcases List.mem_cons.1 hq with rfl | hq
      · have := hs.1 x hx; omega
      · exact ih hs.2 q hq hth
    · split
      · rename_i hp
        rcases List.mem_cons.1 hq with rfl | hq
        · omega
        · exact hq
      · exact hq

/-! ## The log of the history -/

theorem storable_broadcast (t : Int) (p : Pkt) (o : Option Opts) :
    storable (t, .broadcast p o) =
      (match p.data with
       | .args l => if p.type = .event ∧ p.id = none ∧ notVolatile o = true then some (t, l, o) else none
       | _ => none) := by
  rcases p with ⟨ty, nsp, data, id⟩
  cases data <;> cases ty <;> cases id <;> simp [storable]
  rcases o with _ | ⟨r, e, f⟩
  · simp [notVolatile]
  · rcases f with _ | f
    · simp [notVolatile]
    · rcases f with ⟨_, v, _, _, _, _, _, _⟩
      cases v <;> simp [notVolatile]

theorem fullLog_snoc (y : Nat → String) (h : History) (e : Int × Session.Op) :
    fullLog y (h ++ [e]) = fullLog y h ++ (match storable e with
      | some (t, l, o) => [⟨y (fullLog y h).length, t, l ++ [Val.str (y (fullLog y h).length)], o⟩]
      | none => []) := by
  unfold fullLog
  rw [List.filterMap_append, List.zipIdx_append, List.map_append]
  congr 1
  cases hs : storable e with
  | none => simp [hs]
  | some q => obtain ⟨t, l, o⟩ := q; simp [hs]

theorem run_snoc (c : Cfg) (h : History) (e : Int × Session.Op) :
    run c (h ++ [e]) = step c (run c h) e.1 e.2 := by
  simp [run, List.foldl_append]

theorem restore_packets (c : Cfg) (now : Int) (pid : Pid) (off : String) (s : St) :
    (restore c now pid off s).1.packets = s.packets ∧ (restore c now pid off s).1.next = s.next := by
  unfold restore
  split
  · simp
  · split
    · simp
    · split
      · simp
      · split <;> simp

/-- The packets kept are always a suffix of the complete log. -/
theorem run_log (c : Cfg) (h : History) :
    (run c h).packets <:+ fullLog c.yeast h ∧ (run c h).next = (fullLog c.yeast h).length := by
  induction h using snocRec with
  | nil => exact ⟨List.suffix_refl _, rfl⟩
  | append_singleton h e ih =>
    rw [run_snoc, fullLog_snoc]
    obtain ⟨t, op⟩ := e
    obtain ⟨i1, i2⟩ := ih
    cases op with
    | persist x => simpa [step, persist, storable] using ⟨i1, i2⟩
    | tick => simpa [step, tick, storable] using ⟨(prune_suffix _ _).trans i1, i2⟩
    | restore pid off =>
      obtain ⟨r1, r2⟩ := restore_packets c t pid off (run c h)
      simpa [step, storable, r1, r2] using ⟨i1, i2⟩
    | broadcast p o =>
      rw [storable_broadcast]
      simp only [step, broadcast]
      cases hd : p.data with
      | args l =>
        dsimp only
        split
        · dsimp only
          rw [i2]
          refine ⟨?_, by simp⟩
          obtain ⟨pre, hp⟩ := i1
          exact ⟨pre, by rw [← hp]; simp⟩
        · simpa using ⟨i1, i2⟩
      | nil => simpa using ⟨i1, i2⟩
      | connect a b => simpa using ⟨i1, i2⟩
      | error a b => simpa using ⟨i1, i2⟩

theorem storable_time {e : Int × Session.Op} {q} (h : storable e = some q) : q.1 = e.1 := by
  obtain ⟨t, op⟩ := e
  cases op with
  | broadcast p o =>
    rw [storable_broadcast] at h
    cases hd : p.data <;> simp [hd] at h
    rw [← h.2]
  | persist => simp [storable] at h
  | tick => simp [storable] at h
  | restore => simp [storable] at h

theorem fullLog_times (y : Nat → String) (h : History) :
    (fullLog y h).map (·.emittedAt) = (h.filterMap storable).map (·.1) := by
  unfold fullLog
  rw [List.map_map]
  have : ∀ (l : List (Int × List Val × Option Opts)) (n : Nat),
      ((l.zipIdx n).map ((fun x : Stored => x.emittedAt) ∘ (fun e : (Int × List Val × Option Opts) × Nat =>
        ({ id := y e.2, emittedAt := e.1.1, data := e.1.2.1 ++ [Val.str (y e.2)], opts := e.1.2.2 } : Stored))))
        = l.map (·.1) := by
    intro l; induction l with
    | nil => simp
    | cons a l ih => intro n; simp only [List.zipIdx_cons, List.map_cons, ih]; rfl
  exact this _ 0

theorem fullLog_sorted (y : Nat → String) (h : History) (hm : Monotone h) :
    (fullLog y h).Pairwise (fun a b => a.emittedAt ≤ b.emittedAt) := by
  have : ((fullLog y h).map (·.emittedAt)).Pairwise (· ≤ ·) := by
    rw [fullLog_times]
    rw [List.pairwise_map, List.pairwise_filterMap]
    apply hm.imp
    intro a b hab q hq q' hq'
    rw [storable_time hq, storable_time hq']; exact hab
  rwa [List.pairwise_map] at this

theorem fullLog_ids (y : Nat → String) (h : History) :
    (fullLog y h).map (·.id) = (List.range (fullLog y h).length).map y := by
  unfold fullLog
  rw [List.map_map]
  have : ∀ (l : List (Int × List Val × Option Opts)) (n : Nat),
      ((l.zipIdx n).map ((fun x : Stored => x.id) ∘ (fun e : (Int × List Val × Option Opts) × Nat =>
        ({ id := y e.2, emittedAt := e.1.1, data := e.1.2.1 ++ [Val.str (y e.2)], opts := e.1.2.2 } : Stored))))
        = (List.range' n l.length).map y := by
    intro l; induction l with
    | nil => simp
    | cons a l ih => intro n; simp only [List.zipIdx_cons, List.map_cons, ih, List.length_cons, List.range'_succ]; rfl
  rw [this _ 0]; simp [List.range_eq_range']

theorem fullLog_ids_nodup (y : Nat → String) (hy : ∀ i j, y i = y j → i = j) (h : History) :
    ((fullLog y h).map (·.id)).Nodup := by
  rw [fullLog_ids]
  unfold List.Nodup
  rw [List.pairwise_map]
  exact List.nodup_range.imp (fun hne e => hne (hy _ _ e))

/-- Packets younger than the retention time are still there. -/
theorem run_keeps (c : Cfg) (h : History) (hm : Monotone h) (now : Int)
    (hnow : ∀ e ∈ h, e.1 ≤ now) :
    ∀ p ∈ fullLog c.yeast h, now - c.max ≤ p.emittedAt → p ∈ (run c h).packets := by
  induction h using snocRec with
  | nil => simp [fullLog]
  | append_singleton h e ih =>
    have hm' : Monotone h := (List.pairwise_append.1 hm).1
    have ih := ih hm' (fun x hx => hnow x (by simp [hx]))
    intro p hp hage
    rw [run_snoc]
    rw [fullLog_snoc] at hp
    have hsorted : (run c h).packets.Pairwise (fun a b => a.emittedAt ≤ b.emittedAt) :=
      (fullLog_sorted c.yeast h hm').sublist (run_log c h).1.sublist
    have hlen := (run_log c h).2
    obtain ⟨t, op⟩ := e
    cases op with
    | persist x => simp [storable] at hp; exact ih p hp hage
    | tick =>
      simp [storable] at hp
      have ht : t ≤ now := hnow (t, .tick) (by simp)
      exact prune_keeps _ _ hsorted p (ih p hp hage) (by omega)
    | restore pid off =>
      simp [storable] at hp
      simp only [step]; rw [(restore_packets c t pid off (run c h)).1]; exact ih p hp hage
    | broadcast q o =>
      rw [storable_broadcast] at hp
      simp only [step, broadcast]
      cases hd : q.data with
      | args l =>
        simp only [hd] at hp
        dsimp only
        split
        · rename_i hc
          simp only [hc, and_self, if_true] at hp
          rw [List.mem_append] at hp
          dsimp only
          rw [List.mem_append, hlen]
          rcases hp with hp | hp
          · exact .inl (ih p hp hage)
          · exact .inr hp
        · rename_i hc
          simp only [hc, if_false, List.append_nil] at hp
          exact ih p hp hage
      | nil => simp [hd] at hp; exact ih p hp hage
      | connect a b => simp [hd] at hp; exact ih p hp hage
      | error a b => simp [hd] at hp; exact ih p hp hage

/-! ## The sessions of the history -/

theorem get?_filter {V : Type} (m : FMap Pid V) (wf : m.WF) (f : Pid × V → Bool) (k : Pid) :
    FMap.get? (m.filter f) k = (m.get? k).filter (fun v => f (k, v)) := by
  induction m with
  | nil => simp
  | cons p m ih =>
    obtain ⟨k', v⟩ := p
    have wf' : FMap.WF m := by
      unfold FMap.WF FMap.keys at *; exact (List.nodup_cons.1 wf).2
    have hk : k' ∉ FMap.keys m := by
      unfold FMap.WF FMap.keys at *; exact (List.nodup_cons.1 wf).1
    rw [List.filter_cons]
    by_cases hf : f (k', v) = true
    · rw [if_pos hf, FMap.get?_cons, FMap.get?_cons, ih wf']
      by_cases e : k' = k
      · subst e; simp [Option.filter, hf]
      · simp [e]
    · rw [if_neg hf, FMap.get?_cons, ih wf']
      by_cases e : k' = k
      · subst e
        have : FMap.get? m k' = none := (FMap.get?_eq_none_iff _ _).2 hk
        simp [this, Option.filter, hf]
      · simp [e]

theorem wf_prune {th : Int} {m : FMap Pid (Sess × Int)} (h : m.WF) : FMap.WF (pruneSessions th m) := by
  unfold pruneSessions FMap.WF FMap.keys at *
  exact h.sublist (List.filter_sublist.map _)

theorem run_sessions_wf (c : Cfg) (h : History) : (run c h).sessions.WF := by
  induction h using snocRec with
  | nil => exact FMap.wf_nil
  | append_singleton h e ih =>
    rw [run_snoc]
    obtain ⟨t, op⟩ := e
    cases op with
    | persist x => exact FMap.wf_insert ih _ _
    | tick => exact wf_prune ih
    | restore pid off =>
      simp only [step, restore]
      split
      · exact ih
      · split
        · exact FMap.wf_erase ih _
        · split
          · exact ih
          · split <;> exact ih
    | broadcast p o =>
      simp only [step, broadcast]
      split
      · split <;> exact ih
      · exact ih

theorem lastSaved_snoc_other {h : History} {e : Int × Session.Op} {pid : String} {x : Sess} {t : Int}
    (hl : LastSaved h pid x t) (he : ∀ t' y, e = (t', .persist y) → y.pid ≠ pid) :
    LastSaved (h ++ [e]) pid x t := by
  obtain ⟨pre, post, e1, e2, e3⟩ := hl
  refine ⟨pre, post ++ [e], by simp [e1], e2, ?_⟩
  intro t' y hy
  rcases List.mem_append.1 hy with hy | hy
  · exact e3 t' y hy
  · exact he t' y (List.mem_singleton.1 hy).symm

/-- A stored session is the one saved last under that private id. -/
theorem run_session_sound (c : Cfg) (h : History) (pid : String) (x : Sess) (t : Int)
    (hg : (run c h).sessions.get? pid = some (x, t)) : LastSaved h pid x t := by
  induction h using snocRec with
  | nil => simp [run] at hg
  | append_singleton h e ih =>
    rw [run_snoc] at hg
    obtain ⟨t', op⟩ := e
    cases op with
    | persist y =>
      simp only [step, persist] at hg
      rw [FMap.get?_insert] at hg
      split at hg
      · rename_i e; cases hg
        exact ⟨h, [], rfl, e, by simp⟩
      · rename_i e
        apply lastSaved_snoc_other (ih hg)
        intro t'' z hz; cases hz; exact e
    | tick =>
      simp only [step, tick, pruneSessions] at hg
      rw [get?_filter _ (run_sessions_wf c h)] at hg
      rw [Option.filter_eq_some_iff] at hg
      exact lastSaved_snoc_other (ih hg.1) (by simp)
    | restore pid' off =>
      apply lastSaved_snoc_other (ih ?_) (by simp)
      simp only [step, restore] at hg
      split at hg
      · exact hg
      · split at hg
        · dsimp only at hg
          rw [FMap.get?_erase] at hg
          split at hg
          · exact absurd hg (by simp)
          · exact hg
        · split at hg
          · exact hg
          · split at hg <;> exact hg
    | broadcast p o =>
      apply lastSaved_snoc_other (ih ?_) (by simp)
      simp only [step, broadcast] at hg
      split at hg
      · split at hg <;> exact hg
      · exact hg

/-- A session saved within the retention time is still stored. -/
theorem run_session_complete (c : Cfg) (h : History) (pid : String) (x : Sess) (t now : Int)
    (hl : LastSaved h pid x t) (hnow : ∀ e ∈ h, e.1 ≤ now) (hage : now ≤ t + c.max) :
    (run c h).sessions.get? pid = some (x, t) := by
  obtain ⟨pre, post, rfl, hpid, hlast⟩ := hl
  induction post using snocRec with
  | nil =>
    rw [run_snoc]
    simp only [step, persist, hpid]
    rw [FMap.get?_insert_self]
  | append_singleton post e ih =>
    have ih := ih (fun e he => hnow e (by
        simp only [List.mem_append, List.mem_cons] at he ⊢
        rcases he with he | he | he
        · exact .inl he
        · exact .inr (.inl he)
        · exact .inr (.inr (.inl he))))
      (fun t' y hy => hlast t' y (by simp [hy]))
    have e1 : pre ++ (t, Op.persist x) :: (post ++ [e]) = (pre ++ (t, Op.persist x) :: post) ++ [e] := by
      simp
    have het : e.1 ≤ now := hnow e (by simp)
    rw [e1, run_snoc]
    generalize hs : pre ++ (t, Op.persist x) :: post = h at ih
    obtain ⟨t', op⟩ := e
    dsimp only at het
    cases op with
    | persist y =>
      have : y.pid ≠ pid := hlast t' y (by simp)
      simp only [step, persist]
      rw [FMap.get?_insert_ne this]; exact ih
    | tick =>
      simp only [step, tick, pruneSessions]
      rw [get?_filter _ (run_sessions_wf c h), ih]
      rw [Option.filter_eq_some_iff]
      refine ⟨rfl, ?_⟩
      simp only [Bool.not_eq_eq_eq_not, Bool.not_true, decide_eq_false_iff_not, Int.not_lt]; omega
    | restore pid' off =>
      simp only [step, restore]
      split
      · exact ih
      · rename_i y ty hg
        split
        · rename_i hexp
          dsimp only
          have : pid' ≠ pid := by
            rintro rfl; rw [ih] at hg; cases hg; omega
          rw [FMap.get?_erase_ne this]; exact ih
        · split
          · exact ih
          · split <;> exact ih
    | broadcast p o =>
      simp only [step, broadcast]
      split
      · split <;> exact ih
      · exact ih

theorem lastSaved_unique {h : History} {pid : String} {x y : Sess} {t t' : Int}
    (h1 : LastSaved h pid x t) (h2 : LastSaved h pid y t') : x = y ∧ t = t' := by
  obtain ⟨p1, q1, e1, a1, b1⟩ := h1
  obtain ⟨p2, q2, e2, a2, b2⟩ := h2
  rw [e1] at e2
  rcases List.append_eq_append_iff.1 e2 with ⟨m, hm1, hm2⟩ | ⟨m, hm1, hm2⟩
  · cases m with
    | nil => simp at hm2; exact ⟨hm2.1.2, hm2.1.1⟩
    | cons a m =>
      simp at hm2
      exfalso
      exact b1 t' y (by rw [hm2.2]; simp) a2
  · cases m with
    | nil => simp at hm2; exact ⟨hm2.1.2.symm, hm2.1.1.symm⟩
    | cons a m =>
      simp at hm2
      exfalso
      exact b2 t x (by rw [hm2.2]; simp) a1

end Verif.Session
