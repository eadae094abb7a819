import Verif.Proof.RoomSeq
import Verif.Proof.RoomNews
import Verif.Spec.RoomNewsSeq

/-! # A call that nobody interrupts emits what the call of `Model/Adapter` emits -/

namespace Verif.RoomNews
open Verif Verif.Spec
open Verif.World (upd upd_apply upd_ne)
open Verif.RoomRace (act PC advance loadAndDelete turns turns_add turns_done Same Call act_put)
open Verif.Adapter (Ad)

variable [SetLib]

/-- What is announced in `n` steps of one call. -/
def emits (id : Nat) : Nat → RoomRace.St × PC → List News
  | 0, _ => []
  | n + 1, p => (announces p.1 id p.2).toList ++ emits id n (act p.1 id p.2)

/-- The call comes from one place to the other, and this is announced. -/
def Says (id : Nat) (p : RoomRace.St × PC) (l : List News) (q : RoomRace.St × PC) : Prop := ∃ n, turns id n p = q ∧ emits id n p = l

theorem emits_add (id n m : Nat) (p : RoomRace.St × PC) : emits id (n + m) p = emits id n p ++ emits id m (turns id n p) := by
  induction n generalizing p with
  | zero => simp [emits, turns]
  | succ n ih => rw [Nat.succ_add]; simp only [emits, turns, ih, List.append_assoc]

theorem emits_done (id n : Nat) (s : RoomRace.St) : emits id n (s, .done) = [] := by
  induction n with
  | zero => rfl
  | succ n ih => simp only [emits, announces, act]; simpa using ih

theorem Says.refl {id : Nat} (p : RoomRace.St × PC) : Says id p [] p := ⟨0, rfl, rfl⟩

theorem Says.trans {id : Nat} {p q r : RoomRace.St × PC} {l m : List News} : Says id p l q → Says id q m r → Says id p (l ++ m) r := by
  rintro ⟨n, rfl, rfl⟩ ⟨k, rfl, rfl⟩; exact ⟨n + k, turns_add _ _ _ _, emits_add _ _ _ _⟩

theorem Says.next {id : Nat} {s : RoomRace.St} {pc : PC} {q r : RoomRace.St × PC} {l : List News} (h : act s id pc = q)
    (ha : announces s id pc = none) (h' : Says id q l r) : Says id (s, pc) l r := by
  obtain ⟨n, e1, e2⟩ := h'
  exact ⟨n + 1, by rw [turns, h]; exact e1, by rw [emits, h, ha]; simpa using e2⟩

theorem emits_unique (id n m : Nat) (p : RoomRace.St × PC) (h : (turns id n p).2 = .done) (h' : (turns id m p).2 = .done) :
    emits id n p = emits id m p := by
  have key : ∀ n d, (turns id n p).2 = .done → emits id (n + d) p = emits id n p := by
    intro n d hd
    have : turns id n p = ((turns id n p).1, .done) := by rw [← hd]
    rw [emits_add, this, emits_done, List.append_nil]
  rcases Nat.le_total n m with hl | hl
  · obtain ⟨d, rfl⟩ := Nat.exists_eq_add_of_le hl; exact (key n d h).symm
  · obtain ⟨d, rfl⟩ := Nat.exists_eq_add_of_le hl; exact key m d h'

variable {ρ : Nat → Room} {σ : Nat → Sid} (hρ : ∀ i j, ρ i = ρ j → i = j) (hσ : ∀ i j, σ i = σ j → i = j)

/-! ## Joining -/

include hρ hσ in
theorem says_room {s : RoomRace.St} {a : Ad} (i : Same ρ σ s a) {id x : Nat} (hx : s.sids id = some x) (r : Nat) (rs : List Nat)
    (evs : List Adapter.Ev) :
    ∃ s' l, Says id (s, .j1 x (r :: rs)) l (s', .j1 x rs) ∧ Same ρ σ s' (Adapter.addRoom (σ id) (a, evs) (ρ r)).1 ∧ s'.sids id = some x ∧
      (Adapter.addRoom (σ id) (a, evs) (ρ r)).2 = evs ++ l.map (asEvent ρ σ) := by
  have hm : a.sids.get? (σ id) = some ((s.sset x).map ρ) := by rw [i.sids, hx]; rfl
  have i1 := RoomRace.same_sset hσ i hx (RoomRace.add (s.sset x) r)
  rw [RoomRace.map_add hρ] at i1
  cases hr : s.rooms r with
  | none =>
    have hn : a.rooms.get? (ρ r) = none := by rw [i.rooms, hr]; rfl
    have i2 := RoomRace.same_newroom hρ i1 r
    have i3 := RoomRace.same_rset hρ i2 (r := r) (t := s.next) (by simp [upd]) (RoomRace.add [] id)
    rw [RoomRace.map_add hσ] at i3
    refine ⟨_, [.created r, .joined r id], ⟨4, ?_, ?_⟩, i3.congr' (a' := (Adapter.addRoom (σ id) (a, evs) (ρ r)).1) ?_, hx, ?_⟩
    · simp [turns, act, hr, upd]
    · simp [emits, announces, act, hr, upd]
    · simp [Adapter.addRoom, hm, hn]
    · simp [Adapter.addRoom, hm, hn, asEvent]
  | some t =>
    have hn : a.rooms.get? (ρ r) = some ((s.rset t).map σ) := by rw [i.rooms, hr]; rfl
    by_cases hi : id ∈ s.rset t
    · refine ⟨_, [], ⟨3, ?_, ?_⟩, i1.congr' (a' := (Adapter.addRoom (σ id) (a, evs) (ρ r)).1) ?_, hx, ?_⟩
      · simp [turns, act, hi, hr]
      · simp [emits, announces, act, hr]
      · simp only [Adapter.addRoom, hm, hn, if_pos ((RoomRace.mem_map_inj hσ _ _).2 hi)]
      · simp only [Adapter.addRoom, hm, hn, if_pos ((RoomRace.mem_map_inj hσ _ _).2 hi)]
        simp
    · have i3 := RoomRace.same_rset hρ i1 (r := r) (t := t) hr (RoomRace.add (s.rset t) id)
      rw [RoomRace.map_add hσ] at i3
      refine ⟨_, [.joined r id], ⟨4, ?_, ?_⟩, i3.congr' (a' := (Adapter.addRoom (σ id) (a, evs) (ρ r)).1) ?_, hx, ?_⟩
      · simp [turns, act, hi, hr]
      · simp [emits, announces, act, hi, hr]
      · simp only [Adapter.addRoom, hm, hn, if_neg (mt (RoomRace.mem_map_inj hσ _ _).1 hi)]
      · simp only [Adapter.addRoom, hm, hn, if_neg (mt (RoomRace.mem_map_inj hσ _ _).1 hi)]
        simp [asEvent]

include hρ hσ in
theorem says_rooms {s : RoomRace.St} {a : Ad} (i : Same ρ σ s a) {id x : Nat} (hx : s.sids id = some x) (rs : List Nat)
    (evs : List Adapter.Ev) :
    ∃ s' l, Says id (s, .j1 x rs) l (s', .done) ∧ Same ρ σ s' ((rs.map ρ).foldl (Adapter.addRoom (σ id)) (a, evs)).1 ∧
      ((rs.map ρ).foldl (Adapter.addRoom (σ id)) (a, evs)).2 = evs ++ l.map (asEvent ρ σ) := by
  induction rs generalizing s a evs with
  | nil => exact ⟨s, [], .next rfl rfl (.refl _), i, by simp⟩
  | cons r rs ih =>
    obtain ⟨s', l, h1, h2, h3, h5⟩ := says_room hρ hσ i hx r rs evs
    obtain ⟨s'', m, h6, h7, h9⟩ := ih h2 h3 (Adapter.addRoom (σ id) (a, evs) (ρ r)).2
    refine ⟨s'', l ++ m, h1.trans h6, h7, ?_⟩
    rw [h5] at h9
    rw [List.map_append, ← List.append_assoc, ← h9, ← h5]
    rfl

/-! ## Leaving -/

include hρ hσ in
/-- `_del`, with the places of `Del` and of `DelAll`. -/
theorem says_left {s : RoomRace.St} {a : Ad} (i : Same ρ σ s a) (id r : Nat) :
    ∃ s' l, Says id (s, .d2 r) l (s', .done) ∧ Same ρ σ s' (Adapter.del_ SetLib.absent a (ρ r) (σ id)).1 ∧
      (Adapter.del_ SetLib.absent a (ρ r) (σ id)).2 = l.map (asEvent ρ σ) ∧
      ∀ left, Says id (s, .e2 r left) l (s', .a2 left) := by
  cases hr : s.rooms r with
  | none =>
    have hn : a.rooms.get? (ρ r) = none := by rw [i.rooms, hr]; rfl
    refine ⟨s, [], .next (by simp [act, hr]) rfl (.refl _), ?_, ?_, fun left => .next (by simp [act, hr]) rfl (.refl _)⟩
    · simp only [Adapter.del_, hn]; exact i
    · simp [Adapter.del_, hn]
  | some t =>
    have hn : a.rooms.get? (ρ r) = some ((s.rset t).map σ) := by rw [i.rooms, hr]; rfl
    have i1 := RoomRace.same_rset hρ i hr (RoomRace.del (s.rset t) id)
    rw [RoomRace.map_del hσ] at i1
    have hlen : (LSet.del ((s.rset t).map σ) (σ id)).length = 0 ↔ RoomRace.del (s.rset t) id = [] := by
      rw [← RoomRace.map_del hσ, List.length_map, List.length_eq_zero_iff]
    have hpres : Adapter.deleteResult SetLib.absent (decide (σ id ∈ (s.rset t).map σ)) = true ↔ (id ∈ s.rset t ∨ SetLib.absent = true) := by
      unfold Adapter.deleteResult
      rw [Bool.or_eq_true, decide_eq_true_eq, RoomRace.mem_map_inj hσ]
    have hgone : (if Adapter.deleteResult SetLib.absent (decide (σ id ∈ (s.rset t).map σ)) = true then [Adapter.Ev.leave (ρ r) (σ id)] else []) =
        (if id ∈ s.rset t ∨ SetLib.absent = true then [News.left r id] else []).map (asEvent ρ σ) := by
      simp only [hpres]; split <;> rfl
    have hann : (if id ∈ s.rset t ∨ SetLib.absent = true then some (News.left r id) else none).toList =
        if id ∈ s.rset t ∨ SetLib.absent = true then [News.left r id] else [] := by split <;> rfl
    by_cases he : RoomRace.del (s.rset t) id = []
    · have i2 := RoomRace.same_delroom hρ i1 r (s.deleted ++ [r])
      have hld : loadAndDelete { s with rset := upd s.rset t (RoomRace.del (s.rset t) id) } r =
          { s with rset := upd s.rset t (RoomRace.del (s.rset t) id), rooms := upd s.rooms r none, deleted := s.deleted ++ [r] } := by
        unfold loadAndDelete; simp only [hr]
      have e1 : upd s.rset t (RoomRace.del (s.rset t) id) t = [] := by simp [upd, he]
      refine ⟨{ s with rset := upd s.rset t (RoomRace.del (s.rset t) id), rooms := upd s.rooms r none, deleted := s.deleted ++ [r] },
        (if id ∈ s.rset t ∨ SetLib.absent = true then [News.left r id] else []) ++ [.deleted r],
        ⟨4, ?_, ?_⟩, ?_, ?_, fun left => ⟨4, ?_, ?_⟩⟩
      · simp only [turns, act, hr, e1, if_true, hld]
      · simp only [emits, announces, act, hr, e1, if_true, hann]; simp
      · simp only [Adapter.del_, hn, if_pos (hlen.2 he)]
        refine RoomRace.same_congr i2 (fun _ => rfl) (fun k => ?_)
        show FMap.get? (FMap.erase a.rooms (ρ r)) k = FMap.get? (FMap.erase (FMap.insert a.rooms (ρ r) _) (ρ r)) k
        rw [FMap.get?_erase, FMap.get?_erase, FMap.get?_insert]
        by_cases e : ρ r = k
        · rw [if_pos e, if_pos e]
        · rw [if_neg e, if_neg e, if_neg e]
      · simp only [Adapter.del_, hn, if_pos (hlen.2 he), hgone]
        rw [List.map_append]; rfl
      · simp only [turns, act, hr, e1, if_true, hld]
      · simp only [emits, announces, act, hr, e1, if_true, hann]; simp
    · refine ⟨{ s with rset := upd s.rset t (RoomRace.del (s.rset t) id) },
        (if id ∈ s.rset t ∨ SetLib.absent = true then [News.left r id] else []), ⟨3, ?_, ?_⟩, ?_, ?_, fun left => ⟨3, ?_, ?_⟩⟩
      · simp [turns, hr, act, upd, he]
      · simp only [emits, announces, act, hr, hann]; simp
      · simp only [Adapter.del_, hn, if_neg (mt hlen.1 he)]; exact i1
      · simp only [Adapter.del_, hn, if_neg (mt hlen.1 he), hgone]
      · simp [turns, hr, act, upd, he]
      · simp only [emits, announces, act, hr, hann]; simp

include hρ hσ in
theorem says_all {s : RoomRace.St} {a : Ad} (i : Same ρ σ s a) (id : Nat) (rs : List Nat) (evs : List Adapter.Ev) :
    ∃ s' l, Says id (s, .a2 rs) l ({ s' with sids := upd s'.sids id none }, .done) ∧
      Same ρ σ s' ((rs.map ρ).foldl (Adapter.delLoop SetLib.absent (σ id)) (a, evs)).1 ∧
      ((rs.map ρ).foldl (Adapter.delLoop SetLib.absent (σ id)) (a, evs)).2 = evs ++ l.map (asEvent ρ σ) := by
  induction rs generalizing s a evs with
  | nil => exact ⟨s, [], .next rfl rfl (.refl _), i, by simp⟩
  | cons r rs ih =>
    obtain ⟨s', l, _, h2, h3, h5⟩ := says_left hρ hσ i id r
    obtain ⟨s'', m, h6, h7, h8⟩ := ih h2 (evs ++ (Adapter.del_ SetLib.absent a (ρ r) (σ id)).2)
    refine ⟨s'', l ++ m, .next rfl rfl ((h5 rs).trans h6), h7, ?_⟩
    rw [List.map_append, ← List.append_assoc, ← h3]
    exact h8

include hρ hσ in
/-- A call that nobody interrupts. -/
theorem says_call {s : RoomRace.St} {a : Ad} (i : Same ρ σ s a) (id : Nat) (c : Call) :
    ∃ s' l, Says id (s, c.start) l (s', .done) ∧ Same ρ σ s' (atOnce SetLib.absent ρ σ a (id, c)).1 ∧
      (atOnce SetLib.absent ρ σ a (id, c)).2 = l.map (asEvent ρ σ) := by
  cases c with
  | join rs =>
    cases hx : s.sids id with
    | some x =>
      have hm : a.sids.get? (σ id) = some ((s.sset x).map ρ) := by rw [i.sids, hx]; rfl
      obtain ⟨s', l, h1, h2, h3⟩ := says_rooms hρ hσ i hx rs []
      have e : Adapter.loadOrStoreSid a (σ id) = a := by simp [Adapter.loadOrStoreSid, hm]
      refine ⟨s', l, .next (by simp only [Call.start, act, hx]) rfl h1, ?_, ?_⟩
      · simp only [atOnce, Adapter.addAll, e]; exact h2
      · simp only [atOnce, Adapter.addAll, e, h3]; simp
    | none =>
      have hm : a.sids.get? (σ id) = none := by rw [i.sids, hx]; rfl
      have i1 := RoomRace.same_newsid hσ i id
      obtain ⟨s', l, h1, h2, h3⟩ := says_rooms hρ hσ i1 (id := id) (x := s.next) (by simp [upd]) rs []
      have e : Adapter.loadOrStoreSid a (σ id) = { a with sids := a.sids.insert (σ id) [] } := by simp [Adapter.loadOrStoreSid, hm]
      refine ⟨s', l, .next (by simp only [Call.start, act, hx]) rfl h1, ?_, ?_⟩
      · simp only [atOnce, Adapter.addAll, e]; exact h2
      · simp only [atOnce, Adapter.addAll, e, h3]; simp
  | leave r =>
    cases hx : s.sids id with
    | some x =>
      have hm : a.sids.get? (σ id) = some ((s.sset x).map ρ) := by rw [i.sids, hx]; rfl
      have i1 := RoomRace.same_sset hσ i hx (RoomRace.del (s.sset x) r)
      rw [RoomRace.map_del hρ] at i1
      obtain ⟨s', l, h1, h2, h3, _⟩ := says_left hρ hσ i1 id r
      refine ⟨s', l, .next (q := (s, .d1 x r)) (by simp only [Call.start, act, hx]) rfl (.next rfl rfl h1), ?_, ?_⟩
      · simp only [atOnce, Adapter.del, hm]; exact h2
      · simp only [atOnce, Adapter.del, hm]; exact h3
    | none =>
      have hm : a.sids.get? (σ id) = none := by rw [i.sids, hx]; rfl
      obtain ⟨s', l, h1, h2, h3, _⟩ := says_left hρ hσ i id r
      refine ⟨s', l, .next (by simp only [Call.start, act, hx]) rfl h1, ?_, ?_⟩
      · simp only [atOnce, Adapter.del, hm]; exact h2
      · simp only [atOnce, Adapter.del, hm]; exact h3
  | leaveAll =>
    cases hx : s.sids id with
    | some x =>
      have hm : a.sids.get? (σ id) = some ((s.sset x).map ρ) := by rw [i.sids, hx]; rfl
      obtain ⟨s', l, h1, h2, h3⟩ := says_all hρ hσ i id (s.sset x) []
      refine ⟨_, l, .next (q := (s, .a1 x)) (by simp only [Call.start, act, hx]) rfl (.next rfl rfl h1), ?_, ?_⟩
      · simp only [atOnce, Adapter.delAll, hm]; exact RoomRace.same_delsid hσ h2 id
      · simp only [atOnce, Adapter.delAll, hm, h3]; simp
    | none =>
      have hm : a.sids.get? (σ id) = none := by rw [i.sids, hx]; rfl
      refine ⟨s, [], .next (by simp only [Call.start, act, hx]) rfl (.refl _), ?_, ?_⟩
      · simp only [atOnce, Adapter.delAll, hm]; exact i
      · simp [atOnce, Adapter.delAll, hm]

/-! ## Histories -/

theorem announces_put (s : RoomRace.St) (f : Nat → Nat × PC) (id : Nat) (pc : PC) : announces { s with th := f } id pc = announces s id pc := by
  cases pc <;> rfl

/-- Steps of one goroutine, of which some emit. -/
theorem advs_news (s : St) (k id : Nat) (pc : PC) (m : Nat) (hd : s.due k = none) (hk : s.tab.th k = (id, pc)) :
    ∃ n s', (List.replicate m (RoomRace.Ev.adv k)).foldl step s = s' ∧
      s'.tab = { (turns id n (s.tab, pc)).1 with th := upd s.tab.th k (id, (turns id n (s.tab, pc)).2) } ∧
      s'.news.map (·.2) ++ (s'.due k).toList = s.news.map (·.2) ++ emits id n (s.tab, pc) ∧ ∀ j, j ≠ k → s'.due j = s.due j := by
  induction m with
  | zero =>
    refine ⟨0, s, rfl, ?_, by simp [emits, hd], fun _ _ => rfl⟩
    have : upd s.tab.th k (id, pc) = s.tab.th := by
      funext j; rw [upd_apply]; split
      · rename_i e; subst e; exact hk.symm
      · rfl
    simp [turns, this]
  | succ m ih =>
    obtain ⟨n, s', h1, h2, h3, h4⟩ := ih
    rw [List.replicate_succ', List.foldl_append, h1, List.foldl_cons, List.foldl_nil]
    cases hdk : s'.due k with
    | some e =>
      refine ⟨n, _, (step_due hdk).1, h2, ?_, ?_⟩
      · rw [← h3]; simp [hdk]
      · intro j hj; simp only [upd_ne _ _ hj]; exact h4 j hj
    | none =>
      have hth : s'.tab.th k = (id, (turns id n (s.tab, pc)).2) := by rw [h2]; simp
      have hact : act s'.tab id (turns id n (s.tab, pc)).2 =
          ({ (act (turns id n (s.tab, pc)).1 id (turns id n (s.tab, pc)).2).1 with th := upd s.tab.th k (id, (turns id n (s.tab, pc)).2) },
            (act (turns id n (s.tab, pc)).1 id (turns id n (s.tab, pc)).2).2) := by
        rw [h2, act_put]
      have ht1 : turns id (n + 1) (s.tab, pc) = act (turns id n (s.tab, pc)).1 id (turns id n (s.tab, pc)).2 := turns_add id n 1 _
      refine ⟨n + 1, _, (step_adv hdk).1, ?_, ?_, ?_⟩
      · simp only [advance, hth, hact, ht1]
        congr 1
        rw [h2]
        funext j; simp only [upd_apply]; split <;> rfl
      · have hann : announces s'.tab id (turns id n (s.tab, pc)).2 = announces (turns id n (s.tab, pc)).1 id (turns id n (s.tab, pc)).2 := by
          rw [h2, announces_put]
        simp only [hdk, Option.toList_none, List.append_nil] at h3
        simp only [hth, hann, upd_apply, if_true]
        rw [emits_add, ← List.append_assoc, ← h3]
        simp [emits]
      · intro j hj; simp only [upd_ne _ _ hj]; exact h4 j hj

include hρ hσ in
theorem inTurn_news {h : List RoomRace.Ev} {cs : List (Nat × Call)} (t : NewsInTurn h cs) :
    AllFree (run h) ∧ Same ρ σ (run h).tab (allAtOnce SetLib.absent ρ σ cs).1 ∧
      (announced h).map (asEvent ρ σ) = (allAtOnce SetLib.absent ρ σ cs).2 := by
  induction t with
  | nil =>
    refine ⟨fun k => ⟨rfl, rfl⟩, ⟨fun _ => rfl, fun _ => rfl, ?_, ?_, ?_, ?_⟩, rfl⟩ <;> simp [run]
  | @call h cs k id c n t hd ih =>
    obtain ⟨hf, hs, he⟩ := ih
    obtain ⟨s', l, ⟨m, h1, h1'⟩, h2, h3⟩ := says_call hρ hσ hs id c
    have hrun : run (h ++ .call k id c :: List.replicate n (.adv k)) =
        (List.replicate n (RoomRace.Ev.adv k)).foldl step { run h with tab := { (run h).tab with th := upd (run h).tab.th k (id, c.start) } } := by
      simp [run, step, RoomRace.step]
      have hk := hf k
      unfold FreeNow run at hk
      simp [hk.1, hk.2]
    obtain ⟨q, u, e1, e2, e3, e4⟩ := advs_news { run h with tab := { (run h).tab with th := upd (run h).tab.th k (id, c.start) } } k id c.start n
      (hf k).2 (by simp)
    rw [← hrun] at e1
    unfold announced
    rw [e1] at hd ⊢
    obtain ⟨hd1, hd2⟩ := hd
    rw [hd2] at e3
    simp only [Option.toList_none, List.append_nil] at e3
    -- the tables do not matter to the call
    have hput : ∀ q, turns id q ({ (run h).tab with th := upd (run h).tab.th k (id, c.start) }, c.start) =
        ({ (turns id q ((run h).tab, c.start)).1 with th := upd (run h).tab.th k (id, c.start) }, (turns id q ((run h).tab, c.start)).2) ∧
        emits id q ({ (run h).tab with th := upd (run h).tab.th k (id, c.start) }, c.start) = emits id q ((run h).tab, c.start) := by
      have gen : ∀ (f : Nat → Nat × PC) q s pc, turns id q ({ s with th := f }, pc) = ({ (turns id q (s, pc)).1 with th := f }, (turns id q (s, pc)).2) ∧
          emits id q ({ s with th := f }, pc) = emits id q (s, pc) := by
        intro f q
        induction q with
        | zero => intro s pc; exact ⟨rfl, rfl⟩
        | succ q ih =>
          intro s pc
          simp only [turns, emits, act_put, announces_put]
          exact ⟨(ih _ _).1, by rw [(ih _ _).2]⟩
      exact fun q => gen _ q _ _
    have hdone : (turns id q ((run h).tab, c.start)).2 = .done := by
      have : (u.tab.th k).2 = (turns id q ((run h).tab, c.start)).2 := by rw [e2, (hput q).1]; simp
      rw [← this]; exact hd1
    have hq : (turns id q ((run h).tab, c.start)).1 = s' := RoomRace.turns_unique id m q _ _ _ h1 hdone rfl
    have hl : emits id q ((run h).tab, c.start) = l := by rw [← h1']; exact emits_unique id q m _ hdone (by rw [h1])
    have ea : allAtOnce SetLib.absent ρ σ (cs ++ [(id, c)]) = ((atOnce SetLib.absent ρ σ (allAtOnce SetLib.absent ρ σ cs).1 (id, c)).1,
        (allAtOnce SetLib.absent ρ σ cs).2 ++ (atOnce SetLib.absent ρ σ (allAtOnce SetLib.absent ρ σ cs).1 (id, c)).2) := by
      simp [allAtOnce]
    refine ⟨fun j => ?_, ?_, ?_⟩
    · by_cases hj : j = k
      · rw [hj]; exact ⟨hd1, hd2⟩
      · refine ⟨?_, (e4 j hj).trans (hf j).2⟩
        rw [e2]; simp only [upd_ne _ _ hj]; exact (hf j).1
    · rw [e2, (hput q).1, hq, ea]
      exact RoomRace.same_th h2 _
    · rw [e3, (hput q).2, hl, ea, List.map_append, h3]
      congr 1

end Verif.RoomNews
