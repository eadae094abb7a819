import Verif.Spec.SharedPkt

/-! # The packet of a broadcast in a cluster: invariants -/

namespace Verif.SharedPkt
open Verif Verif.Spec

theorem run_snoc (c : Cfg) (h : List Ev) (e : Ev) : run c (h ++ [e]) = step c (run c h) e := by simp [run]

theorem data_append (s : St) (l : List (List Val)) (p : Nat) (hp : p < s.heap.length) :
    (s.heap ++ l)[p]?.getD [] = s.data p := by
  unfold St.data; rw [List.getElem?_append_left hp]

/-! ## Every call reaches every server once -/

/-- How often `t` will still send call `k` to the sockets of server `j`. -/
def tok (j k : Nat) (t : Th) : Nat :=
  if t.call = k then
    match t.pc with
    | .publish => 1
    | .done => 0
    | _ => if t.server = j then 1 else 0
  else 0

def gotCount (s : St) (j k : Nat) : Nat := s.got.countP fun x => x.1 == j && x.2.1 == k

/-- Sent and to be sent make one. -/
def Tok (c : Cfg) (s : St) : Prop :=
  (∀ t ∈ s.ths, t.call < s.calls.length) ∧ (∀ x ∈ s.got, x.2.1 < s.calls.length) ∧
  ∀ j k, j < c.n → k < s.calls.length → (s.ths.map (tok j k)).sum + gotCount s j k = 1

theorem sum_others (n i j k call : Nat) (f : Nat → Nat) (hj : j < n) :
    ((others n i).map fun x => tok j k ⟨x, call, f x, .underway⟩).sum = if call = k ∧ j ≠ i then 1 else 0 := by
  have key : ∀ m, ((((List.range m).filter (· ≠ i)).map fun x => tok j k ⟨x, call, f x, .underway⟩).sum) =
      if call = k ∧ j ≠ i ∧ j < m then 1 else 0 := by
    intro m
    induction m with
    | zero => simp
    | succ m ih =>
      rw [List.range_succ, List.filter_append, List.map_append, List.sum_append, ih]
      by_cases hm : m = i
      · subst hm
        have : (List.filter (fun x => decide (x ≠ m)) [m]) = [] := by simp
        rw [this]
        simp only [List.map_nil, List.sum_nil, Nat.add_zero]
        by_cases hc : call = k
        · by_cases hjm : j = m
          · simp [hjm]
          · have : j < m ↔ j < m + 1 := by omega
            simp [hc, hjm, this]
        · simp [hc]
      · have : (List.filter (fun x => decide (x ≠ i)) [m]) = [m] := by simp [hm]
        rw [this]
        simp only [List.map_cons, List.map_nil, List.sum_cons, List.sum_nil, Nat.add_zero, tok]
        by_cases hc : call = k
        · simp only [hc, if_true, true_and]
          by_cases hjm : m = j
          · subst hjm; simp [hm]
          · have : j < m ↔ j < m + 1 := by omega
            simp [hjm, this]
        · simp [hc]
  unfold others
  rw [key n]; simp [hj]

theorem mapIdx_map {α β γ : Type} (f : Nat → α → β) (g : β → γ) (g' : α → γ) (hg : ∀ k a, g (f k a) = g' a) (l : List α) :
    (l.mapIdx f).map g = l.map g' := by
  apply List.ext_getElem?
  intro i
  simp only [List.getElem?_map, List.getElem?_mapIdx, Option.map_map]
  cases l[i]? with
  | none => rfl
  | some a => simp [hg]

theorem post_fields (c : Cfg) (s : St) (t : Th) : (post c s t).calls = s.calls ∧ (post c s t).got = s.got ∧
    ∃ l, (post c s t).ths = s.ths ++ l ∧ (∀ x ∈ l, x.call = t.call) ∧
      ∀ j k, j < c.n → (l.map (tok j k)).sum = if t.call = k ∧ j ≠ t.server then 1 else 0 := by
  unfold post; split
  · refine ⟨rfl, rfl, _, rfl, ?_, fun j k hj => ?_⟩
    · intro x hx
      obtain ⟨i, hi⟩ := List.getElem?_of_mem hx
      rw [List.getElem?_mapIdx] at hi
      cases he : (others c.n t.server)[i]? with
      | none => rw [he] at hi; simp at hi
      | some a => rw [he] at hi; simp at hi; rw [← hi]
    · rw [← sum_others c.n t.server j k t.call (fun _ => 0) hj]
      congr 1
      refine mapIdx_map _ _ _ (fun k' a => ?_) _
      simp [tok]
  · refine ⟨rfl, rfl, _, rfl, ?_, fun j k hj => ?_⟩
    · intro x hx
      obtain ⟨a, -, rfl⟩ := List.mem_map.1 hx
      rfl
    · rw [← sum_others c.n t.server j k t.call (fun _ => t.ptr) hj, List.map_map]
      rfl

theorem tok_step {c : Cfg} {s : St} (h : Tok c s) (e : Ev) : Tok c (step c s e) := by
  obtain ⟨h0, h1, h2⟩ := h
  cases e with
  | call i args offset =>
    simp only [step]; split
    · rename_i hi
      refine ⟨fun t ht => ?_, fun x hx => ?_, fun j k hj hk => ?_⟩
      · simp only [List.mem_append, List.mem_singleton, List.length_append, List.length_singleton] at ht ⊢
        rcases ht with ht | rfl
        · exact Nat.lt_succ_of_lt (h0 t ht)
        · exact Nat.lt_succ_self _
      · simp only [List.length_append, List.length_singleton]
        exact Nat.lt_succ_of_lt (h1 x hx)
      · simp only [List.length_append, List.length_singleton] at hk
        simp only [List.map_append, List.sum_append, List.map_cons, List.map_nil, List.sum_cons, List.sum_nil, gotCount]
        by_cases hkl : k < s.calls.length
        · have := h2 j k hj hkl
          have e0 : tok j k ⟨i, s.calls.length, s.heap.length, .publish⟩ = 0 := by
            simp only [tok]; rw [if_neg (by omega)]
          rw [e0]; simpa [gotCount] using this
        · have hke : k = s.calls.length := by omega
          subst hke
          have e1 : (s.ths.map (tok j s.calls.length)).sum = 0 := by
            rw [show s.ths.map (tok j s.calls.length) = s.ths.map fun _ => 0 from List.map_congr_left fun t ht => by
              simp only [tok]; rw [if_neg (by have := h0 t ht; omega)]]
            clear h0 h2
            induction s.ths with
            | nil => rfl
            | cons _ _ ih => simpa using ih
          have e2 : s.got.countP (fun x => x.1 == j && x.2.1 == s.calls.length) = 0 := by
            rw [List.countP_eq_zero]
            intro x hx
            have := h1 x hx
            have hne : ¬ x.2.1 = s.calls.length := by omega
            simp [hne]
          rw [e1, e2]; simp [tok]
    · exact ⟨h0, h1, h2⟩
  | encode k =>
    simp only [step]; split
    · rename_i t hk
      split
      · refine ⟨fun x hx => ?_, h1, fun j i hj hi => ?_⟩
        · rcases mem_of_set hx with hx | rfl
          · exact h0 x hx
          · exact h0 t (List.mem_of_getElem? hk)
        · have := sum_set (tok j i) s.ths k t { t with ptr := s.heap.length } hk
          have e1 : tok j i { t with ptr := s.heap.length } = tok j i t := by simp [tok]
          have h3 := h2 j i hj hi
          simp only [gotCount] at h3 ⊢
          omega
      · exact ⟨h0, h1, h2⟩
    · exact ⟨h0, h1, h2⟩
  | adv k =>
    simp only [step]; split
    · rename_i t hk
      have hm := List.mem_of_getElem? hk
      obtain ⟨u, hu⟩ : ∃ u, u = { t with pc := t.pc.next } := ⟨_, rfl⟩
      rw [← hu]
      have huc : u.call = t.call := by rw [hu]
      have hset : ∀ x ∈ s.ths.set k u, x.call < s.calls.length := by
        intro x hx
        rcases mem_of_set hx with hx | rfl
        · exact h0 x hx
        · rw [huc]; exact h0 t hm
      have hsum (j i : Nat) := sum_set (tok j i) s.ths k t u hk
      have calm : (∀ j i, tok j i u = tok j i t) → ∀ v : St, v.ths = s.ths.set k u → v.calls = s.calls → v.got = s.got → Tok c v := by
        intro he v v1 v2 v3
        refine ⟨by rw [v1, v2]; exact hset, by rw [v2, v3]; exact h1, fun j i hj hi => ?_⟩
        rw [v2] at hi
        have h3 := h2 j i hj hi
        have h4 := hsum j i
        rw [he] at h4
        simp only [gotCount, v1, v3] at h3 ⊢
        omega
      unfold act
      cases hpc : t.pc with
      | publish =>
        dsimp only
        obtain ⟨p1, p2, l, p3, p4, p5⟩ := post_fields c { s with ths := s.ths.set k u } t
        refine ⟨?_, ?_, ?_⟩
        · rw [p1, p3]
          intro x hx
          rcases List.mem_append.1 hx with hx | hx
          · exact hset x hx
          · rw [p4 x hx]; exact h0 t hm
        · rw [p1, p2]; exact h1
        · intro j i hj hi
          rw [p1] at hi
          have h3 := h2 j i hj hi
          have h4 := hsum j i
          simp only [gotCount, p2, p3, List.map_append, List.sum_append, p5 j i hj] at h3 ⊢
          have e1 : tok j i t = if t.call = i then 1 else 0 := by simp [tok, hpc]
          have e2 : tok j i u = if t.call = i then (if t.server = j then 1 else 0) else 0 := by simp [tok, hu, hpc, PC.next]
          rw [e1, e2] at h4
          by_cases hci : t.call = i
          · by_cases hsj : t.server = j
            · simp only [hci, hsj, if_true, ne_eq, not_true_eq_false, and_false, if_false] at h4 ⊢; omega
            · have : j ≠ t.server := fun h => hsj h.symm
              simp only [hci, hsj, this, if_true, if_false, ne_eq, not_false_eq_true, and_self] at h4 ⊢; omega
          · simp only [hci, if_false, false_and] at h4 ⊢; omega
      | underway => exact calm (fun j i => by simp [tok, hu, hpc, PC.next]) _ rfl rfl rfl
      | offset =>
        have := calm fun j i => by simp [tok, hu, hpc, PC.next]
        dsimp only; split
        · exact this _ rfl rfl rfl
        · exact this _ rfl rfl rfl
      | send =>
        dsimp only
        refine ⟨hset, ?_, fun j i hj hi => ?_⟩
        · intro x hx
          rcases List.mem_append.1 hx with hx | hx
          · exact h1 x hx
          · rw [List.mem_singleton.1 hx]; exact h0 t hm
        · have h3 := h2 j i hj hi
          have h4 := hsum j i
          simp only [gotCount, List.countP_append, List.countP_singleton] at h3 ⊢
          have e1 : tok j i t = if t.call = i then (if t.server = j then 1 else 0) else 0 := by simp [tok, hpc]
          have e2 : tok j i u = 0 := by simp [tok, hu, hpc, PC.next]
          have e3 : (if (t.server == j && t.call == i) = true then 1 else 0) = if t.call = i then (if t.server = j then 1 else 0) else 0 := by
            by_cases hci : t.call = i <;> by_cases hsj : t.server = j <;> simp [hci, hsj]
          rw [e3]
          rw [e1, e2] at h4
          omega
      | done => exact calm (fun j i => by simp [tok, hu, hpc, PC.next]) _ rfl rfl rfl
    · exact ⟨h0, h1, h2⟩

theorem tok_run (c : Cfg) (h : List Ev) : Tok c (run c h) := by
  induction h using snocRec with
  | nil => exact ⟨by simp [run], by simp [run], fun j k _ hk => by simp [run] at hk⟩
  | append_singleton h e ih => rw [run_snoc]; exact tok_step ih e

/-! ## What is sent -/

/-- What the packet of `t` contains, until it is sent. -/
def Content (c : Cfg) (s : St) (t : Th) : Prop :=
  ∃ cl, s.calls[t.call]? = some cl ∧ t.ptr < s.heap.length ∧
    (t.pc ≠ .done → s.data t.ptr = if t.pc = .send then sentFor c.stored cl else cl.args)

/-- Different calls and messages have different packets. -/
def Apart (s : St) : Prop := ∀ (a b : Nat) (x y : Th), s.ths[a]? = some x → s.ths[b]? = some y → a ≠ b → x.ptr ≠ y.ptr

structure Pk (c : Cfg) (s : St) : Prop where
  con : ∀ t ∈ s.ths, Content c s t
  dis : c.stored = true → Apart s
  got : ∀ x ∈ s.got, ∃ cl, s.calls[x.2.1]? = some cl ∧ x.2.2 = sentFor c.stored cl

theorem Content.frame {c : Cfg} {s v : St} {t : Th} (h : Content c s t) (hc : ∀ (i : Nat) cl, s.calls[i]? = some cl → v.calls[i]? = some cl)
    (hl : s.heap.length ≤ v.heap.length) (hd : v.data t.ptr = s.data t.ptr) : Content c v t := by
  obtain ⟨cl, h1, h2, h3⟩ := h
  exact ⟨cl, hc _ _ h1, by omega, fun hp => by rw [hd]; exact h3 hp⟩

theorem calls_snoc {s : St} (x : Call) (i : Nat) (cl : Call) (h : s.calls[i]? = some cl) : (s.calls ++ [x])[i]? = some cl := by
  rw [List.getElem?_append_left (List.getElem?_eq_some_iff.1 h).1]; exact h

theorem get_set {l : List Th} {k a : Nat} {t u x : Th} (hk : l[k]? = some t) (hx : (l.set k u)[a]? = some x) :
    (a = k ∧ x = u) ∨ (a ≠ k ∧ l[a]? = some x) := by
  by_cases e : a = k
  · subst e; rw [get_set_self hk] at hx; injection hx with hx; exact .inl ⟨rfl, hx.symm⟩
  · rw [List.getElem?_set, if_neg (Ne.symm e)] at hx; exact .inr ⟨e, hx⟩

theorem apart_set {l : List Th} {k : Nat} {t u : Th} {s : St} (hs : Apart s) (hl : s.ths = l) (hk : l[k]? = some t)
    (hu : ∀ (a : Nat) x, a ≠ k → l[a]? = some x → x.ptr ≠ u.ptr) {v : St} (hv : v.ths = l.set k u) : Apart v := by
  subst hl
  intro a b x y hx hy hab
  rw [hv] at hx hy
  rcases get_set hk hx with ⟨h1, rfl⟩ | ⟨h1, h2⟩ <;> rcases get_set hk hy with ⟨h3, rfl⟩ | ⟨h3, h4⟩
  · omega
  · exact fun e => hu b y h3 h4 e.symm
  · exact hu a x h1 h2
  · exact hs a b x y h2 h4 hab

theorem pk_step {c : Cfg} (hp : c.prompt = true ∨ c.stored = false) {s : St} (h : Pk c s) (e : Ev) : Pk c (step c s e) := by
  have ptr_lt : ∀ (a : Nat) x, s.ths[a]? = some x → x.ptr < s.heap.length := by
    intro a x hx
    obtain ⟨_, _, h2, _⟩ := h.con x (List.mem_of_getElem? hx); exact h2
  cases e with
  | call i args offset =>
    simp only [step]; split
    · refine ⟨fun t ht => ?_, fun hs a b x y hx hy hab => ?_, fun x hx => ?_⟩
      · rcases List.mem_append.1 ht with ht | ht
        · refine (h.con t ht).frame (fun i cl => calls_snoc _ i cl) (by simp) ?_
          obtain ⟨a, ha⟩ := List.getElem?_of_mem ht
          exact data_append s _ _ (ptr_lt a t ha)
        · rw [List.mem_singleton.1 ht]
          exact ⟨⟨i, args, offset⟩, by simp, by simp, fun _ => by simp [St.data]⟩
      · have key : ∀ (a : Nat) x, (s.ths ++ [⟨i, s.calls.length, s.heap.length, .publish⟩])[a]? = some x →
            (s.ths[a]? = some x ∧ x.ptr < s.heap.length) ∨ (a = s.ths.length ∧ x.ptr = s.heap.length) := by
          intro a x hx
          by_cases hl : a < s.ths.length
          · rw [List.getElem?_append_left hl] at hx; exact .inl ⟨hx, ptr_lt a x hx⟩
          · rw [List.getElem?_append_right (by omega)] at hx
            have : a - s.ths.length = 0 := by
              have := (List.getElem?_eq_some_iff.1 hx).1; simp at this; omega
            rw [this] at hx; simp at hx; exact .inr ⟨by omega, by rw [← hx]⟩
        rcases key a x hx with ⟨h1, h2⟩ | ⟨h1, h2⟩ <;> rcases key b y hy with ⟨h3, h4⟩ | ⟨h3, h4⟩
        · exact h.dis hs a b x y h1 h3 hab
        · omega
        · omega
        · omega
      · obtain ⟨cl, h1, h2⟩ := h.got x hx
        exact ⟨cl, calls_snoc _ _ _ h1, h2⟩
    · exact h
  | encode k =>
    simp only [step]; split
    · rename_i t hk
      split
      · rename_i hpc
        refine ⟨fun x hx => ?_, fun hs => ?_, h.got⟩
        · obtain ⟨a, ha⟩ := List.getElem?_of_mem hx
          rcases get_set hk ha with ⟨-, rfl⟩ | ⟨-, ha⟩
          · obtain ⟨cl, h1, h2, h3⟩ := h.con t (List.mem_of_getElem? hk)
            refine ⟨cl, h1, by simp, fun hq => ?_⟩
            rw [show St.data { s with heap := s.heap ++ [s.data t.ptr], ths := s.ths.set k { t with ptr := s.heap.length } } s.heap.length = s.data t.ptr by simp [St.data]]
            exact h3 hq
          · exact (h.con x (List.mem_of_getElem? ha)).frame (fun _ _ h => h) (by simp) (data_append s _ _ (ptr_lt a x ha))
        · refine apart_set (h.dis hs) rfl hk (u := { t with ptr := s.heap.length }) (fun a x ha hx => ?_) rfl
          have := ptr_lt a x hx
          simp only; omega
      · exact h
    · exact h
  | adv k =>
    simp only [step]; split
    · rename_i t hk
      have hm := List.mem_of_getElem? hk
      obtain ⟨cl, c1, c2, c3⟩ := h.con t hm
      obtain ⟨u, hu⟩ : ∃ u, u = { t with pc := t.pc.next } := ⟨_, rfl⟩
      rw [← hu]
      have huc : u.call = t.call := by rw [hu]
      have hup : u.ptr = t.ptr := by rw [hu]
      have hap : c.stored = true → ∀ v : St, v.ths = s.ths.set k u → Apart v := by
        intro hs v hv
        refine apart_set (h.dis hs) rfl hk (u := u) (fun a x ha hx => ?_) hv
        rw [hup]; exact h.dis hs a k x t hx hk ha
      have calm : (u.pc ≠ .done → s.data t.ptr = if u.pc = .send then sentFor c.stored cl else cl.args) →
          ∀ v : St, v.ths = s.ths.set k u → v.calls = s.calls → v.heap = s.heap → (∀ x ∈ v.got, ∃ cl, s.calls[x.2.1]? = some cl ∧ x.2.2 = sentFor c.stored cl) →
            Pk c v := by
        intro he v v1 v2 v3 v4
        refine ⟨fun x hx => ?_, fun hs => hap hs v v1, by rw [v2]; exact v4⟩
        rw [v1] at hx
        obtain ⟨a, ha⟩ := List.getElem?_of_mem hx
        rcases get_set hk ha with ⟨-, rfl⟩ | ⟨-, ha⟩
        · refine ⟨cl, by rw [v2, huc]; exact c1, by rw [v3, hup]; exact c2, fun hq => ?_⟩
          rw [hup, show v.data t.ptr = s.data t.ptr by unfold St.data; rw [v3]]; exact he hq
        · exact (h.con x (List.mem_of_getElem? ha)).frame (by rw [v2]; exact fun _ _ h => h) (by rw [v3]; exact Nat.le_refl _)
            (by unfold St.data; rw [v3])
      unfold act
      cases hpc : t.pc with
      | publish =>
        have hd : s.data t.ptr = cl.args := by have := c3 (by rw [hpc]; simp); rw [hpc] at this; simpa using this
        have hupc : u.pc = .offset := by rw [hu]; simp [hpc, PC.next]
        have base : Pk c { s with ths := s.ths.set k u } := calm (fun _ => by rw [hupc]; simpa using hd) _ rfl rfl rfl h.got
        have hd' : St.data { s with ths := s.ths.set k u } t.ptr = cl.args := hd
        have c2' : t.ptr < (({ s with ths := s.ths.set k u } : St)).heap.length := c2
        have c1' : (({ s with ths := s.ths.set k u } : St)).calls[t.call]? = some cl := c1
        dsimp only
        generalize ({ s with ths := s.ths.set k u } : St) = w at *
        have wlt : ∀ (a : Nat) x, w.ths[a]? = some x → x.ptr < w.heap.length := by
          intro a x hx
          obtain ⟨_, _, h2, _⟩ := base.con x (List.mem_of_getElem? hx); exact h2
        unfold post
        split
        · have key : ∀ (a : Nat) x, (w.ths ++ (others c.n t.server).mapIdx fun k j => ({ server := j, call := t.call, ptr := w.heap.length + k, pc := .underway } : Th))[a]? = some x →
              (w.ths[a]? = some x ∧ x.ptr < w.heap.length) ∨ (w.ths.length ≤ a ∧ x.ptr = w.heap.length + (a - w.ths.length) ∧ x.call = t.call ∧
                x.pc = .underway ∧ a - w.ths.length < (others c.n t.server).length) := by
            intro a x hx
            by_cases hl : a < w.ths.length
            · rw [List.getElem?_append_left hl] at hx; exact .inl ⟨hx, wlt a x hx⟩
            · rw [List.getElem?_append_right (by omega), List.getElem?_mapIdx] at hx
              cases he : (others c.n t.server)[a - w.ths.length]? with
              | none => rw [he] at hx; simp at hx
              | some j =>
                rw [he] at hx; simp at hx
                exact .inr ⟨by omega, by rw [← hx], by rw [← hx], by rw [← hx], (List.getElem?_eq_some_iff.1 he).1⟩
          refine ⟨fun x hx => ?_, fun hs a b x y hx hy hab => ?_, base.got⟩
          · obtain ⟨a, ha⟩ := List.getElem?_of_mem hx
            rcases key a x ha with ⟨h1, h2⟩ | ⟨h1, h2, h3, h4, h5⟩
            · exact (base.con x (List.mem_of_getElem? h1)).frame (fun _ _ h => h) (by simp) (data_append w _ _ h2)
            · refine ⟨cl, by rw [h3]; exact c1', by rw [h2]; simpa using h5, fun _ => ?_⟩
              rw [h4, h2]
              unfold St.data
              simp only [reduceCtorEq, if_false]
              rw [List.getElem?_append_right (by omega), List.getElem?_map, Nat.add_sub_cancel_left, List.getElem?_eq_getElem h5]
              simp only [List.map_map, Option.map_some, Option.getD_some]; exact hd'
          · rcases key a x hx with ⟨h1, h2⟩ | ⟨h1, h2, -⟩ <;> rcases key b y hy with ⟨h3, h4⟩ | ⟨h3, h4, -⟩
            · exact base.dis hs a b x y h1 h3 hab
            · omega
            · omega
            · omega
        · rename_i hpr
          have hst : c.stored = false := by
            rcases hp with hp | hp
            · exact absurd hp hpr
            · exact hp
          refine ⟨fun x hx => ?_, fun hs => absurd hs (by rw [hst]; simp), base.got⟩
          rcases List.mem_append.1 hx with hx | hx
          · exact (base.con x hx).frame (fun _ _ h => h) (Nat.le_refl _) rfl
          · obtain ⟨j, -, rfl⟩ := List.mem_map.1 hx
            exact ⟨cl, c1', c2', fun _ => by rw [if_neg (by simp)]; exact hd'⟩
      | underway =>
        refine calm (fun _ => ?_) _ rfl rfl rfl h.got
        have h1 := c3 (by rw [hpc]; simp)
        have h2 : u.pc = .offset := by rw [hu]; simp [hpc, PC.next]
        rw [h2]; rw [hpc] at h1; simpa using h1
      | offset =>
        have hd : s.data t.ptr = cl.args := by have := c3 (by rw [hpc]; simp); rw [hpc] at this; simpa using this
        have h2 : u.pc = .send := by rw [hu]; simp [hpc, PC.next]
        dsimp only; split
        · rename_i hs
          refine ⟨fun x hx => ?_, fun hs => hap hs _ rfl, h.got⟩
          obtain ⟨a, ha⟩ := List.getElem?_of_mem hx
          rcases get_set hk ha with ⟨-, rfl⟩ | ⟨hne, ha⟩
          · refine ⟨cl, by rw [huc]; exact c1, by simp only [St.extend, List.length_set]; rw [hup]; exact c2, fun _ => ?_⟩
            rw [h2, hup]
            have e1 : s.heap[t.ptr]?.getD [] = cl.args := hd
            simp only [if_true, St.extend, St.data, List.getElem?_set_self c2, Option.getD_some, sentFor, hs, c1, Option.map_some, e1]
          · refine (h.con x (List.mem_of_getElem? ha)).frame (fun _ _ h => h) (by simp [St.extend]) ?_
            have := h.dis hs a k x t ha hk hne
            simp only [St.extend, St.data, List.getElem?_set, if_neg (Ne.symm this)]
        · rename_i hs
          refine calm (fun _ => ?_) _ rfl rfl rfl h.got
          rw [h2]; simp [hd, sentFor, hs]
      | send =>
        have h2 : u.pc = .done := by rw [hu]; simp [hpc, PC.next]
        dsimp only
        refine calm (fun hq => absurd h2 hq) _ rfl rfl rfl ?_
        intro x hx
        rcases List.mem_append.1 hx with hx | hx
        · exact h.got x hx
        · rw [List.mem_singleton.1 hx]
          refine ⟨cl, c1, ?_⟩
          have := c3 (by rw [hpc]; simp)
          rw [hpc] at this; rw [if_pos rfl] at this; exact this
      | done =>
        have h2 : u.pc = .done := by rw [hu]; simp [hpc, PC.next]
        exact calm (fun hq => absurd h2 hq) _ rfl rfl rfl h.got
    · exact h

theorem pk_run (c : Cfg) (hp : c.prompt = true ∨ c.stored = false) (h : List Ev) : Pk c (run c h) := by
  induction h using snocRec with
  | nil => exact ⟨by simp [run], fun _ a b x y hx => by simp [run] at hx, by simp [run]⟩
  | append_singleton h e ih => rw [run_snoc]; exact pk_step hp ih e

end Verif.SharedPkt
