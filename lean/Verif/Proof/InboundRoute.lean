import Verif.Proof.InboundAfter

/-! # `Model/Inbound`: which packets are handled, and the end of the connection -/

namespace Verif.Inbound
open Verif Verif.Spec

/-! ## Closing -/

theorem connected_onclose (s : St) (a r : Nat) (reason : String) :
    isConnected (onclose s a reason) r = (isConnected s r && r != a) := by
  unfold onclose
  by_cases ha : isConnected s a = true
  · rw [if_pos ha]
    unfold isConnected
    simp only [out, setSock, List.getElem?_modify]
    cases e : s.socks[r]? with
    | none => simp
    | some k =>
      by_cases hr : a = r
      · subst hr; simp
      · have : (r != a) = true := by simpa using fun h : r = a => hr h.symm
        simp [hr, this]
  · rw [if_neg ha]
    by_cases hr : r = a
    · subst hr; simp at ha; simp [ha]
    · simp [hr]

theorem flatMap_congr {α β} (f g : α → List β) (l : List α) (h : ∀ x ∈ l, f x = g x) : l.flatMap f = l.flatMap g := by
  induction l with
  | nil => rfl
  | cons a l ih => rw [List.flatMap_cons, List.flatMap_cons, h a (by simp), ih fun x hx => h x (by simp [hx])]

theorem fold_close (reason : String) (l : List Nat) : ∀ s : St, l.Nodup →
    let s' := l.foldl (fun s ref => onclose s ref reason) s
    s'.log = s.log ++ l.flatMap (fun ref => if isConnected s ref then [.fired ref "disconnecting" [.str reason], .fired ref "disconnect" [.str reason]] else []) ∧
    (∀ r, isConnected s' r = (isConnected s r && !l.contains r)) ∧ s'.tasks = s.tasks ∧ s'.listening = s.listening ∧ s'.panicked = s.panicked ∧
    s'.socks.length = s.socks.length := by
  induction l with
  | nil => intro s _; simp
  | cons a l ih =>
    intro s hn
    have hn' := List.nodup_cons.1 hn
    obtain ⟨h1, h2, h3, h4, h5, h6⟩ := ih (onclose s a reason) hn'.2
    have hc := connected_onclose s a
    have hlog : (onclose s a reason).log = s.log ++ if isConnected s a then [.fired a "disconnecting" [.str reason], .fired a "disconnect" [.str reason]] else [] := by
      unfold onclose; split <;> simp [out, setSock]
    have hrest : (onclose s a reason).tasks = s.tasks ∧ (onclose s a reason).listening = s.listening ∧ (onclose s a reason).panicked = s.panicked ∧
        (onclose s a reason).socks.length = s.socks.length := by
      unfold onclose; split <;> simp [out, setSock]
    simp only [List.foldl_cons]
    refine ⟨?_, ?_, h3.trans hrest.1, h4.trans hrest.2.1, h5.trans hrest.2.2.1, h6.trans hrest.2.2.2⟩
    · rw [h1, hlog, List.flatMap_cons, List.append_assoc]
      congr 2
      refine flatMap_congr _ _ _ ?_
      intro r hr
      have : (r != a) = true := by
        simp only [bne_iff_ne, ne_eq]; rintro rfl; exact hn'.1 hr
      rw [hc, this, Bool.and_true]
    · intro r
      rw [h2, hc, List.contains_cons, Bool.not_or, Bool.and_assoc]
      rfl

theorem connected_lt (s : St) (r : Nat) (h : isConnected s r = true) : r < s.socks.length := by
  obtain ⟨k, hk, _⟩ := (isConnected_iff s r).1 h
  exact (List.getElem?_eq_some_iff.1 hk).1

theorem clientOnclose_spec (s : St) (reason : String) :
    (clientOnclose s reason).log = s.log ++ goodbyes s reason ∧ (∀ r, isConnected (clientOnclose s reason) r = false) ∧
    (clientOnclose s reason).tasks = s.tasks ∧ (clientOnclose s reason).listening = false ∧ (clientOnclose s reason).panicked = s.panicked := by
  obtain ⟨h1, h2, h3, h4, h5, _⟩ := fold_close reason (List.range s.socks.length) { s with listening := false } List.nodup_range
  refine ⟨h1, fun r => ?_, h3, h4, h5⟩
  show isConnected (List.foldl _ _ _) r = false
  rw [h2]
  cases hc : isConnected s r with
  | false => simp [show isConnected { s with listening := false } r = false from hc]
  | true =>
    have := connected_lt s r hc
    simp [this]

theorem fold_error (l : List Nat) : ∀ s : St,
    (l.foldl (fun s ref => if isConnected s ref then out s (.fired ref "error" [.null]) else s) s).log =
      s.log ++ l.flatMap (fun ref => if isConnected s ref then [.fired ref "error" [.null]] else []) := by
  induction l with
  | nil => intro s; simp
  | cons a l ih =>
    intro s
    rw [List.foldl_cons, ih, List.flatMap_cons]
    by_cases h : isConnected s a = true
    · simp only [h, if_true]
      have e : ∀ r, isConnected (out s (.fired a "error" [.null])) r = isConnected s r := fun _ => rfl
      simp only [e]
      simp [out]
    · simp only [h]
      simp

theorem onerror_log (s : St) : (onerror s).log = s.log ++ (List.range s.socks.length).flatMap (fun ref =>
    if ((s.socks[ref]?).map (·.connected)).getD false then [Obs.fired ref "error" [.null]] else []) ++ [.closed] := by
  unfold onerror
  show St.log _ ++ [_] = _
  rw [fold_error]
  rfl

/-! ## The table of namespaces -/

/-- The table says which socket the client has in a namespace. -/
def Tab (s : St) : Prop := ∀ n ref, (n, ref) ∈ s.nsps ↔ In s n ref

/-- Nothing happens to the table, or to the sockets as far as it is concerned. -/
structure SameTab (s s' : St) : Prop where
  nsps : s'.nsps = s.nsps
  inn : ∀ n ref, In s' n ref ↔ In s n ref

theorem SameTab.tab {s s' : St} (h : SameTab s s') (t : Tab s) : Tab s' := fun n ref => by rw [h.nsps, h.inn]; exact t n ref
theorem SameTab.refl (s : St) : SameTab s s := ⟨rfl, fun _ _ => Iff.rfl⟩
theorem SameTab.trans {a b c : St} (h : SameTab a b) (h' : SameTab b c) : SameTab a c :=
  ⟨h'.nsps.trans h.nsps, fun n r => (h'.inn n r).trans (h.inn n r)⟩
theorem SameTab.of {s s' : St} (h1 : s'.nsps = s.nsps) (h2 : s'.socks = s.socks) : SameTab s s' := ⟨h1, fun n r => by simp only [In, h2]⟩

theorem same_setSock (s : St) (r : Nat) (f : Sock → Sock) (hf : ∀ k, (f k).connected = k.connected ∧ (f k).nsp = k.nsp) : SameTab s (setSock s r f) := by
  refine ⟨rfl, fun n ref => ?_⟩
  unfold In setSock
  simp only [List.getElem?_modify]
  cases e : s.socks[ref]? with
  | none => simp
  | some k => by_cases h : r = ref <;> simp [h, hf]

theorem tab_setSock {s : St} (t : Tab s) (r : Nat) (f : Sock → Sock) (hf : ∀ k, (f k).connected = k.connected ∧ (f k).nsp = k.nsp) :
    Tab (setSock s r f) := (same_setSock s r f hf).tab t

theorem tab_dispatch {s : St} (t : Tab s) (r : Nat) (args : List JVal) : Tab (dispatch s r args) := by
  unfold dispatch; split <;> exact t

theorem deaf_dispatch (s : St) (r : Nat) (args : List JVal) : (dispatch s r args).listening = s.listening := by
  unfold dispatch; split <;> rfl

theorem same_foldl {α} (l : List α) (f : St → α → St) (hf : ∀ s a, SameTab s (f s a)) (s : St) : SameTab s (l.foldl f s) := by
  induction l generalizing s with
  | nil => exact SameTab.refl s
  | cons a l ih => exact (hf s a).trans (ih _)

theorem in_iff (s : St) (n : String) (r : Nat) : In s n r ↔ isConnected s r = true ∧ ∃ k, s.socks[r]? = some k ∧ k.nsp = n := by
  rw [isConnected_iff]
  constructor
  · rintro ⟨k, h1, h2, h3⟩; exact ⟨⟨k, h1, h3⟩, k, h1, h2⟩
  · rintro ⟨⟨k, h1, h3⟩, k', h4, h5⟩
    rw [h1] at h4; cases h4
    exact ⟨k, h1, h5, h3⟩

theorem nsp_onclose (s : St) (a r : Nat) (reason : String) :
    ((onclose s a reason).socks[r]?).map (·.nsp) = (s.socks[r]?).map (·.nsp) := by
  unfold onclose; split
  · simp only [out, setSock, List.getElem?_modify]
    cases s.socks[r]? with
    | none => simp
    | some k => by_cases h : a = r <;> simp [h]
  · rfl

theorem tab_onclose {s : St} (t : Tab s) (a : Nat) (reason : String) : Tab (onclose s a reason) := by
  intro n r
  have hn := nsp_onclose s a r reason
  have hin : In (onclose s a reason) n r ↔ In s n r ∧ r ≠ a := by
    rw [in_iff, in_iff, connected_onclose]
    have : (∃ k, (onclose s a reason).socks[r]? = some k ∧ k.nsp = n) ↔ ∃ k, s.socks[r]? = some k ∧ k.nsp = n := by
      rw [← Option.map_eq_some_iff, ← Option.map_eq_some_iff, hn]
    rw [this]
    simp only [Bool.and_eq_true, bne_iff_ne, ne_eq]
    constructor
    · rintro ⟨⟨h1, h2⟩, h3⟩; exact ⟨⟨h1, h3⟩, h2⟩
    · rintro ⟨⟨h1, h3⟩, h2⟩; exact ⟨⟨h1, h2⟩, h3⟩
  rw [hin, ← t n r]
  by_cases ha : isConnected s a = true
  · have : (onclose s a reason).nsps = s.nsps.filter (·.2 != a) := by unfold onclose; rw [if_pos ha]; rfl
    rw [this, List.mem_filter]
    simp
  · have : (onclose s a reason).nsps = s.nsps := by unfold onclose; rw [if_neg ha]
    rw [this]
    refine ⟨fun h => ⟨h, ?_⟩, fun h => h.1⟩
    rintro rfl
    exact ha ((in_iff s n r).1 ((t n r).1 h)).1

theorem tab_clientOnclose {s : St} (t : Tab s) (reason : String) : Tab (clientOnclose s reason) := by
  unfold clientOnclose
  have t0 : Tab { s with listening := false } := t
  generalize { s with listening := false } = s0 at t0
  generalize List.range s.socks.length = l
  induction l generalizing s0 with
  | nil => exact t0
  | cons a l ih => exact ih _ (tab_onclose t0 a reason)

theorem tab_task {s : St} (h : Tab s) (k : Nat) (ok : Bool) : Tab (runTask s k ok) := by
  have h0 : ∀ l, Tab { s with tasks := l } := fun l => h
  unfold runTask; split
  · unfold onpacket
    have ev : ∀ r p, Tab (onevent { s with tasks := s.tasks.set k none } r p) := by
      intro r p
      unfold onevent; split
      · exact tab_dispatch (s := out { s with tasks := s.tasks.set k none } _) h _ _
      · exact h
    have ac : ∀ r p, Tab (onack { s with tasks := s.tasks.set k none } r p) := by
      intro r p
      unfold onack; split
      · exact h
      · split
        · exact h
        · split
          · refine tab_setSock ?_ _ _ (fun _ => ⟨rfl, rfl⟩)
            split
            · exact h
            · unfold answerSingle; split <;> exact h
          · exact h
    split
    · exact ev _ _
    · exact ev _ _
    · exact ac _ _
    · exact ac _ _
    · exact tab_onclose (h0 _) _ _
    · exact h
    · exact h
  · unfold deliver; split
    · exact h
    · split
      · split <;> exact h
      · exact h
  · exact h
  · exact h
  · exact h

theorem same_onerror (s : St) : SameTab s (onerror s) := by
  refine (same_foldl (List.range s.socks.length) _ (fun s ref => ?_) s).trans (SameTab.of rfl rfl)
  split
  · exact SameTab.of rfl rfl
  · exact SameTab.refl s

theorem tab_step {s : St} (t : Tab s) (e : Ev) (hj : ∀ nsp, e = .join nsp → ∀ ref, ¬ In s nsp ref) : Tab (step s e) := by
  unfold step; split
  · exact t
  · split
    · split
      · unfold ondecoded; split
        · split
          · exact t
          · exact tab_clientOnclose (s := out s .closed) t _
        · split
          · exact tab_clientOnclose (s := out s .closed) t _
          · exact t
      · exact t
    · rename_i nsp
      have hno := hj nsp rfl
      intro n r
      have hin : In { s with socks := s.socks ++ [{ nsp := nsp }], nsps := (nsp, s.socks.length) :: s.nsps.filter (·.1 != nsp) } n r ↔
          In s n r ∨ (n = nsp ∧ r = s.socks.length) := by
        unfold In
        constructor
        · rintro ⟨k, h1, h2, h3⟩
          by_cases hr : r < s.socks.length
          · exact .inl ⟨k, by rwa [List.getElem?_append_left hr] at h1, h2, h3⟩
          · rw [List.getElem?_append_right (by omega)] at h1
            have hlt := (List.getElem?_eq_some_iff.1 h1).1
            simp only [List.length_singleton] at hlt
            have : r - s.socks.length = 0 := by omega
            rw [this] at h1
            simp only [List.getElem?_cons_zero, Option.some.injEq] at h1
            subst h1
            exact .inr ⟨h2.symm, by omega⟩
        · rintro (⟨k, h1, h2⟩ | ⟨rfl, rfl⟩)
          · exact ⟨k, by rw [List.getElem?_append_left (List.getElem?_eq_some_iff.1 h1).1]; exact h1, h2⟩
          · exact ⟨{ nsp := n }, by simp, rfl, rfl⟩
      rw [hin, ← t n r, List.mem_cons, List.mem_filter, Prod.mk.injEq]
      constructor
      · rintro (h | h)
        · exact .inr h
        · exact .inl h.1
      · rintro (h | h)
        · refine .inr ⟨h, ?_⟩
          simp only [bne_iff_ne, ne_eq]
          rintro rfl
          exact hno r ((t n r).1 h)
        · exact .inl h
    · exact tab_task t _ _
    · exact tab_setSock t _ _ (fun _ => ⟨rfl, rfl⟩)
    · exact tab_setSock t _ _ (fun _ => ⟨rfl, rfl⟩)
    · exact tab_setSock t _ _ (fun _ => ⟨rfl, rfl⟩)
    · exact tab_onclose t _ _
    · split
      · exact (same_onerror s).tab t
      · exact t
    · split
      · exact tab_clientOnclose t _
      · exact t

theorem tab_run (h : List Ev) (hj : JoinedOnce h) : Tab (run h) := by
  induction h using snocRec with
  | nil => intro n r; simp [run, In]
  | append_singleton h e ih =>
    rw [run_snoc]
    refine tab_step (ih fun h₁ nsp h₂ e' => hj h₁ nsp (h₂ ++ [e]) (by simp [e'])) e ?_
    rintro nsp rfl
    exact hj h nsp [] rfl

theorem find_none (s : St) (t : Tab s) (n : String) : s.nsps.find? (·.1 == n) = none ↔ ∀ ref, ¬ In s n ref := by
  rw [List.find?_eq_none]
  constructor
  · intro h ref hi
    exact h (n, ref) ((t n ref).2 hi) (by simp)
  · rintro h ⟨m, ref⟩ hm he
    simp only [beq_iff_eq] at he
    subst he
    exact h ref ((t m ref).1 hm)

theorem find_some (s : St) (t : Tab s) (n : String) (x : String × Nat) (h : s.nsps.find? (·.1 == n) = some x) : In s n x.2 := by
  have h1 := List.mem_of_find?_eq_some h
  have h2 := List.find?_some h
  simp only [beq_iff_eq] at h2
  obtain ⟨m, ref⟩ := x
  simp only at h2
  subst h2
  exact (t m ref).1 h1

/-! ## A connection that is not listened to -/

theorem deaf_step (s : St) (e : Ev) (h : s.listening = false) : (step s e).listening = false := by
  have keep : ∀ f : St → St, (∀ x, (f x).listening = x.listening) → (f s).listening = false := fun f hf => (hf s).trans h
  unfold step; split
  · exact h
  · split
    · rw [if_neg (by simp [h])]; exact h
    · exact h
    · rename_i k ok
      unfold runTask; split
      · unfold onpacket
        have ev : ∀ x r p, (onevent x r p).listening = x.listening := by
          intro x r p
          unfold onevent; split
          · exact deaf_dispatch _ _ _
          · rfl
        have ac : ∀ x r p, (onack x r p).listening = x.listening := by
          intro x r p
          unfold onack; split
          · rfl
          · split
            · rfl
            · split
              · split
                · rfl
                · unfold answerSingle; split <;> rfl
              · rfl
        split
        · rw [ev]; exact h
        · rw [ev]; exact h
        · rw [ac]; exact h
        · rw [ac]; exact h
        · unfold onclose; split <;> exact h
        · exact h
        · exact h
      · unfold deliver; split
        · exact h
        · split
          · split <;> exact h
          · exact h
      · exact h
      · exact h
      · exact h
    · exact h
    · exact h
    · exact h
    · unfold onclose; split <;> exact h
    · rw [if_neg (by simp [h])]; exact h
    · rw [if_neg (by simp [h])]; exact h

theorem deaf_run (h t : List Ev) (hl : (run h).listening = false) : (run (h ++ t)).listening = false := by
  induction t using snocRec with
  | nil => simpa using hl
  | append_singleton t e ih => rw [← List.append_assoc, run_snoc]; exact deaf_step _ e ih

theorem deaf_recv (s : St) (p : Packet) (h : s.listening = false) : step s (.recv p) = s := by
  unfold step; split
  · rfl
  · simp [h]

theorem notIn_of (s : St) (n : String) (h : s.socks.all (fun k => k.nsp != n || !k.connected) = true) (ref : Nat) : ¬ In s n ref := by
  rintro ⟨k, hk, hn, hc⟩
  have := List.all_eq_true.1 h k (List.mem_of_getElem? hk)
  simp [hn, hc] at this

/-- What has to be checked for a concrete history. -/
def joinedOnceB (h : List Ev) : Bool := (List.range h.length).all fun k =>
  match h[k]? with
  | some (.join nsp) => (run (h.take k)).socks.all (fun k => k.nsp != nsp || !k.connected)
  | _ => true

theorem joinedOnce_of (h : List Ev) (hb : joinedOnceB h = true) : JoinedOnce h := by
  intro h₁ nsp h₂ e
  have := List.all_eq_true.1 hb h₁.length (List.mem_range.2 (by rw [e]; simp))
  rw [e] at this
  simp only [List.getElem?_append_right (Nat.le_refl _), Nat.sub_self, List.getElem?_cons_zero, List.take_left'] at this
  exact notIn_of _ _ this

end Verif.Inbound
