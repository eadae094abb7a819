import Verif.Proof.Inbound

/-! # `Model/Inbound`: what a socket does after it was disconnected -/

namespace Verif.Inbound
open Verif Verif.Spec

theorem countP_set {α} (f : α → Bool) (l : List α) (k : Nat) (x y : α) (h : l[k]? = some x) :
    (l.set k y).countP f + (if f x then 1 else 0) = l.countP f + (if f y then 1 else 0) := by
  induction l generalizing k with
  | nil => simp at h
  | cons a l ih =>
    cases k with
    | zero =>
      simp only [List.getElem?_cons_zero, Option.some.injEq] at h; subst h
      simp only [List.set_cons_zero, List.countP_cons]; omega
    | succ k =>
      simp only [List.getElem?_cons_succ] at h
      have := ih k h
      simp only [List.set_cons_succ, List.countP_cons]; omega

/-- From `a` to `b`, socket `ref` being disconnected: who called what, and what is left. -/
structure After (ref : Nat) (a b : St) : Prop where
  down : isDown b ref = true
  log : ∃ new, b.log = a.log ++ new ∧
    new.countP (isHandled ref) + b.tasks.countP (hasPacket ref) ≤ a.tasks.countP (hasPacket ref) ∧
    new.countP (isEvent ref) + b.tasks.countP (hasEvent ref) ≤ a.tasks.countP (hasEvent ref) ∧
    (a.tasks.countP (worksFor ref) = 0 → b.tasks.countP (worksFor ref) = 0 ∧ new.countP (isCall ref) = 0)

variable {ref : Nat}

theorem After.refl {a : St} (h : isDown a ref = true) : After ref a a := ⟨h, [], by simp, by simp, by simp, by simp⟩

theorem After.trans {a b c : St} (h1 : After ref a b) (h2 : After ref b c) : After ref a c := by
  obtain ⟨n1, l1, p1, e1, w1⟩ := h1.log
  obtain ⟨n2, l2, p2, e2, w2⟩ := h2.log
  refine ⟨h2.down, n1 ++ n2, by rw [l2, l1]; simp, ?_, ?_, fun h => ?_⟩
  · rw [List.countP_append]; omega
  · rw [List.countP_append]; omega
  · obtain ⟨a1, a2⟩ := w1 h
    obtain ⟨b1, b2⟩ := w2 a1
    exact ⟨b1, by rw [List.countP_append]; omega⟩

/-- A step that observes nothing of `ref` and starts nothing for it. -/
theorem After.other {a b : St} (hd : isDown b ref = true) (o : List Obs) (hl : b.log = a.log ++ o) (ho : ∀ x ∈ o, isCall ref x = false)
    (u : List (Option Task)) (ht : b.tasks = a.tasks ++ u) (hu : ∀ x ∈ u, worksFor ref x = false) : After ref a b := by
  have z1 : o.countP (isHandled ref) = 0 := by
    rw [List.countP_eq_zero]; intro x hx; have := ho x hx; cases x <;> simp_all [isHandled, isCall]
  have z2 : o.countP (isEvent ref) = 0 := by
    rw [List.countP_eq_zero]; intro x hx; have := ho x hx; cases x <;> simp_all [isEvent, isCall]
  have z3 : o.countP (isCall ref) = 0 := by
    rw [List.countP_eq_zero]; intro x hx; simp [ho x hx]
  have y1 : u.countP (hasPacket ref) = 0 := by
    rw [List.countP_eq_zero]; intro x hx; have := hu x hx
    rcases x with _ | x
    · simp [hasPacket]
    · cases x <;> simp_all [hasPacket, worksFor]
  have y2 : u.countP (hasEvent ref) = 0 := by
    rw [List.countP_eq_zero]; intro x hx; have := hu x hx
    rcases x with _ | x
    · simp [hasEvent]
    · cases x <;> simp_all [hasEvent, worksFor]
  have y3 : u.countP (worksFor ref) = 0 := by
    rw [List.countP_eq_zero]; intro x hx; simp [hu x hx]
  refine ⟨hd, o, hl, ?_, ?_, fun h => ?_⟩ <;> rw [ht, List.countP_append] <;> omega

theorem after_out {a : St} (hd : isDown a ref = true) (o : Obs) (ho : isCall ref o = false) : After ref a (out a o) :=
  .other hd [o] rfl (by simpa using ho) [] (by simp [out]) (by simp)

theorem after_spawn {a : St} (hd : isDown a ref = true) (t : Task) (ht : worksFor ref (some t) = false) : After ref a (spawn a t) :=
  .other hd [] (by simp [spawn]) (by simp) [some t] rfl (by simpa using ht)

theorem down_setSock {a : St} (hd : isDown a ref = true) (r : Nat) (f : Sock → Sock)
    (hf : ∀ k, k.connected = false → (f k).connected = false) : isDown (setSock a r f) ref = true := by
  rw [isDown_setSock]
  unfold isDown at hd
  cases e : a.socks[ref]? with
  | none => simp [e] at hd
  | some k =>
    simp only [e, Bool.not_eq_true'] at hd ⊢
    split
    · exact hf k hd
    · exact hd

theorem after_setSock {a : St} (hd : isDown a ref = true) (r : Nat) (f : Sock → Sock)
    (hf : ∀ k, k.connected = false → (f k).connected = false) : After ref a (setSock a r f) :=
  .other (down_setSock hd r f hf) [] (by simp [setSock]) (by simp) [] (by simp [setSock]) (by simp)

theorem notConnected {a : St} (hd : isDown a ref = true) : isConnected a ref = false := by
  unfold isDown at hd; unfold isConnected
  cases e : a.socks[ref]? with
  | none => rfl
  | some k => simpa [e] using hd

theorem after_onclose {a : St} (hd : isDown a ref = true) (r : Nat) (reason : String) : After ref a (onclose a r reason) := by
  unfold onclose
  by_cases hc : isConnected a r = true
  · rw [if_pos hc]
    have hne : r ≠ ref := by rintro rfl; rw [notConnected hd] at hc; simp at hc
    refine .other ?_ [.fired r "disconnecting" [.str reason], .fired r "disconnect" [.str reason]] (by simp [out, setSock])
      (by simp [isCall, hne]) [] (by simp [out, setSock]) (by simp)
    have := down_setSock (a := out a (.fired r "disconnecting" [.str reason])) (ref := ref) hd r ({ · with connected := false }) (fun _ _ => rfl)
    exact this
  · rw [if_neg hc]; exact .refl hd

theorem after_foldl {α} (l : List α) (f : St → α → St) (hf : ∀ s a, isDown s ref = true → After ref s (f s a)) {s : St}
    (hd : isDown s ref = true) : After ref s (l.foldl f s) := by
  induction l generalizing s with
  | nil => exact .refl hd
  | cons a l ih => exact (hf s a hd).trans (ih (hf s a hd).down)

theorem after_clientOnclose {a : St} (hd : isDown a ref = true) (reason : String) : After ref a (clientOnclose a reason) := by
  have h0 : After ref a { a with listening := false } := .other hd [] (by simp) (by simp) [] (by simp) (by simp)
  exact h0.trans (after_foldl _ _ (fun s r h => after_onclose h r reason) h0.down)

theorem after_clientClose {a : St} (hd : isDown a ref = true) : After ref a (clientClose a) :=
  (after_out hd .closed rfl).trans (after_clientOnclose (a := out a .closed) hd _)

/-- The sockets a client is in are connected. -/
def Listed (s : St) : Prop := ∀ x ∈ s.nsps, isConnected s x.2 = true

theorem connected_setSock (s : St) (r j : Nat) (f : Sock → Sock) (hf : ∀ k, (f k).connected = k.connected) :
    isConnected (setSock s r f) j = isConnected s j := by
  unfold isConnected setSock
  simp only [List.getElem?_modify]
  cases e : s.socks[j]? with
  | none => simp
  | some k => by_cases h : r = j <;> simp [h, hf]

theorem listed_onclose {s : St} (h : Listed s) (r : Nat) (reason : String) : Listed (onclose s r reason) := by
  unfold onclose; split
  · intro x hx
    simp only [out, setSock, List.mem_filter, bne_iff_ne, ne_eq] at hx
    have := h x hx.1
    unfold isConnected at this ⊢
    simp only [out, setSock, List.getElem?_modify]
    cases e : s.socks[x.2]? with
    | none => simp [e] at this
    | some k =>
      have hne : r ≠ x.2 := fun e => hx.2 e.symm
      simp only [e, Option.map_some, Option.getD_some] at this
      simpa [hne] using this
  · exact h

theorem listed_foldl {α} (l : List α) (f : St → α → St) (hf : ∀ s a, Listed s → Listed (f s a)) {s : St} (h : Listed s) :
    Listed (l.foldl f s) := by
  induction l generalizing s with
  | nil => exact h
  | cons a l ih => exact ih (hf _ _ h)

theorem listed_clientOnclose {s : St} (h : Listed s) (reason : String) : Listed (clientOnclose s reason) :=
  listed_foldl _ _ (fun _ r h => listed_onclose h r reason) h

theorem listed_setSock {s : St} (h : Listed s) (r : Nat) (f : Sock → Sock) (hf : ∀ k, (f k).connected = k.connected) :
    Listed (setSock s r f) := fun x hx => by rw [connected_setSock s r _ f hf]; exact h x hx

theorem listed_dispatch {s : St} (h : Listed s) (r : Nat) (args : List JVal) : Listed (dispatch s r args) := by
  unfold dispatch; split <;> exact h

theorem listed_task {s : St} (h : Listed s) (k : Nat) (ok : Bool) : Listed (runTask s k ok) := by
  unfold runTask; split
  · unfold onpacket; split
    · unfold onevent; split
      · exact listed_dispatch (s := out { s with tasks := s.tasks.set k none } _) h _ _
      · exact h
    · unfold onevent; split
      · exact listed_dispatch (s := out { s with tasks := s.tasks.set k none } _) h _ _
      · exact h
    iterate 2
      · unfold onack; split
        · exact h
        · split
          · exact h
          · split
            · refine listed_setSock ?_ _ _ (fun _ => rfl)
              split
              · exact h
              · unfold answerSingle; split <;> exact h
            · exact h
    · exact listed_onclose (s := { s with tasks := s.tasks.set k none }) h _ _
    · exact h
    · exact h
  · unfold deliver; split
    · exact h
    · split
      · split <;> exact h
      · exact h
  · exact h
  · exact h
  · exact h

theorem listed_step {s : St} (h : Listed s) (e : Ev) : Listed (step s e) := by
  unfold step; split
  · exact h
  · split
    · split
      · unfold ondecoded; split
        · split
          · exact h
          · exact listed_clientOnclose (s := out s .closed) h _
        · split
          · exact listed_clientOnclose (s := out s .closed) h _
          · exact h
      · exact h
    · rename_i nsp
      intro x hx
      have old : ∀ y, isConnected s y = true → ((s.socks ++ [{ nsp := nsp }])[y]?.map (·.connected)).getD false = true := by
        intro y hy
        unfold isConnected at hy
        cases e : s.socks[y]? with
        | none => simp [e] at hy
        | some k =>
          have hlt := (List.getElem?_eq_some_iff.1 e).1
          rw [List.getElem?_append_left hlt]; exact hy
      rcases List.mem_cons.1 hx with rfl | hx
      · simp [isConnected]
      · exact old _ (h x (List.mem_filter.1 hx).1)
    · exact listed_task h _ _
    · exact listed_setSock h _ _ (fun _ => rfl)
    · exact listed_setSock h _ _ (fun _ => rfl)
    · exact listed_setSock h _ _ (fun _ => rfl)
    · exact listed_onclose h _ _
    · split
      · refine listed_foldl (s := s) _ _ (fun s r h => ?_) h
        split <;> exact h
      · exact h
    · split
      · exact listed_clientOnclose h _
      · exact h

theorem listed_run (h : List Ev) : Listed (run h) := by
  induction h using snocRec with
  | nil => intro x hx; simp [run] at hx
  | append_singleton h e ih => rw [run_snoc]; exact listed_step ih e

theorem count_clear {a : St} {k : Nat} {t : Option Task} (hk : a.tasks[k]? = some t) (f : Option Task → Bool) (hf : f none = false) :
    (a.tasks.set k none).countP f + (if f t then 1 else 0) = a.tasks.countP f := by
  have := countP_set f a.tasks k t none hk
  rw [hf] at this; simpa using this

/-- The end of a goroutine. -/
theorem After.clear {a b : St} {k : Nat} {t : Option Task} (hk : a.tasks[k]? = some t)
    (h : After ref { a with tasks := a.tasks.set k none } b) : After ref a b := by
  obtain ⟨n, l, p, e, w⟩ := h.log
  have c1 := count_clear hk (hasPacket ref) rfl
  have c2 := count_clear hk (hasEvent ref) rfl
  have c3 := count_clear hk (worksFor ref) rfl
  refine ⟨h.down, n, l, ?_, ?_, fun h0 => w ?_⟩
  · simp only at p; omega
  · simp only at e; omega
  · simp only; omega

/-- A goroutine of socket `ref` goes on: it ends, calls `o`, and starts `u`. -/
theorem After.mine {a b : St} {k : Nat} {t : Task} (hk : a.tasks[k]? = some (some t)) (hw : worksFor ref (some t) = true)
    (hd : isDown b ref = true) (o : List Obs) (hl : b.log = a.log ++ o) (u : List (Option Task)) (ht : b.tasks = a.tasks.set k none ++ u)
    (h1 : o.countP (isHandled ref) + u.countP (hasPacket ref) ≤ if hasPacket ref (some t) then 1 else 0)
    (h2 : o.countP (isEvent ref) + u.countP (hasEvent ref) ≤ if hasEvent ref (some t) then 1 else 0) : After ref a b := by
  have c1 := count_clear hk (hasPacket ref) rfl
  have c2 := count_clear hk (hasEvent ref) rfl
  refine ⟨hd, o, hl, ?_, ?_, fun h0 => ?_⟩
  · rw [ht, List.countP_append]; omega
  · rw [ht, List.countP_append]; omega
  · rw [List.countP_eq_zero] at h0
    exact absurd hw (h0 _ (List.mem_of_getElem? hk))

theorem after_onack_other {a : St} (hd : isDown a ref = true) {r : Nat} (hne : r ≠ ref) (p : Packet) : After ref a (onack a r p) := by
  have sock : ∀ {s : St} (f : Sock → Sock), (∀ k, (f k).connected = k.connected) → isDown s ref = true → After ref s (setSock s r f) :=
    fun f hf h => after_setSock h _ _ (fun k hk => by rw [hf]; exact hk)
  unfold onack; split
  · exact .refl hd
  · rename_i id hid
    split
    · exact .refl hd
    · rename_i f hf
      split
      · rename_i l _
        cases f with
        | plain =>
          have h1 := after_out hd (.answered r id l) (by simp [isCall, hne])
          exact h1.trans (sock _ (fun _ => rfl) h1.down)
        | single =>
          have h1 : After ref a (answerSingle a r id l) := by
            unfold answerSingle; split
            · exact after_out hd _ (by simp [isCall, hne])
            · exact .other hd [] (by simp [panic]) (by simp) [] (by simp [panic]) (by simp)
            · exact .refl hd
          exact h1.trans (sock _ (fun _ => rfl) h1.down)
      · exact .other hd [] (by simp [panic]) (by simp) [] (by simp [panic]) (by simp)

theorem after_onevent_other {a : St} (hd : isDown a ref = true) {r : Nat} (hne : r ≠ ref) (p : Packet) : After ref a (onevent a r p) := by
  unfold onevent; split
  · have key (args : List JVal) : After ref a (dispatch (out a (.catchAll r args)) r args) := by
      have h1 := after_out hd (.catchAll r args) (by simp [isCall, hne])
      refine h1.trans ?_
      unfold dispatch; split
      · exact after_spawn h1.down _ (by simp [worksFor, hne])
      · exact after_spawn h1.down _ (by simp [worksFor, hne])
    exact key _
  · exact .other hd [] (by simp [panic]) (by simp) [] (by simp [panic]) (by simp)

theorem after_onpacket_other {a : St} (hd : isDown a ref = true) {r : Nat} (hne : r ≠ ref) (p : Packet) : After ref a (onpacket a r p) := by
  unfold onpacket; split
  · exact after_onevent_other hd hne p
  · exact after_onevent_other hd hne p
  · exact after_onack_other hd hne p
  · exact after_onack_other hd hne p
  · exact after_onclose hd _ _
  · exact .refl hd
  · exact .refl hd

theorem onevent_shape (a : St) (r : Nat) (p : Packet) :
    (onevent a r p).socks = a.socks ∧ ∃ o u, (onevent a r p).log = a.log ++ o ∧ (onevent a r p).tasks = a.tasks ++ u ∧
      o.countP (isHandled r) ≤ 1 ∧ o.countP (isEvent r) = 0 ∧ u.countP (hasPacket r) = 0 ∧ u.countP (hasEvent r) = 0 := by
  unfold onevent; split
  · have key (args : List JVal) : (dispatch (out a (.catchAll r args)) r args).socks = a.socks ∧
        ∃ o u, (dispatch (out a (.catchAll r args)) r args).log = a.log ++ o ∧ (dispatch (out a (.catchAll r args)) r args).tasks = a.tasks ++ u ∧
          o.countP (isHandled r) ≤ 1 ∧ o.countP (isEvent r) = 0 ∧ u.countP (hasPacket r) = 0 ∧ u.countP (hasEvent r) = 0 := by
      unfold dispatch; split
      · exact ⟨rfl, [.catchAll r args], [some (.deliver r args true)], rfl, rfl, by simp [isHandled], by simp [isEvent], by simp [hasPacket], by simp [hasEvent]⟩
      · exact ⟨rfl, [.catchAll r args], [some (.gate r args)], rfl, rfl, by simp [isHandled], by simp [isEvent], by simp [hasPacket], by simp [hasEvent]⟩
    exact key _
  · exact ⟨rfl, [], [], by simp [panic], by simp [panic], by simp, by simp, by simp, by simp⟩

theorem onack_shape {a : St} {r : Nat} (hd : isDown a r = true) (p : Packet) :
    isDown (onack a r p) r = true ∧ ∃ o, (onack a r p).log = a.log ++ o ∧ (onack a r p).tasks = a.tasks ∧
      o.countP (isHandled r) ≤ 1 ∧ o.countP (isEvent r) = 0 := by
  have none' : isDown a r = true ∧ ∃ o, a.log = a.log ++ o ∧ a.tasks = a.tasks ∧ o.countP (isHandled r) ≤ 1 ∧ o.countP (isEvent r) = 0 :=
    ⟨hd, [], by simp, rfl, by simp, by simp⟩
  unfold onack; split
  · exact none'
  · rename_i id hid
    split
    · exact none'
    · rename_i f hf
      split
      · rename_i l _
        cases f with
        | plain =>
          exact ⟨down_setSock (a := out a (.answered r id l)) hd _ _ (fun _ h => h), [.answered r id l], rfl, rfl, by simp [isHandled], by simp [isEvent]⟩
        | single =>
          simp only [answerSingle]
          split
          · exact ⟨down_setSock (a := out a _) hd _ _ (fun _ h => h), [.answered r id _], rfl, rfl, by simp [isHandled], by simp [isEvent]⟩
          · exact ⟨down_setSock (a := panic a) hd _ _ (fun _ h => h), [], by simp [setSock, panic], rfl, by simp, by simp⟩
          · exact ⟨down_setSock hd _ _ (fun _ h => h), [], by simp [setSock], rfl, by simp, by simp⟩
      · exact ⟨hd, [], by simp [panic], rfl, by simp, by simp⟩

theorem after_task {a : St} (hd : isDown a ref = true) (k : Nat) (ok : Bool) : After ref a (runTask a k ok) := by
  unfold runTask
  split
  · rename_i r p hk
    by_cases hne : r = ref
    · subst hne
      have hw : worksFor r (some (.onpacket r p)) = true := by simp [worksFor]
      have hp : (if hasPacket r (some (.onpacket r p)) then 1 else 0) = 1 := by simp [hasPacket]
      have ev : After r a (onevent { a with tasks := a.tasks.set k none } r p) := by
        obtain ⟨s, o, u, l, t, c1, c2, c3, c4⟩ := onevent_shape { a with tasks := a.tasks.set k none } r p
        refine .mine hk hw (by unfold isDown at *; rw [s]; exact hd) o l u t ?_ ?_
        · rw [hp, c3]; exact c1
        · rw [c2, c4]; exact Nat.zero_le _
      have ac : After r a (onack { a with tasks := a.tasks.set k none } r p) := by
        obtain ⟨s, o, l, t, c1, c2⟩ := onack_shape (a := { a with tasks := a.tasks.set k none }) hd p
        refine .mine hk hw s o l [] (by rw [t]; simp) ?_ ?_
        · rw [hp]; simpa using c1
        · rw [c2]; simp
      have nil : After r a { a with tasks := a.tasks.set k none } := .clear hk (.refl hd)
      unfold onpacket; split
      · exact ev
      · exact ev
      · exact ac
      · exact ac
      · exact nil.trans (after_onclose nil.down _ _)
      · exact nil
      · exact nil
    · exact .clear hk (after_onpacket_other (a := { a with tasks := a.tasks.set k none }) hd hne p)
  · rename_i r args ok' hk
    by_cases hne : r = ref
    · subst hne
      have hw : worksFor r (some (.deliver r args ok')) = true := by simp [worksFor]
      unfold deliver
      by_cases e : ok' = false
      · rw [if_pos e]
        exact .mine hk hw hd [.fired r "error" [.null]] rfl [] (by simp [out]) (by simp [isHandled]) (by simp [isEvent])
      · rw [if_neg e, if_neg (by rw [show isConnected { a with tasks := a.tasks.set k none } r = isConnected a r from rfl, notConnected hd]; simp)]
        exact .clear hk (.refl hd)
    · refine .clear hk ?_
      have hd' : isDown { a with tasks := a.tasks.set k none } ref = true := hd
      unfold deliver
      split
      · exact after_out hd' _ (by simp [isCall, hne])
      · split
        · split
          · exact after_spawn hd' _ (by simp [worksFor, hne])
          · exact .other hd' [] (by simp [panic]) (by simp) [] (by simp [panic]) (by simp)
        · exact .refl hd'
  · rename_i r name args hk
    by_cases hne : r = ref
    · subst hne
      refine .mine hk (by simp [worksFor]) hd [.fired r name args] rfl [] (by simp [out]) (by simp [isHandled]) ?_
      simp only [hasEvent, beq_self_eq_true, if_true, List.countP_nil, Nat.add_zero]
      exact List.countP_le_length
    · exact .clear hk (after_out (a := { a with tasks := a.tasks.set k none }) hd _ (by simp [isCall, hne]))
  · rename_i r args hk
    by_cases hne : r = ref
    · subst hne
      refine ⟨hd, [], by simp [spawn], by simp [spawn, hasPacket], by simp [spawn, hasEvent], fun h0 => ?_⟩
      rw [List.countP_eq_zero] at h0
      exact absurd (by simp [worksFor]) (h0 _ (List.mem_of_getElem? hk))
    · exact after_spawn hd _ (by simp [worksFor, hne])
  · exact .refl hd

theorem after_step {a : St} (hl : Listed a) (hd : isDown a ref = true) (e : Ev) : After ref a (step a e) := by
  unfold step; split
  · exact .refl hd
  · split
    · split
      · unfold ondecoded; split
        · split
          · exact after_out hd _ rfl
          · exact after_clientClose hd
        · rename_i x r hf
          split
          · exact after_clientClose hd
          · refine after_spawn hd _ ?_
            have hm := hl _ (List.mem_of_find?_eq_some hf)
            have : r ≠ ref := by rintro rfl; simp only at hm; rw [notConnected hd] at hm; simp at hm
            simp [worksFor, this]
      · exact .refl hd
    · refine .other ?_ [] (by simp) (by simp) [] (by simp) (by simp)
      unfold isDown at *
      cases e : a.socks[ref]? with
      | none => simp [e] at hd
      | some k =>
        have hlt := (List.getElem?_eq_some_iff.1 e).1
        simp only [List.getElem?_append_left hlt, e]; simpa [e] using hd
    · exact after_task hd _ _
    · exact after_setSock hd _ _ (fun _ h => h)
    · exact after_setSock hd _ _ (fun _ h => h)
    · exact after_setSock hd _ _ (fun _ h => h)
    · exact after_onclose hd _ _
    · split
      · unfold onerror
        have h1 : After ref a ((List.range a.socks.length).foldl (fun s r => if isConnected s r then out s (.fired r "error" [.null]) else s) a) := by
          refine after_foldl _ _ (fun s r h => ?_) hd
          by_cases hc : isConnected s r = true
          · rw [if_pos hc]
            have : r ≠ ref := by rintro rfl; rw [notConnected h] at hc; simp at hc
            exact after_out h _ (by simp [isCall, this])
          · rw [if_neg hc]; exact .refl h
        exact h1.trans (after_out h1.down _ rfl)
      · exact .refl hd
    · split
      · exact after_clientOnclose hd _
      · exact .refl hd

theorem after_run (h t : List Ev) (hd : isDown (run h) ref = true) : After ref (run h) (run (h ++ t)) := by
  induction t using snocRec with
  | nil => simpa using After.refl hd
  | append_singleton t e ih =>
    rw [← List.append_assoc, run_snoc]
    exact ih.trans (after_step (listed_run _) ih.down e)

end Verif.Inbound
