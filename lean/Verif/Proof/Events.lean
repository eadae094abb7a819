import Verif.Spec.Events
import Verif.Proof.InboundRoute

/-! # `Model/Inbound`: where the events of a client are -/

namespace Verif.Inbound
open Verif Verif.Spec
open Classical

theorem gather_snoc {α} (f : St → Ev → List α) (h : List Ev) (e : Ev) :
    gather f (h ++ [e]) = gather f h ++ if (run h).panicked then [] else f (run h) e := by
  unfold gather
  rw [List.length_append, List.length_singleton, List.range_succ, List.flatMap_append]
  congr 1
  · refine flatMap_congr _ _ _ fun i hi => ?_
    have hi' := List.mem_range.1 hi
    rw [List.getElem?_append_left hi', List.take_append_of_le_length (Nat.le_of_lt hi')]
  · simp

/-- How often `x` is among the values `f` gives for the elements of a list. -/
noncomputable def cnt {α} (f : α → List (List JVal)) (x : List JVal) (l : List α) : Nat := (l.flatMap f).count x

theorem cnt_append {α} (f : α → List (List JVal)) (x : List JVal) (l l' : List α) : cnt f x (l ++ l') = cnt f x l + cnt f x l' := by
  simp [cnt]

theorem cnt_one {α} (f : α → List (List JVal)) (x : List JVal) (a : α) : cnt f x [a] = (f a).count x := by simp [cnt]

theorem cnt_zero {α} (f : α → List (List JVal)) (x : List JVal) (l : List α) (h : ∀ a ∈ l, f a = []) : cnt f x l = 0 := by
  have : l.flatMap f = [] := List.flatMap_eq_nil_iff.2 h
  simp [cnt, this]

theorem cnt_set {α} (f : Option α → List (List JVal)) (x : List JVal) (l : List (Option α)) (k : Nat) (t : Option α) (h : l[k]? = some t)
    (hf : f none = []) : cnt f x (l.set k none) + (f t).count x = cnt f x l := by
  induction l generalizing k with
  | nil => simp at h
  | cons a l ih =>
    cases k with
    | zero =>
      simp only [List.getElem?_cons_zero, Option.some.injEq] at h; subst h
      simp only [List.set_cons_zero, cnt, List.flatMap_cons, hf, List.nil_append, List.count_append]; omega
    | succ k =>
      simp only [List.getElem?_cons_succ] at h
      have := ih k h
      simp only [cnt] at this
      simp only [List.set_cons_succ, cnt, List.flatMap_cons, List.count_append]; omega

/-! ### What is where -/

variable (ref : Nat)

def atWaiting : Option Task → List (List JVal)
  | some (.onpacket r p) => if r = ref then contents p else []
  | _ => []

def atGate : Option Task → List (List JVal)
  | some (.gate r args) => if r = ref then [args] else []
  | _ => []

def atFlight : Option Task → List (List JVal)
  | some (.deliver r args true) => if r = ref then [args] else []
  | some (.fire r name args) => if r = ref then [.str name :: args] else []
  | _ => []

def atAll : Obs → List (List JVal)
  | .catchAll r args => if r = ref then [args] else []
  | _ => []

def atFired : Obs → List (List JVal)
  | .fired r name args => if r = ref then [.str name :: args] else []
  | _ => []

/-- Events that go to the listeners without middlewares. -/
def directAt (s : St) : Ev → List (List JVal)
  | .run k _ => match s.tasks[k]? with
    | some (some (.onpacket r p)) => if r = ref ∧ ((s.socks[r]?).map (·.fns)).getD 0 = 0 then contents p else []
    | _ => []
  | _ => []

/-- Events that are dropped because the socket is not connected any more. -/
def droppedAt (s : St) : Ev → List (List JVal)
  | .run k _ => match s.tasks[k]? with
    | some (some (.deliver r args true)) => if r = ref ∧ isConnected s r = false then [args] else []
    | _ => []
  | _ => []

def arrivesAt (s : St) : Ev → List (List JVal)
  | .recv p => if s.listening && inNow s p.nsp ref then contents p else []
  | _ => []

def throughAt (s : St) : Ev → List (List JVal)
  | .run k true => match s.tasks[k]? with
    | some (some (.gate r args)) => if r = ref then [args] else []
    | _ => []
  | _ => []

theorem eventsIn_eq : eventsIn ref = gather (arrivesAt ref) := by
  unfold eventsIn; congr

theorem through_eq : letThrough ref = gather (throughAt ref) := by
  unfold letThrough; congr

/-- What the library says of itself. -/
def Noise (o : Obs) : Prop := (∀ ref, atAll ref o = []) ∧ ∀ ref, (atFired ref o).filter notOwn = []

theorem noise_fired (r : Nat) (n : String) (args : List JVal) (h : n ∈ ownNames) : Noise (.fired r n args) := by
  refine ⟨fun _ => rfl, fun ref => ?_⟩
  simp only [atFired]
  split
  · simp only [List.filter_cons, notOwn, List.filter_nil]
    simp [h]
  · rfl

theorem noise_goodbyes (s : St) (reason : String) : ∀ o ∈ goodbyes s reason, Noise o := by
  intro o ho
  obtain ⟨r, _, ho⟩ := List.mem_flatMap.1 ho
  split at ho
  · rcases List.mem_cons.1 ho with rfl | ho
    · exact noise_fired _ _ _ (by decide)
    · simp at ho; subst ho; exact noise_fired _ _ _ (by decide)
  · cases ho

/-- Nothing happens to the events. -/
structure Calm (s s' : St) : Prop where
  tasks : s'.tasks = s.tasks
  log : ∃ o, s'.log = s.log ++ o ∧ ∀ x ∈ o, Noise x

theorem Calm.refl (s : St) : Calm s s := ⟨rfl, [], by simp, by simp⟩

theorem calm_onclose (s : St) (r : Nat) (reason : String) : Calm s (onclose s r reason) := by
  unfold onclose; split
  · refine ⟨rfl, [.fired r "disconnecting" [.str reason], .fired r "disconnect" [.str reason]], by simp [out, setSock], ?_⟩
    intro x hx
    simp at hx
    rcases hx with rfl | rfl <;> exact noise_fired _ _ _ (by decide)
  · exact .refl s

theorem calm_clientOnclose (s : St) (reason : String) : Calm s (clientOnclose s reason) := by
  obtain ⟨h1, _, h3, _, _⟩ := clientOnclose_spec s reason
  exact ⟨h3, _, h1, noise_goodbyes s reason⟩

theorem noise_closed : Noise .closed := ⟨fun _ => rfl, fun _ => rfl⟩

theorem calm_clientClose (s : St) : Calm s (clientClose s) := by
  obtain ⟨h1, _, h3, _, _⟩ := clientOnclose_spec (out s .closed) "forced server close"
  refine ⟨h3, .closed :: goodbyes (out s .closed) "forced server close", by unfold clientClose; rw [h1]; simp [out], ?_⟩
  intro x hx
  rcases List.mem_cons.1 hx with rfl | hx
  · exact noise_closed
  · exact noise_goodbyes _ _ x hx

theorem calm_onerror (s : St) : Calm s (onerror s) := by
  have key : ∀ (l : List Nat) (s : St), (l.foldl (fun s ref => if isConnected s ref then out s (.fired ref "error" [.null]) else s) s).tasks = s.tasks := by
    intro l
    induction l with
    | nil => intro s; rfl
    | cons a l ih =>
      intro s
      rw [List.foldl_cons, ih]
      split <;> rfl
  refine ⟨key _ s, _, (onerror_log s).trans (List.append_assoc _ _ _), ?_⟩
  intro x hx
  rcases List.mem_append.1 hx with hx | hx
  · obtain ⟨r, _, hx⟩ := List.mem_flatMap.1 hx
    split at hx
    · simp at hx; subst hx; exact noise_fired _ _ _ (by decide)
    · cases hx
  · simp at hx; subst hx; exact noise_closed

theorem onack_calm (s : St) (r : Nat) (p : Packet) : Calm s (onack s r p) := by
  unfold onack
  split
  · exact .refl s
  · split
    · exact .refl s
    · split
      · rename_i hf _ l _
        have na : ∀ a b c, Noise (.answered a b c) := fun _ _ _ => ⟨fun _ => rfl, fun _ => rfl⟩
        split
        · exact ⟨rfl, [_], rfl, by simp [na]⟩
        · simp only [answerSingle]
          split
          · exact ⟨rfl, [_], rfl, by simp [na]⟩
          · exact ⟨rfl, [], by simp [setSock, panic], by simp⟩
          · exact ⟨rfl, [], by simp [setSock], by simp⟩
      · exact ⟨rfl, [], by simp [panic], by simp⟩

/-! ### One socket per namespace -/

theorem in_setSock {s : St} {r : Nat} {f : Sock → Sock} {n : String} {a : Nat} (h : In (setSock s r f) n a)
    (hf : ∀ k, (f k).connected = k.connected ∧ (f k).nsp = k.nsp) : In s n a := ((same_setSock s r f hf).inn n a).1 h

theorem in_onclose {s : St} {r : Nat} {reason : String} {n : String} {a : Nat} (h : In (onclose s r reason) n a) : In s n a := by
  obtain ⟨h1, h2⟩ := (in_iff _ _ _).1 h
  rw [connected_onclose, Bool.and_eq_true] at h1
  rw [← Option.map_eq_some_iff, nsp_onclose, Option.map_eq_some_iff] at h2
  exact (in_iff _ _ _).2 ⟨h1.1, h2⟩

theorem in_dispatch {s : St} {r : Nat} {args : List JVal} {n : String} {a : Nat} (h : In (dispatch s r args) n a) : In s n a := by
  unfold dispatch at h; split at h <;> exact h

theorem in_onack {s : St} {r : Nat} {p : Packet} {n : String} {a : Nat} (h : In (onack s r p) n a) : In s n a := by
  unfold onack at h; split at h
  · exact h
  · split at h
    · exact h
    · split at h
      · have h := in_setSock h (fun _ => ⟨rfl, rfl⟩)
        split at h
        · exact h
        · unfold answerSingle at h; split at h <;> exact h
      · exact h

theorem in_task {s : St} {k : Nat} {ok : Bool} {n : String} {a : Nat} (h : In (runTask s k ok) n a) : In s n a := by
  unfold runTask at h; split at h
  · unfold onpacket at h
    have ev : ∀ r p, In (onevent { s with tasks := s.tasks.set k none } r p) n a → In s n a := by
      intro r p h
      unfold onevent at h; split at h
      · have h' := in_dispatch h; exact h'
      · exact h
    split at h
    · exact ev _ _ h
    · exact ev _ _ h
    · have h' := in_onack h; exact h'
    · have h' := in_onack h; exact h'
    · have h' := in_onclose h; exact h'
    · exact h
    · exact h
  · unfold deliver at h; split at h
    · exact h
    · split at h
      · split at h <;> exact h
      · exact h
  · exact h
  · exact h
  · exact h

theorem in_clientOnclose {s : St} {reason : String} {n : String} {a : Nat} : ¬ In (clientOnclose s reason) n a := fun h => by
  have := ((in_iff _ _ _).1 h).1
  rw [(clientOnclose_spec s reason).2.1] at this; cases this

theorem in_step {s : St} {e : Ev} {n : String} {a : Nat} (h : In (step s e) n a) : In s n a ∨ (e = .join n ∧ a = s.socks.length) := by
  unfold step at h; split at h
  · exact .inl h
  · split at h
    · split at h
      · unfold ondecoded at h; split at h
        · split at h
          · exact .inl h
          · exact absurd h in_clientOnclose
        · split at h
          · exact absurd h in_clientOnclose
          · exact .inl h
      · exact .inl h
    · rename_i nsp
      obtain ⟨k, h1, h2, h3⟩ := h
      by_cases hr : a < s.socks.length
      · exact .inl ⟨k, by simpa [List.getElem?_append_left hr] using h1, h2, h3⟩
      · rw [List.getElem?_append_right (by omega)] at h1
        have hlt := (List.getElem?_eq_some_iff.1 h1).1
        simp only [List.length_singleton] at hlt
        have : a - s.socks.length = 0 := by omega
        rw [this] at h1
        simp only [List.getElem?_cons_zero, Option.some.injEq] at h1
        subst h1
        exact .inr ⟨by rw [← h2], by omega⟩
    · exact .inl (in_task h)
    · exact .inl (in_setSock h (fun _ => ⟨rfl, rfl⟩))
    · exact .inl (in_setSock h (fun _ => ⟨rfl, rfl⟩))
    · exact .inl (in_setSock h (fun _ => ⟨rfl, rfl⟩))
    · exact .inl (in_onclose h)
    · split at h
      · exact .inl (((same_onerror s).inn _ _).1 h)
      · exact .inl h
    · split at h
      · exact absurd h in_clientOnclose
      · exact .inl h

theorem one_run (h : List Ev) (hj : JoinedOnce h) : ∀ n a b, In (run h) n a → In (run h) n b → a = b := by
  induction h using snocRec with
  | nil => intro n a b ⟨k, hk, _⟩; simp [run] at hk
  | append_singleton h e ih =>
    have ih := ih fun h₁ nsp h₂ e' => hj h₁ nsp (h₂ ++ [e]) (by simp [e'])
    intro n a b ha hb
    rw [run_snoc] at ha hb
    rcases in_step ha with ha | ⟨he, rfl⟩ <;> rcases in_step hb with hb | ⟨he', rfl⟩
    · exact ih n a b ha hb
    · exact absurd ha (hj h n [] (by rw [he']) a)
    · exact absurd hb (hj h n [] (by rw [he]) b)
    · rfl

theorem inNow_iff (s : St) (n : String) (r : Nat) : inNow s n r = true ↔ In s n r := by
  unfold inNow In
  cases s.socks[r]? with
  | none => simp
  | some k => simp

/-! ### What one event changes -/

/-- What the goroutine `t` of state `s` does with the events, when it goes on. -/
structure Acc (s s' : St) (arr thr dir drp : List (List JVal)) : Prop where
  wait : ∀ x, cnt (atAll ref) x s'.log + cnt (atWaiting ref) x s'.tasks = cnt (atAll ref) x s.log + cnt (atWaiting ref) x s.tasks + arr.count x
  gate : ∀ x, cnt (atAll ref) x s'.log + cnt (atGate ref) x s.tasks = cnt (atAll ref) x s.log + cnt (atGate ref) x s'.tasks + dir.count x
  fire : ∀ x, notOwn x = true → cnt (atFired ref) x s'.log + cnt (atFlight ref) x s'.tasks + drp.count x =
    cnt (atFired ref) x s.log + cnt (atFlight ref) x s.tasks + dir.count x + thr.count x

theorem Noise.all {o : List Obs} (h : ∀ x ∈ o, Noise x) (x : List JVal) : cnt (atAll ref) x o = 0 :=
  cnt_zero _ _ _ fun a ha => (h a ha).1 ref

theorem Noise.fired {o : List Obs} (h : ∀ x ∈ o, Noise x) (x : List JVal) (hx : notOwn x = true) : cnt (atFired ref) x o = 0 := by
  unfold cnt
  rw [List.count_eq_zero]
  intro hm
  obtain ⟨a, ha, hm⟩ := List.mem_flatMap.1 hm
  have := (h a ha).2 ref
  have : x ∈ (atFired ref a).filter notOwn := List.mem_filter.2 ⟨hm, hx⟩
  simp_all

theorem acc_calm {s s' : St} (c : Calm s s') : Acc ref s s' [] [] [] [] := by
  obtain ⟨ht, o, hl, hn⟩ := c
  refine ⟨fun x => ?_, fun x => ?_, fun x hx => ?_⟩
  · rw [ht, hl, cnt_append, Noise.all ref hn]; simp
  · rw [ht, hl, cnt_append, Noise.all ref hn]; simp
  · rw [ht, hl, cnt_append, Noise.fired ref hn x hx]; simp

/-- A goroutine that carries nothing ends, and then nothing happens. -/
theorem acc_clear {s s' : St} {k : Nat} {t : Option Task} (hk : s.tasks[k]? = some t) (c : Calm { s with tasks := s.tasks.set k none } s')
    (h1 : atWaiting ref t = []) (h2 : atGate ref t = []) (h3 : atFlight ref t = []) : Acc ref s s' [] [] [] [] := by
  have a := acc_calm ref c
  have e1 := fun x => cnt_set (atWaiting ref) x _ _ _ hk rfl
  have e2 := fun x => cnt_set (atGate ref) x _ _ _ hk rfl
  have e3 := fun x => cnt_set (atFlight ref) x _ _ _ hk rfl
  rw [h1] at e1; rw [h2] at e2; rw [h3] at e3
  refine ⟨fun x => ?_, fun x => ?_, fun x hx => ?_⟩
  · have := a.wait x; have := e1 x; simp only [List.count_nil] at *; omega
  · have := a.gate x; have := e2 x; simp only [List.count_nil] at *; omega
  · have := a.fire x hx; have := e3 x; simp only [List.count_nil] at *; omega

theorem acc_recv {s : St} (t : Tab s) (one : ∀ n a b, In s n a → In s n b → a = b) (hp : s.panicked = false) (p : Packet) :
    Acc ref s (step s (.recv p)) (arrivesAt ref s (.recv p)) [] [] [] := by
  have hnil : ∀ {s' : St}, Calm s s' → arrivesAt ref s (.recv p) = [] → Acc ref s s' (arrivesAt ref s (.recv p)) [] [] [] := by
    intro s' c e; rw [e]; exact acc_calm ref c
  simp only [step, hp, Bool.false_eq_true, if_false]
  cases hl : s.listening with
  | false => simp only [Bool.false_eq_true, if_false]; exact hnil (.refl s) (by simp [arrivesAt, hl])
  | true =>
    simp only [if_true]
    unfold ondecoded
    cases hf : s.nsps.find? (·.1 == p.nsp) with
    | none =>
      have hn := (find_none s t p.nsp).1 hf
      have e : arrivesAt ref s (.recv p) = [] := by
        have : inNow s p.nsp ref = false := by
          cases hi : inNow s p.nsp ref with
          | false => rfl
          | true => exact absurd ((inNow_iff _ _ _).1 hi) (hn ref)
        simp [arrivesAt, this]
      dsimp only
      split
      · exact hnil ⟨rfl, [_], rfl, by simp [Noise, atAll, atFired]⟩ e
      · exact hnil (calm_clientClose s) e
    | some x =>
      have hi := find_some s t p.nsp x hf
      obtain ⟨n, r⟩ := x
      dsimp only
      split
      · rename_i ht
        refine hnil (calm_clientClose s) ?_
        have : contents p = [] := by
          unfold contents
          rw [if_neg]
          rcases ht with ht | ht <;> simp [ht]
        simp [arrivesAt, this]
      · have e : arrivesAt ref s (.recv p) = atWaiting ref (some (.onpacket r p)) := by
          simp only [arrivesAt, hl, Bool.true_and, atWaiting]
          by_cases hr : r = ref
          · subst hr
            rw [(inNow_iff _ _ _).2 hi]; simp
          · have : inNow s p.nsp ref = false := by
              cases hi' : inNow s p.nsp ref with
              | false => rfl
              | true => exact absurd (one _ _ _ hi ((inNow_iff _ _ _).1 hi')) hr
            simp [this, hr]
        rw [e]
        refine ⟨fun x => ?_, fun x => ?_, fun x _ => ?_⟩
        · simp only [spawn, cnt_append, cnt_one]; omega
        · simp only [spawn, cnt_append, cnt_one, atGate]; simp
        · simp only [spawn, cnt_append, cnt_one, atFlight]; simp

theorem acc_onevent {s : St} (k r : Nat) (p : Packet) (ok : Bool) (hk : s.tasks[k]? = some (some (.onpacket r p)))
    (ht : p.type = .event ∨ p.type = .binaryEvent) (hd : ∃ l, p.data = .arr l) :
    Acc ref s (onevent { s with tasks := s.tasks.set k none } r p) [] [] (directAt ref s (.run k ok)) [] := by
  have e1 := fun x => cnt_set (atWaiting ref) x _ _ _ hk rfl
  have e2 := fun x => cnt_set (atGate ref) x _ _ _ hk rfl
  have e3 := fun x => cnt_set (atFlight ref) x _ _ _ hk rfl
  obtain ⟨l, hl⟩ := hd
  obtain ⟨args, ha, hc⟩ : ∃ args, onevent { s with tasks := s.tasks.set k none } r p =
      dispatch (out { s with tasks := s.tasks.set k none } (.catchAll r args)) r args ∧ contents p = [args] := by
    unfold onevent contents
    rw [if_pos ht, hl]
    cases p.id <;> exact ⟨_, rfl, rfl⟩
  rw [ha]
  have hdir : directAt ref s (.run k ok) = if r = ref ∧ ((s.socks[r]?).map (·.fns)).getD 0 = 0 then [args] else [] := by
    simp only [directAt, hk, hc]
  rw [hdir]
  simp only [atWaiting, atGate, atFlight, hc] at e1 e2 e3
  unfold dispatch
  by_cases hf : ((s.socks[r]?).map (·.fns)).getD 0 = 0
  · rw [if_pos (show ((((out { s with tasks := s.tasks.set k none } (Obs.catchAll r args)).socks[r]?).map (·.fns)).getD 0 = 0) from hf)]
    by_cases hr : r = ref
    · subst hr
      simp only [if_true, hf, and_self]
      refine ⟨fun x => ?_, fun x => ?_, fun x _ => ?_⟩
      · have := e1 x
        simp only [if_true] at this
        simp only [spawn, out, cnt_append, cnt_one, atAll, atWaiting, if_true, List.count_nil]; omega
      · have := e2 x
        simp only [List.count_nil] at this
        simp only [spawn, out, cnt_append, cnt_one, atAll, atGate, if_true, List.count_nil]; omega
      · have := e3 x
        simp only [List.count_nil] at this
        simp only [spawn, out, cnt_append, cnt_one, atFired, atFlight, if_true, List.count_nil]; omega
    · simp only [hr, false_and, if_false]
      simp only [hr, if_false, List.count_nil] at e1 e2 e3
      refine ⟨fun x => ?_, fun x => ?_, fun x _ => ?_⟩
      · have := e1 x
        simp only [spawn, out, cnt_append, cnt_one, atAll, atWaiting, hr, if_false, List.count_nil]; omega
      · have := e2 x
        simp only [spawn, out, cnt_append, cnt_one, atAll, atGate, hr, if_false, List.count_nil]; omega
      · have := e3 x
        simp only [spawn, out, cnt_append, cnt_one, atFired, atFlight, hr, if_false, List.count_nil]; omega
  · rw [if_neg (show ¬ ((((out { s with tasks := s.tasks.set k none } (Obs.catchAll r args)).socks[r]?).map (·.fns)).getD 0 = 0) from hf)]
    simp only [hf, and_false, if_false]
    by_cases hr : r = ref
    · subst hr
      refine ⟨fun x => ?_, fun x => ?_, fun x _ => ?_⟩
      · have := e1 x
        simp only [if_true] at this
        simp only [spawn, out, cnt_append, cnt_one, atAll, atWaiting, if_true, List.count_nil]; omega
      · have := e2 x
        simp only [List.count_nil] at this
        simp only [spawn, out, cnt_append, cnt_one, atAll, atGate, if_true, List.count_nil]; omega
      · have := e3 x
        simp only [List.count_nil] at this
        simp only [spawn, out, cnt_append, cnt_one, atFired, atFlight, List.count_nil]; omega
    · simp only [hr, if_false, List.count_nil] at e1 e2 e3
      refine ⟨fun x => ?_, fun x => ?_, fun x _ => ?_⟩
      · have := e1 x
        simp only [spawn, out, cnt_append, cnt_one, atAll, atWaiting, hr, if_false, List.count_nil]; omega
      · have := e2 x
        simp only [spawn, out, cnt_append, cnt_one, atAll, atGate, hr, if_false, List.count_nil]; omega
      · have := e3 x
        simp only [spawn, out, cnt_append, cnt_one, atFired, atFlight, List.count_nil]; omega

theorem acc_task {s : St} (i : Inv False Decoded (fun _ => True) (fun _ => True) s) (k : Nat) (ok : Bool) :
    Acc ref s (runTask s k ok) [] (throughAt ref s (.run k ok)) (directAt ref s (.run k ok)) (droppedAt ref s (.run k ok)) := by
  unfold runTask
  split
  · rename_i r p hk
    have h1 : throughAt ref s (.run k ok) = [] := by cases ok <;> simp [throughAt, hk]
    have h2 : droppedAt ref s (.run k ok) = [] := by simp [droppedAt, hk]
    have hd : Decoded p := i.packets r p (List.mem_of_getElem? hk)
    rw [h1, h2]
    have other : p.type ≠ .event → p.type ≠ .binaryEvent → ∀ {s' : St}, Calm { s with tasks := s.tasks.set k none } s' →
        Acc ref s s' [] [] (directAt ref s (.run k ok)) [] := by
      intro he hb s' c
      have hc : contents p = [] := by unfold contents; rw [if_neg]; rintro (h | h); exact he h; exact hb h
      have : directAt ref s (.run k ok) = [] := by simp [directAt, hk, hc]
      rw [this]
      exact acc_clear ref hk c (by simp [atWaiting, hc]) rfl rfl
    unfold onpacket
    split
    · rename_i ht
      refine acc_onevent ref k r p ok hk (.inl ht) ?_
      simp only [Decoded, ht] at hd
      obtain ⟨n, rest, hd⟩ := hd; exact ⟨_, hd⟩
    · rename_i ht
      refine acc_onevent ref k r p ok hk (.inr ht) ?_
      simp only [Decoded, ht] at hd
      obtain ⟨n, rest, hd⟩ := hd; exact ⟨_, hd⟩
    · rename_i ht; exact other (by simp [ht]) (by simp [ht]) (onack_calm _ _ _)
    · rename_i ht; exact other (by simp [ht]) (by simp [ht]) (onack_calm _ _ _)
    · rename_i ht; exact other (by simp [ht]) (by simp [ht]) (calm_onclose _ _ _)
    · rename_i ht; exact other (by simp [ht]) (by simp [ht]) (.refl _)
    · rename_i ht; exact other (by simp [ht]) (by simp [ht]) (.refl _)
  · rename_i r args ok' hk
    have h1 : throughAt ref s (.run k ok) = [] := by cases ok <;> simp [throughAt, hk]
    have h2 : directAt ref s (.run k ok) = [] := by simp [directAt, hk]
    rw [h1, h2]
    obtain ⟨name, rest, ha, -⟩ := i.delivers r args ok' (List.mem_of_getElem? hk)
    subst ha
    have e1 := fun x => cnt_set (atWaiting ref) x _ _ _ hk rfl
    have e2 := fun x => cnt_set (atGate ref) x _ _ _ hk rfl
    have e3 := fun x => cnt_set (atFlight ref) x _ _ _ hk rfl
    simp only [atWaiting, atGate, List.count_nil] at e1 e2
    unfold deliver
    cases ok' with
    | false =>
      have h3 : droppedAt ref s (.run k ok) = [] := by simp [droppedAt, hk]
      rw [h3]
      simp only [if_true]
      exact acc_clear ref hk ⟨rfl, [_], rfl, by simpa using noise_fired _ _ _ (by decide)⟩ rfl rfl rfl
    | true =>
      simp only [Bool.true_eq_false, if_false]
      simp only [atFlight] at e3
      by_cases hc : isConnected s r = true
      · rw [if_pos (show isConnected { s with tasks := s.tasks.set k none } r = true from hc)]
        have h3 : droppedAt ref s (.run k ok) = [] := by simp [droppedAt, hk, hc]
        rw [h3]
        refine ⟨fun x => ?_, fun x => ?_, fun x _ => ?_⟩
        · have := e1 x; simp only [spawn, cnt_append, cnt_one, atWaiting, List.count_nil]; omega
        · have := e2 x; simp only [spawn, cnt_append, cnt_one, atGate, List.count_nil]; omega
        · have := e3 x; simp only [spawn, cnt_append, cnt_one, atFlight, List.count_nil]; omega
      · rw [if_neg (show ¬ isConnected { s with tasks := s.tasks.set k none } r = true from hc)]
        have h3 : droppedAt ref s (.run k ok) = if r = ref then [.str name :: rest] else [] := by
          simp only [droppedAt, hk]
          by_cases hr : r = ref <;> simp [hr]
          subst hr; simpa using hc
        rw [h3]
        refine ⟨fun x => ?_, fun x => ?_, fun x _ => ?_⟩
        · have := e1 x; simp only [List.count_nil]; omega
        · have := e2 x; simp only [List.count_nil]; omega
        · have := e3 x; simp only [List.count_nil]; omega
  · rename_i r name args hk
    have h1 : throughAt ref s (.run k ok) = [] := by cases ok <;> simp [throughAt, hk]
    have h2 : directAt ref s (.run k ok) = [] := by simp [directAt, hk]
    have h3 : droppedAt ref s (.run k ok) = [] := by simp [droppedAt, hk]
    rw [h1, h2, h3]
    have e1 := fun x => cnt_set (atWaiting ref) x _ _ _ hk rfl
    have e2 := fun x => cnt_set (atGate ref) x _ _ _ hk rfl
    have e3 := fun x => cnt_set (atFlight ref) x _ _ _ hk rfl
    simp only [atWaiting, atGate, atFlight, List.count_nil] at e1 e2 e3
    refine ⟨fun x => ?_, fun x => ?_, fun x _ => ?_⟩
    · have := e1 x; simp only [out, cnt_append, cnt_one, atAll, List.count_nil]; omega
    · have := e2 x; simp only [out, cnt_append, cnt_one, atAll, List.count_nil]; omega
    · have := e3 x; simp only [out, cnt_append, cnt_one, atFired, List.count_nil]; omega
  · rename_i r args hk
    have h2 : directAt ref s (.run k ok) = [] := by simp [directAt, hk]
    have h3 : droppedAt ref s (.run k ok) = [] := by simp [droppedAt, hk]
    rw [h2, h3]
    cases ok with
    | false =>
      have h1 : throughAt ref s (.run k false) = [] := rfl
      rw [h1]
      refine ⟨fun x => ?_, fun x => ?_, fun x _ => ?_⟩ <;>
        simp only [spawn, cnt_append, cnt_one, atWaiting, atGate, atFlight, List.count_nil] <;> omega
    | true =>
      have h1 : throughAt ref s (.run k true) = if r = ref then [args] else [] := by simp [throughAt, hk]
      rw [h1]
      refine ⟨fun x => ?_, fun x => ?_, fun x _ => ?_⟩ <;>
        simp only [spawn, cnt_append, cnt_one, atWaiting, atGate, atFlight, List.count_nil] <;> omega
  · rename_i h1 h2 h3 h4
    have e1 : throughAt ref s (.run k ok) = [] := by
      cases ok
      · rfl
      · simp only [throughAt]
    have e2 : directAt ref s (.run k ok) = [] := by
      simp only [directAt]
    have e3 : droppedAt ref s (.run k ok) = [] := by
      simp only [droppedAt]; split
      · rename_i r args hk; exact absurd hk (h2 r args true)
      · rfl
    rw [e1, e2, e3]
    exact acc_calm ref (.refl s)

theorem acc_step {s : St} (t : Tab s) (one : ∀ n a b, In s n a → In s n b → a = b) (hp : s.panicked = false)
    (i : Inv False Decoded (fun _ => True) (fun _ => True) s) (e : Ev) :
    Acc ref s (step s e) (arrivesAt ref s e) (throughAt ref s e) (directAt ref s e) (droppedAt ref s e) := by
  cases e with
  | recv p => exact acc_recv ref t one hp p
  | run k ok => simp only [step, hp, Bool.false_eq_true, if_false]; exact acc_task ref i k ok
  | join n => simp only [step, hp, Bool.false_eq_true, if_false]; exact acc_calm ref ⟨rfl, [], by simp, by simp⟩
  | use r => simp only [step, hp, Bool.false_eq_true, if_false]; exact acc_calm ref ⟨rfl, [], by simp [setSock], by simp⟩
  | emitAck r id b => simp only [step, hp, Bool.false_eq_true, if_false]; exact acc_calm ref ⟨rfl, [], by simp [setSock], by simp⟩
  | expire r id => simp only [step, hp, Bool.false_eq_true, if_false]; exact acc_calm ref ⟨rfl, [], by simp [setSock], by simp⟩
  | disconnect r => simp only [step, hp, Bool.false_eq_true, if_false]; exact acc_calm ref (calm_onclose _ _ _)
  | invalid =>
    simp only [step, hp, Bool.false_eq_true, if_false]
    split
    · exact acc_calm ref (calm_onerror s)
    · exact acc_calm ref (.refl s)
  | lost reason =>
    simp only [step, hp, Bool.false_eq_true, if_false]
    split
    · exact acc_calm ref (calm_clientOnclose s reason)
    · exact acc_calm ref (.refl s)

/-- Where the events of socket `ref` are after any history. -/
structure Books (h : List Ev) : Prop where
  wait : ∀ x, cnt (atAll ref) x (run h).log + cnt (atWaiting ref) x (run h).tasks = (gather (arrivesAt ref) h).count x
  gate : ∀ x, cnt (atAll ref) x (run h).log = cnt (atGate ref) x (run h).tasks + (gather (directAt ref) h).count x
  fire : ∀ x, notOwn x = true → cnt (atFired ref) x (run h).log + cnt (atFlight ref) x (run h).tasks + (gather (droppedAt ref) h).count x =
    (gather (directAt ref) h).count x + (gather (throughAt ref) h).count x

theorem books (h : List Ev) (hj : JoinedOnce h) (hd : ∀ p, .recv p ∈ h → Decoded p) : Books ref h := by
  induction h using snocRec with
  | nil => constructor <;> intros <;> simp [run, cnt, gather]
  | append_singleton h e ih =>
    have hj' : JoinedOnce h := fun h₁ nsp h₂ e' => hj h₁ nsp (h₂ ++ [e]) (by simp [e'])
    have hd' : ∀ p, .recv p ∈ h → Decoded p := fun p hp => hd p (by simp [hp])
    have ih := ih hj' hd'
    cases hp : (run h).panicked with
    | true =>
      have hs : run (h ++ [e]) = run h := by rw [run_snoc]; unfold step; rw [if_pos hp]
      constructor
      · intro x; rw [hs, gather_snoc, hp]; simpa using ih.wait x
      · intro x; rw [hs, gather_snoc, hp]; simpa using ih.gate x
      · intro x hx; rw [hs, gather_snoc, gather_snoc, gather_snoc, hp]; simpa using ih.fire x hx
    | false =>
      have g : Good False Decoded (fun _ => True) (fun _ => True) := fun p hp => ⟨hp, fun _ _ _ _ => trivial, fun c => c.elim⟩
      have i : Inv False Decoded (fun _ => True) (fun _ => True) (run h) := inv_all h g hd' (fun _ _ _ => trivial)
      have a := acc_step ref (tab_run h hj') (one_run h hj') hp i e
      rw [← run_snoc] at a
      constructor
      · intro x; rw [gather_snoc, hp, List.count_append]; have := a.wait x; have := ih.wait x; simp only [Bool.false_eq_true, if_false]; omega
      · intro x; rw [gather_snoc, hp, List.count_append]; have := a.gate x; have := ih.gate x; simp only [Bool.false_eq_true, if_false]; omega
      · intro x hx
        rw [gather_snoc, gather_snoc, gather_snoc, hp, List.count_append, List.count_append, List.count_append]
        have := a.fire x hx; have := ih.fire x hx; simp only [Bool.false_eq_true, if_false]; omega

/-! ### Goroutines work for sockets there are -/

/-- `U`: the socket has no middlewares. -/
structure Sound (U : Prop) (s : St) : Prop where
  known : ∀ t ∈ s.tasks, ∀ r, worksFor r t = true → r < s.socks.length
  plain : U → (∀ k, s.socks[ref]? = some k → k.fns = 0) ∧ ∀ args, some (Task.gate ref args) ∉ s.tasks

variable {ref} {U : Prop}

theorem sound_out {s : St} (i : Sound ref U s) (o : Obs) : Sound ref U (out s o) := ⟨i.1, i.2⟩

theorem sound_setSock {s : St} (i : Sound ref U s) (r : Nat) (f : Sock → Sock) (hf : U → r = ref → ∀ k, (f k).fns = k.fns) :
    Sound ref U (setSock s r f) := by
  refine ⟨?_, fun u => ⟨?_, (i.plain u).2⟩⟩
  · intro t ht r' hw
    have := i.known t ht r' hw
    simpa [setSock] using this
  · intro k hk
    simp only [setSock, List.getElem?_modify] at hk
    cases e : s.socks[ref]? with
    | none => rw [e] at hk; simp at hk
    | some k0 =>
      have h0 := (i.plain u).1 k0 e
      rw [e] at hk
      by_cases hr : r = ref
      · simp [hr] at hk; subst hk; rw [hf u hr]; exact h0
      · simp [hr] at hk; subst hk; exact h0

theorem sound_clear {s : St} (i : Sound ref U s) (k : Nat) : Sound ref U { s with tasks := s.tasks.set k none } := by
  refine ⟨?_, fun u => ⟨(i.plain u).1, ?_⟩⟩
  · intro t ht r hw
    rcases List.mem_or_eq_of_mem_set ht with ht | rfl
    · exact i.known t ht r hw
    · cases hw
  · intro args hm
    rcases List.mem_or_eq_of_mem_set hm with ht | h
    · exact (i.plain u).2 args ht
    · cases h

theorem sound_spawn {s : St} (i : Sound ref U s) (t : Task) (h : ∀ r, worksFor r (some t) = true → r < s.socks.length)
    (hg : U → ∀ args, t ≠ .gate ref args) : Sound ref U (spawn s t) := by
  refine ⟨?_, fun u => ⟨(i.plain u).1, ?_⟩⟩
  · intro t' ht r hw
    rcases List.mem_append.1 ht with ht | ht
    · exact i.known t' ht r hw
    · simp at ht; subst ht; exact h r hw
  · intro args hm
    rcases List.mem_append.1 hm with ht | ht
    · exact (i.plain u).2 args ht
    · simp at ht; exact hg u args ht.symm

theorem sound_onclose {s : St} (i : Sound ref U s) (r : Nat) (reason : String) : Sound ref U (onclose s r reason) := by
  unfold onclose; split
  · refine sound_out ?_ _
    have := sound_setSock (sound_out i (.fired r "disconnecting" [.str reason])) r ({ · with connected := false }) (fun _ _ _ => rfl)
    exact ⟨this.1, this.2⟩
  · exact i

theorem sound_clientOnclose {s : St} (i : Sound ref U s) (reason : String) : Sound ref U (clientOnclose s reason) := by
  unfold clientOnclose
  have t0 : Sound ref U { s with listening := false } := ⟨i.1, i.2⟩
  generalize { s with listening := false } = s0 at t0
  generalize List.range s.socks.length = l
  induction l generalizing s0 with
  | nil => exact t0
  | cons a l ih => exact ih _ (sound_onclose t0 a reason)

theorem sound_onerror {s : St} (i : Sound ref U s) : Sound ref U (onerror s) := by
  unfold onerror
  refine sound_out ?_ _
  generalize List.range s.socks.length = l
  induction l generalizing s with
  | nil => exact i
  | cons a l ih =>
    rw [List.foldl_cons]
    split
    · exact ih (sound_out i _)
    · exact ih i

theorem sound_onack {s : St} (i : Sound ref U s) (r : Nat) (p : Packet) : Sound ref U (onack s r p) := by
  unfold onack; split
  · exact i
  · split
    · exact i
    · split
      · refine sound_setSock ?_ _ _ (fun _ _ _ => rfl)
        split
        · exact sound_out i _
        · unfold answerSingle; split
          · exact sound_out i _
          · exact ⟨i.1, i.2⟩
          · exact i
      · exact ⟨i.1, i.2⟩

theorem sound_onevent {s : St} (i : Sound ref U s) (r : Nat) (hr : r < s.socks.length) (p : Packet) : Sound ref U (onevent s r p) := by
  unfold onevent; split
  · have key : ∀ args, Sound ref U (dispatch (out s (.catchAll r args)) r args) := by
      intro args
      unfold dispatch
      split
      · exact sound_spawn (sound_out i _) _ (fun r' h => by simp only [worksFor, beq_iff_eq] at h; subst h; exact hr) (fun _ _ h => by cases h)
      · rename_i hf
        refine sound_spawn (sound_out i _) _ (fun r' h => by simp only [worksFor, beq_iff_eq] at h; subst h; exact hr) (fun u args' h => ?_)
        cases h
        apply hf
        obtain ⟨k, hk⟩ : ∃ k, s.socks[ref]? = some k := ⟨_, List.getElem?_eq_getElem hr⟩
        have := (i.plain u).1 k hk
        show ((s.socks[ref]?).map (·.fns)).getD 0 = 0
        rw [hk]; exact this
    exact key _
  · exact ⟨i.1, i.2⟩

theorem sound_task {s : St} (i : Sound ref U s) (k : Nat) (ok : Bool) : Sound ref U (runTask s k ok) := by
  have i0 := sound_clear i k
  unfold runTask; split
  · rename_i r p hk
    have hr := i.known _ (List.mem_of_getElem? hk) r (by simp [worksFor])
    unfold onpacket; split
    · exact sound_onevent i0 r hr p
    · exact sound_onevent i0 r hr p
    · exact sound_onack i0 r p
    · exact sound_onack i0 r p
    · exact sound_onclose i0 r _
    · exact i0
    · exact i0
  · rename_i r args ok' hk
    have hr := i.known _ (List.mem_of_getElem? hk) r (by simp [worksFor])
    unfold deliver; split
    · exact sound_out i0 _
    · split
      · split
        · exact sound_spawn i0 _ (fun r' h => by simp only [worksFor, beq_iff_eq] at h; subst h; exact hr) (fun _ _ h => by cases h)
        · exact ⟨i0.1, i0.2⟩
      · exact i0
  · exact sound_out i0 _
  · rename_i r args hk
    have hr := i.known _ (List.mem_of_getElem? hk) r (by simp [worksFor])
    exact sound_spawn i _ (fun r' h => by simp only [worksFor, beq_iff_eq] at h; subst h; exact hr) (fun _ _ h => by cases h)
  · exact i

theorem sound_step {s : St} (i : Sound ref U s) (t : Tab s) (e : Ev) (hu : U → e ≠ .use ref) : Sound ref U (step s e) := by
  unfold step; split
  · exact i
  · split
    · rename_i p
      split
      · unfold ondecoded; split
        · split
          · exact sound_out i _
          · exact sound_clientOnclose (sound_out i _) _
        · rename_i n r hf
          split
          · exact sound_clientOnclose (sound_out i _) _
          · refine sound_spawn i _ (fun r' h => ?_) (fun _ _ h => by cases h)
            simp only [worksFor, beq_iff_eq] at h; subst h
            obtain ⟨k, hk, _⟩ := find_some s t p.nsp _ hf
            exact (List.getElem?_eq_some_iff.1 hk).1
      · exact i
    · refine ⟨fun t ht r hw => ?_, fun u => ⟨fun k hk => ?_, (i.plain u).2⟩⟩
      · have := i.known t ht r hw
        simp only [List.length_append]; omega
      · simp only at hk
        by_cases hr : ref < s.socks.length
        · rw [List.getElem?_append_left hr] at hk; exact (i.plain u).1 k hk
        · rw [List.getElem?_append_right (by omega)] at hk
          have := List.mem_of_getElem? hk
          simp at this; subst this; rfl
    · exact sound_task i _ _
    · rename_i r
      refine sound_setSock i _ _ (fun u hr => ?_)
      subst hr; exact absurd rfl (hu u)
    · exact sound_setSock i _ _ (fun _ _ _ => rfl)
    · exact sound_setSock i _ _ (fun _ _ _ => rfl)
    · exact sound_onclose i _ _
    · split
      · exact sound_onerror i
      · exact i
    · split
      · exact sound_clientOnclose i _
      · exact i

theorem sound_run (h : List Ev) (hj : JoinedOnce h) : Sound ref (.use ref ∉ h) (run h) := by
  have : ∀ U : Prop, (U → Ev.use ref ∉ h) → Sound ref U (run h) := by
    intro U hU
    induction h using snocRec with
    | nil => exact ⟨by simp [run], fun _ => ⟨by simp [run], by simp [run]⟩⟩
    | append_singleton h e ih =>
      have hj' : JoinedOnce h := fun h₁ nsp h₂ e' => hj h₁ nsp (h₂ ++ [e]) (by simp [e'])
      rw [run_snoc]
      refine sound_step (ih hj' fun u hm => hU u (by simp [hm])) (tab_run h hj') e fun u he => hU u (by simp [he])
  exact this _ id

/-- Nothing is dropped for a socket that is connected. -/
theorem dropped_nil (h : List Ev) (hj : JoinedOnce h) (hc : isConnected (run h) ref = true) : gather (droppedAt ref) h = [] := by
  have : gather (droppedAt ref) h = [] ∨ isDown (run h) ref = true := by
    clear hc
    induction h using snocRec with
    | nil => exact .inl rfl
    | append_singleton h e ih =>
      have hj' : JoinedOnce h := fun h₁ nsp h₂ e' => hj h₁ nsp (h₂ ++ [e]) (by simp [e'])
      rcases ih hj' with ih | ih
      · rw [gather_snoc, ih]
        by_cases hp : (run h).panicked = true
        · exact .inl (by simp [hp])
        · simp only [hp, Bool.false_eq_true, if_false, List.nil_append]
          by_cases hd : droppedAt ref (run h) e = []
          · exact .inl hd
          · refine .inr (after_run h [e] ?_).down
            cases e with
            | run k ok =>
              simp only [droppedAt] at hd
              split at hd
              · rename_i r args hk
                split at hd
                · rename_i hc
                  obtain ⟨rfl, hc⟩ := hc
                  have hr := (sound_run (ref := r) h hj').known _ (List.mem_of_getElem? hk) r (by simp [worksFor])
                  obtain ⟨k0, hk0⟩ : ∃ k, (run h).socks[r]? = some k := ⟨_, List.getElem?_eq_getElem hr⟩
                  simp only [isConnected, hk0] at hc
                  simp only [isDown, hk0]
                  simpa using hc
                · exact absurd rfl hd
              · exact absurd rfl hd
            | _ => exact absurd rfl hd
      · exact .inr (after_run h [e] ih).down
  rcases this with h | h
  · exact h
  · rw [notConnected h] at hc; cases hc

/-! ### Events in the middlewares stay there -/

theorem dispatch_tasks (s : St) (r : Nat) (args : List JVal) : ∃ u, (dispatch s r args).tasks = s.tasks ++ u := by
  unfold dispatch; split <;> exact ⟨_, rfl⟩

theorem tasks_step (s : St) (e : Ev) : ∃ u, (step s e).tasks = s.tasks ++ u ∨
    ∃ k, (∀ r a, s.tasks[k]? ≠ some (some (.gate r a))) ∧ (step s e).tasks = s.tasks.set k none ++ u := by
  have same : ∀ {s' : St}, s'.tasks = s.tasks → ∃ u, s'.tasks = s.tasks ++ u ∨
      ∃ k, (∀ r a, s.tasks[k]? ≠ some (some (.gate r a))) ∧ s'.tasks = s.tasks.set k none ++ u := fun h => ⟨[], .inl (by simp [h])⟩
  unfold step; split
  · exact same rfl
  · split
    · split
      · unfold ondecoded; split
        · split
          · exact same rfl
          · exact same (calm_clientClose s).tasks
        · split
          · exact same (calm_clientClose s).tasks
          · exact ⟨_, .inl rfl⟩
      · exact same rfl
    · exact same rfl
    · rename_i k ok
      unfold runTask; split
      · rename_i r p hk
        have hg : ∀ r a, s.tasks[k]? ≠ some (some (.gate r a)) := by rw [hk]; simp
        have calm : ∀ {s' : St}, Calm { s with tasks := s.tasks.set k none } s' → ∃ u, s'.tasks = s.tasks ++ u ∨
          ∃ k, (∀ r a, s.tasks[k]? ≠ some (some (.gate r a))) ∧ s'.tasks = s.tasks.set k none ++ u :=
            fun c => ⟨[], .inr ⟨k, hg, by simp [c.tasks]⟩⟩
        have ev : ∃ u, (onevent { s with tasks := s.tasks.set k none } r p).tasks = s.tasks.set k none ++ u := by
          unfold onevent; split
          · exact dispatch_tasks (out { s with tasks := s.tasks.set k none } _) r _
          · exact ⟨[], by simp [panic]⟩
        obtain ⟨u, ev⟩ := ev
        unfold onpacket; split
        · exact ⟨u, .inr ⟨k, hg, ev⟩⟩
        · exact ⟨u, .inr ⟨k, hg, ev⟩⟩
        · exact calm (onack_calm _ _ _)
        · exact calm (onack_calm _ _ _)
        · exact calm (calm_onclose _ _ _)
        · exact calm (.refl _)
        · exact calm (.refl _)
      · rename_i r args ok' hk
        have hg : ∀ r a, s.tasks[k]? ≠ some (some (.gate r a)) := by rw [hk]; simp
        unfold deliver; split
        · exact ⟨[], .inr ⟨k, hg, by simp [out]⟩⟩
        · split
          · split
            · exact ⟨_, .inr ⟨k, hg, rfl⟩⟩
            · exact ⟨[], .inr ⟨k, hg, by simp [panic]⟩⟩
          · exact ⟨[], .inr ⟨k, hg, by simp⟩⟩
      · rename_i r name args hk
        exact ⟨[], .inr ⟨k, by rw [hk]; simp, by simp [out]⟩⟩
      · exact ⟨_, .inl rfl⟩
      · exact same rfl
    · exact same rfl
    · exact same rfl
    · exact same rfl
    · exact same (calm_onclose _ _ _).tasks
    · split
      · exact same (calm_onerror s).tasks
      · exact same rfl
    · split
      · exact same (calm_clientOnclose s _).tasks
      · exact same rfl

theorem gate_step {s : St} {k r : Nat} {args : List JVal} (e : Ev) (hk : s.tasks[k]? = some (some (.gate r args))) :
    (step s e).tasks[k]? = some (some (.gate r args)) := by
  have hlt := (List.getElem?_eq_some_iff.1 hk).1
  obtain ⟨u, h | ⟨k', hn, h⟩⟩ := tasks_step s e
  · rw [h, List.getElem?_append_left hlt, hk]
  · have : k' ≠ k := by rintro rfl; exact hn _ _ hk
    rw [h, List.getElem?_append_left (by simpa using hlt), List.getElem?_set, if_neg this, hk]

theorem gate_run {h : List Ev} {k r : Nat} {args : List JVal} (t : List Ev) (hk : (run h).tasks[k]? = some (some (.gate r args))) :
    (run (h ++ t)).tasks[k]? = some (some (.gate r args)) := by
  induction t using snocRec with
  | nil => simpa using hk
  | append_singleton t e ih => rw [← List.append_assoc, run_snoc]; exact gate_step e ih

/-- The goroutines that were let through. -/
def passedAt (ref : Nat) (s : St) : Ev → List Nat
  | .run k true => match s.tasks[k]? with
    | some (some (.gate r _)) => if r = ref then [k] else []
    | _ => []
  | _ => []

/-- What goroutine `k` has given to the middlewares. -/
def held (ref : Nat) (s : St) (k : Nat) : List (List JVal) := atGate ref (s.tasks[k]?.getD none)

theorem mem_passed {s : St} {e : Ev} {k : Nat} (h : k ∈ passedAt ref s e) : e = .run k true ∧ ∃ args, s.tasks[k]? = some (some (.gate ref args)) := by
  unfold passedAt at h
  split at h
  · rename_i k'
    split at h
    · rename_i r args hk
      split at h
      · rename_i hr
        simp at h; subst h; subst hr; exact ⟨rfl, args, hk⟩
      · cases h
    · cases h
  · cases h

theorem passed_split {h : List Ev} {k : Nat} (hk : k ∈ gather (passedAt ref) h) :
    ∃ h₁ h₂ args, h = h₁ ++ .run k true :: h₂ ∧ (run h₁).tasks[k]? = some (some (.gate ref args)) := by
  induction h using snocRec with
  | nil => simp [gather] at hk
  | append_singleton h e ih =>
    rw [gather_snoc] at hk
    rcases List.mem_append.1 hk with hk | hk
    · obtain ⟨h₁, h₂, args, e1, e2⟩ := ih hk
      exact ⟨h₁, h₂ ++ [e], args, by simp [e1], e2⟩
    · split at hk
      · cases hk
      · obtain ⟨rfl, args, e2⟩ := mem_passed hk
        exact ⟨h, [], args, rfl, e2⟩

theorem passed_nodup (h : List Ev) (hn : NextOncePerEvent ref h) : (gather (passedAt ref) h).Nodup := by
  induction h using snocRec with
  | nil => simp [gather]
  | append_singleton h e ih =>
    have ih := ih fun h₁ h₂ h₃ k a b e' => hn h₁ h₂ (h₃ ++ [e]) k a b (by simp [e'])
    rw [gather_snoc]
    refine List.nodup_append.2 ⟨ih, ?_, ?_⟩
    · split
      · simp
      · unfold passedAt; split
        · split
          · split <;> simp
          · simp
        · simp
    · intro k hk k' hk' heq
      subst heq
      split at hk'
      · cases hk'
      · obtain ⟨rfl, -, -⟩ := mem_passed hk'
        obtain ⟨h₁, h₂, args, e1, e2⟩ := passed_split hk
        exact hn h₁ h₂ [] k true true (by simp [e1]) args e2

theorem through_passed (h : List Ev) : gather (throughAt ref) h = (gather (passedAt ref) h).flatMap (held ref (run h)) := by
  induction h using snocRec with
  | nil => simp [gather]
  | append_singleton h e ih =>
    rw [gather_snoc, gather_snoc, List.flatMap_append, ih]
    congr 1
    · refine flatMap_congr _ _ _ fun k hk => ?_
      obtain ⟨h₁, h₂, args, e1, e2⟩ := passed_split hk
      have g1 : (run h).tasks[k]? = some (some (.gate ref args)) := by rw [e1]; exact gate_run _ e2
      have g2 := gate_run [e] g1
      simp only [held, g1, g2]
    · split
      · rfl
      · unfold throughAt passedAt
        cases e with
        | run k ok =>
          cases ok with
          | false => rfl
          | true =>
            dsimp only
            split
            · rename_i r args hk
              have g2 := gate_run [.run k true] hk
              split
              · rename_i hr
                simp [held, g2, atGate, hr]
              · rfl
            · rfl
        | _ => rfl

theorem flatMap_range (f : Option Task → List (List JVal)) (l : List (Option Task)) :
    l.flatMap f = (List.range l.length).flatMap fun k => f (l[k]?.getD none) := by
  induction l using snocRec with
  | nil => rfl
  | append_singleton l a ih =>
    rw [List.flatMap_append, List.length_append, List.length_singleton, List.range_succ, List.flatMap_append, ih]
    congr 1
    · refine flatMap_congr _ _ _ fun k hk => ?_
      rw [List.getElem?_append_left (List.mem_range.1 hk)]
    · simp

theorem subperm_of_nodup {α} [DecidableEq α] (l : List α) : ∀ l' : List α, l.Nodup → (∀ x ∈ l, x ∈ l') → ∃ rest, (l ++ rest).Perm l' := by
  induction l with
  | nil => intro l' _ _; exact ⟨l', .refl _⟩
  | cons a l ih =>
    intro l' hn hs
    obtain ⟨h1, h2⟩ := List.nodup_cons.1 hn
    obtain ⟨rest, h⟩ := ih (l'.erase a) h2 (fun x hx => by
      have : x ≠ a := by rintro rfl; exact h1 hx
      exact (List.mem_erase_of_ne this).2 (hs x (by simp [hx])))
    exact ⟨rest, (List.Perm.cons a h).trans (List.perm_cons_erase (hs a (by simp))).symm⟩

theorem through_gated (h : List Ev) (hn : NextOncePerEvent ref h) : ∃ rest, (gather (throughAt ref) h ++ rest).Perm ((run h).tasks.flatMap (atGate ref)) := by
  rw [through_passed, flatMap_range]
  obtain ⟨rest, hr⟩ := subperm_of_nodup (gather (passedAt ref) h) (List.range (run h).tasks.length) (passed_nodup h hn) (fun k hk => by
    obtain ⟨h₁, h₂, args, e1, e2⟩ := passed_split hk
    have g1 : (run h).tasks[k]? = some (some (.gate ref args)) := by rw [e1]; exact gate_run _ e2
    exact List.mem_range.2 (List.getElem?_eq_some_iff.1 g1).1)
  refine ⟨rest.flatMap (held ref (run h)), ?_⟩
  rw [← List.flatMap_append]
  exact List.Perm.flatMap_right _ hr

end Verif.Inbound
