import Verif.Spec.OneServer
import Verif.Proof.ClusterSel

namespace Verif.Cluster
open Verif

section
variable {σ : Type} (exec : Op → σ → σ) (n : Nat) (echo rec : Bool)

/-- `call_conserves`, in order, if a caller has received everything. -/
theorem call_ordered (s : St σ) (i j : Nat) (op : Cmd) (res : Option String) (hi : i < n) (hj : j < n)
    (hc : j = i → inflight rec j s.net = []) :
    (call exec n echo rec s i op res).hist j ++ inflight rec j (call exec n echo rec s i op res).net =
      (s.hist j ++ inflight rec j s.net) ++ Spec.due n rec j (.call i op res) := by
  cases op with
  | broadcast p o =>
    simp only [call, Spec.due, hi, hj, and_self, if_true, onlyLocal_eq]
    cases hl : Spec.LocalOnly o with
    | true =>
      simp only [if_true, local_hist, local_net]
      by_cases hji : j = i
      · rw [hc hji]; simp [hji]
      · simp [hji]
    | false =>
      cases res with
      | none => simp
      | some off =>
        have ep : ∀ b, publish n echo s i off b = tryPublish n echo s i (some off) b := fun _ => rfl
        simp only [local_hist, local_net, ep, tryPublish_hist, inflight_tryPublish n echo rec s i j _ _ hj,
          addOffset_eq, Bool.false_eq_true, if_false]
        by_cases hji : j = i
        · rw [hc hji]; simp [hji]
        · simp [hji, opOf, addOffset_eq, decode_encode, withOffset_wire]
  | join o rooms =>
    simp only [call, Spec.due, hi, hj, and_self, if_true, onlyLocal_eq, local_hist, local_net]
    by_cases hji : j = i
    · have := hc hji
      subst hji
      cases hl : Spec.LocalOnly o with
      | true => simp [this]
      | false =>
        simp only [inflight_tryPublish n echo rec s j j res _ hj, tryPublish_hist, if_true, Bool.false_eq_true, if_false]
        cases res <;> simp [this]
    · cases hl : Spec.LocalOnly o with
      | true => simp [hji]
      | false =>
        cases res <;> simp [hji, opOf, decode_encode, inflight_tryPublish n echo rec s i j _ _ hj]
  | leave o rooms =>
    simp only [call, Spec.due, hi, hj, and_self, if_true, onlyLocal_eq, local_hist, local_net]
    by_cases hji : j = i
    · have := hc hji
      subst hji
      cases hl : Spec.LocalOnly o with
      | true => simp [this]
      | false =>
        simp only [inflight_tryPublish n echo rec s j j res _ hj, tryPublish_hist, if_true, Bool.false_eq_true, if_false]
        cases res <;> simp [this]
    · cases hl : Spec.LocalOnly o with
      | true => simp [hji]
      | false => cases res <;> simp [hji, opOf, decode_encode, inflight_tryPublish n echo rec s i j _ _ hj]
  | disconnect o c =>
    simp only [call, Spec.due, hi, hj, and_self, if_true, onlyLocal_eq, local_hist, local_net]
    by_cases hji : j = i
    · have := hc hji
      subst hji
      cases hl : Spec.LocalOnly o with
      | true => simp [this]
      | false =>
        simp only [inflight_tryPublish n echo rec s j j res _ hj, tryPublish_hist, if_true, Bool.false_eq_true, if_false]
        cases res <;> simp [this]
    · cases hl : Spec.LocalOnly o with
      | true => simp [hji]
      | false => cases res <;> simp [hji, opOf, decode_encode, inflight_tryPublish n echo rec s i j _ _ hj]
  | emit packet expected req =>
    simp only [call, Spec.due, hi, hj, and_self, if_true]
    rcases List.eq_nil_or_concat packet with rfl | ⟨l, x, rfl⟩
    · simp [Spec.sseArgs]
    · simp only [List.concat_eq_append, List.getLast?_append, List.getLast?_singleton, Option.some_or,
        Spec.sseArgs, List.reverse_append, List.reverse_cons, List.reverse_nil, List.nil_append,
        List.singleton_append, List.dropLast_concat]
      cases x with
      | fn k =>
        by_cases he : expected = 0
        · simp [he]
        · simp only [he, if_false, tryPublish_hist, inflight_tryPublish n echo rec s i j res _ hj]
          cases res <;> by_cases hji : j = i <;> simp [hji, opOf]
      | «at» a =>
        simp only [tryPublish_hist, inflight_tryPublish n echo rec s i j res _ hj]
        cases res <;> by_cases hji : j = i <;> simp [hji, opOf]
      | arr a =>
        simp only [tryPublish_hist, inflight_tryPublish n echo rec s i j res _ hj]
        cases res <;> by_cases hji : j = i <;> simp [hji, opOf]

theorem inflight_caughtUp {s : St σ} {i : Nat} (h : Spec.CaughtUp s i) : inflight rec i s.net = [] := by
  unfold inflight
  rw [List.flatMap_eq_nil_iff]
  rintro ⟨j, m⟩ hm
  simp only [pendFor]
  rw [if_neg]
  rintro ⟨rfl, h'⟩
  exact h' (h m hm)

theorem inflight_oldest (net : List (Nat × Msg)) (k j : Nat) (d : Nat) (m : Msg) (hk : net[k]? = some (d, m))
    (h : ∀ k' m', k' < k → net[k']? ≠ some (d, m')) :
    inflight rec j net = pendFor rec j (d, m) ++ inflight rec j (net.eraseIdx k) := by
  unfold inflight
  induction net generalizing k with
  | nil => simp at hk
  | cons a l ih =>
    cases k with
    | zero => simp at hk; subst hk; simp
    | succ k =>
      have := ih k (by simpa using hk) (fun k' m' hlt hh => h (k' + 1) m' (by omega) (by simpa using hh))
      simp only [List.eraseIdx_cons_succ, List.flatMap_cons, this]
      rcases a with ⟨d', m'⟩
      by_cases hjd : d = j
      · subst hjd
        have : d' ≠ d := fun e => h 0 m' (by omega) (by simp [e])
        simp [pendFor, this]
      · simp [pendFor, hjd]

/-- Every server executes what is due to it in the order of the calls. -/
theorem ordered (init : Nat → σ) (h : List Ev) (ho : Spec.InTurn exec n echo rec init h)
    (hn : ∀ i op res, Ev.call i op res ∈ h → i < n) (j : Nat) (hj : j < n) :
    (run exec n echo rec init h).hist j ++ inflight rec j (run exec n echo rec init h).net =
      Spec.dues n rec j h := by
  induction h using snocRec with
  | nil => simp [run, inflight, Spec.dues]
  | append_singleton h e ih =>
    have e1 : run exec n echo rec init (h ++ [e]) = step exec n echo rec (run exec n echo rec init h) e := by
      simp [run]
    have ih := ih (by
      intro h₁ e' h₂ hh
      exact ho h₁ e' (h₂ ++ [e]) (by simp [hh])) (fun i op res hm => hn i op res (by simp [hm]))
    have e2 : Spec.dues n rec j (h ++ [e]) = Spec.dues n rec j h ++ Spec.due n rec j e := by simp [Spec.dues]
    have hl := ho h e [] rfl
    rw [e1, e2, ← ih]
    cases e with
    | call i op res =>
      have hi := hn i op res (by simp)
      simp only [step, if_pos hi]
      exact call_ordered exec n echo rec _ i j op res hi hj
        (fun hji => hji ▸ inflight_caughtUp rec (hji ▸ hl.1 i op res rfl))
    | deliver k =>
      have hk := hl.2 k rfl
      simp only [step, Spec.due, List.append_nil]
      split
      · rename_i d m hm
        have hi := inflight_oldest rec _ k j d m hm (fun k' m' hlt => hk k' d m m' hlt hm)
        rw [onMessage_eq]
        split
        · rename_i hsrc
          have : pendFor rec j (d, m) = [] := by
            simp only [pendFor]; rw [if_neg]; rintro ⟨rfl, h⟩; exact h hsrc
          rw [this] at hi
          rw [hi]; simp
        · rename_i hsrc
          simp only [local_hist, local_net]
          have e : pendFor rec j (d, m) = if j = d then [opOf rec m] else [] := by
            simp only [pendFor]
            by_cases hjd : j = d
            · subst hjd; simp [hsrc]
            · have : ¬ d = j := fun e => hjd e.symm
              simp [hjd, this]
          rw [hi, e]; simp
      · rfl

end
end Verif.Cluster

namespace Verif.Props
open Verif Verif.Adapter Verif.Delivery

theorem visits_keep {cb : Nsp → Nat → Nsp} {P : Nsp → Prop} (hcb : ∀ n ref, P n → P (cb n ref)) (ids : List Sid)
    (n : Nsp) (h : P n) : P (ids.foldl (visit view cb) n) := by
  induction ids generalizing n with
  | nil => exact h
  | cons x ids ih =>
    rw [List.foldl_cons]
    apply ih
    unfold visit
    split
    · exact hcb _ _ h
    · exact h

/-- `out` and `sidOf` are as in `n`. -/
def Same (n n' : Nsp) : Prop := n'.out = n.out ∧ n'.sidOf = n.sidOf

theorem same_join (n : Nsp) (hn : OK n) (o : Option Opts) (joined : List Room) : Same n (addSockets n o joined) := by
  unfold addSockets
  rw [(apply_spec (local_join joined) o n hn).1]
  refine visits_keep (P := Same n) ?_ _ n ⟨rfl, rfl⟩
  intro m ref h
  unfold join
  split
  · exact h
  · exact h

theorem leaveEach_same (d : Bool) (rooms : List Room) (m : Nsp) (ref : Nat) :
    (leaveEach d rooms m ref).out = m.out ∧ (leaveEach d rooms m ref).sidOf = m.sidOf := by
  unfold leaveEach
  induction rooms generalizing m with
  | nil => exact ⟨rfl, rfl⟩
  | cons r rooms ih => rw [List.foldl_cons]; exact ih _

theorem same_leave (d : Bool) (n : Nsp) (hn : OK n) (o : Option Opts) (left : List Room) :
    Same n (delSockets d n o left) := by
  unfold delSockets
  rw [(apply_spec (local_leaveEach d left) o n hn).1]
  refine visits_keep (P := Same n) ?_ _ n ⟨rfl, rfl⟩
  intro m ref h
  have := leaveEach_same d left m ref
  exact ⟨this.1.trans h.1, this.2.trans h.2⟩

/-- `Shows` for a socket whose pointer belongs to it, in a consistent state. -/
structure Fits (n : Nsp) (s : Sid) (ref : Nat) (x : Spec.OneSock) : Prop where
  ok : OK n
  own : n.sidOf ref = s
  shows_ : Spec.Shows n s ref x

theorem chosen_iff {n : Nsp} {s : Sid} {ref : Nat} {x : Spec.OneSock} (h : Spec.Shows n s ref x) (o : Option Opts) :
    x.chosen o = true ↔ Sel n (Spec.targeted o) (Spec.excepted o) s := by
  obtain ⟨h1, h2, _⟩ := h
  have hc : x.on = true ↔ Connected n s := by
    unfold Connected
    rw [h1]
    cases x.on <;> simp
  unfold Spec.OneSock.chosen Sel Spec.Selected Spec.Matches
  simp only [Bool.and_eq_true, hc, h2, and_assoc]
  refine and_congr Iff.rfl (and_congr ?_ ?_)
  · simp [List.isEmpty_iff]
  · simp

section
variable {n : Nsp} {s : Sid} {ref : Nat} {x : Spec.OneSock}

theorem fits_broadcast (h : Fits n s ref x) (p : Pkt) (o o' : Option Opts)
    (h1 : ∀ r, r ∈ Spec.targeted o' ↔ r ∈ Spec.targeted o) (h2 : ∀ r, r ∈ Spec.excepted o' ↔ r ∈ Spec.excepted o) :
    Fits (broadcast n p o') s ref (if x.chosen o then { x with got := x.got ++ [p] } else x) := by
  have ex : broadcast n p o' =
      broadcast n p (some ⟨some (Spec.targeted o'), some (Spec.excepted o'), o'.bind (·.flags)⟩) := by
    unfold broadcast; rw [apply_explicit]
  obtain ⟨ids, ptr, nd, hm, hp, e⟩ := C03_broadcast n h.ok p (Spec.targeted o') (Spec.excepted o') (o'.bind (·.flags))
  rw [ex, e]
  have hok := h.ok
  refine ⟨⟨hok.1, hok.2, hok.3, hok.4, hok.5, hok.6, hok.7, hok.8, hok.9⟩, h.own, ?_⟩
  have hch : x.chosen o = true ↔ s ∈ ids := by
    rw [chosen_iff h.shows_, hm, sel_congr h1 h2]
  have hptr : ∀ y ∈ ids, ptr y = ref ↔ y = s := by
    intro y hy
    constructor
    · intro e
      have := h.ok.ownId y _ (hp y hy)
      rw [← this, e, h.own]
    · intro e
      subst e
      have hx : x.on = true := by
        have := (hch.2 hy)
        unfold Spec.OneSock.chosen at this
        simp only [Bool.and_eq_true] at this
        exact this.1.1
      have := h.shows_.1
      rw [hp y hy, hx] at this
      simpa using this
  have hgot : (ids.map (fun y => (ptr y, p))).filterMap (fun y => if y.1 = ref then some y.2 else none) =
      if s ∈ ids then [p] else [] := by
    clear hm hp hch e
    induction ids with
    | nil => simp
    | cons y ids ih =>
      have ih := ih (List.nodup_cons.1 nd).2 (fun z hz => hptr z (by simp [hz]))
      have hy := hptr y (by simp)
      have hny := (List.nodup_cons.1 nd).1
      by_cases e : y = s
      · subst e
        rw [if_neg hny] at ih
        simp only [List.map_cons, List.filterMap_cons, hy.2 rfl, if_true, ih]
        simp
      · have e' : ¬ ptr y = ref := fun h => e (hy.1 h)
        have e'' : ¬ s = y := fun h => e h.symm
        simp only [List.map_cons, List.filterMap_cons, e', if_false, ih, List.mem_cons, e'', false_or]
  obtain ⟨s1, s2, s3⟩ := h.shows_
  by_cases hc : s ∈ ids
  · rw [if_pos (hch.2 hc)]
    refine ⟨s1, s2, ?_⟩
    simp only [List.filterMap_append, hgot, if_pos hc, s3]
  · rw [if_neg (fun h => hc (hch.1 h))]
    refine ⟨s1, s2, ?_⟩
    simp only [List.filterMap_append, hgot, if_neg hc, s3, List.append_nil]

theorem fits_join (h : Fits n s ref x) (joined : List Room) (o o' : Option Opts)
    (h1 : ∀ r, r ∈ Spec.targeted o' ↔ r ∈ Spec.targeted o) (h2 : ∀ r, r ∈ Spec.excepted o' ↔ r ∈ Spec.excepted o) :
    Fits (addSockets n o' joined) s ref (if x.chosen o then { x with rooms := x.rooms ++ joined } else x) := by
  have hs := same_join n h.ok o' joined
  have ex : addSockets n o' joined = addSockets n
      (some ⟨some (Spec.targeted o'), some (Spec.excepted o'), o'.bind (·.flags)⟩) joined := by
    unfold addSockets; rw [apply_explicit]
  have hj := C06_socketsJoin n h.ok (Spec.targeted o') (Spec.excepted o') joined (o'.bind (·.flags))
  simp only [sel_congr h1 h2] at hj
  rw [← ex] at hj
  obtain ⟨k1, k2, k3⟩ := hj
  obtain ⟨s1, s2, s3⟩ := h.shows_
  refine ⟨k1, by rw [hs.2]; exact h.own, ?_⟩
  have hch := chosen_iff h.shows_ o
  by_cases hc : x.chosen o = true
  · rw [if_pos hc]
    refine ⟨by rw [k2]; exact s1, ?_, by rw [hs.1]; exact s3⟩
    intro r
    rw [k3, s2]
    simp [hch.1 hc]
  · rw [if_neg hc]
    refine ⟨by rw [k2]; exact s1, ?_, by rw [hs.1]; exact s3⟩
    intro r
    rw [k3, s2]
    have hns : ¬ Sel n (Spec.targeted o) (Spec.excepted o) s := fun h => hc (hch.2 h)
    simp [hns]

theorem fits_leave (d : Bool) (h : Fits n s ref x) (left : List Room) (o o' : Option Opts)
    (h1 : ∀ r, r ∈ Spec.targeted o' ↔ r ∈ Spec.targeted o) (h2 : ∀ r, r ∈ Spec.excepted o' ↔ r ∈ Spec.excepted o) :
    Fits (delSockets d n o' left) s ref
      (if x.chosen o then { x with rooms := x.rooms.filter (!left.contains ·) } else x) := by
  have hs := same_leave d n h.ok o' left
  have ex : delSockets d n o' left = delSockets d n
      (some ⟨some (Spec.targeted o'), some (Spec.excepted o'), o'.bind (·.flags)⟩) left := by
    unfold delSockets; rw [apply_explicit]
  have hj := C06_socketsLeave d n h.ok (Spec.targeted o') (Spec.excepted o') left (o'.bind (·.flags))
  simp only [sel_congr h1 h2] at hj
  rw [← ex] at hj
  obtain ⟨k1, k2, k3⟩ := hj
  obtain ⟨s1, s2, s3⟩ := h.shows_
  refine ⟨k1, by rw [hs.2]; exact h.own, ?_⟩
  have hch := chosen_iff h.shows_ o
  by_cases hc : x.chosen o = true
  · rw [if_pos hc]
    refine ⟨by rw [k2]; exact s1, ?_, by rw [hs.1]; exact s3⟩
    intro r
    rw [k3, s2]
    simp [hch.1 hc]
  · rw [if_neg hc]
    refine ⟨by rw [k2]; exact s1, ?_, by rw [hs.1]; exact s3⟩
    intro r
    rw [k3, s2]
    have hns : ¬ Sel n (Spec.targeted o) (Spec.excepted o) s := fun h => hc (hch.2 h)
    simp [hns]

theorem fits_disconnect (d close : Bool) (h : Fits n s ref x) (o o' : Option Opts)
    (h1 : ∀ r, r ∈ Spec.targeted o' ↔ r ∈ Spec.targeted o) (h2 : ∀ r, r ∈ Spec.excepted o' ↔ r ∈ Spec.excepted o) :
    Fits (disconnectSockets d n o' close) s ref
      (if x.chosen o then { x with on := false, rooms := [] } else x) := by
  have ex : disconnectSockets d n o' close = disconnectSockets d n
      (some ⟨some (Spec.targeted o'), some (Spec.excepted o'), o'.bind (·.flags)⟩) close := by
    unfold disconnectSockets; rw [apply_explicit]
  have hj := C07_disconnectSockets d close n h.ok (Spec.targeted o') (Spec.excepted o') (o'.bind (·.flags))
  simp only [sel_congr h1 h2] at hj
  rw [← ex] at hj
  obtain ⟨k1, k2, k3, _, k4, k5⟩ := hj
  obtain ⟨s1, s2, s3⟩ := h.shows_
  refine ⟨k1, by rw [k3]; exact h.own, ?_⟩
  have hch := chosen_iff h.shows_ o
  by_cases hc : x.chosen o = true
  · rw [if_pos hc]
    have := k4 s (hch.1 hc)
    refine ⟨?_, ?_, by rw [k2]; exact s3⟩
    · cases e : (disconnectSockets d n o' close).sockets.get? s with
      | none => simp
      | some r => exact absurd ⟨r, e⟩ this.1
    · intro r; rw [this.2]
  · rw [if_neg hc]
    have := k5 s (fun h => hc (hch.2 h))
    refine ⟨by rw [this.1]; exact s1, ?_, by rw [k2]; exact s3⟩
    intro r; rw [this.2, s2]

end

/-- What is due at the server of a socket for one call does to it what the call does. -/
theorem fits_due (d : Bool) (n : Nat) (recovery : Bool) (j i : Nat) (hi : i < n) (hj : j < n) (op : Cluster.Cmd)
    (off : String) (nd : Cluster.Node) (s : Sid) (ref : Nat) (x : Spec.OneSock) (h : Fits nd.nsp s ref x) :
    Fits ((Spec.due n recovery j (.call i op (some off))).foldl (fun s op => Cluster.execNode d op s) nd).nsp s ref
      (x.after recovery (j == i) off op) := by
  have t1 : ∀ o : Option Opts, ∀ r, r ∈ Spec.targeted (if j = i then o else Spec.wire o) ↔ r ∈ Spec.targeted o := by
    intro o r; split <;> simp [wire_targeted]
  have t2 : ∀ o : Option Opts, ∀ r, r ∈ Spec.excepted (if j = i then o else Spec.wire o) ↔ r ∈ Spec.excepted o := by
    intro o r; split <;> simp [wire_excepted]
  cases op with
  | broadcast p o =>
    simp only [Spec.due, hi, hj, and_self, if_true, Spec.OneSock.after]
    cases hl : Spec.LocalOnly o with
    | true =>
      by_cases hji : j = i
      · have := fits_broadcast h p o o (fun _ => Iff.rfl) (fun _ => Iff.rfl)
        simp only [hji, if_true, List.foldl_cons, List.foldl_nil, Cluster.execNode, beq_self_eq_true]
        cases hc : x.chosen o <;> simpa [hc] using this
      · have : (j == i) = false := by simpa using hji
        simp only [hji, if_true, if_false, List.foldl_nil, this]
        cases hc : x.chosen o <;> simpa using h
    | false =>
      have := fits_broadcast h (Spec.withOffset recovery off o p) o _ (t1 o) (t2 o)
      simp only [Bool.false_eq_true, if_false, List.foldl_cons, List.foldl_nil, Cluster.execNode]
      cases hc : x.chosen o <;> simpa [hc] using this
  | join o joined =>
    simp only [Spec.due, hi, hj, and_self, if_true, Spec.OneSock.after]
    by_cases hji : j = i
    · have := fits_join h joined o o (fun _ => Iff.rfl) (fun _ => Iff.rfl)
      simpa [hji, Cluster.execNode] using this
    · have hb : (j == i) = false := by simpa using hji
      cases hl : Spec.LocalOnly o with
      | true => simpa [hji, hb] using h
      | false =>
        have := fits_join h joined o _ (wire_targeted o) (wire_excepted o)
        simpa [hji, hb, Cluster.execNode] using this
  | leave o left =>
    simp only [Spec.due, hi, hj, and_self, if_true, Spec.OneSock.after]
    by_cases hji : j = i
    · have := fits_leave d h left o o (fun _ => Iff.rfl) (fun _ => Iff.rfl)
      simp only [hji, if_true, List.foldl_cons, List.foldl_nil, Cluster.execNode, beq_self_eq_true, Bool.true_or,
        Bool.and_true]
      exact this
    · have hb : (j == i) = false := by simpa using hji
      cases hl : Spec.LocalOnly o with
      | true => simpa [hji, hb] using h
      | false =>
        have := fits_leave d h left o _ (wire_targeted o) (wire_excepted o)
        simp only [hji, hb, if_false, Bool.false_eq_true, false_or, reduceCtorEq, List.foldl_cons, List.foldl_nil,
          Cluster.execNode, Bool.not_false, Bool.false_or, Bool.and_true]
        exact this
  | disconnect o close =>
    simp only [Spec.due, hi, hj, and_self, if_true, Spec.OneSock.after]
    by_cases hji : j = i
    · have := fits_disconnect d close h o o (fun _ => Iff.rfl) (fun _ => Iff.rfl)
      simpa [hji, Cluster.execNode] using this
    · have hb : (j == i) = false := by simpa using hji
      cases hl : Spec.LocalOnly o with
      | true => simpa [hji, hb] using h
      | false =>
        have := fits_disconnect d close h o _ (wire_targeted o) (wire_excepted o)
        simpa [hji, hb, Cluster.execNode] using this
  | emit packet expected req =>
    simp only [Spec.due, hi, hj, and_self, if_true, Spec.OneSock.after]
    split
    · exact h
    · cases Spec.sseArgs packet expected req with
      | none => exact h
      | some args => exact h

theorem fits_dues (d : Bool) (n : Nat) (recovery : Bool) (j : Nat) (hj : j < n) (h : List Cluster.Ev)
    (hp : Spec.Published n h) (nd : Cluster.Node) (s : Sid) (ref : Nat) (x : Spec.OneSock)
    (hf : Fits nd.nsp s ref x) :
    Fits ((Spec.dues n recovery j h).foldl (fun s op => Cluster.execNode d op s) nd).nsp s ref
      (x.afterAll recovery j h) := by
  induction h generalizing nd x with
  | nil => exact hf
  | cons e h ih =>
    have ih := ih (fun i op res hm => hp i op res (by simp [hm]))
    unfold Spec.dues
    rw [List.flatMap_cons, List.foldl_append]
    cases e with
    | deliver k => exact ih nd x hf
    | call i op res =>
      obtain ⟨hi, hr⟩ := hp i op res (by simp)
      cases res with
      | none => exact absurd rfl hr
      | some off => exact ih _ _ (fits_due d n recovery j i hi hj op off nd s ref x hf)

end Verif.Props

namespace Verif.Cluster
open Verif

section
variable {σ : Type} (exec : Op → σ → σ) (n : Nat) (echo rec : Bool) (init : Nat → σ)

/-- A call adds to the messages under way at most one for each server, from the caller. -/
theorem call_net (s : St σ) (i : Nat) (op : Cmd) (res : Option String) :
    (call exec n echo rec s i op res).net = s.net ∨
    ∃ off b, (call exec n echo rec s i op res).net =
      s.net ++ ((List.range n).filter (fun j => echo || j != i)).map (fun j => (j, ⟨i, off, b⟩)) := by
  have tp : ∀ b, (tryPublish n echo s i res b).net = s.net ∨ ∃ off b', (tryPublish n echo s i res b).net =
      s.net ++ ((List.range n).filter (fun j => echo || j != i)).map (fun j => (j, ⟨i, off, b'⟩)) := by
    intro b
    cases res with
    | none => exact .inl rfl
    | some off => exact .inr ⟨off, b, rfl⟩
  have hif : ∀ (c : Bool) (b : Body), (if c = true then s else tryPublish n echo s i res b).net = s.net ∨
      ∃ off b', (if c = true then s else tryPublish n echo s i res b).net =
      s.net ++ ((List.range n).filter (fun j => echo || j != i)).map (fun j => (j, ⟨i, off, b'⟩)) := by
    intro c b
    cases c
    · exact tp b
    · exact .inl rfl
  cases op with
  | broadcast p o =>
    simp only [call]
    split
    · exact .inl rfl
    · cases res with
      | none => exact .inl rfl
      | some off => exact .inr ⟨off, _, rfl⟩
  | join o rooms => exact hif _ _
  | leave o rooms => exact hif _ _
  | disconnect o c => exact hif _ _
  | emit packet expected req =>
    simp only [call]
    split
    · exact .inl rfl
    · split
      · exact .inl rfl
      · exact tp _
    · exact tp _

theorem deliver_net (s : St σ) (k : Nat) :
    (step exec n echo rec s (.deliver k)).net = s.net.eraseIdx k := by
  simp only [step]
  split
  · rw [onMessage_eq]
    split <;> rfl
  · rename_i h
    rw [List.eraseIdx_of_length_le]
    exact List.getElem?_eq_none_iff.1 h

theorem srcs (h : List Ev) (c : Nat) (one : ∀ i op res, Ev.call i op res ∈ h → i = c) :
    ∀ x ∈ (run exec n echo rec init h).net, x.2.src = c := by
  induction h using snocRec with
  | nil => simp [run]
  | append_singleton h e ih =>
    have ih := ih (fun i op res hm => one i op res (by simp [hm]))
    have e1 : run exec n echo rec init (h ++ [e]) = step exec n echo rec (run exec n echo rec init h) e := by
      simp [run]
    rw [e1]
    intro x hx
    cases e with
    | call i op res =>
      have hi := one i op res (by simp)
      simp only [step] at hx
      split at hx
      · rcases call_net exec n echo rec (run exec n echo rec init h) i op res with hn | ⟨off, b, hn⟩
        · rw [hn] at hx; exact ih x hx
        · rw [hn, List.mem_append] at hx
          rcases hx with hx | hx
          · exact ih x hx
          · obtain ⟨j, _, rfl⟩ := List.mem_map.1 hx
            exact hi
      · exact ih x hx
    | deliver k =>
      rw [deliver_net] at hx
      exact ih x (List.mem_of_mem_eraseIdx hx)

/-- If calls are only made when nothing is under way, there is never more than one message for a server. -/
theorem oneEach (h : List Ev)
    (quiet : ∀ h₁ i op res h₂, h = h₁ ++ .call i op res :: h₂ → (run exec n echo rec init h₁).net = []) :
    ((run exec n echo rec init h).net.map (·.1)).Nodup := by
  induction h using snocRec with
  | nil => simp [run]
  | append_singleton h e ih =>
    have ih := ih (fun h₁ i op res h₂ hh => quiet h₁ i op res (h₂ ++ [e]) (by simp [hh]))
    have e1 : run exec n echo rec init (h ++ [e]) = step exec n echo rec (run exec n echo rec init h) e := by
      simp [run]
    rw [e1]
    cases e with
    | call i op res =>
      simp only [step]
      split
      · have hq := quiet h i op res [] rfl
        rcases call_net exec n echo rec (run exec n echo rec init h) i op res with hn | ⟨off, b, hn⟩
        · rw [hn]; exact ih
        · rw [hn, hq]
          simp only [List.nil_append, List.map_map]
          have : ((fun x : Nat × Msg => x.1) ∘ fun j => (j, (⟨i, off, b⟩ : Msg))) = id := rfl
          rw [this, List.map_id]
          exact List.nodup_range.filter _
      · exact ih
    | deliver k =>
      rw [deliver_net]
      exact ih.sublist ((List.eraseIdx_sublist ..).map _)

theorem oneEach_index {net : List (Nat × Msg)} (nd : (net.map (·.1)).Nodup) {k k' j : Nat} {m m' : Msg}
    (hlt : k' < k) (h : net[k']? = some (j, m')) (hk : net[k]? = some (j, m)) : False := by
  have h1 : (net.map (·.1))[k']? = some j := by simp [h]
  have h2 : (net.map (·.1))[k]? = some j := by simp [hk]
  have l1 := (List.getElem?_eq_some_iff.1 h1).1
  have := (List.getElem?_inj l1 nd).1 (h1.trans h2.symm)
  omega

end
end Verif.Cluster
