import Verif.Proof.DynRace
import Verif.Proof.Registry
import Verif.Spec.DynSeq

namespace Verif.DynRace
open Verif Verif.World Verif.Spec

/-- `m` steps for client `k`. -/
def advs (c : Cfg) (k : Nat) : Nat → St → St
  | 0, s => s
  | m + 1, s => advs c k m (step c s (.adv k))

theorem advs_run (c : Cfg) (k m : Nat) (s : St) : (List.replicate m (.adv k)).foldl (step c) s = advs c k m s := by
  induction m generalizing s with
  | zero => rfl
  | succ m ih => simp [List.replicate_succ, advs, ih]

theorem upd_self' {α : Type} (f : Nat → α) (k : Nat) : upd f k (f k) = f := by
  funext j; rw [upd_apply]; split
  · next h => rw [h]
  · rfl

theorem over_stays {c : Cfg} {k : Nat} {s : St} (h : dynOver s k) : step c s (.adv k) = s := by
  rcases h with ⟨n, h⟩ | h <;> simp only [step, act, h] <;> rw [← h, upd_self']

theorem advs_over {c : Cfg} {k : Nat} {s : St} (h : dynOver s k) (m : Nat) : advs c k m s = s := by
  induction m with
  | zero => rfl
  | succ m ih => rw [advs, over_stays h, ih]

theorem advs_add (c : Cfg) (k m n : Nat) (s : St) : advs c k (m + n) s = advs c k n (advs c k m s) := by
  induction m generalizing s with
  | zero => simp [advs]
  | succ m ih => rw [show m + 1 + n = (m + n) + 1 by omega, advs, ih, advs]

theorem advs_unique {c : Cfg} {k m n : Nat} {s : St} (hm : dynOver (advs c k m s) k) (hn : dynOver (advs c k n s) k) :
    advs c k m s = advs c k n s := by
  rcases Nat.le_total m n with h | h
  · obtain ⟨d, rfl⟩ := Nat.exists_eq_add_of_le h
    rw [advs_add, advs_over hm]
  · obtain ⟨d, rfl⟩ := Nat.exists_eq_add_of_le h
    rw [advs_add, advs_over hn]

/-- Some steps for `k` lead from one state to the other. -/
def Reach (c : Cfg) (k : Nat) (s t : St) : Prop := ∃ m, advs c k m s = t

theorem Reach.refl (c : Cfg) (k : Nat) (s : St) : Reach c k s s := ⟨0, rfl⟩
theorem Reach.head {c : Cfg} {k : Nat} {s t : St} (h : Reach c k (step c s (.adv k)) t) : Reach c k s t := by
  obtain ⟨m, h⟩ := h; exact ⟨m + 1, h⟩

theorem same_congr {name : String} {par off : Nat} {r : Registry.St} {d e : St} (h : SameDyn name par off r d)
    (h1 : e.next = d.next) (h2 : ∀ n, (e.nsp n).child = (d.nsp n).child) (h3 : e.reg = d.reg) (h4 : e.children = d.children) :
    SameDyn name par off r e :=
  ⟨by rw [h1]; exact h.count, fun n hn => by rw [h2]; exact h.spaces n (h1 ▸ hn), by rw [h3]; exact h.reg, by rw [h4]; exact h.children⟩

theorem same_clean {name : String} {par off n : Nat} {r : Registry.St} {d e : St} (h : SameDyn name par off r d) (hn : n < d.next)
    (hc : (d.nsp n).child = true) (h1 : e.next = d.next) (h2 : ∀ n, (e.nsp n).child = (d.nsp n).child) (h3 : e.reg = none)
    (h4 : e.children = d.children.filter (· ≠ n)) : SameDyn name par off (Registry.clean r (off + n)) e := by
  obtain ⟨x, hx, hxn, hxp⟩ := h.spaces n hn
  obtain ⟨p, hp, hk⟩ := h.children
  simp only [hc, if_true] at hxp
  obtain ⟨xn, xp, xf, xh⟩ := x
  simp only at hxn hxp
  subst hxn hxp
  have hlt : par < r.parents.length := by
    rcases Nat.lt_or_ge par r.parents.length with h' | h'
    · exact h'
    · rw [List.getElem?_eq_none h'] at hp; cases hp
  simp only [Registry.clean, hx, hp]
  refine ⟨by rw [h1]; exact h.count, fun m hm => by rw [h2]; exact h.spaces m (h1 ▸ hm), ?_, ?_⟩
  · rw [h3]; simp
  · refine ⟨_, by simp [hlt]; rfl, fun m => ?_⟩
    rw [h4]
    simp only [List.mem_filter, hk]
    simp

/-- The namespace is cleaned up. -/
theorem from_close {c : Cfg} {k n : Nat} {s : St} (hp : s.pc k = .close n) : ∃ t, Reach c k s t ∧ t.pc k = .gone ∧ t.next = s.next ∧
    (∀ m, (t.nsp m).child = (s.nsp m).child) ∧ (∀ m, (t.nsp m).socks = (s.nsp m).socks) ∧ t.reg = none ∧
    t.children = s.children.filter (· ≠ n) := by
  refine ⟨_, (Reach.refl c k _).head.head.head, by simp [step, act, hp], by simp [step, act, hp], fun m => ?_, fun m => ?_,
    by simp [step, act, hp], by simp [step, act, hp]⟩ <;>
  · simp only [step, act, hp, upd_same, upd_apply]; split
    · next e => rw [e]
    · rfl

/-- The client is taken out of the namespace, which is cleaned up if it is to be. -/
theorem from_remove {c : Cfg} {name : String} {par off k n : Nat} {r : Registry.St} {s : St} (h : SameDyn name par off r s)
    (hn : n < s.next) (hp : s.pc k = .remove n) : ∃ t, Reach c k s t ∧ t.pc k = .gone ∧ k ∉ (t.nsp n).socks ∧
      (t.nsp n).child = (s.nsp n).child ∧ SameDyn name par off (if toClean c t n then Registry.clean r (off + n) else r) t := by
  have hch : ∀ m, ((step c s (.adv k)).nsp m).child = (s.nsp m).child := by
    intro m
    simp only [step, act, hp, upd_apply]; split
    · next e => rw [e]
    · rfl
  have hso : ((step c s (.adv k)).nsp n).socks = (s.nsp n).socks.filter (· ≠ k) := by simp [step, act, hp]
  have h' : SameDyn name par off r (step c s (.adv k)) :=
    same_congr h (by simp [step, act, hp]) hch (by simp [step, act, hp]) (by simp [step, act, hp])
  have hn' : n < (step c s (.adv k)).next := by simpa [step, act, hp] using hn
  have hpc : (step c s (.adv k)).pc k = if (s.nsp n).child && c.cleanup then .test n else .gone := by simp [step, act, hp]
  have hk : k ∉ ((step c s (.adv k)).nsp n).socks := by rw [hso]; simp
  suffices ∃ t, Reach c k (step c s (.adv k)) t ∧ t.pc k = .gone ∧ k ∉ (t.nsp n).socks ∧ (t.nsp n).child = (s.nsp n).child ∧
      SameDyn name par off (if toClean c t n then Registry.clean r (off + n) else r) t by
    obtain ⟨t, h1, h2⟩ := this
    exact ⟨t, h1.head, h2⟩
  have hcn := hch n
  clear hch hso h hn hp
  generalize step c s (.adv k) = u at *
  cases hc : (s.nsp n).child && c.cleanup with
  | false =>
    refine ⟨u, Reach.refl .., by rw [hpc, hc]; rfl, hk, hcn, ?_⟩
    have ht : toClean c u n = false := by
      simp only [toClean, hcn]
      cases h1 : (s.nsp n).child <;> cases h2 : c.cleanup <;> simp [h1, h2] at hc ⊢
    rw [ht]
    exact h'
  | true =>
    rw [hc, if_pos rfl] at hpc
    simp only [Bool.and_eq_true] at hc
    rw [hc.1] at hcn
    by_cases he : (u.nsp n).socks = []
    · obtain ⟨t, h1, h2, h3, h4, h5, h6, h7⟩ := from_close (c := c) (k := k) (n := n) (s := step c u (.adv k))
        (by simp only [step, act, hpc, upd_same]; rw [if_pos he])
      simp only [step, act, hpc] at h3 h4 h5 h6 h7
      refine ⟨t, h1.head, h2, by rw [h5, he]; simp, by rw [h4, hcn, hc.1], ?_⟩
      have ht : toClean c t n = true := by simp [toClean, h4, h5, he, hc, hcn]
      rw [ht]
      exact same_clean h' hn' hcn h3 h4 h6 h7
    · refine ⟨_, (Reach.refl c k _).head, by simp only [step, act, hpc, upd_same]; rw [if_neg he], by simpa only [step, act, hpc] using hk,
        by simp only [step, act, hpc]; rw [hcn, hc.1], ?_⟩
      have ht : toClean c (step c u (.adv k)) n = false := by
        simp only [toClean, step, act, hpc]
        cases hq : (u.nsp n).socks with
        | nil => exact absurd hq he
        | cons => simp
      rw [ht]
      exact same_congr h' (by simp [step, act, hpc]) (fun m => by simp [step, act, hpc]) (by simp [step, act, hpc]) (by simp [step, act, hpc])

/-- The client is let in, or refused. -/
theorem from_gate {c : Cfg} {name : String} {par off k n : Nat} {r : Registry.St} {s : St} (h : SameDyn name par off r s)
    (hn : n < s.next) (hp : s.pc k = .gate n) :
    (((s.nsp n).child = true → c.admit k = true) → ∃ t, Reach c k s t ∧ t.pc k = .inside n ∧ k ∈ (t.nsp n).socks ∧ SameDyn name par off r t) ∧
    ((s.nsp n).child = true → c.admit k = false → ∃ t, Reach c k s t ∧ t.pc k = .gone ∧ k ∉ (t.nsp n).socks ∧ (t.nsp n).child = true ∧
      SameDyn name par off (if toClean c t n then Registry.clean r (off + n) else r) t) := by
  constructor
  · intro ha
    have hg : ((s.nsp n).child && !c.admit k) = false := by
      cases h1 : (s.nsp n).child
      · rfl
      · simp [ha h1]
    refine ⟨_, (Reach.refl c k _).head.head, by simp [step, act, hp, hg], by simp [step, act, hp, hg], ?_⟩
    refine same_congr h (by simp [step, act, hp, hg]) (fun m => ?_) (by simp [step, act, hp, hg]) (by simp [step, act, hp, hg])
    simp only [step, act, hp, hg, upd_same, upd_apply, Bool.false_eq_true, if_false]; split
    · next e => rw [e]
    · rfl
  · intro hc ha
    have h' : SameDyn name par off r (step c s (.adv k)) :=
      same_congr h (by simp [step, act, hp]) (fun m => by simp [step, act, hp]) (by simp [step, act, hp]) (by simp [step, act, hp])
    obtain ⟨t, h1, h2, h3, h4, h5⟩ := from_remove (c := c) (k := k) (n := n) h' (by simpa [step, act, hp] using hn)
      (by simp [step, act, hp, hc, ha])
    exact ⟨t, h1.head, h2, h3, by rw [h4]; simpa [step, act, hp] using hc, h5⟩

theorem traverse_only {regex : Nat → String → Bool} {calls : Nat → List Bool} {k par : Nat} {name : String} :
    ∀ {ks : List Nat} {r : Registry.St}, (∀ j ∈ ks, calls j = [j == par]) → par ∈ ks →
      ∃ cl, Registry.traverse regex calls k name ks (r, true) = (Registry.nextCalled regex { r with closures := cl } k name par true, false)
  | [], _, _, hp => by cases hp
  | j :: ks, r, hc, hp => by
    by_cases e : j = par
    · subst e
      refine ⟨r.closures ++ [(k, name, j)], ?_⟩
      simp only [Registry.traverse, hc j (by simp)]
      simp
    · have hj : calls j = [false] := by rw [hc j (by simp)]; simp [e]
      obtain ⟨cl, h⟩ := traverse_only (regex := regex) (k := k) (name := name) (ks := ks) (r := { r with closures := r.closures ++ [(k, name, j)] })
        (fun i hi => hc i (by simp [hi])) (by simpa [Ne.symm e] using hp)
      refine ⟨cl, ?_⟩
      rw [Registry.traverse]
      simp only [hj]
      simp only [List.foldl_cons, List.foldl_nil, List.any_cons, List.any_nil]
      rw [← h]
      simp [Registry.nextCalled]

theorem doConnect_some {regex : Nat → String → Bool} {r : Registry.St} {k i : Nat} {name : String}
    (hn : Registry.normalize (some name) = name) (hi : r.nsps.get? name = some i) :
    Registry.doConnect regex r k name = { r with answers := r.answers ++ [(k, some i)] } := by
  simp [Registry.doConnect, Registry.ofName, hn, hi, Registry.addHandler]

theorem same_answers {name : String} {par off : Nat} {r : Registry.St} {d : St} (h : SameDyn name par off r d) (a : List (Nat × Option Nat)) :
    SameDyn name par off { r with answers := a } d := ⟨h.count, h.spaces, h.reg, h.children⟩

/-- What `Client.connect` does when the name is not registered: parent `par` makes the namespace. -/
theorem connect_none {regex : Nat → String → Bool} {calls : Nat → List Bool} {order : List Nat} {name : String} {par off k : Nat}
    {r : Registry.St} {d e : St} (h : SameDyn name par off r d) (hn : Registry.normalize (some name) = name)
    (only : OnlyParent regex r name calls par) (ho : par ∈ order) (hr : d.reg = none)
    (h1 : e.next = d.next + 1) (h2 : e.nsp = upd d.nsp d.next { child := true }) (h3 : e.reg = some d.next)
    (h4 : e.children = d.children ++ [d.next]) :
    SameDyn name par off (Registry.connect regex r k name order calls) e ∧
    (Registry.connect regex r k name order calls).answers = r.answers ++ [(k, some (off + d.next))] := by
  obtain ⟨p, hp, hkids⟩ := h.children
  have hlt : par < r.parents.length := by
    rcases Nat.lt_or_ge par r.parents.length with h' | h'
    · exact h'
    · rw [List.getElem?_eq_none h'] at hp; cases hp
  have hg : r.nsps.get? name = none := by rw [h.reg, hr]; rfl
  obtain ⟨cl, ht⟩ := traverse_only (regex := regex) (calls := Registry.callsOf regex r name calls) (k := k) (par := par) (name := name)
    (ks := order.filter (· < r.parents.length)) (r := r)
    (by
      intro j hj
      simp only [List.mem_filter, decide_eq_true_eq] at hj
      have := only j _ (List.getElem?_eq_getElem hj.2)
      simp only [Registry.callsOf, List.getElem?_eq_getElem hj.2]
      exact this)
    (by simp [ho, hlt])
  have hc : Registry.connect regex r k name order calls = Registry.nextCalled regex { r with closures := cl } k name par true := by
    simp only [Registry.connect, hg, ht]; simp
  rw [hc]
  simp only [Registry.nextCalled, if_true, hg]
  rw [doConnect_some hn (i := off + d.next) (by simp [Registry.createChild, hp, h.count])]
  refine ⟨same_answers ?_ _, by simp [Registry.createChild, hp]⟩
  refine ⟨?_, ?_, ?_, ?_⟩
  · simp [Registry.createChild, hp, h.count, h1]; omega
  · intro n hlt'
    rw [h1] at hlt'
    rw [h2, upd_apply]
    by_cases e' : n = d.next
    · subst e'
      refine ⟨{ name := name, parent := some par, fns := p.fns, handlers := p.handlers }, ?_, rfl, by simp⟩
      simp only [Registry.createChild, hp, ← h.count]
      simp
    · obtain ⟨x, hx, hx2⟩ := h.spaces n (by omega)
      refine ⟨x, ?_, by simpa [e'] using hx2⟩
      simp only [Registry.createChild, hp]
      rw [List.getElem?_append_left (by rw [h.count]; omega)]
      exact hx
  · simp [Registry.createChild, hp, h3, h.count]
  · refine ⟨{ p with children := p.children ++ [off + d.next] }, ?_, fun n => ?_⟩
    · simp only [Registry.createChild, hp]
      rw [List.getElem?_set_self hlt, h.count]
    simp [hkids, h4]

theorem connect_some {regex : Nat → String → Bool} {calls : Nat → List Bool} {order : List Nat} {name : String} {par off k n : Nat}
    {r : Registry.St} {d : St} (h : SameDyn name par off r d) (hn : Registry.normalize (some name) = name) (hr : d.reg = some n) :
    SameDyn name par off (Registry.connect regex r k name order calls) d ∧
    (Registry.connect regex r k name order calls).answers = r.answers ++ [(k, some (off + n))] := by
  have hg : r.nsps.get? name = some (off + n) := by rw [h.reg, hr]; rfl
  simp only [Registry.connect, hg]
  rw [doConnect_some hn hg]
  exact ⟨same_answers h _, rfl⟩

/-- The lookups and the creation. -/
theorem from_load {c : Cfg} {regex : Nat → String → Bool} {calls : Nat → List Bool} {order : List Nat} {name : String} {par off k : Nat}
    {r : Registry.St} {s : St} (B : Base c s) (h : SameDyn name par off r s) (hn : Registry.normalize (some name) = name)
    (only : OnlyParent regex r name calls par) (ho : par ∈ order) (hp : s.pc k = .load) :
    ∃ t n, Reach c k s t ∧ t.pc k = .gate n ∧ n < t.next ∧ SameDyn name par off (Registry.connect regex r k name order calls) t ∧
      (Registry.connect regex r k name order calls).answers = r.answers ++ [(k, some (off + n))] := by
  cases hr : s.reg with
  | some n =>
    refine ⟨_, n, (Reach.refl c k _).head.head, by simp [step, act, hp, hr], by simpa [step, act, hp, hr] using B.reg n hr, ?_⟩
    obtain ⟨h1, h2⟩ := connect_some (regex := regex) (calls := calls) (order := order) (k := k) h hn hr
    refine ⟨same_congr h1 ?_ (fun m => ?_) ?_ ?_, h2⟩ <;> simp [step, act, hp, hr]
  | none =>
    refine ⟨_, s.next, (Reach.refl c k _).head.head.head.head.head, by simp [step, act, hp, hr], by simp [step, act, hp, hr], ?_⟩
    exact connect_none h hn only ho hr (by simp [step, act, hp, hr]) (by simp [step, act, hp, hr]) (by simp [step, act, hp, hr])
      (by simp [step, act, hp, hr])

end Verif.DynRace
