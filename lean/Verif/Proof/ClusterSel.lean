import Verif.Proof.Cluster
import Verif.Props.Targeting

namespace Verif.Props
open Verif Verif.Adapter Verif.Delivery

/-- Nil options and nil sets mean empty ones. -/
theorem apply_explicit {σ ρ : Type} (V : View σ ρ) (o : Option Opts) (cb : σ → ρ → σ) (s : σ) :
    apply V o cb s =
      apply V (some ⟨some (Spec.targeted o), some (Spec.excepted o), o.bind (·.flags)⟩) cb s := by
  rcases o with _ | ⟨_ | r, _ | e, f⟩ <;> rfl

theorem sel_congr {n : Nsp} {r r' e e' : List Room} (hr : ∀ x, x ∈ r ↔ x ∈ r') (he : ∀ x, x ∈ e ↔ x ∈ e')
    (s : Sid) : Sel n r e s ↔ Sel n r' e' s := by
  have hnil : r = [] ↔ r' = [] := by
    simp only [List.eq_nil_iff_forall_not_mem, hr]
  simp only [Sel, Spec.Selected, Spec.Matches, hr, he, hnil]

theorem perm_of_ids {ids ids' : List Sid} {ptr ptr' : Sid → Nat} {n : Nsp} (nd : ids.Nodup) (nd' : ids'.Nodup)
    (h : ∀ s, s ∈ ids ↔ s ∈ ids') (hp : ∀ s ∈ ids, n.sockets.get? s = some (ptr s))
    (hp' : ∀ s ∈ ids', n.sockets.get? s = some (ptr' s)) : (ids.map ptr).Perm (ids'.map ptr') := by
  have e : ids.map ptr = ids.map ptr' := by
    apply List.map_congr_left
    intro s hs
    have := (hp s hs).symm.trans (hp' s ((h s).1 hs))
    exact Option.some.inj this
  rw [e]
  exact ((List.perm_ext_iff_of_nodup nd nd').2 h).map _

theorem wire_targeted (o : Option Opts) (x : Room) : x ∈ Spec.targeted (Spec.wire o) ↔ x ∈ Spec.targeted o := by
  simp [Spec.targeted, Spec.wire]

theorem wire_excepted (o : Option Opts) (x : Room) : x ∈ Spec.excepted (Spec.wire o) ↔ x ∈ Spec.excepted o := by
  simp [Spec.excepted, Spec.wire]

section
variable {σ : Type} (exec : Cluster.Op → σ → σ) (n : Nat) (echo recovery : Bool) (init : Nat → σ)

/-- One call and then only deliveries: each server has executed what is due to it for that call. -/
theorem one_call (i : Nat) (op : Cluster.Cmd) (res : Option String) (ds : List Cluster.Ev)
    (only : ∀ e ∈ ds, ∃ k, e = .deliver k)
    (drained : (Cluster.run exec n echo recovery init (.call i op res :: ds)).net = []) (j : Nat) (hj : j < n) :
    (Cluster.run exec n echo recovery init (.call i op res :: ds)).nodes j =
      (Spec.due n recovery j (.call i op res)).foldl (fun s op => exec op s) (init j) := by
  have hp := Cluster.conserved exec n echo recovery init (.call i op res :: ds) j hj
  rw [drained] at hp
  replace hp : ((Cluster.run exec n echo recovery init (.call i op res :: ds)).hist j).Perm
      (Spec.dues n recovery j (.call i op res :: ds)) := by simpa [Cluster.inflight] using hp
  have he := Cluster.nodes_eq exec n echo recovery init (.call i op res :: ds) j
  generalize (Cluster.run exec n echo recovery init (.call i op res :: ds)).hist j = ops at hp he
  have hd : Spec.dues n recovery j (.call i op res :: ds) = Spec.due n recovery j (.call i op res) := by
    have : ds.flatMap (Spec.due n recovery j) = [] := by
      apply List.flatMap_eq_nil_iff.2
      intro e h; obtain ⟨k, rfl⟩ := only e h; rfl
    simp [Spec.dues, this]
  rw [hd] at hp
  rw [he]
  have len : (Spec.due n recovery j (.call i op res)).length ≤ 1 := by
    unfold Spec.due
    simp only
    split
    · split
      · split <;> split <;> simp
      · split
        · simp
        · split <;> simp
      · split
        · simp
        · split <;> simp
      · split
        · simp
        · split <;> simp
      · split
        · simp
        · cases Spec.sseArgs _ _ _ <;> simp
    · simp
  have : ops = Spec.due n recovery j (.call i op res) := by
    generalize Spec.due n recovery j (.call i op res) = l at hp len
    cases l with
    | nil => exact List.perm_nil.1 hp
    | cons x l =>
      have : l = [] := List.length_eq_zero_iff.1 (by simpa using len)
      subst this
      exact List.perm_singleton.1 hp
  rw [this]

end
end Verif.Props
