import Verif.Proof.DynSeq
import Verif.Props.DynRace

/-!
# C109, C24, C26: a client that comes or leaves while nothing else happens

`Model/DynRace` (every access to shared state is a step) and `Model/Registry` (a call is one step) render the same code.  When nothing
happens in between they say the same.
-/

namespace Verif.Props
open Verif Verif.Spec

/-- **C109**, when a client asks for the namespace and nothing else happens: it gets an answer, and when it has it, it is in the namespace
that `Client.connect` of `Model/Registry` looks up or creates, unless the parent made that and its middlewares refuse the client; and the
namespaces are those that `Client.connect` leaves, but for the clean-up after a client that is refused. -/
theorem C109_come_in_turn (c : DynRace.Cfg) (regex : Nat → String → Bool) (calls : Nat → List Bool) (order : List Nat) (name : String)
    (par off : Nat) (r : Registry.St) (h : List DynRace.Ev) (k : Nat) (same : SameDyn name par off r (DynRace.run c h))
    (slash : name.toList.head? = some '/') (only : OnlyParent regex r name calls par) (asked : par ∈ order)
    (fresh : (DynRace.run c h).pc k = .idle) :
    (∃ m, dynOver (dynComes c h k m) k) ∧
    ∀ m, dynOver (dynComes c h k m) k → ∃ n,
      (Registry.connect regex r k name order calls).answers = r.answers ++ [(k, some (off + n))] ∧
      (k ∈ ((dynComes c h k m).nsp n).socks ↔ (((dynComes c h k m).nsp n).child = true → c.admit k = true)) ∧
      SameDyn name par off
        (if k ∉ ((dynComes c h k m).nsp n).socks ∧ toClean c (dynComes c h k m) n then
          Registry.clean (Registry.connect regex r k name order calls) (off + n)
        else Registry.connect regex r k name order calls) (dynComes c h k m) := by
  have hn : Registry.normalize (some name) = name := by
    unfold Registry.normalize
    cases hl : name.toList with
    | nil => simp [hl] at slash
    | cons a l => simp [hl] at slash; simp [hl, slash]
  have e : ∀ m, dynComes c h k m = DynRace.advs c k m (DynRace.step c (DynRace.run c h) (.connect k)) := by
    intro m
    rw [← DynRace.advs_run]
    simp [dynComes, DynRace.run, List.foldl_append]
  have B := DynRace.base_step c _ (.connect k) (DynRace.base_run c h)
  have same' : SameDyn name par off r (DynRace.step c (DynRace.run c h) (.connect k)) := by
    simp only [DynRace.step, fresh, if_true]
    exact ⟨same.count, same.spaces, same.reg, same.children⟩
  obtain ⟨t, n, ⟨m1, h1⟩, h2, h3, h4, h5⟩ := DynRace.from_load (c := c) (k := k) (order := order) B same' hn only asked
    (by simp [DynRace.step, fresh])
  obtain ⟨hin, hout⟩ := DynRace.from_gate (c := c) h4 h3 h2
  by_cases ha : (t.nsp n).child = true → c.admit k = true
  · obtain ⟨u, ⟨m2, g1⟩, g2, g3, g4⟩ := hin ha
    have hu : dynComes c h k (m1 + m2) = u := by rw [e, DynRace.advs_add, h1, g1]
    refine ⟨⟨m1 + m2, by rw [hu]; exact .inl ⟨n, g2⟩⟩, fun m hm => ⟨n, h5, ?_⟩⟩
    have hm' : dynComes c h k m = u := by
      rw [← hu, e, e]
      exact DynRace.advs_unique (by rw [← e]; exact hm) (by rw [← e, hu]; exact .inl ⟨n, g2⟩)
    rw [hm']
    have hB := DynRace.base_run c (h ++ .connect k :: List.replicate m (.adv k))
    refine ⟨⟨fun _ hc => ?_, fun _ => g3⟩, ?_⟩
    · exact hB.admit k n (by change k ∈ ((dynComes c h k m).nsp n).socks; rw [hm']; exact g3)
        (by change ((dynComes c h k m).nsp n).child = true; rw [hm']; exact hc)
    · rw [if_neg (by simp [g3])]; exact g4
  · have hc : (t.nsp n).child = true := by
      cases hc : (t.nsp n).child
      · exact absurd (by simp [hc]) ha
      · rfl
    have had : c.admit k = false := by
      cases had : c.admit k
      · rfl
      · exact absurd (fun _ => had) ha
    obtain ⟨u, ⟨m2, g1⟩, g2, g3, g5, g4⟩ := hout hc had
    have hu : dynComes c h k (m1 + m2) = u := by rw [e, DynRace.advs_add, h1, g1]
    refine ⟨⟨m1 + m2, by rw [hu]; exact .inr g2⟩, fun m hm => ⟨n, h5, ?_⟩⟩
    have hm' : dynComes c h k m = u := by
      rw [← hu, e, e]
      exact DynRace.advs_unique (by rw [← e]; exact hm) (by rw [← e, hu]; exact .inr g2)
    rw [hm']
    refine ⟨⟨fun hk => absurd hk g3, fun hk => ?_⟩, ?_⟩
    · rw [hk g5] at had; cases had
    · simpa [g3] using g4

/-- **C109**, when a connected client leaves and nothing else happens: it has left in the end, and the namespaces are those there were,
but for the clean-up (`Model/Registry`) of the one it was in, if nobody is in it any more. -/
theorem C109_leave_in_turn (c : DynRace.Cfg) (name : String) (par off : Nat) (r : Registry.St) (h : List DynRace.Ev) (k n : Nat)
    (same : SameDyn name par off r (DynRace.run c h)) (inside : (DynRace.run c h).pc k = .inside n) :
    (∃ m, dynOver (dynLeaves c h k m) k) ∧
    ∀ m, dynOver (dynLeaves c h k m) k → k ∉ ((dynLeaves c h k m).nsp n).socks ∧
      SameDyn name par off (if toClean c (dynLeaves c h k m) n then Registry.clean r (off + n) else r) (dynLeaves c h k m) := by
  have e : ∀ m, dynLeaves c h k m = DynRace.advs c k m (DynRace.step c (DynRace.run c h) (.leave k)) := by
    intro m
    rw [← DynRace.advs_run]
    simp [dynLeaves, DynRace.run, List.foldl_append]
  have same' : SameDyn name par off r (DynRace.step c (DynRace.run c h) (.leave k)) := by
    simp only [DynRace.step, inside]
    exact ⟨same.count, same.spaces, same.reg, same.children⟩
  obtain ⟨t, ⟨m1, h1⟩, h2, h3, _, h5⟩ := DynRace.from_remove (c := c) (k := k) (n := n) same'
    (by simpa [DynRace.step, inside] using (DynRace.base_run c h).pcs k n (by rw [inside]; rfl)) (by simp [DynRace.step, inside])
  refine ⟨⟨m1, by rw [e, h1]; exact .inr h2⟩, fun m hm => ?_⟩
  have hm' : dynLeaves c h k m = t := by
    rw [e, ← h1]
    exact DynRace.advs_unique (by rw [← e]; exact hm) (by rw [h1]; exact .inr h2)
  rw [hm']
  exact ⟨h3, h5⟩

/-- Parent 0, made with a function, says yes to "/room-1"; there are the namespaces "/" and "/chat". -/
def Demo.dynRegistry : Registry.St :=
  { nsps := [("/", 0), ("/chat", 1)], spaces := [{ name := "/" }, { name := "/chat" }], parents := [{ regex := false, fns := [7] }] }

/-- The hypotheses of `C109_come_in_turn` hold here, before the first client comes; the namespace is created. -/
example : SameDyn "/room-1" 0 2 Demo.dynRegistry (DynRace.run dynLax []) ∧
    OnlyParent (fun _ _ => false) Demo.dynRegistry "/room-1" (fun _ => [true]) 0 ∧
    (Registry.connect (fun _ _ => false) Demo.dynRegistry 5 "/room-1" [0] (fun _ => [true])).answers = [(5, some 2)] := by
  refine ⟨⟨rfl, fun n hn => absurd hn (by simp [DynRace.run]), by decide, ⟨_, rfl, by simp [DynRace.run]⟩⟩, ?_, by decide⟩
  intro j p hp
  match j with
  | 0 => simp [Demo.dynRegistry] at hp; subst hp; rfl
  | j + 1 => simp [Demo.dynRegistry] at hp

set_option maxRecDepth 4000 in
/-- Those of `C109_leave_in_turn` hold when it has come; it leaves, and the namespace is cleaned up. -/
example : SameDyn "/room-1" 0 2 (Registry.connect (fun _ _ => false) Demo.dynRegistry 5 "/room-1" [0] (fun _ => [true]))
      (DynRace.run dynLax ([.connect 5] ++ dynGoes 5 7)) ∧
    (DynRace.run dynLax ([.connect 5] ++ dynGoes 5 7)).pc 5 = .inside 0 ∧
    toClean dynLax (dynLeaves dynLax ([.connect 5] ++ dynGoes 5 7) 5 5) 0 = true ∧
    (dynLeaves dynLax ([.connect 5] ++ dynGoes 5 7) 5 5).reg = none := by
  refine ⟨⟨by decide, fun n hn => ?_, by decide, ⟨{ regex := false, fns := [7], children := [2] }, by decide, fun n => ?_⟩⟩, by decide, by decide, by decide⟩
  · have e : n = 0 := by
      have : (DynRace.run dynLax ([.connect 5] ++ dynGoes 5 7)).next = 1 := by decide
      omega
    subst e
    exact ⟨{ name := "/room-1", parent := some 0, fns := [7] }, by decide, rfl, by decide⟩
  · rw [show (DynRace.run dynLax ([.connect 5] ++ dynGoes 5 7)).children = [0] by decide]
    simp

end Verif.Props
