import Verif.Proof.CloseSeq
import Verif.Props.CloseLoop
import Verif.Props.Lifecycle

/-!
# C108, C24: closing the sockets of a namespace while nothing else happens

`Model/CloseLoop` (every access to shared state is a step) and `Model/World` (`Server.Close` is one step) render the same code.  When
nothing happens in between they say the same.
-/

namespace Verif.Props
open Verif Verif.Spec

/-- **C108**, when nothing else happens during the call: it returns, and the sockets are then what `Server.Close` of `Model/World` leaves
after the next namespace, with the same `disconnect` events in the same order.  `names`: the namespaces it has dealt with before. -/
theorem C108_in_turn (cfg : World.Cfg) (h : List World.Ev) (names : List String) (name : String) (p : List CloseLoop.Ev)
    (same : SameClosing (closedUpTo cfg h names) (CloseLoop.run p)) :
    (∃ m, cameBack (afterClose p (socketsIn (closedUpTo cfg h names) name) (List.replicate m (.adv (callNo p)))) (callNo p)) ∧
    ∀ m, cameBack (afterClose p (socketsIn (closedUpTo cfg h names) name) (List.replicate m (.adv (callNo p)))) (callNo p) →
      SameClosing (closedUpTo cfg h (names ++ [name]))
        (afterClose p (socketsIn (closedUpTo cfg h names) name) (List.replicate m (.adv (callNo p)))) := by
  have hs : World.InvS (closedUpTo cfg h names) :=
    World.foldl_pres (P := World.InvS) (fun _ name h => World.invS_closeNs h cfg name) _ (World.inv_run cfg h).1
  have ew : closedUpTo cfg h (names ++ [name]) = World.closeNs cfg (closedUpTo cfg h names) name := by simp [closedUpTo]
  rw [ew]
  generalize closedUpTo cfg h names = w at *
  have e : ∀ m, afterClose p (socketsIn w name) (List.replicate m (.adv (callNo p))) =
      CloseLoop.advs (callNo p) m (CloseLoop.step (CloseLoop.run p) (.close (socketsIn w name))) := by
    intro m
    rw [← CloseLoop.advs_run]
    simp [afterClose, CloseLoop.run, List.foldl_append]
  obtain ⟨m, h1, h2⟩ := CloseLoop.closeNs_loop cfg (callNo p) name (s := CloseLoop.step (CloseLoop.run p) (.close (socketsIn w name))) hs
    ⟨same.inNsp, same.connected, same.canJoin, same.events⟩ (by simp [CloseLoop.step, callNo])
  refine ⟨⟨m, by rw [e]; exact h2⟩, fun j hj => ?_⟩
  rw [e] at hj ⊢
  rw [CloseLoop.advs_unique hj h2]
  exact h1

/-- The three sockets of `Demo.two` are connected. -/
def Demo.threeIn : List CloseLoop.Ev :=
  [.connect 0, .conn 0, .conn 0, .connect 1, .conn 1, .conn 1, .connect 2, .conn 2, .conn 2]

/-- The hypothesis of `C108_in_turn` holds here, before `Server.Close` has dealt with any namespace; there are two sockets in "/". -/
example : SameClosing (closedUpTo Demo.cfg Demo.two []) (CloseLoop.run Demo.threeIn) ∧
    socketsIn (closedUpTo Demo.cfg Demo.two []) "/" = [2, 0] := by
  have e1 : ∀ n, (closedUpTo Demo.cfg Demo.two []).socks (n + 3) = {} := fun n => rfl
  have e2 : ∀ n, (CloseLoop.run Demo.threeIn).sk (n + 3) = {} := fun n => rfl
  have e3 : ((closedUpTo Demo.cfg Demo.two []).nss 0).sockets.get? "" = some 0 := by decide
  have by3 : ∀ P : Nat → Prop, P 0 → P 1 → P 2 → (∀ n, P (n + 3)) → ∀ r, P r := by
    intro P h0 h1 h2 h3 r
    match r with
    | 0 => exact h0
    | 1 => exact h1
    | 2 => exact h2
    | n + 3 => exact h3 n
  refine ⟨⟨by3 _ (by decide) (by decide) (by decide) fun n => ?_, by3 _ (by decide) (by decide) (by decide) fun n => ?_,
    by3 _ (by decide) (by decide) (by decide) fun n => ?_, by decide⟩, by decide⟩
  · rw [e1, e2]
    simp [e3]
  · rw [e1, e2]
  · rw [e1, e2]

end Verif.Props
