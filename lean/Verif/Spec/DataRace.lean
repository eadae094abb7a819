import Verif.Model.DataRace

/-! # Data races -/

namespace Verif.Spec
open Verif.DataRace

/-- A data race: two goroutines are about to access the same variable, and one of them to write it. -/
def Race (st : DataRace.St) : Prop :=
  ∃ (i j : Nat) (gi gj : G) (c : Cell) (wi wj : Bool), i ≠ j ∧ st.gs[i]? = some gi ∧ st.gs[j]? = some gj ∧ access gi = some (c, wi) ∧ access gj = some (c, wj) ∧
    (wi = true ∨ wj = true)

/-- What a call may change for others, in the program's terms. -/
inductive Shared where
  /-- a modifier of a socket -/
  | modifier (s : Nat) (f : Field)
  /-- everything else -/
  | other (x : Place)

/-- The calls that change it: modifiers change the socket, an emission with an acknowledgement sets the number of servers that it waits
for, setters the settings, `SetAdapter` the adapters, and so on. -/
def Changes : Call → Shared → Prop
  | .modify s f, .modifier s' f' => s = s' ∧ f = f'
  | .ask _ q, .other (.count q') => q = q'
  | .setConnectTimeout, .other .connectTimeout => True
  | .setPath, .other .path => True
  | .setPath, .other .regex => True
  | .setServeClient, .other .serveClient => True
  | .attach, .other .eio => True
  | .attach, .other .http => True
  | .attach, .other .engine => True
  | .finish, .other .cors => True
  | .handler true, .other .eio => True
  | .handler true, .other .engine => True
  | .bind, .other .engine => True
  | .setAdapter _, .other .builder => True
  | .setAdapter ns, .other (.adapterOf n) => n ∈ ns
  | .next m, .other (.verdict m') => m = m'
  | .cast p, .other (.packet p') => p = p'
  | _, _ => False

/-- The calls that depend on it. -/
def Needs : Call → Shared → Prop
  | .emit s _, .modifier s' _ => s = s'
  | .derive_ s, .modifier s' _ => s = s'
  | .useOp k, .other (.operator k') => k = k'
  | .ask k _, .other (.operator k') => k = k'
  | .ask _ q, .other (.count q') => q = q'
  | .answer q, .other (.count q') => q = q'
  | .through n, .other (.adapterOf n') => n = n'
  | .of, .other .builder => True
  | .connection, .other .connectTimeout => True
  | .setPath, .other .path => True
  | .getPath, .other .path => True
  | .getServeClient, .other .serveClient => True
  | .attach, .other .path => True
  | .attach, .other .serveClient => True
  | .attach, .other .eio => True
  | .attach, .other .engine => True
  | .file, .other .regex => True
  | .file, .other .cors => True
  | .handler _, .other .eio => True
  | .handler true, .other .path => True
  | .handler true, .other .engine => True
  | .bind, .other .engine => True
  | .setAdapter ns, .other .builder => ns ≠ []
  | .close ns, .other (.adapterOf n) => n ∈ ns
  | .close _, .other .http => True
  | .close _, .other .engine => True
  | .admit m, .other (.verdict m') => m = m'
  | .cast p, .other (.packet p') => p = p'
  | .transmit p, .other (.packet p') => p = p'
  | _, _ => False

/-- Two calls that must not be made at the same time: one changes what the other changes or needs. -/
def Disturb (a b : Call) : Prop := ∃ x, (Changes a x ∧ (Changes b x ∨ Needs b x)) ∨ (Needs a x ∧ Changes b x)

end Verif.Spec
