import Verif.Model.Manager

/-! # What the history of the manager says of a criterion (C65) -/

namespace PF.Spec

/-- The state a history of operations sets last for criterion `i`, if any. -/
def lastSet (i : Nat) (ops : List MOp) : Option (BitVec 32) :=
  ops.reverse.findSome? fun
    | .setCriterion j v => if j = i then some v else none
    | _ => none

/-- The manager after some operations, refused or not. -/
def after (e : MEnv) : List MOp → Mgr → Mgr
  | [], m => m
  | op :: ops, m => after e ops (op.step e m).2

/-- An operation that applies the configurations, in a state of the manager. -/
def Applies (m : Mgr) (op : MOp) : Prop :=
  op = .applyConfigurations ∧ m.tuning = false ∨ op = .setTuningMode false ∧ m.tuning = true

/-- No operation of the history applies the configurations. -/
def NoApplication (e : MEnv) : List MOp → Mgr → Prop
  | [], _ => True
  | op :: ops, m => ¬ Applies m op ∧ NoApplication e ops (op.step e m).2

/-- The number of times a history changes the state of criterion `i`, whose state is `v` before. -/
def changes (i : Nat) : BitVec 32 → List MOp → Nat
  | _, [] => 0
  | v, .setCriterion j w :: ops => if j = i ∧ w ≠ v then changes i w ops + 1 else changes i v ops
  | v, _ :: ops => changes i v ops

end PF.Spec
