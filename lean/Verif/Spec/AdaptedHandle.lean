import Verif.Spec.Adaptation
import Verif.Spec.Manager

/-!
# Specification: integers given to a handle
-/

namespace PF.Spec

/-- The value given to a handle for the integer `n`: with `setAsSignedInteger` on a signed parameter, with `setAsInteger` on
an unsigned one. -/
def asInteger (t : IntType) (n : Int) : HVal :=
  .one (if t.signed then .sint (BitVec.ofInt 32 n) else .uint (BitVec.ofInt 32 n))

/-- The parameter at `p` has the integer type `t` and its memory starts at `off`. -/
def IntAt (root : Elem) (p : Pos) (t : IntType) (off : Nat) : Prop :=
  ∃ el, root.at? p = some el ∧ el.kind = .scalar (.int t) ∧ root.offset 0 p = some off ∧ t.WF

/-- The same for several integers, with `setAsSignedIntegerArray` or `setAsIntegerArray`. -/
def asIntegers (t : IntType) (ns : List Int) : HVal :=
  if t.signed then .sints (ns.map (BitVec.ofInt 32 ·)) else .uints (ns.map (BitVec.ofInt 32 ·))

/-- The parameter at `p` is an array of `len` integers of type `t` and its memory starts at `off`. -/
def IntsAt (root : Elem) (p : Pos) (t : IntType) (len off : Nat) : Prop :=
  ∃ el, root.at? p = some el ∧ el.kind = .array ⟨.int t, len⟩ ∧ root.offset 0 p = some off ∧ t.WF ∧ len ≠ 0

/-- The adaptation `a` gives, for each number of `ds`, the integer of `ns` at the same place, in the range of `t`. -/
def GivesAll (lm : Libm) (a : Adaptation) (t : IntType) (ds : List F64) (ns : List Int) : Prop :=
  List.Forall₂ (fun d n => a.fromUser lm d = .ok n ∧ t.min ≤ n ∧ n ≤ t.max) ds ns

/-- The adaptation refuses the number `d`, or gives an integer that is not in the range of `t`. -/
def Refuses (lm : Libm) (a : Adaptation) (t : IntType) (d : F64) : Prop :=
  a.fromUser lm d = .err ∨ ∃ n, a.fromUser lm d = .ok n ∧ (n < t.min ∨ t.max < n)

end PF.Spec
