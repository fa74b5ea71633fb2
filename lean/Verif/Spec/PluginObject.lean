import Verif.Model.PluginObject
import Verif.Spec.Start

/-!
# Specification of the objects of plugins

The memory of an element is a tape: the code of a plugin goes over it once, from its first byte.
-/

namespace PF.Spec

/-- `OnTape c old new r mem`: on a memory of which `old` is behind and `new` ahead, the code ends with `r`, and leaves the memory
`mem`. -/
inductive OnTape : PlugCode → List Byte → List Byte → Option Str → List Byte → Prop
  | done (r : Option Str) (old new : List Byte) : OnTape (.done r) old new r (old ++ new)
  | read {n : Nat} {k : List Byte → PlugCode} {old bs new mem : List Byte} {r : Option Str} : bs.length = n →
      OnTape (k bs) (old ++ bs) new r mem → OnTape (.read n k) old (bs ++ new) r mem
  | write {bs : List Byte} {k : PlugCode} {old was new mem : List Byte} {r : Option Str} : was.length = bs.length →
      OnTape k (old ++ bs) new r mem → OnTape (.write bs k) old (was ++ new) r mem

/-- The code never goes over more than `n` bytes, whatever it reads. -/
inductive Confined : Nat → PlugCode → Prop
  | done (n : Nat) (r : Option Str) : Confined n (.done r)
  | read {n m : Nat} {k : List Byte → PlugCode} : (∀ bs : List Byte, bs.length = m → Confined n (k bs)) → Confined (m + n) (.read m k)
  | write {n : Nat} {bs : List Byte} {k : PlugCode} : Confined n k → Confined (bs.length + n) (.write bs k)

/-- The code only reads. -/
inductive ReadsOnly : PlugCode → Prop
  | done (r : Option Str) : ReadsOnly (.done r)
  | read {n : Nat} {k : List Byte → PlugCode} : (∀ bs, ReadsOnly (k bs)) → ReadsOnly (.read n k)

/-- The element at `p` of `root` has the memory `mem` in the blackboard `b`. -/
def MemoryOf (root : Elem) (p : Pos) (b : Board) (mem : List Byte) : Prop :=
  ∃ e off, root.at? p = some e ∧ root.offset 0 p = some off ∧ b.read off e.footprint = some mem

/-- The code reads all of `mem`, in pieces of `size` bytes. -/
inductive ReadsAll (size : Nat) : PlugCode → List Byte → Prop
  | done : ReadsAll size (.done none) []
  | read {k : List Byte → PlugCode} {bs rest : List Byte} : bs.length = size → ReadsAll size (k bs) rest →
      ReadsAll size (.read size k) (bs ++ rest)

end PF.Spec
