import Verif.Model.Tree
import Verif.Spec.Bits

/-! # Specification vocabulary for the structure tree -/

namespace PF

/-- Bit number `i` of a memory: bit `i % 8` of byte `i / 8` (`false` past the end). -/
def Board.bit (b : Board) (i : Nat) : Bool := (b.getD (i / 8) 0#8).getLsbD (i % 8)

/-- A scalar takes one, two or four bytes. -/
def ScalarType.SizeOk (t : ScalarType) : Prop := t.size = 1 ∨ t.size = 2 ∨ t.size = 4

/-- The structure trees that the structure files can declare: parameters have no children; bit
parameters are exactly the children of bit parameter blocks, and lie inside their block. -/
inductive Elem.WF : Elem → Prop
  | group {n k sy cs} : (∀ c, c ∈ cs → c.WF) → (∀ c ∈ cs, ∀ t, c.kind ≠ .bit t) → WF (.mk n (.group k) sy cs)
  | bitBlock {n size sy cs} : size ≤ 8 →
      (∀ c ∈ cs, ∃ nm t cy, c = .mk nm (.bit t) cy [] ∧ t.WF ∧ t.blockSize = size) →
      WF (.mk n (.bitBlock size) sy cs)
  | scalar {n t sy} : t.SizeOk → WF (.mk n (.scalar t) sy [])
  | array {n t sy} : t.elem.SizeOk → WF (.mk n (.array t) sy [])
  | string {n m sy} : WF (.mk n (.string m) sy [])

/-- The bits of the main blackboard an element at byte offset `off` owns, as `[lo, hi)`: the bytes of
its footprint or, for a bit parameter, its field in the block. -/
def Elem.extent (e : Elem) (off : Nat) : Nat × Nat :=
  match e.kind with
  | .bit t => (8 * off + t.pos, 8 * off + t.pos + t.bits)
  | _ => (8 * off, 8 * (off + e.footprint))

/-- The element at position `p` of the structure `root` owns bit `i` of the main blackboard. -/
def Elem.Owns (root : Elem) (p : Pos) (i : Nat) : Prop :=
  ∃ e off, root.at? p = some e ∧ root.offset 0 p = some off ∧
    (e.extent off).1 ≤ i ∧ i < (e.extent off).2

/-- Bit parameters of one block do not overlap (the structure loader does not check this). -/
def Elem.FieldsDisjoint (root : Elem) : Prop :=
  ∀ p i j t u, i ≠ j → (∃ e, root.at? (p ++ [i]) = some e ∧ e.kind = .bit t) →
    (∃ e, root.at? (p ++ [j]) = some e ∧ e.kind = .bit u) →
    t.pos + t.bits ≤ u.pos ∨ u.pos + u.bits ≤ t.pos

/-- Neither of the two elements is the other one or contains it. -/
def Unrelated (p q : Pos) : Prop := ¬ p <+: q ∧ ¬ q <+: p

/-- The names from the root down to the element at `p`. -/
def Elem.namesTo : Elem → Pos → List Str
  | e, [] => [e.pathName]
  | .mk n k sy cs, i :: p => (Elem.mk n k sy cs).pathName ::
      (match cs[i]? with | none => [] | some c => c.namesTo p)

/-- Names usable in paths: no brother has the same name, and no name is empty or has a slash. -/
inductive Elem.GoodNames : Elem → Prop
  | mk {n k sy cs} : (Elem.mk n k sy cs).pathName ≠ [] → '/' ∉ (Elem.mk n k sy cs).pathName →
      (cs.map Elem.pathName).Nodup → (∀ c, c ∈ cs → c.GoodNames) → GoodNames (.mk n k sy cs)

/-- No element with a syncer is below another one with a syncer (mapping stops at the first
subsystem object of a branch). -/
def Elem.SyncersNotNested (root : Elem) : Prop :=
  ∀ p q e f, root.at? p = some e → root.at? (p ++ q) = some f → q ≠ [] → e.syncer ≠ none →
    f.syncer = none

end PF
