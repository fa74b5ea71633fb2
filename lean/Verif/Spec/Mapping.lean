import Verif.Model.Mapping
import Verif.Spec.Text
import Verif.Spec.Sample

/-! # Specification vocabulary for mappings -/

namespace PF.Spec

/-- `Field t k v`: the mapping element `t` gives the value `v` to the key `k`: the key is what comes
before the first colon, the value what comes after; with no colon the value is empty. -/
inductive Field : Str → Str → Str → Prop
  | keyValue (k v : Str) (h : ':' ∉ k) : Field (k ++ ':' :: v) k v
  | keyOnly (k : Str) (h : ':' ∉ k) : Field k k []

/-- `Fields ts bs`: the mapping elements `ts` give, in order, the bindings `bs`. -/
inductive Fields : List Str → List (Str × Str) → Prop
  | nil : Fields [] []
  | cons {t k v ts bs} : Field t k v → Fields ts bs → Fields (t :: ts) ((k, v) :: bs)

/-- `MappingText t bs`: the non-empty comma-separated elements of `t` give, in order, the bindings
`bs`. -/
def MappingText (t : Str) (bs : List (Str × Str)) : Prop :=
  ∃ ps, Pieces [','] t ps ∧ Fields (ps.filter (· ≠ [])) bs

/-- `Amended item t r`: `r` is the text `t` with every `%n` replaced by item `n`, from left to right,
up to the first `%` that is not followed by the digit of an item that has a value; the rest of the
text stays as it is.  Values are not searched again. -/
inductive Amended (item : Nat → Option Str) : Str → Str → Prop
  | plain (t : Str) (h : '%' ∉ t) : Amended item t t
  | replace (pre rest v r : Str) (n : Nat) (c : Char) (h : '%' ∉ pre) (hc : c.toNat = '0'.toNat + n)
      (hv : item n = some v) (hr : Amended item rest r) :
      Amended item (pre ++ '%' :: c :: rest) (pre ++ v ++ r)
  | stop (pre rest : Str) (h : '%' ∉ pre)
      (hs : ∀ c n, rest.head? = some c → c.toNat = '0'.toNat + n → item n = none) :
      Amended item (pre ++ '%' :: rest) (pre ++ '%' :: rest)

/-- The value that `%n` stands for when an object is given the items `first`, `first + 1`, ... (`nb` of
them) of a context: the value of the `n`-th of them, counted from one. -/
def amendment (first nb : Nat) (ctx : MCtx) (n : Nat) : Option Str :=
  if 1 ≤ n ∧ n ≤ nb then
    match ctx[first + n - 1]? with
    | some (some x) => some x.item
    | _ => none
  else none

/-- The element at `p` asks for an object from creator number `c` with the value `v`: `c` is the first
creator whose key the element's mapping data binds. -/
def Asks (d : MapDef) (p : Pos) (c : Nat) (v : Str) : Prop :=
  ∃ cr, d.creators[c]? = some cr ∧ d.get p cr.key = some v ∧
    ∀ j cr', j < c → d.creators[j]? = some cr' → d.get p cr'.key = none

/-- The mapping of the subsystem gets to the element at `p`: no element above it (the subsystem
itself put aside) has an object. -/
def Reached (d : MapDef) (sub : Elem) (p : Pos) : Prop :=
  p ≠ [] ∧ sub.at? p ≠ none ∧ ∀ q, q <+: p → q ≠ p → q ≠ [] → ¬ ∃ c v, Asks d q c v

/-- The context item of key number `i` has the value `v` for the element at `p`: the mapping data of
the element or of one above it binds the key to `v`. -/
def ItemAt (d : MapDef) (p : Pos) (i : Nat) (v : Str) : Prop :=
  ∃ key q, d.contextKeys[i]? = some key ∧ q <+: p ∧ d.get q key = some v

/-- The element `e` at `p` can be mapped. -/
structure Mappable (d : MapDef) (p : Pos) (e : Elem) : Prop where
  /-- it is not a bit parameter -/
  notBit : ∀ t, e.kind ≠ .bit t
  /-- it sets no context item that an element above it sets -/
  once : ∀ key ∈ d.contextKeys, ∀ v, d.get p key = some v →
    ∀ q, q <+: p → q ≠ p → d.get q key = none
  /-- if it asks for an object, all the context items that the creator needs have a value, and it is
  not too large -/
  fit : ∀ c v cr, Asks d p c v → d.creators[c]? = some cr →
    (∀ i, i < d.contextKeys.length → cr.ancestorMask.getLsbD i = true → ∃ w, ItemAt d p i w) ∧
    e.footprint ≤ cr.maxSize
  /-- a parameter or a bit parameter block asks for an object -/
  asks : (∀ k, e.kind ≠ .group k) → ∃ c v, Asks d p c v

/-- No element has a syncer yet. -/
def NoSyncer (e : Elem) : Prop := ∀ p f, e.at? p = some f → f.syncer = none

end PF.Spec

/-! ## A sample mapping -/

namespace PF.Sample
open PF

/-- The sample subsystem before its mapping. -/
def msub : Elem := .mk (s "sub") (.group (s "Subsystem")) none
  [.mk (s "comp") (.group (s "Component")) none
    [.mk (s "vol") (.scalar int16) none [], block, .mk (s "label") (.string 3) none []],
   .mk (s "on") (.scalar .bool) none []]

/-- Mapping data of its elements: the card is set by the subsystem, the device by the component; the
parameters ask for controls. -/
def mmaps : Pos → List MData
  | [] => [[(s "Card", s "0")]]
  | [0] => [[(s "Device", s "1")], [(s "Unused", s "")]]
  | [0, 0] => [[(s "Control", s "'Vol %1 %2'")]]
  | [0, 1] => [[(s "Control", s "Flags")]]
  | [0, 2] => [[(s "Byte", s "Label")]]
  | [1] => [[(s "Byte", s "On")]]
  | _ => []

/-- The subsystem's keys and creators. -/
def mdef : MapDef := ⟨[s "Card", s "Device"],
  [⟨s "Control", 3#32, 2⟩, ⟨s "Byte", 1#32, 100⟩], mmaps⟩

end PF.Sample
