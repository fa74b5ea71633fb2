import Verif.Model.Platform
import Verif.Spec.Generator
import Verif.Spec.StructureAccept
import Verif.Spec.Text

/-!
# Specification of the platform connector and the test platform

What requests ask for, in terms of the words of the requests.
-/

namespace PF.Spec

/-- A request: a command and its arguments. -/
abbrev PlatAsk := Str × List Str

/-- The command that sets a policy, and the one that reads it. -/
def setterOf : Policy → Str
  | .missing => s "setFailureOnMissingSubsystem"
  | .settings => s "setFailureOnFailedSettingsLoad"
  | .validate => s "setValidateSchemasOnStart"

/-- See `setterOf`. -/
def getterOf : Policy → Str
  | .missing => s "getMissingSubsystemPolicy"
  | .settings => s "getFailedSettingsLoadPolicy"
  | .validate => s "getValidateSchemasOnStart"

/-- The text of a boolean. -/
def BoolWord (t : Str) (b : Bool) : Prop :=
  (t ∈ [s "0", s "false", s "FALSE"] ∧ b = false) ∨ (t ∈ [s "1", s "true", s "TRUE"] ∧ b = true)

/-- A request to set the policy `k` to `b`. -/
def SetsTo (k : Policy) (b : Bool) (r : PlatAsk) : Prop := ∃ t rest, r = (setterOf k, t :: rest) ∧ BoolWord t b

/-- `b` is the value that requests leave to a policy that is `init` before them: that of the last request to set it. -/
def LastSet (k : Policy) (init : Bool) (rs : List PlatAsk) (b : Bool) : Prop :=
  (∃ pre r post, rs = pre ++ r :: post ∧ SetsTo k b r ∧ ∀ r' ∈ post, ∀ b', ¬ SetsTo k b' r') ∨
  ((∀ r ∈ rs, ∀ b', ¬ SetsTo k b' r) ∧ b = init)

/-- `Serve p c rs as c'`: the test platform answers the requests `rs`, one after the other, with `as`; none of them stops it. -/
inductive Serve (p : PEnv) : Conn → List PlatAsk → List (Bool × Str) → Conn → Prop
  | nil (c : Conn) : Serve p c [] [] c
  | cons {c c' c'' : Conn} {r : PlatAsk} {rs : List PlatAsk} {a : Bool × Str} {as : List (Bool × Str)} :
      platRequest p c r.1 r.2 = (some a, c') → Serve p c' rs as c'' → Serve p c (r :: rs) (a :: as) c''

/-- What a criterion is called: its name, or `SelectionCriterion` if that is empty. -/
def Called (k : Criterion) (name : Str) : Prop :=
  (k.name ≠ [] ∧ k.name = name) ∨ (k.name = [] ∧ name = s "SelectionCriterion")

/-- The first criterion that is called by a name is `k`, at `i`. -/
def IsCriterion (cs : List Criterion) (name : Str) (i : Nat) (k : Criterion) : Prop :=
  cs[i]? = some k ∧ Called k name ∧ ∀ j, j < i → ∀ k', cs[j]? = some k' → ¬ Called k' name

/-- No literal of the type has two numbers. -/
def Functional (t : CritType) : Prop := ∀ (l : Str) (v v' : BitVec 32), (l, v) ∈ t.map → (l, v') ∈ t.map → v = v'

/-- A literal that some words list: one of the parts, between `|`, of one of them, not empty. -/
def Lists (ws : List Str) (x : Str) : Prop := x ≠ [] ∧ ∃ w ∈ ws, ∃ ps, Pieces ['|'] w ps ∧ x ∈ ps

/-- The first word is a number that fits in 32 bits. -/
def NumberWords (ws : List Str) (n : Nat) : Prop := ∃ w rest, ws = w :: rest ∧ UnsignedText w n ∧ n < 2 ^ 32

/-- The words of a request stand for the state `v` of a criterion of type `t`: the first is a number that fits in 32 bits, which is
the state; or it is not, and the words are a value of an exclusive criterion, or list values of an inclusive one, of which the state
is the union. -/
def StateWords (t : CritType) (ws : List Str) (v : BitVec 32) : Prop :=
  (∃ n, NumberWords ws n ∧ v = BitVec.ofNat 32 n) ∨
  ((∀ n, ¬ NumberWords ws n) ∧
    ((t.inclusive = false ∧ ∃ w, ws = [w] ∧ (w, v) ∈ t.map) ∨
     (t.inclusive = true ∧ (∀ x, Lists ws x → ∃ n : BitVec 32, (x, n) ∈ t.map) ∧
        ∀ i, v.getLsbD i = true ↔ ∃ x, Lists ws x ∧ ∃ n : BitVec 32, (x, n) ∈ t.map ∧ n.getLsbD i = true)))

/-- Only the state of the criterion at `i` changes, to `v`; its count of modifications goes up when the state is another one. -/
def OnlyState (cs cs' : List Criterion) (i : Nat) (v : BitVec 32) : Prop :=
  cs'.length = cs.length ∧ (∀ j, j ≠ i → cs'[j]? = cs[j]?) ∧
  ∀ k, cs[i]? = some k →
    cs'[i]? = some ⟨k.name, k.type, v, if v = k.state then k.nbModifications else k.nbModifications + 1⟩

/-- The command that creates a criterion from the names of its values, and the one that does from their number. -/
def listCreator (inclusive : Bool) : Str :=
  if inclusive then s "createInclusiveSelectionCriterionFromStateList" else s "createExclusiveSelectionCriterionFromStateList"

/-- See `listCreator`. -/
def countCreator (inclusive : Bool) : Str :=
  if inclusive then s "createInclusiveSelectionCriterion" else s "createExclusiveSelectionCriterion"

/-- The names that the values of a criterion get when only their number is given. -/
def numberedValues (inclusive : Bool) (n : Nat) : List Str :=
  (List.range n).map fun i => if inclusive then s "State_0x" ++ natText (2 ^ i) else s "State_" ++ natText i

/-- The connector is not started. -/
def NotStarted (c : Conn) : Prop := ∀ e m, c.phase ≠ .running e m

end PF.Spec
