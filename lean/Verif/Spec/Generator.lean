import Verif.Model.Generator
import Verif.Spec.CApi
import Verif.Spec.Command
import Verif.Spec.Framework
import Verif.Spec.Listing

/-!
# Specification of the domain generator

What a script asks for, and what came of it.
-/

namespace PF.Spec

/-- A criterion that a script declares. -/
structure GenCriterion where
  inclusive : Bool
  name : Str
  values : List Str

/-- The command that declares it (domainGenerator.py:154-156). -/
def GenCriterion.command (c : GenCriterion) : List Str :=
  s "createSelectionCriterion" :: (if c.inclusive then s "inclusive" else s "exclusive") :: c.name :: c.values

/-- The commands of a script: the criteria, the start, and others (domainGenerator.py:151-176). -/
def script (criteria : List GenCriterion) (cmds : List (List Str)) : List (List Str) :=
  criteria.map GenCriterion.command ++ [s "start"] :: cmds

/-- What is written to the generator for some commands: the words with a NUL between them, a line for each command
(domainGenerator.py:216-219). -/
def scriptText (cmds : List (List Str)) : Str := cmds.flatMap fun c => joinWith '\x00' c ++ ['\n']

/-- Words that can be written in a script: no NUL, no line end. -/
def Word (w : Str) : Prop := '\x00' ∉ w ∧ '\n' ∉ w

/-- A command that can be written in a script: some words, that are not the only empty one. -/
def ScriptCommand (c : List Str) : Prop := c ≠ [] ∧ c ≠ [[]] ∧ ∀ w ∈ c, Word w

/-- A command of the framework, not one that the generator has of its own. -/
def Foreign (c : List Str) : Prop := c.head? ≠ some (s "createSelectionCriterion") ∧ c.head? ≠ some (s "start")

/-- The values that the generator accepts for a criterion. -/
def Acceptable (c : GenCriterion) : Prop :=
  c.values ≠ [] ∧ GoodValues c.inclusive c.values ∧ (c.inclusive = false → c.values.length ≤ 2 ^ 31)

/-- The criterion is the declared one, and its state is 0. -/
structure IsDeclared (d : GenCriterion) (c : Criterion) : Prop where
  name : c.name = d.name
  inclusive : c.type.inclusive = d.inclusive
  values : HasValues c.type d.values
  state : c.state = 0#32 ∧ c.nbModifications = 0#32

/-- The same for lists: each criterion is accepted, and is the declared one. -/
inductive AreDeclared : List GenCriterion → List Criterion → Prop
  | nil : AreDeclared [] []
  | cons {d c ds cs} : Acceptable d → IsDeclared d c → AreDeclared ds cs → AreDeclared (d :: ds) (c :: cs)

/-- `Ran u e h cmds h' n`: the commands are run one after the other by the framework, all of them are answered, and `n` of them are
refused. -/
inductive Ran (u : Unmodelled) (e : MEnv) : Host → List (List Str) → Host → Nat → Prop
  | nil (h : Host) : Ran u e h [] h 0
  | done {h h' h'' t cmd args cmds n} : runCommand u e h cmd args = (some (true, t), h') → Ran u e h' cmds h'' n →
      Ran u e h ((cmd :: args) :: cmds) h'' n
  | refused {h h' h'' t cmd args cmds n} : runCommand u e h cmd args = (some (false, t), h') → Ran u e h' cmds h'' n →
      Ran u e h ((cmd :: args) :: cmds) h'' (n + 1)

/-- What the documents that the commands import have to meet: the names are as the schema asks. -/
def RegularScript (u : Unmodelled) (e : MEnv) : Host → List (List Str) → Prop
  | _, [] => True
  | h, [] :: cmds => RegularScript u e h cmds
  | h, (cmd :: args) :: cmds =>
    (∀ op, Means (u.docs h.files) cmd (args.map fun a => bytesStr (trim (strBytes a))) op → op.Regular e.env.root) ∧
    RegularScript u e (runCommand u e h cmd args).2 cmds

/-- The generator has started the framework with the criteria `cs`, with tuning on, and run the commands; `n` of them are refused. -/
structure Session (g : GenWorld) (criteria : List GenCriterion) (cmds : List (List Str)) (cs : List Criterion) (r : Started)
    (h : Host) (n : Nat) : Prop where
  criteria : AreDeclared criteria cs
  starts : startFramework g.world ⟨false, false, g.validate, true⟩ g.config g.fuel cs = .ok r
  tuning : ∃ m, (MOp.setTuningMode true).step r.env r.mgr = (.ok (), m) ∧ Ran g.u r.env ⟨m, g.files⟩ cmds h n

end PF.Spec
