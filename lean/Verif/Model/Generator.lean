import Verif.Model.Command
import Verif.Model.CApi
import Verif.Model.Framework
import Verif.Model.Tokenizer

/-!
# The domain generator

`tools/xmlGenerator/domainGeneratorConnector.cpp`: a program that reads criteria and commands from its input and writes the domains
to its output.  What goes to the error output is left
out.  Commands before the start and a second start are not modelled (`outside`).
-/

namespace PF

/-- How a part of the generator ends: with a result, with an exception that `main` catches, by stopping the program (an assertion, or
undefined behaviour), not at all within the nested calls given (see `Run`), or with something that is not modelled. -/
inductive Gen (α : Type) where
  | ok (a : α)
  | threw
  | stopped
  | endless
  | outside

/-- Sequencing. -/
def Gen.bind {α β : Type} (x : Gen α) (f : α → Gen β) : Gen β :=
  match x with
  | .ok a => f a
  | .threw => .threw
  | .stopped => .stopped
  | .endless => .endless
  | .outside => .outside

/-- A result of the connector: errors are thrown (domainGeneratorConnector.cpp:212-221). -/
def Load.gen {α : Type} : Load α → Gen α
  | .ok a => .ok a
  | .refused => .threw
  | .threw => .threw
  | .stopped => .stopped
  | .endless => .endless

/-- The same for operations. -/
def Out.gen {α : Type} (x : Out α) : Gen α := x.load.gen

/-! ## Criteria -/

/-- `inclusiveness ? 1 << index : index` (domainGeneratorConnector.cpp:139) on `int`; `none` is undefined.  The shift by 31
gives `INT_MIN`. -/
def generatorNumber (inclusive : Bool) (i : Nat) : Option (BitVec 32) :=
  if inclusive then if i < 32 then some (1#32 <<< i) else none
  else if i < 2 ^ 31 then some (BitVec.ofNat 32 i) else none

/-- The loop over the values (domainGeneratorConnector.cpp:136-150), from an index. -/
def CritType.addGenerated (t : CritType) : Nat → List Str → Gen CritType
  | _, [] => .ok t
  | i, w :: ws =>
    match generatorNumber t.inclusive i with
    | none => .stopped
    | some v =>
      match t.addValuePair v w with
      | .added t' => t'.addGenerated (i + 1) ws
      | .rejected => .threw
      | .ub => .stopped

/-- `XmlGenerator::addCriteria` (domainGeneratorConnector.cpp:118-157), before the start.  A criterion of a name that there already
is is accepted (SelectionCriteriaDefinition.cpp:39-48). -/
def addCriteria (cs : List Criterion) : List Str → Gen (List Criterion)
  | kind :: name :: w :: ws =>
    ((CritType.new (kind == s "inclusive")).addGenerated 0 (w :: ws)).bind fun t => .ok (cs ++ [⟨name, t, 0#32, 0#32⟩])
  | _ => .threw

/-! ## Commands -/

/-- What the generator runs on: the files and the policies of the start (domainGeneratorConnector.cpp:59-77), the configuration
file, and the files that commands read. -/
structure GenWorld where
  u : Unmodelled
  world : World
  files : Files
  config : Str
  validate : Bool
  fuel : Nat

/-- The policies (domainGeneratorConnector.cpp:67-76). -/
def GenWorld.policies (g : GenWorld) : Policies := ⟨false, false, g.validate, true⟩

/-- The generator: the criteria before the start, or the system that is started; and the number of commands that failed. -/
inductive GenState where
  | before (criteria : List Criterion)
  | after (e : MEnv) (h : Host) (errors : Nat)

/-- `XmlGenerator::start` (domainGeneratorConnector.cpp:209-222). -/
def GenWorld.start (g : GenWorld) (cs : List Criterion) : Gen GenState :=
  (startFramework g.world g.policies g.config g.fuel cs).gen.bind fun r =>
    match (MOp.setTuningMode true).step r.env r.mgr with
    | (.ok (), m) => .ok (.after r.env ⟨m, g.files⟩ 0)
    | (.err, _) => .threw
    | (.abort, _) => .stopped

/-- The body of the loop of `parse` on the words of a line (domainGeneratorConnector.cpp:166-188). -/
def GenWorld.command (g : GenWorld) : GenState → List Str → Gen GenState
  | st, [] => .ok st
  | .before cs, cmd :: args =>
    if cmd = s "createSelectionCriterion" then (addCriteria cs args).bind fun cs' => .ok (.before cs')
    else if cmd = s "start" then g.start cs
    else .outside
  | .after e h n, cmd :: args =>
    if cmd = s "createSelectionCriterion" then
      if args.length < 3 then .threw else .stopped
    else if cmd = s "start" then .outside
    else
      match (runCommand g.u e h cmd args).1 with
      | none => .stopped
      | some (true, _) => .ok (.after e (runCommand g.u e h cmd args).2 n)
      | some (false, _) => .ok (.after e (runCommand g.u e h cmd args).2 (n + 1))

/-- The lines that `std::getline` gives until the end of the input (domainGeneratorConnector.cpp:163-164): the last one is what is
behind the last line end, be it empty. -/
def inputLines : Str → List Str
  | [] => [[]]
  | c :: cs =>
    if c = '\n' then [] :: inputLines cs
    else
      match inputLines cs with
      | l :: ls => (c :: l) :: ls
      | [] => [[c]]

/-- `XmlGenerator::parse` (domainGeneratorConnector.cpp:159-191): the separator is the character NUL. -/
def GenWorld.parse (g : GenWorld) (st : GenState) : List Str → Gen GenState
  | [] => .ok st
  | l :: ls => (g.command st (tokenize ['\x00'] false l)).bind fun st' => g.parse st' ls

/-! ## The program -/

/-- The end of the program: its status and what it wrote. -/
structure GenEnd where
  status : Nat
  output : Option Str
deriving Repr, DecidableEq

/-- `normalizeExitCode` (domainGeneratorConnector.cpp:250-257). -/
def normalizeExitCode (n : Nat) : Nat := min n 255

/-- After the input (domainGeneratorConnector.cpp:284-289): `conflictingElements` (193-207) and `exportDomains` (224-233). -/
def GenWorld.finish (g : GenWorld) : GenState → Gen GenEnd
  | .before _ => .outside
  | .after e h n =>
    match (runCommand g.u e h (s "listConflictingElements") []).1 with
    | none => .stopped
    | some (false, _) => .threw
    | some (true, t) =>
      (h.mgr.st.exportDomains e.env.root h.mgr.ctx true).gen.bind fun doc =>
        .ok ⟨normalizeExitCode (if t = [] then n else n + 1), some (g.u.print doc)⟩

/-- `main` with all its arguments (domainGeneratorConnector.cpp:281-293): an exception ends it with status 1. -/
def GenWorld.run (g : GenWorld) (input : Str) : Gen GenEnd :=
  match (g.parse (.before []) (inputLines input)).bind g.finish with
  | .threw => .ok ⟨1, none⟩
  | r => r

end PF
