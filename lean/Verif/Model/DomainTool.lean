import Verif.Model.CriteriaFile
import Verif.Model.Edd
import Verif.Model.Generator
import Verif.Model.HostConfig

/-!
# Model of the tool that generates domains

`main` of `tools/xmlGenerator/domainGenerator.py`: a file of criteria, a configuration of a framework, documents of domains and
descriptions of domains are read, and the generator (`domainGeneratorConnector`) is given commands.
-/

namespace PF

/-- The arguments (domainGenerator.py:48-89), with the contents of the files that the tool itself reads, and with the names that the
system gives: the directory of the configuration and the temporary file. -/
structure ToolArgs where
  criteria : List Str
  config : SXml
  initial : Option Str
  domains : List Str
  edds : List (List Str)
  dir : Str
  temp : Str

/-- How the tool ends: by an exception, by `exit`, or as the generator does. -/
inductive ToolEnd where
  | raised
  | exited (status : Nat)
  | generated (r : Gen GenEnd)

/-- `parseEdd` (domainGenerator.py:130-149): the status of the first description that is refused.  What the translation raises comes
later. -/
def eddsStatus : List (List Str) → Option Nat
  | [] => none
  | f :: fs =>
    match eddCommands f with
    | .ok _ => eddsStatus fs
    | .error .keyError => eddsStatus fs
    | .error (.undefinedParameter _) => some 1
    | .error _ => some 2

/-- The commands of the descriptions (domainGenerator.py:170-176); `none`: the translation raises an exception. -/
def eddsCommands : List (List Str) → Option (List (List Str))
  | [] => some []
  | f :: fs =>
    match eddCommands f with
    | .ok cmds => (eddsCommands fs).map fun cmds' => cmds ++ cmds'
    | .error _ => none

/-- The commands that import documents (domainGenerator.py:160-168). -/
def importCommands (initial : Option Str) (domains : List Str) : List (List Str) :=
  (match initial with
    | none => []
    | some f => [[s "importDomainsWithSettingsXML", f]]) ++
  domains.map fun f => [s "importDomainWithSettingsXML", f]

/-- `generateDomainCommands` (domainGenerator.py:151-176). -/
def toolCommands (cs : List CriterionLine) (imports edds : List (List Str)) : List (List Str) :=
  cs.map CriterionLine.command ++ [[s "start"]] ++ imports ++ edds

/-- `sep.join(words)`. -/
def joinWords (sep : Char) : List Str → Str
  | [] => []
  | [w] => w
  | w :: v :: ws => w ++ sep :: joinWords sep (v :: ws)

/-- What is written to the generator (domainGenerator.py:216-219). -/
def toolText : List (List Str) → Str
  | [] => []
  | c :: cs => joinWords '\x00' c ++ '\n' :: toolText cs

/-- The generator with the temporary configuration (domainGenerator.py:190-210). -/
def GenWorld.hosted (g : GenWorld) (a : ToolArgs) : GenWorld :=
  { g with
    config := a.temp
    world := { g.world with
      disk := { g.world.disk with doc := fun u => if u = a.temp then hostConfig none (some a.dir) a.config else g.world.disk.doc u } } }

/-- `main` (domainGenerator.py:178-225).  When the translation of a description raises an exception, the generator is already running:
what it makes of the commands that it was given is left out. -/
def domainTool (g : GenWorld) (a : ToolArgs) : ToolEnd :=
  match parseCriteria a.criteria with
  | none => .raised
  | some cs =>
    match eddsStatus a.edds with
    | some n => .exited n
    | none =>
      match eddsCommands a.edds with
      | none => .raised
      | some cmds => .generated ((g.hosted a).run (toolText (toolCommands cs (importCommands a.initial a.domains) cmds)))

end PF
