import Verif.Model.Generator

/-!
# The platform connector and the test platform

`parameter/ParameterMgrPlatformConnector.cpp`, the interface of a program that embeds the framework, and
`test/test-platform/TestPlatform.cpp`, a program that gives it to remote clients.  The texts of errors and the loggers are not
modelled.  A criterion is created with all its values at once.
-/

namespace PF

/-- What the manager of a connector is at (`_bStarted`, ParameterMgrPlatformConnector.cpp:42, 188): not started yet, a start
failed, or started. -/
inductive Phase where
  | setup (criteria : List Criterion)
  | failed (criteria : List Criterion)
  | running (e : MEnv) (m : Mgr)

/-- A connector: the policies (ParameterMgr.h:890-907), the folder of the schemas, and the phase. -/
structure Conn where
  pol : Policies
  schemas : Str
  phase : Phase

/-- The surroundings: the files (see `startFramework`), by the folder of the schemas, on which the validity of a document depends; what a start does after one that succeeded or failed, and the texts of
errors, which are not modelled: the theorems hold whatever they are. -/
structure PEnv where
  world : Str → World
  config : Str
  fuel : Nat
  again : Phase → Option Bool × Phase
  text : Str → List Str → Str

/-- The constructor (ParameterMgrPlatformConnector.cpp:37-44); the policies are the initial ones of the manager. -/
def Conn.new (schemas : Str) : Conn := ⟨Policies.initial, schemas, .setup []⟩

/-- `isStarted` (ParameterMgrPlatformConnector.cpp:194-197). -/
def Conn.isStarted (c : Conn) : Bool :=
  match c.phase with
  | .running .. => true
  | _ => false

/-- The three policies that are refused once started. -/
inductive Policy where
  | missing
  | settings
  | validate
deriving Repr, DecidableEq

/-- The getters of the manager (ParameterMgr.cpp:819-857). -/
def Policy.get (p : Policies) : Policy → Bool
  | .missing => p.failOnMissing
  | .settings => p.failOnSettings
  | .validate => p.validate

/-- The setters of the manager (ParameterMgr.cpp:819-857). -/
def Policy.set (p : Policies) (b : Bool) : Policy → Policies
  | .missing => { p with failOnMissing := b }
  | .settings => { p with failOnSettings := b }
  | .validate => { p with validate := b }

/-- `setFailureOnMissingSubsystem`, `setFailureOnFailedSettingsLoad`, `setValidateSchemasOnStart`
(ParameterMgrPlatformConnector.cpp:116-126, 133-144, 161-172). -/
def Conn.setPolicy (c : Conn) (k : Policy) (b : Bool) : Bool × Conn :=
  if c.isStarted then (false, c) else (true, { c with pol := k.set c.pol b })

/-- `createSelectionCriterionType` and `createSelectionCriterion` (ParameterMgrPlatformConnector.cpp:52-68) with the values in
between (TestPlatform.cpp:255-281, 283-308), numbered as `addGenerated` does.  There is no result when the assertion that nothing is
started fails, or a number does not fit. -/
def Conn.createCriterion (c : Conn) (inclusive : Bool) (name : Str) (values : List Str) : Option Bool × Conn :=
  match c.phase with
  | .running .. => (none, c)
  | .setup cs =>
    match (CritType.new inclusive).addGenerated 0 values with
    | .ok t => (some true, { c with phase := .setup (cs ++ [⟨name, t, 0#32, 0#32⟩]) })
    | .threw => (some false, c)
    | _ => (none, c)
  | .failed cs =>
    match (CritType.new inclusive).addGenerated 0 values with
    | .ok t => (some true, { c with phase := .failed (cs ++ [⟨name, t, 0#32, 0#32⟩]) })
    | .threw => (some false, c)
    | _ => (none, c)

/-- The criteria of the manager (ParameterMgr.cpp:673-677). -/
def Conn.criteria (c : Conn) : List Criterion :=
  match c.phase with
  | .setup cs => cs
  | .failed cs => cs
  | .running _ m => m.st.criteria

/-- `setCriterionState` (SelectionCriterion.cpp:63-86) of a criterion of the connector, in any phase. -/
def Conn.setState (c : Conn) (i : Nat) (v : BitVec 32) : Conn :=
  match c.phase with
  | .setup cs => { c with phase := .setup (cs.modify i fun k => k.setState v) }
  | .failed cs => { c with phase := .failed (cs.modify i fun k => k.setState v) }
  | .running e m => { c with phase := .running e ((MOp.setCriterion i v).step e m).2 }

/-- `applyConfigurations` (ParameterMgrPlatformConnector.cpp:78-83): the assertion stops the program before a start. -/
def Conn.apply (c : Conn) : Option Unit × Conn :=
  match c.phase with
  | .running e m =>
    match MOp.applyConfigurations.step e m with
    | (.abort, _) => (none, c)
    | (_, m') => (some (), { c with phase := .running e m' })
  | _ => (none, c)

/-- `start` (ParameterMgrPlatformConnector.cpp:180-191).  An exception is not caught. -/
def Conn.start (p : PEnv) (c : Conn) : Option Bool × Conn :=
  match c.phase with
  | .setup cs =>
    match startFramework (p.world c.schemas) c.pol p.config p.fuel cs with
    | .ok r => (some true, { c with phase := .running r.env r.mgr })
    | .refused => (some false, { c with phase := .failed cs })
    | _ => (none, c)
  | ph => ((p.again ph).1, { c with phase := (p.again ph).2 })

/-! ## The test platform -/

/-- The answer of a parser that calls something that succeeds or not (TestPlatform.cpp:176-182, for example). -/
def doneOrFailed (text : Str) : Option Bool × Conn → Option (CmdStatus × Str) × Conn
  | (none, c) => (none, c)
  | (some true, c) => (some (.done, []), c)
  | (some false, c) => (some (.failed, text), c)

/-- The setters of the policies (TestPlatform.cpp:184-199). -/
def platSetter (p : PEnv) (cmd : Str) (k : Policy) (c : Conn) (args : List Str) : Option (CmdStatus × Str) × Conn :=
  match args with
  | a :: _ =>
    match convertBool a with
    | none => (some (.showUsage, []), c)
    | some b => doneOrFailed (p.text cmd args) ((some (c.setPolicy k b).1, (c.setPolicy k b).2))
  | [] => (none, c)

/-- The getters (TestPlatform.cpp:201-208). -/
def platGetter (k : Policy) (c : Conn) (_ : List Str) : Option (CmdStatus × Str) × Conn :=
  (some (.succeeded, if k.get c.pol then s "true" else s "false"), c)

/-- The creation of a criterion from a list of values (TestPlatform.cpp:138-154, 255-308). -/
def platCreateList (p : PEnv) (cmd : Str) (inclusive : Bool) (c : Conn) (args : List Str) : Option (CmdStatus × Str) × Conn :=
  match args with
  | name :: values => doneOrFailed (p.text cmd args) (c.createCriterion inclusive name values)
  | [] => (none, c)

/-- The name of a state that is only numbered (TestPlatform.cpp:318-321, 345-348): the number of an inclusive one is written in
decimal behind `0x`. -/
def stateName (inclusive : Bool) (i : Nat) : Str :=
  if inclusive then s "State_0x" ++ intText (1#32 <<< i).toInt else s "State_" ++ natText i

/-- The creation of a criterion from a number of values (TestPlatform.cpp:156-174, 310-361): the number is read by `strtoul`. -/
def platCreateCount (p : PEnv) (cmd : Str) (inclusive : Bool) (c : Conn) (args : List Str) : Option (CmdStatus × Str) × Conn :=
  match args with
  | name :: n :: _ =>
    doneOrFailed (p.text cmd args)
      (c.createCriterion inclusive name ((List.range (strtoull n).toNat).map (stateName inclusive)))
  | _ => (none, c)

/-- `strLexicalState` (TestPlatform.cpp:415-429). -/
def lexicalState : List Str → Str
  | [] => []
  | [w] => w
  | w :: ws => w ++ '|' :: lexicalState ws

/-- `setCriterionState` (TestPlatform.cpp:224-243, 363-444): a number, or words. -/
def platSetState (p : PEnv) (cmd : Str) (c : Conn) (args : List Str) : Option (CmdStatus × Str) × Conn :=
  match args with
  | name :: w :: ws =>
    match findCriterion c.criteria name with
    | none => (some (.failed, p.text cmd args), c)
    | some i =>
      match convertTo false 32 w with
      | some n => (some (.done, []), c.setState i (BitVec.ofInt 32 n))
      | none =>
        match c.criteria[i]? with
        | none => (none, c)
        | some k =>
          if k.type.inclusive = false ∧ ws ≠ [] then (some (.failed, p.text cmd args), c)
          else
            match k.type.numerical (lexicalState (w :: ws)) with
            | none => (some (.failed, p.text cmd args), c)
            | some v => (some (.done, []), c.setState i v)
  | _ => (none, c)

/-- A command of the test platform. -/
def platItem (name : String) (min : Nat) (help description : String)
    (f : Str → Conn → List Str → Option (CmdStatus × Str) × Conn) : CmdItem Conn :=
  ⟨s name, min, s help, s description, some (f (s name))⟩

/-- The commands (TestPlatform.cpp:70-131, 210-222, 245-251).  The end of the server by `exit` is not modelled. -/
def platCommands (p : PEnv) : List (CmdItem Conn) :=
  [platItem "exit" 0 ""
     "Exit TestPlatform"
     fun _ c _ => (some (.done, []), c),
   platItem "createExclusiveSelectionCriterionFromStateList" 2 "<name> <stateList>"
     "Create inclusive selection criterion from state name list"
     fun cmd => platCreateList p cmd false,
   platItem "createInclusiveSelectionCriterionFromStateList" 2 "<name> <stateList>"
     "Create exclusive selection criterion from state name list"
     fun cmd => platCreateList p cmd true,
   platItem "createExclusiveSelectionCriterion" 2 "<name> <nbStates>"
     "Create inclusive selection criterion"
     fun cmd => platCreateCount p cmd false,
   platItem "createInclusiveSelectionCriterion" 2 "<name> <nbStates>"
     "Create exclusive selection criterion"
     fun cmd => platCreateCount p cmd true,
   platItem "start" 0 ""
     "Start ParameterMgr"
     fun cmd c args => doneOrFailed (p.text cmd args) (c.start p),
   platItem "setCriterionState" 2 "<name> <state>"
     "Set the current state of a selection criterion"
     fun cmd => platSetState p cmd,
   platItem "applyConfigurations" 0 ""
     "Apply configurations selected by current selection criteria states"
     fun _ c _ => (c.apply.1.map fun _ => (.done, []), c.apply.2),
   platItem "setFailureOnMissingSubsystem" 1 "true|false"
     "Set policy for missing subsystems, either abort start or fallback on virtual subsystem."
     fun cmd => platSetter p cmd .missing,
   platItem "getMissingSubsystemPolicy" 0 ""
     "Get policy for missing subsystems, either abort start or fallback on virtual subsystem."
     fun _ => platGetter .missing,
   platItem "setFailureOnFailedSettingsLoad" 1 "true|false"
     "Set policy for failed settings load, either abort start or continue without domains."
     fun cmd => platSetter p cmd .settings,
   platItem "getFailedSettingsLoadPolicy" 0 ""
     "Get policy for failed settings load, either abort start or continue without domains."
     fun _ => platGetter .settings,
   platItem "setValidateSchemasOnStart" 1 "true|false"
     "Set policy for schema validation based on .xsd files (false by default)."
     fun cmd => platSetter p cmd .validate,
   platItem "getValidateSchemasOnStart" 0 ""
     "Get policy for schema validation based on .xsd files."
     fun _ => platGetter .validate,
   platItem "getSchemaUri" 0 ""
     "Get the directory where schemas can be found."
     fun _ c _ => (some (.done, c.schemas), c),
   platItem "setSchemaUri" 1 "<directory>"
     "Set the directory where schemas can be found."
     fun _ c args => (some (.done, []), { c with schemas := args.headD [] })]

/-- A request to the test platform (`run`, TestPlatform.cpp:59-134), with its arguments as the message gives them. -/
def platRequest (p : PEnv) (c : Conn) (cmd : Str) (args : List Str) : Option (Bool × Str) × Conn :=
  processCommand (createHandler (platCommands p)) c cmd args

end PF
