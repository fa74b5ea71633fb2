import Verif.Model.Start

/-!
# The C API

`bindings/c/ParameterFramework.cpp`, over the connector (`parameter/ParameterMgrPlatformConnector.cpp`).
Loggers, the destruction of handles and the texts of the errors are not modelled.  Arguments that the
header declares non-null are.
-/

namespace PF

/-- `PfwCriterion` (ParameterFramework.h:116-138): `none` is a null pointer; the list of values is the one
before the null terminator. -/
structure PfwCriterion where
  name : Option Str
  inclusive : Bool
  values : Option (List Str)
deriving Repr, DecidableEq

/-- What the files behind the configuration path of `pfwStart` give: `none` if the configuration or the structure is
refused (ParameterMgr.cpp:488-538), otherwise the structure with its environment, the settings and the
back synchronisation (see `Mgr.start`). -/
structure PfwFiles where
  env : MEnv
  settings : Settings
  back : BackSync

/-- `INT_MAX`. -/
def intMax : BitVec 32 := 0x7FFFFFFF#32

/-- The number of the value at an index (ParameterFramework.cpp:200-210): `none` if it would overflow. -/
def valueNumber (inclusive : Bool) (i : Nat) : Option (BitVec 32) :=
  if inclusive then if intMax >>> i == 0#32 then none else some (1#32 <<< i)
  else some (BitVec.ofNat 32 i)

/-- The loop over the values of a criterion (ParameterFramework.cpp:199-217), from an index. -/
def CritType.addValues (t : CritType) : Nat → List Str → Out CritType
  | _, [] => .ok t
  | i, w :: ws =>
    match valueNumber t.inclusive i with
    | none => .err
    | some v =>
      match t.addValuePair v w with
      | .added t' => t'.addValues (i + 1) ws
      | .rejected => .err
      | .ub => .abort

/-- `createCriteria` (ParameterFramework.cpp:177-222), from the criteria created so far.  The map by name and
the list of the manager (ParameterMgr.cpp:664-670) hold the same criteria; here there is one list.  A new criterion has the state 0
(SelectionCriterion.h:83-88). -/
def createCriteria (cs : List Criterion) : List PfwCriterion → Out Unit × List Criterion
  | [] => (.ok (), cs)
  | d :: ds =>
    match d.name, d.values with
    | none, _ => (.err, cs)
    | some _, none => (.err, cs)
    | some n, some ws =>
      if cs.any (fun c => c.name == n) then (.err, cs)
      else
        match (CritType.new d.inclusive).addValues 0 ws with
        | .ok t => createCriteria (cs ++ [⟨n, t, 0#32, 0#32⟩]) ds
        | .err => (.err, cs)
        | .abort => (.abort, cs)

/-- The connector of a handler (ParameterFramework.cpp:147): its start failed, leaving the criteria
created so far, or it is started (`_bStarted`, ParameterMgrPlatformConnector.cpp:181-192). -/
inductive Pfw where
  | failed (criteria : List Criterion)
  | started (e : MEnv) (m : Mgr)

/-- `PfwHandler_` (ParameterFramework.cpp:141-155).  `params` are the parameters bound so far; `error` is whether
the last status has a message. -/
structure PfwHandler where
  pfw : Option Pfw
  params : List Pos
  error : Bool

/-- `pfwCreate` (ParameterFramework.cpp:157-160). -/
def pfwCreate : PfwHandler := ⟨none, [], false⟩

/-- `Status::failure` (ParameterFramework.cpp:60-66). -/
def PfwHandler.failure {α : Type} (h : PfwHandler) : Out α × PfwHandler := (.err, { h with error := true })

/-- `Status::success` (ParameterFramework.cpp:68-72). -/
def PfwHandler.success {α : Type} (h : PfwHandler) (a : α) : Out α × PfwHandler := (.ok a, { h with error := false })

/-- `Status::forward` (ParameterFramework.cpp:78-84) of the result of an operation that leaves `h`. -/
def PfwHandler.forward {α : Type} (h : PfwHandler) : Out α → Out α × PfwHandler
  | .ok a => h.success a
  | .err => h.failure
  | .abort => (.abort, h)

/-- `pfwStart` (ParameterFramework.cpp:224-243).  Settings that are refused make it fail
(`_bFailOnFailedSettingsLoad` is true by default, ParameterMgr.h:900). -/
def pfwStart (h : PfwHandler) (files : Option PfwFiles) (ds : List PfwCriterion) : Out Unit × PfwHandler :=
  match h.pfw with
  | some _ => h.failure
  | none =>
    match createCriteria [] ds with
    | (.ok (), cs) =>
      match files with
      | none => { h with pfw := some (.failed cs) }.failure
      | some f =>
        match Mgr.start f.env true f.settings f.back cs with
        | (.ok (), m) => { h with pfw := some (.started f.env m) }.success ()
        | (.err, m) => { h with pfw := some (.failed m.st.criteria) }.failure
        | (.abort, _) => (.abort, h)
    | (.err, cs) => { h with pfw := some (.failed cs) }.failure
    | (.abort, _) => (.abort, h)

/-- The criteria of a handler. -/
def Pfw.criteria : Pfw → List Criterion
  | .failed cs => cs
  | .started _ m => m.st.criteria

/-- `getCriterion` (ParameterFramework.cpp:250-254): the place of the criterion of that name. -/
def Pfw.findCriterion (p : Pfw) (name : Str) : Option Nat := p.criteria.findIdx? (fun c => c.name == name)

/-- `setCriterionState` on the criterion at a place (SelectionCriterion.cpp:63-86). -/
def Pfw.setCriterion (i : Nat) (v : BitVec 32) : Pfw → Pfw
  | .failed cs => .failed (cs.mapIdx fun j c => if j = i then c.setState v else c)
  | .started e m => .started e ((MOp.setCriterion i v).step e m).2

/-- `pfwSetCriterion` (ParameterFramework.cpp:256-269). -/
def pfwSetCriterion (h : PfwHandler) (name : Str) (v : BitVec 32) : Out Unit × PfwHandler :=
  match h.pfw with
  | none => h.failure
  | some p =>
    match p.findCriterion name with
    | none => h.failure
    | some i => { h with pfw := some (p.setCriterion i v) }.success ()

/-- `pfwGetCriterion` (ParameterFramework.cpp:270-283). -/
def pfwGetCriterion (h : PfwHandler) (name : Str) : Out (BitVec 32) × PfwHandler :=
  match h.pfw with
  | none => h.failure
  | some p =>
    match (p.findCriterion name).bind (fun i => p.criteria[i]?) with
    | none => h.failure
    | some c => h.success c.state

/-- `pfwApplyConfigurations` (ParameterFramework.cpp:285-294).  The connector asserts that it is started
(ParameterMgrPlatformConnector.cpp:80). -/
def pfwApplyConfigurations (h : PfwHandler) : Out Unit × PfwHandler :=
  match h.pfw with
  | none => h.failure
  | some (.failed _) => (.abort, h)
  | some (.started e m) =>
    match MOp.applyConfigurations.step e m with
    | (.abort, _) => (.abort, h)
    | (_, m') => { h with pfw := some (.started e m') }.success ()

/-- `pfwBindParameter` (ParameterFramework.cpp:306-325) with `createParameterHandle` (ParameterMgr.cpp:734-755,
ParameterMgrPlatformConnector.cpp:86-92): the handle is the place in `params`. -/
def pfwBindParameter (h : PfwHandler) (path : Str) : Out Nat × PfwHandler :=
  match h.pfw with
  | none => h.failure
  | some (.failed _) => (.abort, h)
  | some (.started e _) =>
    match e.env.root.locate path with
    | none => h.failure
    | some p =>
      match e.env.root.at? p with
      | none => h.failure
      | some el =>
        if el.kind.isParameter then { h with params := h.params ++ [p] }.success h.params.length else h.failure

/-- A get through a parameter handle (ElementHandle.cpp:224-238).  A number that is not a handle is a use of an
invalid pointer. -/
def PfwHandler.get (h : PfwHandler) (k : Nat) (ty : ATy) : Out Atom × PfwHandler :=
  match h.pfw, h.params[k]? with
  | some (.started e m), some p => h.forward (e.env.root.getAs m.st.mem.main p ty)
  | _, _ => (.abort, h)

/-- A set through a parameter handle (ElementHandle.cpp:196-221). -/
def PfwHandler.set (h : PfwHandler) (k : Nat) (a : Atom) : Out Unit × PfwHandler :=
  match h.pfw, h.params[k]? with
  | some (.started e m), some p =>
    { h with pfw := some (.started e ((MOp.handleSet p (.one a)).step e m).2) }.forward
      ((MOp.handleSet p (.one a)).step e m).1
  | _, _ => (.abort, h)

/-- `pfwGetIntParameter` (ParameterFramework.cpp:333-337). -/
def pfwGetIntParameter (h : PfwHandler) (k : Nat) : Out (BitVec 32) × PfwHandler :=
  match h.get k .sint with
  | (.ok (.sint i), h') => (.ok i, h')
  | (.err, h') => (.err, h')
  | (_, h') => (.abort, h')

/-- `pfwSetIntParameter` (ParameterFramework.cpp:338-342). -/
def pfwSetIntParameter (h : PfwHandler) (k : Nat) (v : BitVec 32) : Out Unit × PfwHandler := h.set k (.sint v)

/-- The C string in an array of characters: up to the first NUL. -/
def cutText (w : Str) : Str := w.takeWhile (fun c => decide (c ≠ Char.ofNat 0))

/-- `pfwGetStringParameter` (ParameterFramework.cpp:344-356): `strdup` stops at the first NUL. -/
def pfwGetStringParameter (h : PfwHandler) (k : Nat) : Out Str × PfwHandler :=
  match h.get k .str with
  | (.ok (.str w), h') => (.ok (cutText w), h')
  | (.err, h') => (.err, h')
  | (_, h') => (.abort, h')

/-- `pfwSetStringParameter` (ParameterFramework.cpp:358-362): the text of a C string. -/
def pfwSetStringParameter (h : PfwHandler) (k : Nat) (w : Str) : Out Unit × PfwHandler := h.set k (.str (cutText w))

/-- What can happen to a handler: the calls of the API (ParameterFramework.h:131-288), and, once it is
started, the operations of the clients of the remote interface and of the plugins. -/
inductive PfwEvent where
  | start (files : Option PfwFiles) (ds : List PfwCriterion)
  | setCriterion (name : Str) (v : BitVec 32)
  | getCriterion (name : Str)
  | apply
  | bind (path : Str)
  | getInt (k : Nat)
  | setInt (k : Nat) (v : BitVec 32)
  | getString (k : Nat)
  | setString (k : Nat) (w : Str)
  | other (op : MOp)

/-- The result of a call without its value. -/
def Out.done {α : Type} : Out α → Out Unit
  | .ok _ => .ok ()
  | .err => .err
  | .abort => .abort

/-- One event (ParameterFramework.cpp:224-362). -/
def PfwEvent.step (h : PfwHandler) : PfwEvent → Out Unit × PfwHandler
  | .start files ds => pfwStart h files ds
  | .setCriterion name v => pfwSetCriterion h name v
  | .getCriterion name => ((pfwGetCriterion h name).1.done, (pfwGetCriterion h name).2)
  | .apply => pfwApplyConfigurations h
  | .bind path => ((pfwBindParameter h path).1.done, (pfwBindParameter h path).2)
  | .getInt k => ((pfwGetIntParameter h k).1.done, (pfwGetIntParameter h k).2)
  | .setInt k v => pfwSetIntParameter h k v
  | .getString k => ((pfwGetStringParameter h k).1.done, (pfwGetStringParameter h k).2)
  | .setString k w => pfwSetStringParameter h k w
  | .other op =>
    match h.pfw with
    | some (.started e m) => ((op.step e m).1, { h with pfw := some (.started e (op.step e m).2) })
    | _ => (.err, h)

end PF
