import Verif.Model.Adaptation
import Verif.Model.Manager

/-!
# Handles on adapted integer parameters

`ElementHandle::setAsDouble` and `getAsDouble` (`parameter/ElementHandle.cpp:196-238, 300-330`) on a parameter of an
integer type, for a structure in which some types have an adaptation.  `Mgr.handleSet` and `Elem.getAs` model the other
types and the other kinds of values, for which an adaptation changes nothing.  `setAsDoubleArray` and `getAsDoubleArray` are
those of arrays of integers.
-/

namespace PF

/-- `setAs<double>` (ElementHandle.cpp:196-221), then `CParameter::access(double, true)`, `doAccess` and `doSet`
(Parameter.cpp:134-188) on a parameter of an integer type; `ad` gives the adaptations of the types of the parameters
(TypeElement.cpp, IntegerParameterType.h:172-198).  The context of a handle leaves the automatic synchronisation on.
Simplification: `err` on a parameter of another type (see `Mgr.handleSet`). -/
def Mgr.setAsDouble (lm : Libm) (ad : Pos → Option Adaptation) (e : MEnv) (m : Mgr) (p : Pos) (d : F64) : Out Unit × Mgr :=
  if !e.env.root.setValid m.st.attached p (.one (.bool false)) then (.err, m)
  else if m.tuning then (.ok (), m)
  else
    match e.env.root.at? p, e.env.root.offset 0 p with
    | some el, some off =>
      match el.kind with
      | .scalar (.int t) =>
        match setIntDouble lm t (ad p) m.st.mem.main off d with
        | (.ok (), b) =>
          ((e.env.syncParam true p ⟨b, m.st.mem.log⟩).1,
            { m with st := { m.st with mem := (e.env.syncParam true p ⟨b, m.st.mem.log⟩).2 } })
        | (o, b) => (o, { m with st := { m.st with mem := ⟨b, m.st.mem.log⟩ } })
      | _ => (.err, m)
    | _, _ => (.err, m)

/-- `getAs<double>` (ElementHandle.cpp:224-238), then `CParameter::access(double, false)` (Parameter.cpp:134-171,
190-208) on a parameter of an integer type.  Same simplification. -/
def Mgr.getAsDouble (lm : Libm) (ad : Pos → Option Adaptation) (e : MEnv) (m : Mgr) (p : Pos) : Out F64 :=
  match e.env.root.at? p, e.env.root.offset 0 p with
  | some el, some off =>
    if !el.kind.getValid false then .err
    else
      match el.kind with
      | .scalar (.int t) => getIntDouble lm t (ad p) m.st.mem.main off
      | _ => .err
  | _, _ => .abort

/-- `CArrayParameter::setValues<double>` (ArrayParameter.cpp:352-373) after its `assert`, with `doSet` (ArrayParameter.cpp:400-419): the
values before the first one refused stay written. -/
def setDoubles (lm : Libm) (t : IntType) (ad : Option Adaptation) : Board → Nat → List F64 → Out Unit × Board
  | b, _, [] => (.ok (), b)
  | b, off, d :: ds =>
    match setIntDouble lm t ad b off d with
    | (.ok (), b') => setDoubles lm t ad b' (off + t.size) ds
    | (o, b') => (o, b')

/-- `CArrayParameter::getValues<double>` (ArrayParameter.cpp:376-398), with `doGet` (ArrayParameter.cpp:420-434). -/
def getDoubles (lm : Libm) (t : IntType) (ad : Option Adaptation) (b : Board) : Nat → Nat → Out (List F64)
  | _, 0 => .ok []
  | off, n + 1 =>
    (getIntDouble lm t ad b off).bind fun v => (getDoubles lm t ad b (off + t.size) n).bind fun vs => .ok (v :: vs)

/-- `setAs<std::vector<double>>` (ElementHandle.cpp:196-221), then `CArrayParameter::access` and `accessValues`
(ArrayParameter.cpp:156-161, 323-349) on an array of integers.  `abort` is the `assert` on the number of values.
Same simplification. -/
def Mgr.setAsDoubleArray (lm : Libm) (ad : Pos → Option Adaptation) (e : MEnv) (m : Mgr) (p : Pos) (ds : List F64) :
    Out Unit × Mgr :=
  if !e.env.root.setValid m.st.attached p (.bools (ds.map fun _ => false)) then (.err, m)
  else if m.tuning then (.ok (), m)
  else
    match e.env.root.at? p, e.env.root.offset 0 p with
    | some el, some off =>
      match el.kind with
      | .array ⟨.int t, n⟩ =>
        if ds.length ≠ n then (.abort, m)
        else
          match setDoubles lm t (ad p) m.st.mem.main off ds with
          | (.ok (), b) =>
            ((e.env.syncParam true p ⟨b, m.st.mem.log⟩).1,
              { m with st := { m.st with mem := (e.env.syncParam true p ⟨b, m.st.mem.log⟩).2 } })
          | (o, b) => (o, { m with st := { m.st with mem := ⟨b, m.st.mem.log⟩ } })
      | _ => (.err, m)
    | _, _ => (.err, m)

/-- `getAs<std::vector<double>>` (ElementHandle.cpp:224-238) on an array of integers.  Same simplification. -/
def Mgr.getAsDoubleArray (lm : Libm) (ad : Pos → Option Adaptation) (e : MEnv) (m : Mgr) (p : Pos) : Out (List F64) :=
  match e.env.root.at? p, e.env.root.offset 0 p with
  | some el, some off =>
    if !el.kind.getValid true then .err
    else
      match el.kind with
      | .array ⟨.int t, n⟩ => getDoubles lm t (ad p) m.st.mem.main off n
      | _ => .err
  | _, _ => .abort

end PF
