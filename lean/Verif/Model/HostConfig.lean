import Verif.Model.Framework

/-!
# Model of the configuration for a host

`configure` (tools/xmlGenerator/hostConfig.py:35-64): the configuration of a framework is changed so that its settings can be generated
on another machine.  What is written is read back as the document that it was written from: `xml.dom.minidom` is not modelled.  The
order of attributes is not kept by the tool; it is of no effect.
-/

namespace PF

/-- `setAttribute`. -/
def setAttr (name value : Str) : List (Str × Str) → List (Str × Str)
  | [] => [(name, value)]
  | a :: as => if a.1 = name then (name, value) :: as else a :: setAttr name value as

/-- `getAttribute`: empty if there is none. -/
def domAttr (name : Str) (as : List (Str × Str)) : Str := ((as.find? (fun a => a.1 == name)).map (·.2)).getD []

/-- The attributes of an element afterwards (hostConfig.py:43-46, 54-56). -/
def hostAttrs (port path : Option Str) (tag : Str) (as : List (Str × Str)) : List (Str × Str) :=
  if tag = s "ParameterFrameworkConfiguration" then
    setAttr (s "TuningAllowed") (s "true") (match port with
      | none => as
      | some p => setAttr (s "ServerPort") p as)
  else if tag = s "StructureDescriptionFileLocation" then
    match path with
    | none => as
    | some p => setAttr (s "Path") (p ++ s "/" ++ domAttr (s "Path") as) as
  else as

/-- The elements that `delete` takes away (hostConfig.py:48-52). -/
def hostDeletes (tag : Str) : Bool := tag == s "Location" || tag == s "SettingsConfiguration"

mutual
/-- The element afterwards, if it stays. -/
def SXml.host (port path : Option Str) : SXml → SXml
  | .mk t as cs => .mk t (hostAttrs port path t as) (SXml.hosts port path cs)
/-- The children afterwards. -/
def SXml.hosts (port path : Option Str) : List SXml → List SXml
  | [] => []
  | x :: xs => if hostDeletes x.tag then SXml.hosts port path xs else x.host port path :: SXml.hosts port path xs
end

/-- `configure` (hostConfig.py:35-58); `none`: the root itself is taken away. -/
def hostConfig (port path : Option Str) (x : SXml) : Option SXml :=
  if hostDeletes x.tag then none else some (x.host port path)

end PF
