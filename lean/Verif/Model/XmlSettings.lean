import Verif.Model.Tree

/-!
# Model of the settings in XML

`serializeXmlSettings` of `parameter/ConfigurableElement.cpp`, `BaseParameter.cpp`, `Parameter.cpp`,
`FixedPointParameterType.cpp`, and the checks of `xmlserializer/XmlDocSource.cpp`.

The reading and printing of XML documents by libxml2 is not modelled: a document is the tree of its
elements, and the printer and the reader of documents are taken to be inverse of each other.  The
validation against a schema (an option of the manager, off by default) is left out.
-/

namespace PF

/-- An XML element (`CXmlElement`, xmlserializer/XmlElement.h): tag, `Name` and `ValueSpace`
attributes (the empty text when missing, XmlElement.cpp:81-120), text content
(XmlElement.cpp:122-134) and child elements in order. -/
inductive XElem where
  | mk (tag name valueSpace text : Str) (children : List XElem)
deriving Repr

/-- The tag (`getType`, XmlElement.cpp:52-55). -/
def XElem.tag : XElem → Str | .mk t _ _ _ _ => t
/-- The `Name` attribute (`getNameAttribute`, XmlElement.cpp:115-120). -/
def XElem.name : XElem → Str | .mk _ n _ _ _ => n
/-- The `ValueSpace` attribute. -/
def XElem.valueSpace : XElem → Str | .mk _ _ v _ _ => v
/-- The text content (`getTextContent`, XmlElement.cpp:122-134). -/
def XElem.text : XElem → Str | .mk _ _ _ t _ => t
/-- The child elements (`CChildIterator`, XmlElement.cpp:242-263). -/
def XElem.children : XElem → List XElem | .mk _ _ _ _ cs => cs

/-- `getXmlElementName` (Element.cpp:531-534, InstanceConfigurableElement.cpp:52-56): the kind, except
for instances of components (ComponentInstance.cpp:43-53). -/
def EKind.xmlTag (k : EKind) : Str :=
  if k.text = s "ComponentInstance" then s "ParameterBlock" else k.text

/-- The kinds whose type handles the `ValueSpace` attribute (FixedPointParameterType.cpp:71-88,
FloatingPointParameterType.cpp:60-82; the
others do nothing, ParameterType.cpp:101-106; bit and string parameters are not `CParameter`s). -/
def EKind.hasValueSpace : EKind → Bool
  | .scalar (.fixed _) | .scalar (.float _) => true
  | .array ⟨.fixed _, _⟩ | .array ⟨.float _, _⟩ => true
  | _ => false

/-! ## Export -/

mutual
/-- `serializeXmlSettings` when serialising out (ConfigurableElement.cpp:167-191, BaseParameter.cpp:60-72,
Parameter.cpp:51-60, FixedPointParameterType.cpp:81-87).  `off` is the offset of the element, `base`
the base offset of the context. -/
def Elem.exportXml (ctx : Ctx) (base : Nat) (b : Board) : Elem → Nat → Out XElem
  | .mk n k _ cs, off =>
    (if k.isParameter then getParamText ctx k b off base [] else .ok []).bind fun t =>
      (Elem.exportChildren ctx base b cs off).bind fun xs =>
        .ok (.mk k.xmlTag n (if k.hasValueSpace && ctx.raw then s "Raw" else []) t xs)
/-- The loop over the children (ConfigurableElement.cpp:172-190). -/
def Elem.exportChildren (ctx : Ctx) (base : Nat) (b : Board) : List Elem → Nat → Out (List XElem)
  | [], _ => .ok []
  | c :: cs, off =>
    (c.exportXml ctx base b off).bind fun x =>
      (Elem.exportChildren ctx base b cs (off + c.footprint)).bind fun xs => .ok (x :: xs)
end

/-! ## Import -/

/-- The check of the tag of a child (ConfigurableElement.cpp:110-136): `Component` stands for
`ParameterBlock`. -/
def EKind.acceptsTag (k : EKind) (tag : Str) : Bool :=
  tag == k.xmlTag || (k.xmlTag == s "ParameterBlock" && tag == s "Component")

/-- The value space of the context after `handleValueSpaceAttribute` when serialising in
(FixedPointParameterType.cpp:75-80): it stays for the elements that follow. -/
def EKind.importRaw (k : EKind) (x : XElem) (raw : Bool) : Bool :=
  if k.hasValueSpace then x.valueSpace == s "Raw" else raw

mutual
/-- `serializeXmlSettings` when serialising in (ConfigurableElement.cpp:86-166, BaseParameter.cpp:47-77,
Parameter.cpp:51-60).  The tag and the name of the XML element itself are not checked here.  The
value space of the context and the memory come with the result: what was written before a failure
stays written. -/
def Elem.importXml (rd : Reader) (hex : Bool) (base : Nat) :
    Elem → Nat → XElem → Bool → Board → Out Unit × Bool × Board
  | .mk _ k _ cs, off, x, raw, b =>
    if k.isParameter then
      match setParamText rd ⟨k.importRaw x raw, hex⟩ k b off base [] x.text with
      | (.ok (), b') => Elem.importChildren rd hex base cs off x.children (k.importRaw x raw) b'
      | (.err, b') => (.err, k.importRaw x raw, b')
      | (.abort, b') => (.abort, k.importRaw x raw, b')
    else Elem.importChildren rd hex base cs off x.children raw b
/-- The loop over the children (ConfigurableElement.cpp:93-166). -/
def Elem.importChildren (rd : Reader) (hex : Bool) (base : Nat) :
    List Elem → Nat → List XElem → Bool → Board → Out Unit × Bool × Board
  | [], _, [], raw, b => (.ok (), raw, b)
  | [], _, _ :: _, raw, b => (.err, raw, b)
  | _ :: _, _, [], raw, b => (.err, raw, b)
  | c :: cs, off, x :: xs, raw, b =>
    if !c.kind.acceptsTag x.tag then (.err, raw, b)
    else if x.name ≠ c.name then (.err, raw, b)
    else
      match c.importXml rd hex base off x raw b with
      | (.ok (), raw', b') => Elem.importChildren rd hex base cs (off + c.footprint) xs raw' b'
      | (.err, raw', b') => (.err, raw', b')
      | (.abort, raw', b') => (.abort, raw', b')
end

/-- The check of the root of a document (XmlDocSource.cpp:119-153, from ParameterMgr.cpp:628 with the
default `Name` of ParameterMgr.h:721). -/
def Elem.rootMatches (e : Elem) (x : XElem) : Bool :=
  x.tag == e.kind.xmlTag && (e.name == [] || x.name == e.name)

/-- `getSettingsAsXML` (ParameterMgr.cpp:1523-1546). -/
def Elem.getXml (root : Elem) (ctx : Ctx) (b : Board) (p : Pos) : Out XElem :=
  match root.at? p, root.offset 0 p with
  | some e, some off => e.exportXml ctx 0 b off
  | _, _ => .abort

/-- `setSettingsAsXML` (ParameterMgr.cpp:1548-1577) up to the synchronisation. -/
def Elem.setXml (rd : Reader) (root : Elem) (ctx : Ctx) (b : Board) (p : Pos) (x : XElem) :
    Out Unit × Board :=
  match root.at? p, root.offset 0 p with
  | some e, some off =>
    if !e.rootMatches x then (.err, b)
    else
      match e.importXml rd ctx.hex 0 off x ctx.raw b with
      | (o, _, b') => (o, b')
  | _, _ => (.abort, b)

end PF
