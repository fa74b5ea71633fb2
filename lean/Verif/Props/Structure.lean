import Verif.Lemmas.Structure

/-!
# Structure documents: what is loaded
-/

namespace PF

open Spec

variable {rd : Reader}

namespace SampleDoc

/-- An XML element, with string literals. -/
def xml (tag : String) (attrs : List (String × String)) (children : List SXml := []) : SXml :=
  .mk (s tag) (attrs.map fun a => (s a.1, s a.2)) children

/-- A component type with two parameters and a mapping. -/
def docBase : SXml :=
  xml "ComponentType" [("Name", "Base"), ("Mapping", "Kind:base")]
    [xml "BooleanParameter" [("Name", "mute")],
     xml "IntegerParameter" [("Name", "gain"), ("Size", "8"), ("Signed", "true"), ("Min", "-20"),
       ("Max", "0x14"), ("Mapping", "Object:gain")]]

/-- A component type that extends the other one, with an array of blocks. -/
def docChannel : SXml :=
  xml "ComponentType" [("Name", "Channel"), ("Extends", "Base")]
    [xml "ParameterBlock" [("Name", "band"), ("ArrayLength", "2")]
       [xml "FixedPointParameter" [("Name", "q"), ("Size", "16"), ("Integral", "3"), ("Fractional", "4")],
        xml "EnumParameter" [("Name", "shape"), ("Size", "8")]
          [xml "ValuePair" [("Literal", "low"), ("Numerical", "-1")],
           xml "ValuePair" [("Literal", "high"), ("Numerical", "1")]]],
     xml "StringParameter" [("Name", "label"), ("MaxLength", "12")]]

/-- The component library. -/
def docLib : SXml := xml "ComponentLibrary" [] [xml "ComponentTypeSet" [] [docBase], docChannel]

/-- The instance definition. -/
def docDef : SXml :=
  xml "InstanceDefinition" []
    [xml "Component" [("Name", "left"), ("Type", "Channel")],
     xml "Component" [("Name", "aux"), ("Type", "Base"), ("ArrayLength", "2"), ("Mapping", "Ctx:aux")],
     xml "BitParameterBlock" [("Name", "flags"), ("Size", "16")]
       [xml "BitParameter" [("Name", "on"), ("Pos", "0"), ("Size", "1")],
        xml "BitParameter" [("Name", "mode"), ("Pos", "4"), ("Size", "4"), ("Max", "9")]],
     xml "IntegerParameter" [("Name", "levels"), ("Size", "32"), ("ArrayLength", "3")],
     xml "FloatingPointParameter" [("Name", "temp"), ("Size", "32"), ("Min", "-0.5")]]

/-- The structure document of a subsystem. -/
def doc : SXml :=
  xml "Subsystem" [("Name", "amp"), ("Type", "Virtual"), ("Mapping", "Sub:amp")] [docLib, docDef]

/-- Mapping data. -/
def mdata (k v : String) : MData := [(s k, s v)]

/-- What a component of type `Base` holds. -/
def docBaseContent : List IElem :=
  [.mk (s "mute") (.scalar .bool) [] [],
   .mk (s "gain") (.scalar (.int ⟨true, 1, -20, 20⟩)) [mdata "Object" "gain"] []]

/-- A band. -/
def docBand (n : String) : IElem :=
  .mk (s n) (.group (s "ParameterBlock")) []
    [.mk (s "q") (.scalar (.fixed ⟨2, 3, 4⟩)) [] [],
     .mk (s "shape") (.scalar (.enum ⟨1, [(s "low", -1#32), (s "high", 1#32)]⟩)) [] []]

/-- The subsystem declared by the document. -/
def docAmp : IElem :=
  .mk (s "amp") (.group (s "Subsystem")) [mdata "Sub" "amp"]
    [.mk (s "left") (.group (s "ComponentInstance")) [mdata "Kind" "base"]
      ([.mk (s "band") (.group (s "ParameterBlock")) [] [docBand "0", docBand "1"],
        .mk (s "label") (.string 12) [] []] ++ docBaseContent),
     .mk (s "aux") (.group (s "ComponentInstance")) [mdata "Ctx" "aux", mdata "Kind" "base"]
       [.mk (s "0") (.group (s "ComponentInstance")) [mdata "Ctx" "aux", mdata "Kind" "base"] docBaseContent,
        .mk (s "1") (.group (s "ComponentInstance")) [mdata "Ctx" "aux", mdata "Kind" "base"] docBaseContent],
     .mk (s "flags") (.bitBlock 2) []
       [.mk (s "on") (.bit ⟨2, 0, 1, 1#64⟩) [] [], .mk (s "mode") (.bit ⟨2, 4, 4, 9#64⟩) [] []],
     .mk (s "levels") (.array ⟨.int ⟨false, 4, 0, 4294967295⟩, 3⟩) [] [],
     .mk (s "temp") (.scalar (.float ⟨0xbf000000#32, 0x7f7fffff#32⟩)) [] []]

/-- A reader of floating-point numbers that knows one text. -/
def reader : Reader := ⟨fun _ => none, fun t => if t = s "-0.5" then some 0xbf000000#32 else none⟩

theorem doc_loads : loadInstances reader 2 doc = some (.ok docAmp) := by rfl

/-- A component type that holds, in a block, a component of the same type. -/
def docLoopType : SXml :=
  xml "ComponentType" [("Name", "Node")]
    [xml "BooleanParameter" [("Name", "leaf")],
     xml "ParameterBlock" [("Name", "next")] [xml "Component" [("Name", "node"), ("Type", "Node")]]]

/-- A document with one component of that type. -/
def docLoop : SXml :=
  xml "Subsystem" [("Name", "loop"), ("Type", "Virtual")]
    [xml "ComponentLibrary" [] [docLoopType],
     xml "InstanceDefinition" [] [xml "Component" [("Name", "root"), ("Type", "Node")]]]

end SampleDoc

/-! ## C56: loading ends -/

/-- A subsystem of a component library and an instance definition. -/
theorem loadDeclarations_ok {x libx defx : SXml} (hc : x.children = [libx, defx])
    (hlt : libx.tag = s "ComponentLibrary") {m : Option MData} {lib : List TypeDef} {ts : List TElem}
    (h : loadDeclarations rd x = .ok (m, lib, ts)) :
    Maps [x] m.toList ∧ LibOk rd (typesInAll libx.children) lib ∧
    loadElems rd ((typesInAll libx.children).map typeName) .other defx.children = .ok ts := by
  have hlib : childOrLast x (s "ComponentLibrary") = some libx := by
    simp [childOrLast, hc, hlt]
  have hdef : childOrLast x (s "InstanceDefintion") = some defx := by
    have h1 : (libx.tag == s "InstanceDefintion") = false := by rw [hlt]; decide
    simp only [childOrLast, hc, List.find?, h1]
    cases h2 : (defx.tag == s "InstanceDefintion") <;> simp
  unfold loadDeclarations at h
  rw [hlib, hdef] at h
  simp only [Out.bind_ok, Out.ok.injEq, Prod.mk.injEq] at h
  obtain ⟨m', hm, lib', hl, a, -, ts', ht, rfl, rfl, rfl⟩ := h
  have hl' := loadLibItems_ok (pre := []) ⟨rfl, by simp⟩ _ hl
  simp only [List.nil_append] at hl'
  refine ⟨?_, hl', by rw [← hl'.names]; exact ht⟩
  unfold subsystemMap at hm
  cases ha : x.attr (s "Mapping") with
  | none =>
    simp only [ha, Out.ok.injEq] at hm; subst hm
    exact .none (.inl ha) .nil
  | some raw =>
    simp only [ha] at hm
    split at hm
    · rename_i hr
      simp only [Out.ok.injEq] at hm; subst hm
      exact .none (.inr (hr ▸ ha)) .nil
    · rename_i hr
      split at hm
      · cases hm
      · rename_i m' hi
        simp only [Out.ok.injEq] at hm; subst hm
        exact .some ha hr hi .nil

/-- C56 (partial).  If no component type of the library contains, at any depth, a component of that
same type, then loading the structure document of a subsystem ends, with success or with an error.
Missing: for other documents it may not end (`C56_unbounded`). -/
theorem C56_ends_partial {x libx defx : SXml} (hc : x.children = [libx, defx])
    (hlt : libx.tag = s "ComponentLibrary")
    (hns : ∀ t ∈ typesInAll libx.children, ∀ c ∈ t.children, ¬ RefersTo (typeName t) c) :
    ∃ fuel r, ∀ fuel', fuel ≤ fuel' → loadInstances rd fuel' x = some r := by
  have hmain : ∃ fuel, loadInstances rd fuel x ≠ none := by
    unfold loadInstances
    cases hd : loadDeclarations rd x with
    | err => exact ⟨0, by simp [Run.bind]⟩
    | abort => exact ⟨0, by simp [Run.bind]⟩
    | ok r =>
      obtain ⟨m, lib, ts⟩ := r
      obtain ⟨-, hl, ht⟩ := loadDeclarations_ok hc hlt hd
      refine ⟨lib.length, ?_⟩
      refine Run.bind_ne_none (by simp) (fun a ha => ?_)
      simp only [Option.some.injEq, Out.ok.injEq] at ha; subst ha
      refine Run.bind_ne_none ?_ (fun _ _ => by simp)
      have htk : ((typesInAll libx.children).map typeName).take lib.length =
          (typesInAll libx.children).map typeName := by
        rw [List.take_of_length_le]; simp [hl.len]
      rw [← htk] at ht
      refine instElems_ends _ _ _ ht (fun _ _ n i _ hf => ?_)
      exact typeContent_ends hl hns _ _ (findType_ok hf).1
  obtain ⟨fuel, hf⟩ := hmain
  cases hr : loadInstances rd fuel x with
  | none => exact absurd hr hf
  | some r => exact ⟨fuel, r, fun fuel' hle => loadInstances_mono hle hr⟩

theorem not_refersTo {n : Str} {x : SXml}
    (h : x.tag = s "Component" → x.attr (s "Type") ≠ some n)
    (hs : x.tag ∈ groupTags → ∀ c ∈ x.children, ¬ RefersTo n c) : ¬ RefersTo n x := by
  intro hr
  cases hr with
  | here h1 h2 => exact h h1 h2
  | inside h1 h2 h3 => exact hs h1 _ h2 h3

/-- The sample document meets the hypotheses: its types hold a block and parameters. -/
example : ∀ t ∈ typesInAll SampleDoc.docLib.children, ∀ c ∈ t.children, ¬ RefersTo (typeName t) c := by
  have e : typesInAll SampleDoc.docLib.children = [SampleDoc.docBase, SampleDoc.docChannel] := rfl
  rw [e]
  simp only [List.mem_cons, List.not_mem_nil, or_false, forall_eq_or_imp, forall_eq, SampleDoc.docBase,
    SampleDoc.docChannel, SampleDoc.xml, SXml.children]
  refine ⟨⟨?_, ?_⟩, ?_, ?_⟩
  · exact not_refersTo (fun h => absurd h (by decide)) (fun h => absurd h (by decide))
  · exact not_refersTo (fun h => absurd h (by decide)) (fun h => absurd h (by decide))
  · refine not_refersTo (fun h => absurd h (by decide)) (fun _ => ?_)
    simp only [SXml.children, List.mem_cons, List.not_mem_nil, or_false, forall_eq_or_imp, forall_eq]
    constructor
    · exact not_refersTo (fun h => absurd h (by decide)) (fun h => absurd h (by decide))
    · exact not_refersTo (fun h => absurd h (by decide)) (fun h => absurd h (by decide))
  · exact not_refersTo (fun h => absurd h (by decide)) (fun h => absurd h (by decide))

/-- A component type that contains a component of the same type, at any depth, cannot be used: no
document with a component of that type ever loads, however much memory there is. -/
theorem C56_self_never_loads {x libx defx t c d : SXml} {n : Str} (hc : x.children = [libx, defx])
    (hlt : libx.tag = s "ComponentLibrary") (hn : TypeNamed (typesInAll libx.children) n t)
    (ht : c ∈ t.children) (hr : RefersTo n c) (hd : d ∈ defx.children) (hd' : RefersTo n d)
    (fuel : Nat) (i : IElem) : loadInstances rd fuel x ≠ some (.ok i) := by
  intro h
  unfold loadInstances at h
  simp only [Run.bind_ok, Option.some.injEq, Out.ok.injEq] at h
  obtain ⟨⟨m, lib, ts⟩, h1, is, h2, -⟩ := h
  obtain ⟨-, hl, hts⟩ := loadDeclarations_ok hc hlt h1
  have htk : ((typesInAll libx.children).map typeName).take lib.length =
      (typesInAll libx.children).map typeName := by
    rw [List.take_of_length_le]; simp [hl.len]
  rw [← htk] at hts
  exact Insts.no_self hn ht hr (instElems_ok hl (fun j is x ts => typeContent_ok hl _ j is x ts) _ _ _ _ _ hts h2)
    hd hd'

/-- The declarations of the document of `docLoop`. -/
theorem SampleDoc.docLoop_decl : loadDeclarations rd SampleDoc.docLoop =
    .ok (none, [⟨s "Node", none, none,
      [.mk (s "leaf") (.scalar .bool) 0 none [],
       .mk (s "next") .block 0 none [.mk (s "node") (.comp 0) 0 none []]]⟩],
      [.mk (s "root") (.comp 0) 0 none []]) := by rfl

/-- The check of the code that a component type does not contain itself is made on the direct
children only (a component in a block passes it), and no other check follows: there is a document for
which loading never ends, that is, the program runs out of stack. -/
theorem C56_unbounded : ∀ fuel, loadInstances rd fuel SampleDoc.docLoop = none := by
  have h : ∀ fuel, typeContent [⟨s "Node", none, none,
      [.mk (s "leaf") (.scalar .bool) 0 none [],
       .mk (s "next") .block 0 none [.mk (s "node") (.comp 0) 0 none []]]⟩] fuel 0 = none := by
    intro fuel
    induction fuel with
    | zero => rfl
    | succ fuel ih => simp [typeContent, instElems, instElem, Run.bind, ih]
  intro fuel
  unfold loadInstances
  rw [SampleDoc.docLoop_decl]
  simp [instElems, instElem, Run.bind, h]

/-- `docLoop` meets the hypotheses of `C56_self_never_loads`. -/
example : TypeNamed (typesInAll [SampleDoc.docLoopType]) (s "Node") SampleDoc.docLoopType ∧
    ∃ c ∈ SampleDoc.docLoopType.children, RefersTo (s "Node") c :=
  ⟨⟨[], [], rfl, by decide, by simp⟩,
   _, .tail _ (.head _), .inside (by decide) (.head _) (.here (by decide) (by decide))⟩

/-! ## C57: the elements are those declared -/

/-- C57.  What is loaded from the structure document of a subsystem is what it declares: the elements
of the instance definition in order, each of the type, size, range and length that its attributes
give, each component with the elements of its type and then those of the types it extends, each array
of blocks or components with as many elements, and each with the mapping data of its declaration (for
a component: then that of its types). -/
theorem C57_declared {x libx defx : SXml} (hc : x.children = [libx, defx])
    (hlt : libx.tag = s "ComponentLibrary") {fuel : Nat} {i : IElem}
    (h : loadInstances rd fuel x = some (.ok i)) :
    ∃ ms is, i = .mk x.nameAttr (.group (s "Subsystem")) ms is ∧ Maps [x] ms ∧
      Insts rd (typesInAll libx.children) none defx.children is := by
  unfold loadInstances at h
  simp only [Run.bind_ok, Option.some.injEq, Out.ok.injEq] at h
  obtain ⟨⟨m, lib, ts⟩, h1, is, h2, h3⟩ := h
  obtain ⟨hm, hl, hts⟩ := loadDeclarations_ok hc hlt h1
  have htk : ((typesInAll libx.children).map typeName).take lib.length =
      (typesInAll libx.children).map typeName := by
    rw [List.take_of_length_le]; simp [hl.len]
  rw [← htk] at hts
  exact ⟨_, _, h3.symm, hm,
    instElems_ok hl (fun j is x ts => typeContent_ok hl _ j is x ts) _ _ _ _ _ hts h2⟩

/-- C57.  The declarations leave no choice: two readings of a document give the same elements. -/
theorem C57_determined {lib xs : List SXml} {blk : Option Nat} {is js : List IElem}
    (h : Insts rd lib blk xs is) (h' : Insts rd lib blk xs js) : is = js :=
  Insts.unique h h'

/-- The sample document: one component with the elements of two types, an array of components, ... -/
example : Maps [SampleDoc.doc] [SampleDoc.mdata "Sub" "amp"] ∧
    ∃ is, SampleDoc.docAmp = .mk (s "amp") (.group (s "Subsystem")) [SampleDoc.mdata "Sub" "amp"] is ∧
      Insts SampleDoc.reader (typesInAll SampleDoc.docLib.children) none SampleDoc.docDef.children is := by
  obtain ⟨ms, is, h1, h2, h3⟩ := C57_declared (x := SampleDoc.doc) rfl rfl SampleDoc.doc_loads
  cases h1
  exact ⟨h2, _, rfl, h3⟩

/-- The name of the element that an element declares. -/
theorem Inst.name {lib : List SXml} {blk : Option Nat} {x : SXml} {n : Str} {k : EKind} {ms : List MData}
    {is : List IElem} (h : Inst rd lib blk x (.mk n k ms is)) : n = x.nameAttr := by
  cases h <;> rfl

/-- The tag of the instance definition is misspelt in the code, so that it takes the last child
whatever its tag.  With the two parts in the other order the component types are taken as the
declarations of the elements: an error, or, if the library is empty, a subsystem without the declared
parameter and no error. -/
theorem C57_order_matters :
    loadInstances rd 2 (SampleDoc.xml "Subsystem" [("Name", "amp"), ("Type", "Virtual")]
      [SampleDoc.docDef, SampleDoc.docLib]) = some .err ∧
    loadInstances rd 2 (SampleDoc.xml "Subsystem" [("Name", "amp"), ("Type", "Virtual")]
      [SampleDoc.xml "InstanceDefinition" [] [SampleDoc.xml "BooleanParameter" [("Name", "b")]],
       SampleDoc.xml "ComponentLibrary" []]) =
      some (.ok (.mk (s "amp") (.group (s "Subsystem")) [] [])) := by
  constructor <;> rfl

end PF
