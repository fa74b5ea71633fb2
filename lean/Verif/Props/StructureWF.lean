import Verif.Lemmas.StructureSystem
import Verif.Props.Structure
import Verif.Lemmas.StructureCheck

/-!
# Structure documents: the structures they make

The theorems about structures (paths, blackboard, domains, ...) have hypotheses on the structure.
Those are met by the structures that are loaded from documents, under conditions on the documents.
-/

namespace PF

open Spec

variable {rd : Reader}

/-- A property of each element of the loaded subsystems, up to the names of the root and of the
subsystems. -/
theorem loadSystem_each {Q : Elem → Prop} (hQ : ∀ a b : Elem, a.bare = b.bare → Q a → Q b)
    {fuel : Nat} {plugins : Str → Option Plugin} {name : Str} {x : SXml} {root : Elem}
    (h32 : ∀ n keys cr, plugins n = some (.mapped keys cr) → keys.length ≤ 32)
    (h : loadSystem rd fuel plugins name x = some (.ok root))
    (hl : ∀ c ∈ x.children, ∃ lib defx, Layout c lib defx)
    (hsub : ∀ c ∈ x.children, ∀ lib defx is, Layout c lib defx → Insts rd lib none defx.children is →
      Q (.mk c.nameAttr (.group (s "Subsystem")) none (IElem.elems is)) ∧
      ∀ d ∈ IElem.elems is, d.Each Q)
    (hroot : ∀ es : List Elem, es.map Elem.name = x.children.map SXml.nameAttr →
      (∀ e ∈ es, e.kind = .group (s "Subsystem")) → Q (.mk name (.group (s "SystemClass")) none es)) :
    root.Each Q := by
  unfold loadSystem at h
  simp only [Run.bind_ok, Option.some.injEq, Out.ok.injEq] at h
  obtain ⟨es, hes, rfl⟩ := h
  obtain ⟨hlen, hm⟩ := (loadSubsystems_ok hes).mem
  have key : ∀ (j : Nat) e, es[j]? = some e → ∃ c, x.children[j]? = some c ∧ e.name = c.nameAttr ∧
      e.kind = .group (s "Subsystem") ∧ e.Each Q := by
    intro j e he
    obtain ⟨c, pl, i, f, n, hc, htag, hpl, hi, hmap⟩ := hm j e he
    have hcm := List.mem_of_getElem? hc
    obtain ⟨lib, defx, hlay⟩ := hl c hcm
    have hlay' := hlay
    obtain ⟨libx, hch, hlt, -, rfl⟩ := hlay'
    obtain ⟨ms, is, rfl, -, hins⟩ := C57_declared hch hlt hi
    have hmapped := mapInstances_ok (fun keys cr hp => h32 _ keys cr (hp ▸ hpl)) hmap
    obtain ⟨hq1, hq2⟩ := hsub c hcm _ defx is hlay hins
    obtain ⟨h1, h2, -⟩ := Elem.bare_parts hmapped.bare
    exact ⟨c, hc, h1, h2, Elem.Each.of_bare hQ (.mk hq1 hq2) e hmapped.bare.symm⟩
  refine .mk (hroot es ?_ ?_) ?_
  · apply List.ext_getElem?
    intro j
    simp only [List.getElem?_map]
    cases he : es[j]? with
    | none =>
      rw [List.getElem?_eq_none_iff] at he
      rw [List.getElem?_eq_none (by omega)]
      rfl
    | some e =>
      obtain ⟨c, hc, hn, -, -⟩ := key j e he
      simp [hc, hn]
  · intro e he
    obtain ⟨j, hj⟩ := List.mem_iff_getElem?.1 he
    obtain ⟨c, -, -, hk, -⟩ := key j e hj
    exact hk
  · intro e he
    obtain ⟨j, hj⟩ := List.mem_iff_getElem?.1 he
    obtain ⟨c, -, -, -, hq⟩ := key j e hj
    exact hq

theorem Layout.defx {c defx : SXml} {lib : List SXml} {P : SXml → Prop} (h : Layout c lib defx)
    (hx : Everywhere P c) : (∀ y ∈ defx.children, Everywhere P y) ∧ P defx ∧
      ∀ t ∈ lib, ∀ d ∈ t.children, Everywhere P d := by
  obtain ⟨libx, hc, -, -, rfl⟩ := h
  have hd := Everywhere.child hx (c := defx) (by simp [hc])
  have hlx := Everywhere.child hx (c := libx) (by simp [hc])
  refine ⟨fun y hy => Everywhere.child hd hy, Everywhere.here hd, fun t ht d hdm => ?_⟩
  exact Everywhere.child (Everywhere.typesInAll (fun y hy => Everywhere.child hlx hy) t ht) hdm

/-! ## C58: sizes, ranges and bit fields -/

/-- C58 (partial).  A system that is loaded from a document whose sizes are as the schema asks is well
formed: parameters take one, two or four bytes, bit parameters lie inside their block, integer ranges
are inside what the size can hold, fixed point formats fit.  Missing: the code does not check this by
itself (`C58_unchecked`), and the schema does not exclude that the bits of a fixed point number wrap
(`C58_wrap`). -/
theorem C58_sizes_partial {fuel : Nat} {plugins : Str → Option Plugin} {name : Str} {x : SXml} {root : Elem}
    (h32 : ∀ n keys cr, plugins n = some (.mapped keys cr) → keys.length ≤ 32)
    (hl : ∀ c ∈ x.children, ∃ lib defx, Layout c lib defx)
    (hs : ∀ c ∈ x.children, Everywhere SizesDeclared c)
    (h : loadSystem rd fuel plugins name x = some (.ok root)) : root.WF ∧ TypesOk root := by
  have hk : root.kind = .group (s "SystemClass") := by
    unfold loadSystem at h
    simp only [Run.bind_ok, Option.some.injEq, Out.ok.injEq] at h
    obtain ⟨es, -, rfl⟩ := h
    rfl
  have := loadSystem_each (Q := Elem.Local) Elem.Local.of_bare h32 h hl
    (fun c hc lib defx is hlay hins => by
      obtain ⟨h1, -, h3⟩ := Layout.defx hlay (hs c hc)
      refine ⟨fun d hd t => ?_, Insts.local h3 hins h1⟩
      obtain ⟨y, -, j, hj, rfl⟩ := Insts.mem_elems hins hd
      exact Inst.not_bit hj t)
    (fun es _ hes => fun e he t => by rw [hes e he]; simp)
  exact ⟨Elem.wf_of_each this (by rw [hk]; simp), Elem.typesOk_of_each this⟩

/-- C58 (partial).  If the bit parameters that each block declares do not overlap, then those of the
loaded system do not.  Missing: neither the code nor the schema checks this. -/
theorem C58_fields_partial {fuel : Nat} {plugins : Str → Option Plugin} {name : Str} {x : SXml} {root : Elem}
    (h32 : ∀ n keys cr, plugins n = some (.mapped keys cr) → keys.length ≤ 32)
    (hl : ∀ c ∈ x.children, ∃ lib defx, Layout c lib defx)
    (hs : ∀ c ∈ x.children, Everywhere FieldsDeclaredDisjoint c)
    (h : loadSystem rd fuel plugins name x = some (.ok root)) : root.FieldsDisjoint := by
  refine Elem.fieldsDisjoint_of_each (loadSystem_each (Q := Elem.FieldsHere) Elem.FieldsHere.of_bare h32 h hl
    (fun c hc lib defx is hlay hins => ?_) (fun es _ hes => ?_))
  · obtain ⟨h1, -, h3⟩ := Layout.defx hlay (hs c hc)
    refine ⟨fieldsHere_of_not_bit (fun d hd t => ?_), Insts.fields h3 hins h1⟩
    obtain ⟨y, -, j, hj, rfl⟩ := Insts.mem_elems hins hd
    exact Inst.not_bit hj t
  · exact fieldsHere_of_not_bit (fun e he t => by rw [hes e he]; simp)

/-! ## C59: names -/

/-- C59 (partial).  If names are usable in paths and no component declares a name that its type or a
type that this one extends declares too, then in the loaded system no two brothers have the same name:
each element has its own path (C31).  Missing: the schema checks names within one declaration only
(`C59_clash`). -/
theorem C59_names_partial {fuel : Nat} {plugins : Str → Option Plugin} {name : Str} {x : SXml} {root : Elem}
    (h32 : ∀ n keys cr, plugins n = some (.mapped keys cr) → keys.length ≤ 32)
    (hl : ∀ c ∈ x.children, ∃ lib defx, Layout c lib defx)
    (hname : PathWord name) (hsubs : ∀ c ∈ x.children, PathWord c.nameAttr)
    (hdist : (x.children.map SXml.nameAttr).Nodup)
    (hs : ∀ c ∈ x.children, ∀ lib defx, Layout c lib defx → Everywhere (NamesDeclared lib) c)
    (h : loadSystem rd fuel plugins name x = some (.ok root)) : root.GoodNames := by
  have hpn : ∀ {n : Str} {k : EKind} {cs : List Elem}, PathWord n → (Elem.mk n k none cs).pathName = n := by
    intro n k cs hn
    rw [Elem.pathName]
    exact if_pos hn.1
  refine Elem.goodNames_of_each (loadSystem_each (Q := Elem.NamesHere) Elem.NamesHere.of_bare h32 h hl
    (fun c hc lib defx is hlay hins => ?_) (fun es hn hes => ?_))
  · obtain ⟨h1, h2, h3⟩ := Layout.defx hlay (hs c hc lib defx hlay)
    refine ⟨?_, Insts.namesEach h3 hins h1⟩
    obtain ⟨libx, -, -, htag, -⟩ := hlay
    rw [Elem.NamesHere, hpn (hsubs c hc)]
    refine ⟨(hsubs c hc).1, (hsubs c hc).2, ?_⟩
    simp only [Elem.children]
    rw [Insts.names hins (fun y hy => Everywhere.here (h1 y hy))]
    exact h2.block (by rw [htag]; decide)
  · rw [Elem.NamesHere, hpn hname]
    refine ⟨hname.1, hname.2, ?_⟩
    have : es.map Elem.pathName = es.map Elem.name := by
      refine List.map_congr_left (fun e he => ?_)
      have hn' : e.name ∈ x.children.map SXml.nameAttr := hn ▸ List.mem_map_of_mem he
      obtain ⟨c, hc, hcn⟩ := List.mem_map.1 hn'
      rw [Elem.pathName, if_pos]
      rw [← hcn]
      exact (hsubs c hc).1
    simp only [Elem.children]
    rw [this, hn]
    exact hdist

/-! ## C60: syncers -/

/-- C60.  In a loaded system no element with a syncer is below another one, no two elements have the
same syncer, and the root has none. -/
theorem C60_syncers {fuel : Nat} {plugins : Str → Option Plugin} {name : Str} {x : SXml} {root : Elem}
    (h32 : ∀ n keys cr, plugins n = some (.mapped keys cr) → keys.length ≤ 32)
    (h : loadSystem rd fuel plugins name x = some (.ok root)) :
    root.SyncersNotNested ∧ SyncersDistinct root ∧ root.syncer = none := by
  unfold loadSystem at h
  simp only [Run.bind_ok, Option.some.injEq, Out.ok.injEq] at h
  obtain ⟨es, hes, rfl⟩ := h
  have hload := loadSubsystems_ok hes
  obtain ⟨-, hm⟩ := hload.mem
  obtain ⟨-, hr⟩ := hload.ranges h32
  have hmapped : ∀ (j : Nat) e, es[j]? = some e → e.SyncersNotNested ∧ SyncersDistinct e := by
    intro j e he
    obtain ⟨c, pl, i, f, n, -, -, hpl, -, hmap⟩ := hm j e he
    have := mapInstances_ok (fun keys cr hp => h32 _ keys cr (hp ▸ hpl)) hmap
    exact ⟨this.notNested, this.distinct⟩
  have hat : ∀ p f, (Elem.mk name (.group (s "SystemClass")) none es).at? p = some f → f.syncer ≠ none →
      ∃ j q e, p = j :: q ∧ es[j]? = some e ∧ e.at? q = some f := by
    intro p f hf hs
    cases p with
    | nil => simp only [Elem.at?, Option.some.injEq] at hf; subst hf; exact absurd rfl hs
    | cons j q =>
      simp only [Elem.at?] at hf
      split at hf
      · cases hf
      · rename_i e he
        exact ⟨j, q, e, rfl, he, hf⟩
  refine ⟨?_, ?_, rfl⟩
  · intro p q e f he hf hq hs
    obtain ⟨j, p', e', rfl, hj, he'⟩ := hat p e he hs
    simp only [List.cons_append, Elem.at?, hj] at hf
    exact (hmapped j e' hj).1 p' q e f he' hf hq hs
  · intro p q e f id he hf hes hfs
    obtain ⟨j, p', e', rfl, hj, he'⟩ := hat p e he (by rw [hes]; simp)
    obtain ⟨j', q', f', rfl, hj', hf'⟩ := hat q f hf (by rw [hfs]; simp)
    obtain rfl := hr j e' p' e id hj he' hes j' f' q' f hj' hf' hfs
    rw [hj] at hj'; cases hj'
    rw [(hmapped j e' hj).2 p' q' e f id he' hf' hes hfs]

theorem elems_get {cs : List IElem} {q : Nat} {c : IElem} (h : cs[q]? = some c) : (IElem.elems cs)[q]? = some c.elem := by
  induction cs generalizing q with
  | nil => simp at h
  | cons d ds ih =>
    cases q with
    | zero => simp only [List.getElem?_cons_zero, Option.some.injEq] at h; subst h; simp [IElem.elems]
    | succ q => simp only [List.getElem?_cons_succ] at h; simpa [IElem.elems] using ih h

theorem nodeAt_spec {i j : IElem} {p : Pos} (h : NodeAt i p j) : i.mapsAt p = j.mapsAt [] ∧ i.elem.at? p = some j.elem := by
  induction h with
  | @here i => cases i; simp [IElem.mapsAt, Elem.at?]
  | @child n k ms cs q p c j hc _ ih => simp only [IElem.mapsAt, IElem.elem, Elem.at?, hc, elems_get hc, ih, and_self]

/-- C60.  The syncers of a loaded subsystem come from the mapping data that its document declares: a
subsystem is the mapping (`C43`, `C44`) of the elements that are declared, with, for each of them, the
mapping data of its own declaration. -/
theorem C60_mapping_data {fuel : Nat} {plugins : Str → Option Plugin} {name : Str} {x : SXml} {root : Elem}
    (h : loadSystem rd fuel plugins name x = some (.ok root)) {j : Nat} {e : Elem} (he : root.at? [j] = some e) {c : SXml}
    (hc : x.children[j]? = some c) {lib : List SXml} {defx : SXml} (hl : Layout c lib defx) :
    ∃ pl ms is, plugins ((c.attr (s "Type")).getD []) = some pl ∧ Insts rd lib none defx.children is ∧
      ∃ i, i = IElem.mk c.nameAttr (.group (s "Subsystem")) ms is ∧
      match pl with
      | .virtual => ∃ first, e = .mk c.nameAttr (.group (s "Subsystem")) (some first) (IElem.elems is)
      | .mapped keys creators => ∃ m r first,
          (∀ p n k ms cs, NodeAt i p (.mk n k ms cs) → m p = ms ∧ i.elem.at? p = some (.mk n k none (IElem.elems cs))) ∧
          Elem.mapSubsystem ⟨keys, creators, m⟩ i.elem = .ok r ∧ e = r.1.shiftSyncers first := by
  unfold loadSystem at h
  simp only [Run.bind_ok, Option.some.injEq, Out.ok.injEq] at h
  obtain ⟨es, hes, rfl⟩ := h
  obtain ⟨-, hm⟩ := (loadSubsystems_ok hes).mem
  have hj : es[j]? = some e := by
    simp only [Elem.at?] at he
    split at he
    · cases he
    · rename_i e' he'
      simp only [Option.some.injEq] at he
      subst he
      exact he'
  obtain ⟨c', pl, i, f, n, hc', -, hpl, hi, hmap⟩ := hm j e hj
  rw [hc] at hc'
  cases hc'
  obtain ⟨libx, hch, hlt, -, rfl⟩ := hl
  obtain ⟨ms, is, rfl, -, hins⟩ := C57_declared hch hlt hi
  refine ⟨pl, ms, is, hpl, hins, _, rfl, ?_⟩
  cases pl with
  | virtual =>
    simp only [mapInstances, IElem.elem, Out.ok.injEq, Prod.mk.injEq] at hmap
    exact ⟨f, hmap.1.symm⟩
  | mapped keys creators =>
    simp only [mapInstances] at hmap
    cases hr : Elem.mapSubsystem ⟨keys, creators, (IElem.mk c.nameAttr (.group (s "Subsystem")) ms is).mapsAt⟩
        (IElem.mk c.nameAttr (.group (s "Subsystem")) ms is).elem with
    | err => rw [hr] at hmap; simp [Out.bind] at hmap
    | abort => rw [hr] at hmap; simp [Out.bind] at hmap
    | ok r =>
      rw [hr] at hmap
      simp only [Out.bind, Out.ok.injEq, Prod.mk.injEq] at hmap
      refine ⟨_, r, f, ?_, hr, hmap.1.symm⟩
      intro p n' k' ms' cs' hp
      have := nodeAt_spec hp
      simpa only [IElem.mapsAt, IElem.elem] using this

/-! ## Examples -/

namespace SampleDoc

/-- A subsystem that is mapped: two channels, each with its own object. -/
def hw : SXml :=
  xml "Subsystem" [("Name", "hw"), ("Type", "Mapped")]
    [xml "ComponentLibrary" []
      [xml "ComponentType" [("Name", "Base")] [xml "BooleanParameter" [("Name", "on")]],
       xml "ComponentType" [("Name", "Chan"), ("Extends", "Base"), ("Mapping", "Object:chan")]
         [xml "BitParameterBlock" [("Name", "reg"), ("Size", "8")]
           [xml "BitParameter" [("Name", "low"), ("Pos", "0"), ("Size", "4")],
            xml "BitParameter" [("Name", "high"), ("Pos", "4"), ("Size", "4")]]]],
     xml "InstanceDefinition" []
      [xml "Component" [("Name", "c0"), ("Type", "Chan"), ("Mapping", "Card:0")],
       xml "Component" [("Name", "c1"), ("Type", "Chan"), ("Mapping", "Card:1")]]]

/-- A system of two subsystems. -/
def system : SXml := xml "SystemClass" [("Name", "audio")] [doc, hw]

/-- The plugins of the sample: a context key and an object key. -/
def plugins (t : Str) : Option Plugin :=
  if t = s "Virtual" then some .virtual
  else if t = s "Mapped" then some (.mapped [s "Card"] [⟨s "Object", 1#32, 4⟩])
  else none

theorem plugins32 : ∀ n keys cr, plugins n = some (.mapped keys cr) → keys.length ≤ 32 := by
  intro n keys cr h
  unfold plugins at h
  split at h
  · cases h
  · split at h
    · cases h; decide
    · cases h

/-- The subsystem `hw` as loaded. -/
def hwElem : Elem :=
  let chan (n : String) (id : Nat) : Elem := .mk (s n) (.group (s "ComponentInstance")) (some id)
    [.mk (s "reg") (.bitBlock 1) none
      [.mk (s "low") (.bit ⟨1, 0, 4, 15#64⟩) none [], .mk (s "high") (.bit ⟨1, 4, 4, 15#64⟩) none []],
     .mk (s "on") (.scalar .bool) none []]
  .mk (s "hw") (.group (s "Subsystem")) none [chan "c0" 1, chan "c1" 2]

/-- The system as loaded: one syncer for the virtual subsystem, one for each channel of the other. -/
def systemElem : Elem :=
  .mk (s "audio") (.group (s "SystemClass")) none
    [.mk (s "amp") (.group (s "Subsystem")) (some 0) docAmp.elem.children, hwElem]

theorem system_loads : loadSystem reader 2 plugins (s "audio") system = some (.ok systemElem) :=
  loadsB_ok (by decide +kernel)

theorem system_layout : ∀ c ∈ system.children, ∃ lib defx, Layout c lib defx := by
  intro c hc
  simp only [system, xml, SXml.children, List.mem_cons, List.not_mem_nil, or_false] at hc
  rcases hc with rfl | rfl
  · exact ⟨_, _, _, rfl, rfl, rfl, rfl⟩
  · exact ⟨_, _, _, rfl, rfl, rfl, rfl⟩

theorem system_sizes : ∀ c ∈ system.children, Everywhere SizesDeclared c := by
  intro c hc
  simp only [system, xml, SXml.children, List.mem_cons, List.not_mem_nil, or_false] at hc
  rcases hc with rfl | rfl
  · exact everywhere_check sizesB_ok (by decide +kernel)
  · exact everywhere_check sizesB_ok (by decide +kernel)

theorem system_fields : ∀ c ∈ system.children, Everywhere FieldsDeclaredDisjoint c := by
  intro c hc
  simp only [system, xml, SXml.children, List.mem_cons, List.not_mem_nil, or_false] at hc
  rcases hc with rfl | rfl
  · exact everywhere_check fieldsB_ok (by decide +kernel)
  · exact everywhere_check fieldsB_ok (by decide +kernel)

theorem system_names : ∀ c ∈ system.children, ∀ lib defx, Layout c lib defx →
    Everywhere (NamesDeclared lib) c := by
  intro c hc lib defx hl
  obtain ⟨libx, hcs, -, -, rfl⟩ := hl
  simp only [system, xml, SXml.children, List.mem_cons, List.not_mem_nil, or_false] at hc
  rcases hc with rfl | rfl
  · have : libx = docLib := by
      have : [docLib, docDef] = [libx, defx] := hcs
      simp only [List.cons.injEq] at this; exact this.1.symm
    subst this
    exact everywhere_check (namesB_ok _) (by decide +kernel)
  · simp only [hw, xml, SXml.children, List.cons.injEq] at hcs
    obtain ⟨rfl, -⟩ := hcs
    exact everywhere_check (namesB_ok _) (by decide +kernel)

end SampleDoc

/-- The sample system meets all the conditions: it is well formed. -/
example : (SampleDoc.systemElem.WF ∧ TypesOk SampleDoc.systemElem) ∧ SampleDoc.systemElem.FieldsDisjoint ∧
    SampleDoc.systemElem.GoodNames :=
  ⟨C58_sizes_partial SampleDoc.plugins32 SampleDoc.system_layout SampleDoc.system_sizes SampleDoc.system_loads,
   C58_fields_partial SampleDoc.plugins32 SampleDoc.system_layout SampleDoc.system_fields SampleDoc.system_loads,
   C59_names_partial SampleDoc.plugins32 SampleDoc.system_layout ⟨by decide, by decide⟩
     (by intro c hc
         simp only [SampleDoc.system, SampleDoc.xml, SXml.children, List.mem_cons, List.not_mem_nil, or_false] at hc
         rcases hc with rfl | rfl <;> exact ⟨by decide, by decide⟩)
     (by decide +kernel) SampleDoc.system_names SampleDoc.system_loads⟩

/-- And its syncers are as they should be. -/
example : SampleDoc.systemElem.SyncersNotNested ∧ SyncersDistinct SampleDoc.systemElem :=
  ⟨(C60_syncers SampleDoc.plugins32 SampleDoc.system_loads).1,
   (C60_syncers SampleDoc.plugins32 SampleDoc.system_loads).2.1⟩

/-- The first subsystem of the sample is a mapping of what its document declares. -/
example : ∃ e c lib defx, SampleDoc.systemElem.at? [0] = some e ∧ SampleDoc.system.children[0]? = some c ∧ Layout c lib defx :=
  ⟨_, _, _, _, rfl, rfl, _, rfl, rfl, rfl, rfl⟩

/-! ## What the code does not check -/

namespace SampleDoc

/-- A virtual subsystem of some elements and some component types. -/
def virt (types : List SXml) (cs : List SXml) : SXml :=
  xml "SystemClass" [] [xml "Subsystem" [("Name", "v"), ("Type", "Virtual")]
    [xml "ComponentLibrary" [] types, xml "InstanceDefinition" [] cs]]

/-- What is loaded from it. -/
def virtElem (es : List Elem) : Elem :=
  .mk (s "audio") (.group (s "SystemClass")) none
    [.mk (s "v") (.group (s "Subsystem")) (some 0) es]

end SampleDoc

/-- Without the schema an enumeration of no size, and a bit parameter outside its block, are loaded. -/
theorem C58_unchecked :
    loadSystem SampleDoc.reader 1 SampleDoc.plugins (s "audio") (SampleDoc.virt []
      [SampleDoc.xml "EnumParameter" [("Name", "e"), ("Size", "3")]
        [SampleDoc.xml "ValuePair" [("Literal", "a"), ("Numerical", "0")]],
       SampleDoc.xml "BitParameterBlock" [("Name", "b"), ("Size", "8")]
        [SampleDoc.xml "BitParameter" [("Name", "x"), ("Pos", "18446744073709551608"), ("Size", "8")]]]) =
    some (.ok (SampleDoc.virtElem
      [.mk (s "e") (.scalar (.enum ⟨0, [(s "a", 0#32)]⟩)) none [],
       .mk (s "b") (.bitBlock 1) none [.mk (s "x") (.bit ⟨1, 18446744073709551608, 8, 255#64⟩) none []]])) :=
  loadsB_ok (by decide +kernel)

/-- The schema allows any number of integral bits: with 2^32 - 1 of them the sum of the bits wraps and
an 8-bit parameter is loaded. -/
theorem C58_wrap :
    loadSystem SampleDoc.reader 1 SampleDoc.plugins (s "audio") (SampleDoc.virt []
      [SampleDoc.xml "FixedPointParameter"
        [("Name", "f"), ("Size", "8"), ("Integral", "4294967295"), ("Fractional", "0")]]) =
    some (.ok (SampleDoc.virtElem [.mk (s "f") (.scalar (.fixed ⟨1, 4294967295, 0⟩)) none []])) :=
  loadsB_ok (by decide +kernel)

/-- A component type may declare a name that the type it extends declares too: the schema checks each
type by itself.  The component has two children of that name. -/
theorem C59_clash :
    loadSystem SampleDoc.reader 2 SampleDoc.plugins (s "audio") (SampleDoc.virt
      [SampleDoc.xml "ComponentType" [("Name", "A")] [SampleDoc.xml "BooleanParameter" [("Name", "mute")]],
       SampleDoc.xml "ComponentType" [("Name", "B"), ("Extends", "A")]
        [SampleDoc.xml "StringParameter" [("Name", "mute"), ("MaxLength", "4")]]]
      [SampleDoc.xml "Component" [("Name", "c"), ("Type", "B")]]) =
    some (.ok (SampleDoc.virtElem [.mk (s "c") (.group (s "ComponentInstance")) none
      [.mk (s "mute") (.string 4) none [], .mk (s "mute") (.scalar .bool) none []]])) :=
  loadsB_ok (by decide +kernel)

/-- An array of components shares the mapping data of its declaration with its elements, so that a
context key is set once by the array and again by each element, which is refused: an array of
components cannot have a context mapping. -/
theorem C60_array_context_refused :
    loadSystem SampleDoc.reader 2 SampleDoc.plugins (s "audio") (SampleDoc.xml "SystemClass" []
      [SampleDoc.xml "Subsystem" [("Name", "hw"), ("Type", "Mapped")]
        [SampleDoc.xml "ComponentLibrary" []
          [SampleDoc.xml "ComponentType" [("Name", "A"), ("Mapping", "Object:o")]
            [SampleDoc.xml "BooleanParameter" [("Name", "on")]]],
         SampleDoc.xml "InstanceDefinition" []
          [SampleDoc.xml "ParameterBlock" [("Name", "p"), ("ArrayLength", "2"), ("Mapping", "Card:0")]
            [SampleDoc.xml "Component" [("Name", "c"), ("Type", "A")]]]]]) = some .err :=
  refusedB_ok (by decide +kernel)

end PF
