import Verif.Lemmas.XmlSafe
import Verif.Spec.Sample

/-!
# C53: settings exported to XML and imported back

`root.getXml ctx b p` is the XML of the element at `p` for the memory `b`, in the output format `ctx`;
`root.setXml rd ctx b p x` imports the XML element `x` into the memory, in the value space and format
`ctx`.
-/

namespace PF

/-- **C53** (round trip): the XML of an element, exported from one memory, can be imported in any other
memory, and every parameter of the element then reads as in the memory exported; nothing outside the
element changes.  Settings exported in real value space may be imported in either; settings exported
in raw value space have to be imported in raw value space, or to have no negative number of an enumeration. -/
theorem C53_round_trip_partial (root : Elem) (wf : root.WF) (fd : root.FieldsDisjoint) {p : Pos} {e : Elem}
    {off : Nat} (he : root.at? p = some e) (ho : root.offset 0 p = some off) (rd : Reader)
    (hrd : ReadsDecimals rd) (ctx ctx' : Ctx) (b b' : Board)
    (hraw : ctx.raw = true → ctx'.raw = true ∨ e.NonNegative b off)
    (hb : b.length = root.footprint) (hb' : b'.length = root.footprint) (hc : e.Carried ctx b off) :
    ∃ x b'', root.getXml ctx b p = .ok x ∧ root.setXml rd ctx' b' p x = (.ok (), b'') ∧
      e.SameSettings b off b'' off ∧ b''.length = b'.length ∧
      ∀ i, ¬ root.Owns p i → b''.bit i = b'.bit i := by
  have hroom := wf.area_main he ho
  obtain ⟨x, raw', b'', h1, h2, h3, h4, h5⟩ := Elem.round_trip wf fd he hrd (hex := ctx'.hex) (off := off)
    (off' := off) (b := b) (b' := b') hraw (by omega) (by omega) hc
  have hout := Elem.importXml_outside wf he rd ctx'.hex ctx'.raw x b' off
  rw [h4] at hout
  refine ⟨x, b'', ?_, ?_, h5, hout.1, fun i hi => hout.2 i ?_⟩
  · unfold Elem.getXml; rw [he, ho]; exact h1
  · unfold Elem.setXml; rw [he, ho]
    simp only [Elem.rootMatches, h2, h3, beq_self_eq_true, Bool.or_true, Bool.and_true, Bool.not_true,
      Bool.false_eq_true, if_false]
    rw [h4]
  · have : ¬ ((e.extent off).1 ≤ i ∧ i < (e.extent off).2) := fun h => hi ⟨e, off, he, ho, h⟩
    omega

/-- **C53** (settings of a domain): the same for the memory of a configuration, which holds the settings
of one element at its start: exported from there and imported in the memory of any configuration, or
in the main one.  `e.exportXml ctx off b off` is what a configuration exports for its element at
`off`. -/
theorem C53_area_round_trip_partial (root : Elem) (wf : root.WF) (fd : root.FieldsDisjoint) {p : Pos} {e : Elem}
    {off : Nat} (he : root.at? p = some e) (ho : root.offset 0 p = some off) (rd : Reader)
    (hrd : ReadsDecimals rd) (ctx : Ctx) (hex raw : Bool) (b b' : Board)
    (hraw : ctx.raw = true → raw = true ∨ e.NonNegative b 0)
    (hb : b.length = e.areaSize) (hc : e.Carried ctx b 0) :
    ∃ x, e.exportXml ctx off b off = .ok x ∧ x.tag = e.kind.settingsTag ∧ x.name = e.name ∧
      (b'.length = e.areaSize → ∃ raw' b'', e.importXml rd hex off off x raw b' = (.ok (), raw', b'') ∧
        b''.length = b'.length ∧ e.SameSettings b 0 b'' 0) ∧
      (b'.length = root.footprint → ∃ raw' b'', e.importXml rd hex 0 off x raw b' = (.ok (), raw', b'') ∧
        b''.length = b'.length ∧ e.SameSettings b 0 b'' off) := by
  have hroom := wf.area_main he ho
  have hx : ∃ x, e.exportXml ctx 0 b 0 = .ok x ∧ x.tag = e.kind.xmlTag ∧ x.name = e.name := by
    obtain ⟨x, _, _, h1, h2, h3, _⟩ := Elem.round_trip wf fd he hrd (hex := hex) (raw := raw) (off := 0) (off' := 0)
      (b := b) (b' := b) hraw (by omega) (by omega) hc
    exact ⟨x, h1, h2, h3⟩
  obtain ⟨x, h1, h2, h3⟩ := hx
  rw [EKind.xmlTag_eq] at h2
  refine ⟨x, ?_, h2, h3, fun hl => ?_, fun hl => ?_⟩
  · rw [Elem.exportXml_base e (Nat.le_refl off), Nat.sub_self]; exact h1
  · obtain ⟨y, raw', b'', g1, _, _, g4, g5⟩ := Elem.round_trip wf fd he hrd (hex := hex) (raw := raw) (off := 0) (off' := 0)
      (b := b) (b' := b') hraw (by omega) (by omega) hc
    rw [h1] at g1; cases g1
    refine ⟨raw', b'', ?_, ?_, g5⟩
    · rw [Elem.importXml_base e (Nat.le_refl off), Nat.sub_self]; exact g4
    · have := (Elem.importXml_outside wf he rd hex raw x b' 0).1
      rw [g4] at this; exact this
  · obtain ⟨y, raw', b'', g1, _, _, g4, g5⟩ := Elem.round_trip wf fd he hrd (hex := hex) (raw := raw) (off := 0) (off' := off)
      (b := b) (b' := b') hraw (by omega) (by omega) hc
    rw [h1] at g1; cases g1
    refine ⟨raw', b'', g4, ?_, g5⟩
    have := (Elem.importXml_outside wf he rd hex raw x b' off).1
    rw [g4] at this; exact this

/-- **C53** (what an import does): a successful import means that the XML lists the very children of
the element, in order; every parameter then holds the bits that setting it, alone, to the text of its
XML element would give, in raw value space if it is a fixed-point parameter marked so; without
fixed-point parameters the value space is the one asked for. -/
theorem C53_import_sets (root : Elem) (wf : root.WF) (fd : root.FieldsDisjoint) {p : Pos} {e : Elem}
    {off : Nat} (he : root.at? p = some e) (ho : root.offset 0 p = some off) (rd : Reader)
    (ctx : Ctx) (b b' : Board) (x : XElem) (h : root.setXml rd ctx b p x = (.ok (), b')) :
    x.Lists e ∧ x.tag = e.kind.settingsTag ∧ (e.name ≠ [] → x.name = e.name) ∧
    ∀ q f o, e.at? q = some f → f.kind.isParameter = true → e.offset off q = some o →
      ∃ y raw b1, x.at? q = some y ∧
        (f.kind.hasValueSpace = true → (raw = true ↔ y.valueSpace = s "Raw")) ∧
        ((∀ q' g, e.at? q' = some g → g.kind.hasValueSpace = false) → raw = ctx.raw) ∧
        setParamText rd ⟨raw, ctx.hex⟩ f.kind b o 0 [] y.text = (.ok (), b1) ∧
        ∀ i, (f.extent o).1 ≤ i → i < (f.extent o).2 → b'.bit i = b1.bit i := by
  unfold Elem.setXml at h
  rw [he, ho] at h
  simp only at h
  split at h
  · simp at h
  rename_i hm
  have hm : e.rootMatches x = true := by simpa using hm
  unfold Elem.rootMatches at hm
  simp only [Bool.and_eq_true, beq_iff_eq, Bool.or_eq_true] at hm
  generalize hr : e.importXml rd ctx.hex 0 off x ctx.raw b = r at h
  obtain ⟨r1, raw', r2⟩ := r
  simp only [Prod.mk.injEq] at h
  obtain ⟨rfl, rfl⟩ := h
  obtain ⟨h1, _, h3⟩ := Elem.import_sets e (fun q f hq hf => Elem.param_no_children wf he q f hq hf)
    (fun q f o h => Elem.param_bits wf he h) (Elem.params_disjoint wf fd he) hr
  rw [EKind.xmlTag_eq] at hm
  refine ⟨h1, hm.1, fun hn => hm.2.resolve_left hn, fun q f o hq hf hoq => ?_⟩
  obtain ⟨y, raw, b1, g1, g2, g3, g4, g5⟩ := h3 q f o ⟨hq, hf, hoq⟩
  exact ⟨y, raw, b1, g1, fun hv => by rw [g2 hv]; simp, g3, g4, g5⟩

/-- **C53** (whatever the XML): an import, successful or not, only changes bits of the parameters of the
element, and never touches memory outside the blackboard. -/
theorem C53_import_only_own_bits (root : Elem) (wf : root.WF) {p : Pos} {e : Elem} {off : Nat}
    (he : root.at? p = some e) (ho : root.offset 0 p = some off) (rd : Reader) (ctx : Ctx) (b : Board)
    (hb : b.length = root.footprint) (x : XElem) :
    (root.setXml rd ctx b p x).1 ≠ .abort ∧ (root.setXml rd ctx b p x).2.length = b.length ∧
    ∀ i, (∀ q f, root.at? (p ++ q) = some f → f.kind.isParameter = true → ¬ root.Owns (p ++ q) i) →
      (root.setXml rd ctx b p x).2.bit i = b.bit i := by
  have hroom := wf.area_main he ho
  have hs := Elem.importXml_safe wf he rd ctx.hex ctx.raw x (b := b) (off := off) (by omega)
  have hf := Elem.importXml_frame (rd := rd) (hex := ctx.hex) e (off := off) (x := x) (raw := ctx.raw) (b := b)
    (fun q f o h => Elem.param_bits wf he h)
  unfold Elem.setXml
  rw [he, ho]
  simp only
  split
  · exact ⟨by simp, rfl, fun _ _ => rfl⟩
  · refine ⟨hs, hf.1, fun i hi => hf.2 i (fun q f o hq => ?_)⟩
    have := hi q f (by rw [Elem.at?_append, he]; exact hq.1) hq.2.1
    have hno : ¬ ((f.extent o).1 ≤ i ∧ i < (f.extent o).2) := fun h => this ⟨f, o,
      by rw [Elem.at?_append, he]; exact hq.1, by rw [Elem.offset_append, he, ho]; exact hq.2.2, h⟩
    omega

/-! ## The hypotheses can be met -/

namespace Sample

/-- A memory of the sample structure: volume -5, fields 3 and 2, label "ab", gains 1 and 0, on. -/
def board : Board := [0xFB, 0xFF, 0x26, 0x61, 0x62, 0, 0, 1, 0, 1]

theorem carried : component.Carried ⟨false, false⟩ board 0 := by
  intro q f o hq ho
  have hq' : root.at? ([0, 0] ++ q) = some f := by rw [Elem.at?_append]; exact hq
  have hm := mem_positions hq'
  simp only [positions, List.mem_cons, List.not_mem_nil, or_false] at hm
  rcases hm with hm | hm | hm | hm | hm | hm | hm | hm | hm | hm <;>
    simp at hm <;> subst hm <;> simp [component, block, Elem.at?] at hq <;> subst hq <;>
    simp [component, block, Elem.offset, Elem.footprint, Elem.footprints, EKind.ownSize, ScalarType.size, int16,
      stringSize] at ho <;> subst ho
  · trivial
  · refine ⟨?_, ?_⟩
    · exact ⟨by decide, by decide, by decide, by decide⟩
    · intro bs hbs
      have : bs = [0xFB, 0xFF] := by
        simp only [int16, ScalarType.size] at hbs
        have : board.read 0 2 = some [0xFB, 0xFF] := by decide
        rw [this] at hbs; simpa using hbs.symm
      subst this
      simp only [int16, ScalarType.Carried]
      decide
  · trivial
  · intro bs hbs
    have : board.read 2 1 = some [0x26] := by decide
    simp only [fieldA] at hbs
    rw [this] at hbs
    have : bs = [0x26] := by simpa using hbs.symm
    subst this; decide
  · intro bs hbs
    have : board.read 2 1 = some [0x26] := by decide
    simp only [fieldB] at hbs
    rw [this] at hbs
    have : bs = [0x26] := by simpa using hbs.symm
    subst this; decide
  · exact ⟨[0x61, 0x62, 0, 0], by decide, by decide⟩
  · exact ⟨trivial, trivial, fun _ _ _ _ => trivial⟩

/-- The round trip of the sample component. -/
example : ∃ rd : Reader, ∃ x b'', root.getXml ⟨false, false⟩ board [0, 0] = .ok x ∧
    root.setXml rd ⟨false, false⟩ (List.replicate 10 0) [0, 0] x = (.ok (), b'') ∧
    component.SameSettings board 0 b'' 0 := by
  obtain ⟨rd, hrd⟩ := ReadsDecimals.exists
  obtain ⟨x, b'', h1, h2, h3, _⟩ := C53_round_trip_partial root wf fieldsDisjoint (p := [0, 0]) (e := component) (off := 0)
    rfl (by decide) rd hrd ⟨false, false⟩ ⟨false, false⟩ board (List.replicate 10 0) (by simp) (by decide) (by decide) carried
  exact ⟨rd, x, b'', h1, h2, h3⟩

/-- An element with an enumeration. -/
def modeElem : Elem := .mk (s "mode") (.scalar (.enum ⟨1, [(s "low", -1#32), (s "high", 5#32)]⟩)) none []

/-- The hypotheses on a raw export that is imported in real value space, for the number 5 of the enumeration; the text is
"5". -/
example : modeElem.WF ∧ modeElem.FieldsDisjoint ∧ modeElem.Carried ⟨true, false⟩ [5] 0 ∧ modeElem.NonNegative [5] 0 ∧
    modeElem.getXml ⟨true, false⟩ [5] [] = .ok (.mk (s "EnumParameter") (s "mode") [] (s "5") []) := by
  have h5 : ∀ bs, Board.read [5] 0 1 = some bs → bs = [5] := by
    intro bs hbs
    have : Board.read [5] 0 1 = some [5] := by decide
    rw [this] at hbs; simpa using hbs.symm
  refine ⟨.scalar (.inl rfl), ?_, ?_, ?_, ?_⟩
  · rintro p i j t u - ⟨e, he, -⟩ -
    cases p <;> simp [modeElem, Elem.at?] at he
  · intro q f o hq ho
    cases q with
    | cons i q => simp [modeElem, Elem.at?] at hq
    | nil =>
      obtain rfl : modeElem = f := by simpa [Elem.at?] using hq
      obtain rfl : 0 = o := by simpa [Elem.offset] using ho
      refine ⟨⟨.inl rfl, by decide, ?_⟩, fun bs hbs => ?_⟩
      · intro p hp
        rintro ⟨n, hn⟩
        have hp' : p = (s "low", -1#32) ∨ p = (s "high", 5#32) := by simpa using hp
        have hno : ∀ d, ¬ IsDigit 10 'l' d ∧ ¬ IsDigit 10 'h' d := fun d => by simp [IsDigit, digitTable]
        rcases hp' with rfl | rfl <;> cases hn <;> rename_i h
        · obtain ⟨d, hd⟩ := h.chars.2 'l' (by decide)
          exact (hno d).1 hd
        · obtain ⟨d, hd⟩ := h.chars.2 'h' (by decide)
          exact (hno d).2 hd
      · rw [h5 bs hbs]
        exact ⟨⟨(s "high", 5#32), by simp, by decide⟩, by decide⟩
  · intro q f o hq ho
    cases q with
    | cons i q => simp [modeElem, Elem.at?] at hq
    | nil =>
      obtain rfl : modeElem = f := by simpa [Elem.at?] using hq
      obtain rfl : 0 = o := by simpa [Elem.offset] using ho
      intro bs hbs
      rw [h5 bs hbs]
      show 0 ≤ memValue true [5]
      decide
  · have h : getParamText ⟨true, false⟩ modeElem.kind [5] 0 0 [] = .ok (s "5") := by decide +kernel
    simp only [modeElem, Elem.kind] at h
    simp only [Elem.getXml, modeElem, Elem.at?, Elem.offset, Elem.exportXml, EKind.isParameter, if_true, h,
      Elem.exportChildren, Out.bind]
    rfl

/-- The exported XML of the sample component. -/
def xml : XElem := .mk (s "Component") (s "comp") [] [] [
  .mk (s "IntegerParameter") (s "vol") [] (s "-5") [],
  .mk (s "BitParameterBlock") (s "flags") [] [] [
    .mk (s "BitParameter") (s "a") [] (s "3") [], .mk (s "BitParameter") (s "b") [] (s "2") []],
  .mk (s "StringParameter") (s "label") [] (s "ab") [],
  .mk (s "BooleanParameter") (s "gains") [] (s "1 0") []]

/-- The import of this XML in a zeroed memory: only the bits of the component change. -/
example : root.setXml .none ⟨false, false⟩ (List.replicate 10 0) [0, 0] xml =
    (.ok (), [0xFB, 0xFF, 0x26, 0x61, 0x62, 0, 0, 1, 0, 0]) := by decide +kernel

/-- XML that is refused at its second parameter. -/
def badXml : XElem := .mk (s "Component") (s "comp") [] [] [
  .mk (s "IntegerParameter") (s "vol") [] (s "-5") [],
  .mk (s "BitParameterBlock") (s "flags") [] [] [
    .mk (s "BitParameter") (s "a") [] (s "9") [], .mk (s "BitParameter") (s "b") [] (s "2") []],
  .mk (s "StringParameter") (s "label") [] (s "ab") [],
  .mk (s "BooleanParameter") (s "gains") [] (s "1 0") []]

/-- An element with an enumeration with a negative number, after a fixed-point parameter. -/
def mixed : Elem := .mk (s "mixed") (.group (s "ParameterBlock")) none
  [.mk (s "gain") (.scalar (.fixed ⟨2, 3, 12⟩)) none [],
   .mk (s "mode") (.scalar (.enum ⟨1, [(s "low", -1#32), (s "high", 1#32)]⟩)) none []]

end Sample

/-- A refused import is not undone: the parameters before the refused one keep their new value. -/
theorem C53_refused_import_not_undone :
    Sample.root.setXml .none ⟨false, false⟩ (List.replicate 10 0) [0, 0] Sample.badXml =
      (.err, [0xFB, 0xFF, 0, 0, 0, 0, 0, 0, 0, 0]) := by decide +kernel

/-- Settings exported in raw value space are not always accepted by an import in real value space, the
one that the import of domains always uses: the raw text of a negative number of an enumeration is
the number of its bit pattern, and no such number is declared. -/
theorem C53_raw_export_not_importable :
    (Elem.mk (s "mode") (.scalar (.enum ⟨1, [(s "low", -1#32), (s "high", 1#32)]⟩)) none []).exportXml ⟨true, false⟩ 0 [255] 0 =
        .ok (.mk (s "EnumParameter") (s "mode") [] (s "255") []) ∧
    (Elem.mk (s "mode") (.scalar (.enum ⟨1, [(s "low", -1#32), (s "high", 1#32)]⟩)) none []).importXml .none false 0 0
        (.mk (s "EnumParameter") (s "mode") [] (s "255") []) false [0] = (.err, false, [0]) := by
  constructor
  · have h : getParamText ⟨true, false⟩ (.scalar (.enum ⟨1, [(s "low", -1#32), (s "high", 1#32)]⟩)) [255] 0 0 [] =
        .ok (s "255") := by decide +kernel
    simp only [Elem.exportXml, EKind.isParameter, if_true, h, Elem.exportChildren, Out.bind]
    rfl
  · decide +kernel

/-- The value space of a fixed-point parameter marked raw stays for the parameters that follow: the
number of the bit pattern of an enumeration is then accepted although the import is in real value
space, which refuses it. -/
theorem C53_value_space_leaks :
    Sample.mixed.importXml ⟨fun _ => some ⟨0, 0⟩, fun _ => none⟩ false 0 0 (.mk (s "ParameterBlock") (s "mixed") [] []
      [.mk (s "FixedPointParameter") (s "gain") (s "Raw") (s "5") [],
       .mk (s "EnumParameter") (s "mode") [] (s "255") []]) false [0, 0, 0] = (.ok (), true, [5, 0, 255]) ∧
    Sample.mixed.importXml ⟨fun _ => some ⟨0, 0⟩, fun _ => none⟩ false 0 0 (.mk (s "ParameterBlock") (s "mixed") [] []
      [.mk (s "FixedPointParameter") (s "gain") [] (s "0") [],
       .mk (s "EnumParameter") (s "mode") [] (s "255") []]) false [0, 0, 0] = (.err, false, [0, 0, 0]) := by
  constructor <;> decide +kernel

end PF
