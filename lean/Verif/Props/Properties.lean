import Verif.Spec.Properties
import Verif.Props.Listing
import Verif.Props.Access
import Verif.Props.Enum
import Verif.Props.StringArray
import Verif.Props.Bits
import Verif.Lemmas.StructureExport
import Verif.Lemmas.StringsEnd

/-!
# The properties shown of an element (C100)
-/

namespace PF
open Spec

theorem descriptionText_eq (d : Str) : descriptionText d = Lines (Labelled (s "Description: ") d) := by
  unfold descriptionText Labelled
  by_cases h : d = []
  · simp [h, Lines]
  · simp [h, Lines]

theorem pairs_eq (ps : List (Str × BitVec 32)) : ps.flatMap pairText = Lines (ps.map PairLine) := by
  induction ps with
  | nil => rfl
  | cons p ps ih => simp only [List.flatMap_cons, List.map_cons, Lines, ih, pairText, PairLine, List.append_assoc]

theorem byteChar_toNat (n : Int) : (Char.ofNat (n % 256).toNat).toNat = (n % 256).toNat := by
  have h : (n % 256).toNat < 256 := by omega
  have key : ∀ k : Fin 256, (Char.ofNat k.val).toNat = k.val := by decide +kernel
  exact key ⟨_, h⟩

theorem ownProperties_eq (d : ElemTexts) (t : ScalarType) : ∃ vs, ValueLines d t vs ∧ t.ownProperties d = Lines vs := by
  cases t with
  | bool => exact ⟨[], rfl, rfl⟩
  | int t =>
    refine ⟨_, ⟨t.boundText t.min, t.boundText t.max, rfl, ?_⟩, ?_⟩
    · unfold IntType.boundText
      by_cases h : t.size = 1
      · simp only [h, if_true]
        exact ⟨⟨_, rfl, byteChar_toNat _⟩, _, rfl, byteChar_toNat _⟩
      · simp [h]
    · have e1 : s "Adaptation:\n" = s "Adaptation:" ++ s "\n" := by decide
      cases hd : d.adaptation with
      | none => simp [ScalarType.ownProperties, hd, Lines]
      | some ls => simp [ScalarType.ownProperties, hd, Lines, linesText_eq, e1]
  | enum t =>
    refine ⟨_, rfl, ?_⟩
    have e1 : s "Value Pairs:\n" = s "Value Pairs:" ++ s "\n" := by decide
    simp only [ScalarType.ownProperties, Lines, pairs_eq, e1]
  | fixed t => exact ⟨_, rfl, by simp [ScalarType.ownProperties, Lines]⟩
  | float t => exact ⟨_, rfl, by simp [ScalarType.ownProperties, Lines]⟩

theorem scalarProperties_eq (d : ElemTexts) (t : ScalarType) : ∃ vs, ValueLines d t vs ∧ t.showProperties d =
    Lines (Labelled (s "Description: ") d.typeDescription ++
      (Labelled (s "Unit: ") d.unit ++ [s "Scalar size: " ++ natText t.size ++ s " byte(s) "] ++ vs)) := by
  obtain ⟨vs, h1, h2⟩ := ownProperties_eq d t
  refine ⟨vs, h1, ?_⟩
  have e1 : s " byte(s) \n" = s " byte(s) " ++ s "\n" := by decide
  have e2 : (if d.unit ≠ [] then s "Unit: " ++ d.unit ++ s "\n" else []) = Lines (Labelled (s "Unit: ") d.unit) := by
    unfold Labelled
    by_cases h : d.unit = []
    · simp [h, Lines]
    · simp [h, Lines]
  unfold ScalarType.showProperties
  rw [descriptionText_eq, e2, h2, e1]
  simp only [Lines_append, Lines, List.append_assoc, List.append_nil]

theorem typeProperties_eq (d : ElemTexts) (k : EKind) : ∃ ls, Details d k ls ∧ k.typeProperties d =
    Lines (Labelled (s "Description: ") d.typeDescription ++ ls) := by
  cases k with
  | group k => exact ⟨[], rfl, by simp [EKind.typeProperties, descriptionText_eq]⟩
  | bitBlock n => exact ⟨[], rfl, by simp [EKind.typeProperties, descriptionText_eq]⟩
  | scalar t =>
    obtain ⟨vs, h1, h2⟩ := scalarProperties_eq d t
    exact ⟨_, ⟨vs, h1, rfl⟩, h2⟩
  | array t =>
    obtain ⟨vs, h1, h2⟩ := scalarProperties_eq d t.elem
    refine ⟨_, ⟨vs, h1, rfl⟩, ?_⟩
    simp only [EKind.typeProperties, h2]
    simp only [Lines_append, Lines, List.append_assoc, List.append_nil]
  | string m =>
    refine ⟨_, rfl, ?_⟩
    simp only [EKind.typeProperties, descriptionText_eq, Lines_append, Lines, List.append_assoc, List.append_nil]
  | bit t =>
    refine ⟨_, rfl, ?_⟩
    simp only [EKind.typeProperties, descriptionText_eq, Lines_append, Lines, List.append_assoc, List.append_nil]

/-- C100: `showProperties` shows the kind, the size and the descriptions of the element at the path, then what its type
declares, a line for each. -/
theorem C100_properties {root : Elem} (docs : Pos → ElemTexts) {path : Str} {p : Pos} {e : Elem} (hl : root.locate path = some p)
    (he : root.at? p = some e) : ∃ ls, Details (docs p) e.kind ls ∧
      root.showProperties docs path = .ok (Lines (Heading e.kind.text (docs p) e.footprint ++ ls)) := by
  obtain ⟨ls, h1, h2⟩ := typeProperties_eq (docs p) e.kind
  refine ⟨ls, h1, ?_⟩
  unfold Elem.showProperties Elem.properties
  rw [hl]
  simp only [he, Option.map_some, Out.orAbort, h2, descriptionText_eq, Heading, Lines_append, Lines, List.append_assoc,
    List.append_nil]

/-- C100: it is an error exactly when the path leads to no element. -/
theorem C100_refused {root : Elem} (docs : Pos → ElemTexts) (path : Str) :
    root.showProperties docs path = .err ↔ root.locate path = none := by
  constructor
  · intro h
    cases hl : root.locate path with
    | none => rfl
    | some p =>
      obtain ⟨e, he⟩ := Elem.locate_at hl
      obtain ⟨ls, -, h2⟩ := C100_properties docs hl he
      rw [h2] at h
      cases h
  · intro h
    unfold Elem.showProperties
    rw [h]

theorem scalarAt_of_locate {root : Elem} (wf : root.WF) {path : Str} {p : Pos} {e : Elem} {t : ScalarType}
    (hl : root.locate path = some p) (he : root.at? p = some e) (hk : e.kind = .scalar t) : ∃ o, ScalarAt root path t o := by
  obtain ⟨o, ho⟩ := Elem.offset_of_at (off := 0) he
  exact ⟨o, p, e, wf.access_of_locate hl he (by rw [hk]; rfl), he, hk, ho⟩

theorem setText_scalar_ok {root : Elem} (wf : root.WF) {path : Str} {p : Pos} {e : Elem} {t : ScalarType}
    (hl : root.locate path = some p) (he : root.at? p = some e) (hk : e.kind = .scalar t) (rd : Reader) (ctx : Ctx) {b : Board}
    (hb : b.length = root.footprint) (text : Str) :
    (root.setText rd ctx 0 b path text).1 = .ok () ↔ ∃ v, t.fromText rd ctx text = some v := by
  obtain ⟨o, ho⟩ := scalarAt_of_locate wf hl he hk
  obtain ⟨h1, h2⟩ := Elem.setText_scalar wf ho rd ctx hb text
  constructor
  · intro h
    cases hf : t.fromText rd ctx text with
    | none => rw [h1 hf] at h; cases h
    | some v => exact ⟨v, rfl⟩
  · rintro ⟨v, hv⟩
    obtain ⟨b', h3, -⟩ := h2 v hv
    rw [h3]

theorem denotes_unsigned_plain {sg : Bool} {bits : Nat} {t : Str} {n : Int} (hs : sg = false) (h : Denotes sg bits t n) :
    PlainInt t n := by
  cases h with
  | dec h => exact .dec h
  | plus h => exact .plus h
  | minus h1 _ => rw [hs] at h1; cases h1
  | hexUnsigned _ h => exact .hex h
  | hexPositive h1 _ _ => rw [hs] at h1; cases h1
  | hexNegative h1 _ _ _ => rw [hs] at h1; cases h1

/-- C100: the bounds shown of an integer of two or four bytes are, in decimal, the ones that `setParameter` obeys: what is
missing is the same for one byte, for which it does not hold (`C100_one_byte_bounds`). -/
theorem C100_integer_bounds_partial {root : Elem} (wf : root.WF) (docs : Pos → ElemTexts) {path : Str} {p : Pos} {e : Elem}
    {t : IntType} (hl : root.locate path = some p) (he : root.at? p = some e) (hk : e.kind = .scalar (.int t)) (ht : t.WF)
    (h8 : t.size ≠ 1) (rd : Reader) (ctx : Ctx) {b : Board} (hb : b.length = root.footprint) :
    ∃ lo hi ls, root.showProperties docs path = .ok (Lines ls) ∧ s "Min: " ++ intText lo ∈ ls ∧ s "Max: " ++ intText hi ∈ ls ∧
      ∀ n : Int, (root.setText rd ctx 0 b path (intText n)).1 = .ok () ↔ lo ≤ n ∧ n ≤ hi := by
  obtain ⟨ls, h1, h2⟩ := C100_properties docs hl he
  rw [hk] at h1
  obtain ⟨vs, ⟨lo, hi, rfl, h3⟩, rfl⟩ := h1
  rw [if_neg h8] at h3
  obtain ⟨rfl, rfl⟩ := h3
  refine ⟨t.min, t.max, _, h2, by simp, by simp, fun n => ?_⟩
  rw [setText_scalar_ok wf hl he hk rd ctx hb]
  simp only [ScalarType.fromText]
  constructor
  · rintro ⟨v, hv⟩
    obtain ⟨m, g1, g2, g3, -⟩ := (t.fromText_iff ht _ v).1 hv
    have hsame : m = n := by
      by_cases hs : t.signed = true ∨ 0 ≤ n
      · exact g1.unique (denotes_intText _ _ _ hs)
      · have hs' : t.signed = false ∧ n < 0 := by
          rcases Bool.eq_false_or_eq_true t.signed with h | h
          · exact absurd (.inl h) hs
          · exact ⟨h, by omega⟩
        exact (denotes_unsigned_plain hs'.1 g1).unique (plainInt_intText n)
    subst hsame
    exact ⟨g2, g3⟩
  · rintro ⟨g2, g3⟩
    refine ⟨_, (t.fromText_iff ht _ _).2 ⟨n, denotes_intText _ _ _ ?_, g2, g3, rfl⟩⟩
    cases hsg : t.signed with
    | true => exact .inl rfl
    | false =>
      have := ht.low
      rw [hsg] at this
      simp at this
      right; omega

/-- C100: an integer of one byte never shows its bounds in decimal: each is shown as one character, the one of that code. -/
theorem C100_one_byte_bounds {root : Elem} (docs : Pos → ElemTexts) {path : Str} {p : Pos} {e : Elem}
    {t : IntType} (hl : root.locate path = some p) (he : root.at? p = some e) (hk : e.kind = .scalar (.int t)) (ht : t.WF)
    (h8 : t.size = 1) : ∃ lo hi before after,
      root.showProperties docs path = .ok (Lines (before ++ [s "Min: " ++ lo, s "Max: " ++ hi] ++ after)) ∧
      lo.length = 1 ∧ hi.length = 1 ∧ lo ≠ intText t.min ∧ hi ≠ intText t.max := by
  obtain ⟨ls, h1, h2⟩ := C100_properties docs hl he
  rw [hk] at h1
  obtain ⟨vs, ⟨lo, hi, rfl, h3⟩, rfl⟩ := h1
  rw [if_pos h8] at h3
  obtain ⟨⟨c, rfl, hc⟩, c', rfl, hc'⟩ := h3
  have key : ∀ (n : Int) (c : Char), -128 ≤ n → n < 256 → c.toNat = (n % 256).toNat → [c] ≠ intText n := by
    intro n c h1 h2 hc hn
    have all : ∀ k : Fin 384, [Char.ofNat (((k.val : Int) - 128) % 256).toNat] ≠ intText ((k.val : Int) - 128) := by decide +kernel
    have e1 : (((n + 128).toNat : Nat) : Int) - 128 = n := by omega
    have := all ⟨(n + 128).toNat, by omega⟩
    simp only [e1] at this
    apply this
    rw [← hn]
    have : Char.ofNat (n % 256).toNat = c := by rw [← hc]; exact Char.ofNat_toNat c
    rw [this]
  have hlow := ht.low
  have hhigh := ht.high
  have hord := ht.ordered
  have hbits : t.bits = 8 := by simp [IntType.bits, h8]
  rw [hbits] at hlow hhigh
  have hb : -128 ≤ t.min ∧ t.max < 256 := by
    cases hs : t.signed <;> simp [hs] at hlow hhigh <;> omega
  refine ⟨[c], [c'], Heading e.kind.text (docs p) e.footprint ++ (Labelled (s "Unit: ") (docs p).unit ++
    [s "Scalar size: " ++ natText (ScalarType.int t).size ++ s " byte(s) "] ++
      [s "Signed: " ++ (if t.signed then s "yes" else s "no")]), (match (docs p).adaptation with
         | none => []
         | some as => s "Adaptation:" :: as), ?_, rfl, rfl,
    key _ _ (by omega) (by omega) hc, key _ _ (by omega) (by omega) hc'⟩
  rw [h2]
  cases (docs p).adaptation <;> simp only [List.append_assoc, List.cons_append, List.nil_append]

/-- C100: the value pairs shown of an enum are the values that `setParameter` takes in real value space: a number, or a
literal, is accepted exactly when a line shows it.  The values declared fit the size of the enum, and no literal reads as a
number. -/
theorem C100_enum_values {root : Elem} (wf : root.WF) (docs : Pos → ElemTexts) {path : Str} {p : Pos} {e : Elem}
    {t : EnumType} (hl : root.locate path = some p) (he : root.at? p = some e) (hk : e.kind = .scalar (.enum t))
    (hsz : t.size = 1 ∨ t.size = 2 ∨ t.size = 4) (hfit : ∀ q ∈ t.pairs, FitsSigned t.size q.2.toInt)
    (hlit : ∀ q ∈ t.pairs, ¬ ∃ m, PlainInt q.1 m) (rd : Reader) (hex : Bool) {b : Board} (hb : b.length = root.footprint) :
    ∃ (before : List Str) (ps : List (Str × BitVec 32)), root.showProperties docs path = .ok (Lines (before ++ s "Value Pairs:" :: ps.map PairLine)) ∧
      (∀ n : Int, (root.setText rd ⟨false, hex⟩ 0 b path (intText n)).1 = .ok () ↔ ∃ q ∈ ps, q.2.toInt = n) ∧
      ∀ l, (¬ ∃ m, PlainInt l m) → ((root.setText rd ⟨false, hex⟩ 0 b path l).1 = .ok () ↔ ∃ q ∈ ps, q.1 = l) := by
  obtain ⟨ls, h1, h2⟩ := C100_properties docs hl he
  rw [hk] at h1
  obtain ⟨vs, rfl, rfl⟩ := h1
  refine ⟨Heading e.kind.text (docs p) e.footprint ++ (Labelled (s "Unit: ") (docs p).unit ++
    [s "Scalar size: " ++ natText (ScalarType.enum t).size ++ s " byte(s) "]), t.pairs, ?_, ?_, ?_⟩
  · rw [h2]; simp only [List.append_assoc]
  · intro n
    rw [setText_scalar_ok wf hl he hk rd _ hb]
    simp only [ScalarType.fromText]
    constructor
    · rintro ⟨v, hv⟩
      obtain ⟨m, g1, g2, ⟨q, hq, hqe⟩, -⟩ := (t.fromText_iff hsz _ _ v).1 hv
      simp only [Bool.false_eq_true, if_false] at g2
      rcases g1 with ⟨g1, -⟩ | ⟨-, before, w, after, g3, -, -⟩
      · exact ⟨q, hq, by rw [hqe, g2]; exact g1.unique (plainInt_intText n)⟩
      · exact absurd ⟨n, plainInt_intText n⟩ (hlit (intText n, w) (by rw [g3]; simp))
    · rintro ⟨q, hq, rfl⟩
      refine ⟨q.2, (t.fromText_iff hsz _ _ _).2 ⟨q.2.toInt, .inl ⟨plainInt_intText _, ?_⟩, by simp, ⟨q, hq, rfl⟩, hfit q hq⟩⟩
      have := hfit q hq
      rcases hsz with h | h | h <;> rw [h] at this <;> simp only [FitsSigned] at this ⊢ <;> omega
  · intro l hl'
    rw [setText_scalar_ok wf hl he hk rd _ hb]
    simp only [ScalarType.fromText]
    constructor
    · rintro ⟨v, hv⟩
      obtain ⟨m, g1, -, -, -⟩ := (t.fromText_iff hsz _ _ v).1 hv
      rcases g1 with ⟨g1, -⟩ | ⟨-, before, w, after, g3, -, -⟩
      · exact absurd ⟨m, g1⟩ hl'
      · exact ⟨(l, w), by rw [g3]; simp, rfl⟩
    · rintro ⟨q, hq, rfl⟩
      have first : ∀ ps : List (Str × BitVec 32), q ∈ ps → ∃ before v after, ps = before ++ (q.1, v) :: after ∧
          ∀ r ∈ before, r.1 ≠ q.1 := by
        intro ps
        induction ps with
        | nil => intro h; simp at h
        | cons r ps ih =>
          intro h
          by_cases hr : r.1 = q.1
          · exact ⟨[], r.2, ps, by simp [← hr], by simp⟩
          · rcases List.mem_cons.1 h with rfl | h
            · exact absurd rfl hr
            · obtain ⟨before, v, after, h1, h2⟩ := ih h
              refine ⟨r :: before, v, after, by simp [h1], ?_⟩
              intro x hx
              rcases List.mem_cons.1 hx with rfl | hx
              · exact hr
              · exact h2 x hx
      obtain ⟨before, v, after, g1, g2⟩ := first _ hq
      have hv : (q.1, v) ∈ t.pairs := by rw [g1]; simp
      exact ⟨v, (t.fromText_iff hsz _ _ _).2 ⟨v.toInt, .inr ⟨fun ⟨m, hm, _⟩ => hl' ⟨m, hm⟩, before, v, after, g1, g2, rfl⟩,
        by simp, ⟨_, hv, rfl⟩, hfit _ hv⟩⟩

/-- C100: the length shown of a string parameter is the greatest length that `setParameter` takes. -/
theorem C100_string_length {root : Elem} (wf : root.WF) (docs : Pos → ElemTexts) {path : Str} {p : Pos} {e : Elem}
    {m : Nat} (hl : root.locate path = some p) (he : root.at? p = some e) (hk : e.kind = .string m) (rd : Reader) (ctx : Ctx)
    {b : Board} (hb : b.length = root.footprint) :
    ∃ before n, root.showProperties docs path = .ok (Lines (before ++ [s "Max length: " ++ natText n])) ∧
      ∀ text, (root.setText rd ctx 0 b path text).1 = .ok () ↔ text.length ≤ n := by
  obtain ⟨ls, h1, h2⟩ := C100_properties docs hl he
  rw [hk] at h1
  simp only [Details] at h1
  subst h1
  refine ⟨_, m, h2, fun text => ?_⟩
  obtain ⟨o, ho⟩ := Elem.offset_of_at (off := 0) he
  have ha := wf.access_of_locate hl he (by rw [hk]; rfl)
  have hroom : o + (m + 1) ≤ b.length := by
    have := wf.area_main he ho
    have e1 : e.areaSize = m + 1 := by
      obtain ⟨n, k, sy, xs⟩ := e
      simp only [Elem.kind] at hk
      subst hk
      simp [Elem.areaSize, Elem.kind, Elem.footprint, EKind.ownSize, stringSize]
    omega
  have hs : root.setText rd ctx 0 b path text = (setString m b o (strBytes text)).withBoard b := by
    simp only [Elem.setText, ha, he, ho, hk, setParamText, ne_eq, not_true_eq_false, if_false, Nat.not_lt_zero, Nat.sub_zero]
  have hlen : (strBytes text).length = text.length := by simp [strBytes]
  have key := C39_set_then_get m b o hroom (strBytes text)
  rw [hs]
  rw [hlen] at key
  split at key
  · rename_i hle
    obtain ⟨b', hb', -⟩ := key
    simp [hb', Out.withBoard, hle]
  · rename_i hle
    simp [key, Out.withBoard, hle]

/-- C100: the maximum shown of a bit parameter is the greatest number that `setParameter` takes, for numbers of at most 64
bits. -/
theorem C100_bit_maximum {root : Elem} (wf : root.WF) (docs : Pos → ElemTexts) {path : Str} {p : Pos} {e : Elem}
    {t : BitType} (hl : root.locate path = some p) (he : root.at? p = some e) (hk : e.kind = .bit t) (rd : Reader) (ctx : Ctx)
    {b : Board} (hb : b.length = root.footprint) :
    ∃ before m, root.showProperties docs path = .ok (Lines (before ++ [s "Max: " ++ natText m])) ∧
      ∀ n, n < 2 ^ 64 → ((root.setText rd ctx 0 b path (natText n)).1 = .ok () ↔ n ≤ m) := by
  obtain ⟨ls, h1, h2⟩ := C100_properties docs hl he
  rw [hk] at h1
  simp only [Details] at h1
  subst h1
  refine ⟨Heading e.kind.text (docs p) e.footprint ++ [s "Bit pos: " ++ natText t.pos, s "Bit size: " ++ natText t.bits],
    t.max.toNat, by rw [h2]; simp only [List.append_assoc, List.cons_append, List.nil_append], fun n hn => ?_⟩
  obtain ⟨o, ho⟩ := Elem.offset_of_at (off := 0) he
  have ha := wf.access_of_locate hl he (by rw [hk]; rfl)
  have hroom : o + t.blockSize ≤ b.length := by
    have := wf.area_main he ho
    have e1 : e.areaSize = t.blockSize := by simp [Elem.areaSize, hk]
    omega
  have hs : root.setText rd ctx 0 b path (natText n) = (setBitText t b o (natText n)).withBoard b := by
    simp only [Elem.setText, ha, he, ho, hk, setParamText, ne_eq, not_true_eq_false, if_false, Nat.not_lt_zero, Nat.sub_zero]
  have key := C37_text_access_partial t (wf.bit_at he t hk) b o hroom (natText n) n (cNumeral_natText n) hn
  rw [hs]
  split at key
  · rename_i hle
    obtain ⟨b', bs, bs', hb', -⟩ := key
    simp [hb', Out.withBoard, hle]
  · rename_i hle
    simp [key, Out.withBoard, hle]

/-! ## A sample -/

namespace Sample

/-- A structure with a byte, a short integer, an enum, a string and a bit parameter. -/
def shown : Elem :=
  .mk (s "Sys") (.group (s "SystemClass")) none [.mk (s "sub") (.group (s "Subsystem")) none [
    .mk (s "letter") (.scalar (.int ⟨false, 1, 65, 90⟩)) none [],
    .mk (s "level") (.scalar (.int ⟨true, 2, -10, 300⟩)) none [],
    .mk (s "mode") (.scalar (.enum sampleEnum)) none [],
    .mk (s "tag") (.string 7) none [],
    .mk (s "flags") (.bitBlock 2) none [.mk (s "f") (.bit ⟨2, 3, 5, 20#64⟩) none []]]]

/-- Descriptions and units. -/
def docs : Pos → ElemTexts
  | [0, 1] => ⟨[], s "Volume", s "dB", none⟩
  | [0] => ⟨s "The subsystem", [], [], none⟩
  | _ => ⟨[], [], [], none⟩

example : shown.showProperties docs (s "/Sys/sub/level") = .ok (s
    "Kind: IntegerParameter\nTotal size: 2 byte(s)\nDescription: Volume\nUnit: dB\nScalar size: 2 byte(s) \nSigned: yes\nMin: -10\nMax: 300\n") ∧
    shown.showProperties docs (s "/Sys/sub") = .ok (s
    "Kind: Subsystem\nDescription: The subsystem\nTotal size: 14 byte(s)\n") ∧
    shown.showProperties docs (s "/Sys/sub/mode") = .ok (s
    "Kind: EnumParameter\nTotal size: 1 byte(s)\nScalar size: 1 byte(s) \nValue Pairs:\n\tLiteral: \"Low\", Numerical: -2\n\tLiteral: \"Mid\", Numerical: 0\n\tLiteral: \"High\", Numerical: 100\n") ∧
    shown.showProperties docs (s "/Sys/sub/tag") = .ok (s "Kind: StringParameter\nTotal size: 8 byte(s)\nMax length: 7\n") ∧
    shown.showProperties docs (s "/Sys/sub/flags/f") = .ok (s
    "Kind: BitParameter\nTotal size: 0 byte(s)\nBit pos: 3\nBit size: 5\nMax: 20\n") ∧
    shown.showProperties docs (s "/Sys/none") = .err := by decide +kernel

theorem shown_wf : shown.WF := by
  refine .group ?_ (by simp [Elem.kind])
  intro c hc
  simp only [List.mem_singleton] at hc
  subst hc
  refine .group ?_ (by simp [Elem.kind])
  intro c hc
  simp only [List.mem_cons, List.not_mem_nil, or_false] at hc
  rcases hc with rfl | rfl | rfl | rfl | rfl
  · exact .scalar (.inl rfl)
  · exact .scalar (.inr (.inl rfl))
  · exact .scalar (.inl rfl)
  · exact .string
  · refine .bitBlock (by decide) ?_
    intro c hc
    simp only [List.mem_singleton] at hc
    subst hc
    exact ⟨_, _, _, rfl, ⟨by decide, by decide, by decide, by decide⟩, rfl⟩

example : shown.WF ∧ shown.locate (s "/Sys/sub/level") = some [0, 1] ∧
    (shown.at? [0, 1]).map (·.kind) = some (.scalar (.int ⟨true, 2, -10, 300⟩)) ∧ IntType.WF ⟨true, 2, -10, 300⟩ ∧
    IntType.WF ⟨false, 1, 65, 90⟩ ∧ shown.mainBoard.length = shown.footprint ∧ shown.footprint = 14 :=
  ⟨shown_wf, by decide +kernel, by decide, ⟨.inr (.inl rfl), by decide, by decide, by decide⟩,
    ⟨.inl rfl, by decide, by decide, by decide⟩, by decide, by decide⟩

/-- The values of the sample enum fit, and none of its literals reads as a number. -/
example : (∀ q ∈ sampleEnum.pairs, FitsSigned sampleEnum.size q.2.toInt) ∧
    ∀ q ∈ sampleEnum.pairs, ¬ ∃ m, PlainInt q.1 m := by
  have key : ∀ (c : Char) (t : Str) (m : Int), c ≠ '+' → c ≠ '-' → c ≠ '0' → (∀ p ∈ digitTable, p.1 ≠ c) →
      ¬ PlainInt (c :: t) m := by
    intro c t m h1 h2 h3 h4 h
    cases h with
    | dec h =>
      obtain ⟨d, hd⟩ := h.chars.2 c (by simp)
      exact h4 _ hd.2 rfl
    | plus h => exact h1 rfl
    | minus h => exact h2 rfl
    | hex h => exact h3 rfl
  constructor
  · intro q hq
    simp only [sampleEnum, List.mem_cons, List.not_mem_nil, or_false] at hq
    rcases hq with rfl | rfl | rfl <;> simp [FitsSigned, sampleEnum]
  · rintro q hq ⟨m, hm⟩
    simp only [sampleEnum, List.mem_cons, List.not_mem_nil, or_false] at hq
    rcases hq with rfl | rfl | rfl
    · exact key 'L' ['o', 'w'] m (by decide) (by decide) (by decide) (by decide) hm
    · exact key 'M' ['i', 'd'] m (by decide) (by decide) (by decide) (by decide) hm
    · exact key 'H' ['i', 'g', 'h'] m (by decide) (by decide) (by decide) (by decide) hm

end Sample

/-- C100: the bounds 65 and 90 of an integer of one byte are shown as letters, although it is set with numbers. -/
theorem C100_letters_shown :
    Sample.shown.showProperties Sample.docs (s "/Sys/sub/letter") = .ok (s
      "Kind: IntegerParameter\nTotal size: 1 byte(s)\nScalar size: 1 byte(s) \nSigned: no\nMin: A\nMax: Z\n") ∧
    (Sample.shown.setText .none ⟨false, false⟩ 0 Sample.shown.mainBoard (s "/Sys/sub/letter") (s "66")).1 = .ok () ∧
    (Sample.shown.setText .none ⟨false, false⟩ 0 Sample.shown.mainBoard (s "/Sys/sub/letter") (s "B")).1 = .err := by decide +kernel

end PF
