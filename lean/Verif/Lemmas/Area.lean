import Verif.Spec.Domain
import Verif.Lemmas.Tree
import Verif.Lemmas.Bits

/-! # Areas: which bits they read and write -/

namespace PF

theorem BitType.merge_getLsbD {t : BitType} (wf : t.WF) (a b : BitVec 64) (i : Nat) (hi : i < 64) :
    (t.merge a b).getLsbD i = if t.pos ≤ i ∧ i < t.pos + t.bits then b.getLsbD i else a.getLsbD i := by
  unfold BitType.merge
  rw [BitVec.getLsbD_or, BitVec.getLsbD_and, BitVec.getLsbD_and, BitVec.getLsbD_not, BitType.mask_getLsbD wf]
  have := wf.fits; have := wf.block
  by_cases h1 : t.pos ≤ i <;> by_cases h2 : i < t.pos + t.bits <;> simp [h1, h2, hi]

theorem encLE_bit {n v i : Nat} (hi : i < 8 * n) : Board.bit (encLE n v) i = v.testBit i := by
  rw [← decLE_testBit, decLE_encLE, show (256:Nat) ^ n = 2 ^ (8 * n) by rw [Nat.pow_mul], Nat.testBit_mod_two_pow]
  simp [hi]

theorem ofNat_decLE_getLsbD {bs : List Byte} (h : bs.length ≤ 8) (i : Nat) :
    (BitVec.ofNat 64 (decLE bs)).getLsbD i = Board.bit bs i := by
  rw [BitVec.getLsbD, BitVec.toNat_ofNat, Nat.mod_eq_of_lt (decLE_lt64 h), decLE_testBit]

theorem blockMerge_spec {t : BitType} (wf : t.WF) {dst src : Board} {doff soff : Nat}
    (hd : doff + t.blockSize ≤ dst.length) (hs : soff + t.blockSize ≤ src.length) :
    ∃ b, blockMerge t dst doff src soff = some b ∧ b.length = dst.length ∧
      ∀ i, b.bit i = if 8 * doff + t.pos ≤ i ∧ i < 8 * doff + t.pos + t.bits
        then src.bit (8 * soff + (i - 8 * doff)) else dst.bit i := by
  obtain ⟨d, hd'⟩ := Board.read_some hd
  obtain ⟨u, hu'⟩ := Board.read_some hs
  obtain ⟨b, hb⟩ := Board.write_some (b := dst) (off := doff)
    (bs := encLE t.blockSize (t.merge (BitVec.ofNat 64 (decLE d)) (BitVec.ofNat 64 (decLE u))).toNat)
    (by rw [encLE_length]; exact hd)
  refine ⟨b, by simp only [blockMerge, hd', hu', hb], (Board.write_length hb).1, ?_⟩
  have hfit := wf.fits
  have hblk := wf.block
  have ld := (Board.read_length hd').1
  have lu := (Board.read_length hu').1
  intro i
  rw [Board.write_bit hb, encLE_length]
  by_cases hin : 8 * doff ≤ i ∧ i < 8 * (doff + t.blockSize)
  · rw [if_pos hin, encLE_bit (by omega), BitVec.testBit_toNat, BitType.merge_getLsbD wf _ _ _ (by omega),
      ofNat_decLE_getLsbD (by omega), ofNat_decLE_getLsbD (by omega), Board.read_bit hd', Board.read_bit hu']
    simp only [show i - 8 * doff < 8 * t.blockSize by omega, decide_true, Bool.true_and]
    rw [show 8 * doff + (i - 8 * doff) = i by omega]
    by_cases h : t.pos ≤ i - 8 * doff ∧ i - 8 * doff < t.pos + t.bits
    · rw [if_pos h, if_pos (by omega)]
    · rw [if_neg h, if_neg (by omega)]
  · rw [if_neg hin, if_neg (by omega)]

/-- What the kind of an element of a well-formed structure says about its area. -/
theorem Elem.WF.kind_at {root e : Elem} (wf : root.WF) {p : Pos} (he : root.at? p = some e) :
    (∃ t, e.kind = .bit t ∧ t.WF ∧ e.areaSize = t.blockSize ∧
      ∀ o, e.extent o = (8 * o + t.pos, 8 * o + t.pos + t.bits)) ∨
    ((∀ t, e.kind ≠ .bit t) ∧ e.areaSize = e.footprint ∧ ∀ o, e.extent o = (8 * o, 8 * (o + e.footprint))) := by
  rcases wf.at he with h | ⟨q, i, g, size, nm, t, sy, _, _, _, _, rfl, h2, h3, h4⟩
  · refine .inr ⟨?_, ?_, ?_⟩
    · intro t; cases h <;> simp [Elem.kind]
    · cases h <;> rfl
    · intro o; cases h <;> rfl
  · exact .inl ⟨t, rfl, h2, rfl, fun _ => rfl⟩

/-- A descendant's memory lies inside the element's. -/
theorem Elem.WF.area_nested {e f : Elem} (wf : e.WF) {p : Pos} {a o : Nat} (h : e.at? p = some f)
    (ho : e.offset a p = some o) : a ≤ o ∧ o + f.areaSize ≤ a + e.footprint := by
  induction p generalizing e a with
  | nil =>
    simp only [Elem.at?, Option.some.injEq] at h
    simp only [Elem.offset, Option.some.injEq] at ho
    subst h ho
    refine ⟨Nat.le_refl _, ?_⟩
    cases wf <;> exact Nat.le_refl _
  | cons i p ih =>
    rw [Elem.at?_cons] at h
    rw [Elem.offset_cons] at ho
    cases hc : e.children[i]? with
    | none => simp [hc] at h
    | some c =>
      simp only [hc, Option.bind_some] at h ho
      have hr := wf.child_range hc
      rcases wf.child hc with ⟨hw, _⟩ | ⟨size, nm, t, sy, hk, rfl, h1, h2, h3⟩
      · have := ih hw h ho
        omega
      · cases p with
        | cons j p => simp [Elem.at?] at h
        | nil =>
          simp only [Elem.at?, Option.some.injEq] at h
          subst h
          simp only [Elem.offset, Option.some.injEq] at ho
          subst ho
          rw [Elem.bitBlock_child_offset wf hk hc]
          have hf : e.footprint = size := by
            cases e with | mk n k2 s2 cs =>
            simp only [Elem.kind] at hk; subst hk; simp [Elem.footprint, EKind.ownSize]
          simp only [Elem.areaSize, Elem.kind]
          omega

/-- The same between two elements of the structure. -/
theorem Elem.WF.area_inside {root e f : Elem} (wf : root.WF) {p q : Pos} {o u : Nat} (hpq : p <+: q)
    (he : root.at? p = some e) (hf : root.at? q = some f) (ho : root.offset 0 p = some o)
    (hu : root.offset 0 q = some u) : o ≤ u ∧ u + f.areaSize ≤ o + e.areaSize := by
  obtain ⟨r, rfl⟩ := hpq
  rw [Elem.at?_append, he, Option.bind_some] at hf
  rw [Elem.offset_append, he, ho] at hu
  simp only [Option.bind_some] at hu
  rcases wf.at he with hw | ⟨_, _, _, _, _, _, _, _, _, _, _, rfl, _⟩
  · have h1 := hw.area_nested hf hu
    have h2 : e.areaSize = e.footprint := by cases hw <;> rfl
    omega
  · cases r with
    | nil =>
      simp only [Elem.at?, Option.some.injEq] at hf
      simp only [Elem.offset, Option.some.injEq] at hu
      subst hf hu; omega
    | cons => simp [Elem.at?] at hf

theorem Elem.WF.area_main {root e : Elem} (wf : root.WF) {p : Pos} {o : Nat} (he : root.at? p = some e)
    (ho : root.offset 0 p = some o) : o + e.areaSize ≤ root.footprint := by
  have := wf.area_nested he ho
  omega

/-- The bits of an element lie in its memory. -/
theorem Elem.WF.extent_area {root e : Elem} (wf : root.WF) {p : Pos} (he : root.at? p = some e) (o : Nat) :
    8 * o ≤ (e.extent o).1 ∧ (e.extent o).2 ≤ 8 * (o + e.areaSize) ∧
      (e.extent o).1 = (e.extent 0).1 + 8 * o ∧ (e.extent o).2 = (e.extent 0).2 + 8 * o := by
  rcases wf.kind_at he with ⟨t, _, h2, h3, h4⟩ | ⟨_, h3, h4⟩
  · have := h2.fits
    rw [h3, h4, h4]; simp only; omega
  · rw [h3, h4, h4]; simp only; omega

theorem Elem.owns_iff {root e : Elem} {p : Pos} {o : Nat} (he : root.at? p = some e)
    (ho : root.offset 0 p = some o) (i : Nat) : root.Owns p i ↔ (e.extent o).1 ≤ i ∧ i < (e.extent o).2 := by
  constructor
  · rintro ⟨f, u, hf, hu, h⟩
    rw [he] at hf; rw [ho] at hu
    simp only [Option.some.injEq] at hf hu
    subst hf hu; exact h
  · exact fun h => ⟨e, o, he, ho, h⟩

theorem Area.copyTo_spec {root e : Elem} (wf : root.WF) {a : Area} (he : root.at? a.elem = some e)
    (hl : a.board.length = e.areaSize) {dst : Board} {off : Nat} (hd : off + e.areaSize ≤ dst.length) :
    ∃ b, a.copyTo root dst off = some b ∧ b.length = dst.length ∧
      ∀ i, b.bit i = if (e.extent off).1 ≤ i ∧ i < (e.extent off).2 then a.board.bit (i - 8 * off) else dst.bit i := by
  rcases wf.kind_at he with ⟨t, h1, h2, h3, h4⟩ | ⟨h1, h3, h4⟩
  · obtain ⟨b, hb, hbl, hbb⟩ := blockMerge_spec h2 (dst := dst) (src := a.board) (doff := off) (soff := 0)
      (by omega) (by omega)
    refine ⟨b, ?_, hbl, ?_⟩
    · simp only [Area.copyTo, he, h1, hb]
    · intro i; rw [hbb, h4]; simp
  · obtain ⟨b, hb⟩ := Board.write_some (b := dst) (off := off) (bs := a.board) (by omega)
    refine ⟨b, ?_, (Board.write_length hb).1, ?_⟩
    · simp only [Area.copyTo, he, hb]
    · intro i; rw [Board.write_bit hb, h4, hl, h3]

theorem Area.copyFrom_spec {root e : Elem} (wf : root.WF) {a : Area} (he : root.at? a.elem = some e)
    (hl : a.board.length = e.areaSize) {src : Board} {off : Nat} (hd : off + e.areaSize ≤ src.length) :
    ∃ b, a.copyFrom root src off = some { a with board := b } ∧ b.length = a.board.length ∧
      (∀ i, (e.extent 0).1 ≤ i → i < (e.extent 0).2 → b.bit i = src.bit (i + 8 * off)) ∧
      (∀ i, ¬ ((e.extent 0).1 ≤ i ∧ i < (e.extent 0).2) → b.bit i = a.board.bit i) := by
  rcases wf.kind_at he with ⟨t, h1, h2, h3, h4⟩ | ⟨h1, h3, h4⟩
  · obtain ⟨b, hb, hbl, hbb⟩ := blockMerge_spec h2 (dst := a.board) (src := src) (doff := 0) (soff := off)
      (by omega) (by omega)
    refine ⟨b, ?_, hbl, ?_, ?_⟩
    · simp only [Area.copyFrom, he, h1, hb, Option.map_some]
    · intro i h5 h6
      rw [h4] at h5 h6; simp only at h5 h6
      rw [hbb, if_pos (by omega)]; congr 1; omega
    · intro i h5
      rw [h4] at h5; simp only at h5
      rw [hbb, if_neg (by omega)]
  · obtain ⟨b, hb⟩ := Board.read_some (b := src) (off := off) (size := a.board.length) (by omega)
    have hbl := (Board.read_length hb).1
    refine ⟨b, ?_, hbl, ?_, ?_⟩
    · simp only [Area.copyFrom, he, hb, Option.map_some]
    · intro i h5 h6
      rw [h4] at h5 h6; simp only at h5 h6
      rw [Board.read_bit hb]; simp only [show i < 8 * a.board.length by omega, decide_true, Bool.true_and]
      congr 1; omega
    · intro i h5
      rw [h4] at h5; simp only at h5
      rw [Board.bit_past (by omega), Board.bit_past (by omega)]

theorem Area.value_of {root : Elem} {a : Area} {o : Nat} (ho : root.offset 0 a.elem = some o) (i : Nat) :
    a.value root i = a.board.bit (i - 8 * o) := by simp [Area.value, ho]

/-- Effect of restoring a valid area. -/
theorem Area.restore_spec {root : Elem} (wf : root.WF) {a : Area} (hs : a.Sized root) (hv : a.valid = true)
    {main : Board} (hm : main.length = root.footprint) :
    ∃ b, a.restore root main = some b ∧ b.length = main.length ∧
      (∀ i, root.Owns a.elem i → b.bit i = a.value root i) ∧ (∀ i, ¬ root.Owns a.elem i → b.bit i = main.bit i) := by
  obtain ⟨e, he, hl⟩ := hs
  obtain ⟨o, ho⟩ := Elem.offset_of_at (off := 0) he
  have := wf.area_main he ho
  obtain ⟨b, hb, hbl, hbb⟩ := Area.copyTo_spec wf he hl (dst := main) (off := o) (by omega)
  refine ⟨b, ?_, hbl, ?_, ?_⟩
  · simp [Area.restore, hv, ho, hb]
  · intro i hi
    rw [Elem.owns_iff he ho] at hi
    rw [hbb, if_pos hi, Area.value_of ho]
  · intro i hi
    rw [Elem.owns_iff he ho] at hi
    rw [hbb, if_neg hi]

/-- Effect of saving into an area. -/
theorem Area.save_spec {root : Elem} (wf : root.WF) {a : Area} (hs : a.Sized root) 
    {main : Board} (hm : main.length = root.footprint) :
    ∃ a', a.save root main = some a' ∧ a'.Sized root ∧ a'.elem = a.elem ∧ a'.valid = a.valid ∧
      (∀ i, root.Owns a.elem i → a'.value root i = main.bit i) := by
  obtain ⟨e, he, hl⟩ := hs
  obtain ⟨o, ho⟩ := Elem.offset_of_at (off := 0) he
  have := wf.area_main he ho
  obtain ⟨b, hb, hbl, hb1, hb2⟩ := Area.copyFrom_spec wf he hl (src := main) (off := o) (by omega)
  refine ⟨{ a with board := b }, ?_, ⟨e, he, by simp only [hbl, hl]⟩, rfl, rfl, ?_⟩
  · simp [Area.save, ho, hb]
  · intro i hi
    rw [Elem.owns_iff he ho] at hi
    have := wf.extent_area he o
    rw [Area.value_of (a := { a with board := b }) ho, hb1 _ (by omega) (by omega)]
    congr 1; omega

theorem Area.validate_spec {root : Elem} (wf : root.WF) {a : Area} (hs : a.Sized root) 
    {main : Board} (hm : main.length = root.footprint) :
    ∃ a', a.validate root main = some a' ∧ a'.Sized root ∧ a'.elem = a.elem ∧ a'.valid = true ∧
      (a.valid = true → a' = a) ∧ (a.valid = false → ∀ i, root.Owns a.elem i → a'.value root i = main.bit i) := by
  unfold Area.validate
  split
  · rename_i h; exact ⟨a, rfl, hs, rfl, h, fun _ => rfl, by simp [h]⟩
  · rename_i h
    obtain ⟨a', h1, h2, h3, h4, h5⟩ := Area.save_spec wf hs hm
    refine ⟨{ a' with valid := true }, by simp [h1], h2, h3, rfl, by simp [h], fun _ i hi => h5 i hi⟩

theorem Area.validateAgainst_spec {root : Elem} {a b : Area} (ha : a.Sized root) (hb : b.Sized root)
    (he : a.elem = b.elem) (h1 : a.valid = false) (h2 : b.valid = true) :
    a.validateAgainst b = some b := by
  obtain ⟨e, h3, h4⟩ := ha
  obtain ⟨f, h5, h6⟩ := hb
  rw [he, h5] at h3
  simp only [Option.some.injEq] at h3
  subst h3
  obtain ⟨w, hw⟩ := Board.write_some (b := a.board) (off := 0) (bs := b.board) (by omega)
  have : w = b.board := by
    apply List.ext_getElem?
    intro i
    rw [Board.write_getElem? hw]
    have := (Board.write_length hw).1
    split
    · simp
    · rw [List.getElem?_eq_none (by omega), List.getElem?_eq_none (by omega)]
  subst this
  simp only [Area.validateAgainst, h1, h2, he, hw]
  cases b; simp_all

theorem Pos.isDescendantOf_iff (p q : Pos) : Pos.isDescendantOf p q = true ↔ q <+: p ∧ p ≠ q := by
  simp [Pos.isDescendantOf]

theorem Area.copyFromOuter_spec {root : Elem} (wf : root.WF) {a f : Area} (ha : a.Sized root) (hf : f.Sized root)
    (hd : Pos.isDescendantOf a.elem f.elem = true) :
    ∃ a', a.copyFromOuter root f = some a' ∧ a'.Sized root ∧ a'.elem = a.elem ∧ a'.valid = true ∧
      ∀ i, root.Owns a.elem i → a'.value root i = f.value root i := by
  obtain ⟨e, he, hl⟩ := ha
  obtain ⟨g, hg, hgl⟩ := hf
  obtain ⟨o, ho⟩ := Elem.offset_of_at (off := 0) he
  obtain ⟨u, hu⟩ := Elem.offset_of_at (off := 0) hg
  have hin := wf.area_inside ((Pos.isDescendantOf_iff _ _).1 hd).1 hg he hu ho
  obtain ⟨b, hb, hbl, hb1, hb2⟩ := Area.copyFrom_spec wf he hl (src := f.board) (off := o - u) (by omega)
  refine ⟨{ a with board := b, valid := true }, ?_, ⟨e, he, by simp only [hbl, hl]⟩, rfl, rfl, ?_⟩
  · simp [Area.copyFromOuter, hd, ho, hu, hb]
  · intro i hi
    rw [Elem.owns_iff he ho] at hi
    have := wf.extent_area he o
    rw [Area.value_of (a := { a with board := b, valid := true }) ho, Area.value_of hu,
      hb1 _ (by omega) (by omega)]
    congr 1; omega

theorem Area.copyToOuter_spec {root : Elem} (wf : root.WF) {a f : Area} (ha : a.Sized root) (hf : f.Sized root)
    (hd : Pos.isDescendantOf a.elem f.elem = true) :
    ∃ f', a.copyToOuter root f = some f' ∧ f'.Sized root ∧ f'.elem = f.elem ∧ f'.valid = f.valid ∧
      (∀ i, root.Owns a.elem i → f'.value root i = a.value root i) ∧
      (∀ i, root.Owns f.elem i → ¬ root.Owns a.elem i → f'.value root i = f.value root i) := by
  obtain ⟨e, he, hl⟩ := ha
  obtain ⟨g, hg, hgl⟩ := hf
  obtain ⟨o, ho⟩ := Elem.offset_of_at (off := 0) he
  obtain ⟨u, hu⟩ := Elem.offset_of_at (off := 0) hg
  have hin := wf.area_inside ((Pos.isDescendantOf_iff _ _).1 hd).1 hg he hu ho
  obtain ⟨b, hb, hbl, hbb⟩ := Area.copyTo_spec wf he hl (dst := f.board) (off := o - u) (by omega)
  have h1 := wf.extent_area he o
  have h2 := wf.extent_area he (o - u)
  refine ⟨{ f with board := b }, ?_, ⟨g, hg, by simp only [hbl, hgl]⟩, rfl, rfl, ?_, ?_⟩
  · simp [Area.copyToOuter, hd, ho, hu, hb]
  · intro i hi
    rw [Elem.owns_iff he ho] at hi
    rw [Area.value_of (a := { f with board := b }) hu, Area.value_of ho, hbb, if_pos (by omega)]
    congr 1; omega
  · intro i hi hn
    rw [Elem.owns_iff he ho] at hn
    rw [Elem.owns_iff hg hu] at hi
    have := wf.extent_area hg u
    rw [Area.value_of (a := { f with board := b }) hu, Area.value_of hu, hbb, if_neg (by omega)]

theorem Area.new_spec {root e : Elem} {p : Pos} (he : root.at? p = some e) :
    ∃ a, Area.new root p = some a ∧ a.Sized root ∧ a.elem = p ∧ a.valid = false := by
  refine ⟨⟨p, List.replicate e.areaSize 0#8, false⟩, by simp [Area.new, he], ⟨e, he, by simp⟩, rfl, rfl⟩

end PF
