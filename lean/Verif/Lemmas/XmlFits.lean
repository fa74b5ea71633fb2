import Verif.Lemmas.XmlTree
import Verif.Model.Domain

/-! Helper lemmas: the parameters of a well-formed element, for the round trip of settings in XML. -/

namespace PF

theorem Elem.FieldsDisjoint.at {root e : Elem} (fd : root.FieldsDisjoint) {p : Pos} (hp : root.at? p = some e) :
    e.FieldsDisjoint := by
  rintro q i j t u hne ⟨f, hf, hk⟩ ⟨g, hg, hk'⟩
  refine fd (p ++ q) i j t u hne ⟨f, ?_, hk⟩ ⟨g, ?_, hk'⟩
  · rw [List.append_assoc, Elem.at?_append, hp]; exact hf
  · rw [List.append_assoc, Elem.at?_append, hp]; exact hg

/-- What the proofs need of an element: it is well formed, or is a bit parameter of a block. -/
theorem Elem.WF.at_cases {root e : Elem} (wf : root.WF) {p : Pos} (hp : root.at? p = some e) :
    e.WF ∨ ∃ nm t sy, e = .mk nm (.bit t) sy [] ∧ t.WF := by
  rcases wf.at hp with h | ⟨_, _, _, _, nm, t, sy, _, _, _, _, h1, h2, _⟩
  · exact .inl h
  · exact .inr ⟨nm, t, sy, h1, h2⟩

theorem Elem.leaf_param {e : Elem} {nm : Str} {k : EKind} {sy : Option Nat} (h : e = .mk nm k sy []) {off : Nat} {q : Pos}
    {f : Elem} {o : Nat} (hp : e.Param off q f o) : q = [] ∧ f = e ∧ o = off := by
  subst h
  cases q with
  | nil =>
    simp only [Elem.Param, Elem.at?, Elem.offset, Option.some.injEq] at hp
    exact ⟨rfl, hp.1.symm, hp.2.2.symm⟩
  | cons j q => rw [Elem.param_cons] at hp; simp [Elem.Params] at hp

theorem Elem.param_bits {root e : Elem} (wf : root.WF) {p : Pos} (hp : root.at? p = some e) {off : Nat} {q : Pos}
    {f : Elem} {o : Nat} (h : e.Param off q f o) (t : BitType) (hk : f.kind = .bit t) : t.WF := by
  have : root.at? (p ++ q) = some f := by rw [Elem.at?_append, hp]; exact h.1
  exact (wf.bit_wf this t hk).1

theorem EKind.room_eq_footprint {n : Str} {k : EKind} {sy : Option Nat} (hk : k.isParameter = true)
    (hb : ∀ t, k ≠ .bit t) : k.room = (Elem.mk n k sy []).footprint := by
  cases k with
  | bit t => exact absurd rfl (hb t)
  | group _ => cases hk
  | bitBlock _ => cases hk
  | scalar t => simp [EKind.room, Elem.footprint, Elem.footprints, EKind.ownSize]
  | array t => simp [EKind.room, Elem.footprint, Elem.footprints, EKind.ownSize]
  | string m => simp [EKind.room, Elem.footprint, Elem.footprints, EKind.ownSize, stringSize]

theorem Elem.param_room {root e : Elem} (wf : root.WF) {p : Pos} (hp : root.at? p = some e) {off : Nat} {q : Pos}
    {f : Elem} {o : Nat} (h : e.Param off q f o) : o + f.kind.room ≤ off + e.areaSize := by
  rcases wf.at_cases hp with hw | ⟨nm, t, sy, he, ht⟩
  · have hee : e.extent off = (8 * off, 8 * (off + e.areaSize)) := by
      unfold Elem.extent Elem.areaSize
      cases hw <;> rfl
    by_cases hb : ∃ t, f.kind = .bit t
    · obtain ⟨t, ht⟩ := hb
      obtain ⟨_, r, i, g, hr, hg, hgw, hgk⟩ := hw.bit_wf h.1 t ht
      subst hr
      have ho := h.2.2
      rw [Elem.offset_append] at ho
      cases hgo : e.offset off r with
      | none => simp [hgo] at ho
      | some u =>
        have hn := hw.extent_nested hg hgo
        rw [hee] at hn
        have hfo : o = u := by
          have hat := h.1
          rw [Elem.at?_append, hg] at hat
          simp only [Option.bind_some] at hat
          rw [Elem.at?_single] at hat
          simp only [hgo, hg, Option.bind_some] at ho
          rw [Elem.offset_cons, hat] at ho
          simp only [Option.bind_some, Elem.offset, Option.some.injEq] at ho
          rw [Elem.bitBlock_child_offset hgw hgk hat] at ho
          omega
        have hge : g.extent u = (8 * u, 8 * (u + t.blockSize)) := by
          have hgf : g.footprint = t.blockSize := by
            cases g with | mk n k2 s2 cs =>
            simp only [Elem.kind] at hgk; subst hgk; simp [Elem.footprint, EKind.ownSize]
          simp [Elem.extent, hgk, hgf]
        rw [hge] at hn
        simp only at hn
        rw [ht, hfo]
        simp only [EKind.room]
        omega
    · have hn := hw.extent_nested h.1 h.2.2
      rw [hee] at hn
      have hfc : f.children = [] := by
        rcases hw.at_cases h.1 with hf | ⟨_, _, _, rfl, _⟩
        · have := h.2.1
          cases hf <;> first | rfl | simp [Elem.kind, EKind.isParameter] at this
        · rfl
      obtain ⟨n, k, sy, cs⟩ := f
      simp only [Elem.children] at hfc
      subst hfc
      have hb' : ∀ t, k ≠ .bit t := fun t ht => hb ⟨t, ht⟩
      have hfe : (Elem.mk n k sy []).extent o = (8 * o, 8 * (o + (Elem.mk n k sy []).footprint)) := by
        unfold Elem.extent
        split
        · rename_i t ht; exact absurd ht (hb' t)
        · rfl
      rw [hfe, ← EKind.room_eq_footprint (k := k) h.2.1 hb'] at hn
      simp only [Elem.kind] at hn ⊢
      omega
  · obtain ⟨-, rfl, rfl⟩ := Elem.leaf_param he h
    subst he
    simp [EKind.room, Elem.areaSize, Elem.kind]

theorem Elem.fits {root e : Elem} (wf : root.WF) (fd : root.FieldsDisjoint) {p : Pos} (hp : root.at? p = some e)
    {ctx : Ctx} {b b' : Board} {off off' : Nat} (hc : e.Carried ctx b off)
    (hl : off + e.areaSize ≤ b.length) (hl' : off' + e.areaSize ≤ b'.length) :
    Fits (e.NonNegative b off) ctx b b' (e.Param off) (e.Param off') := by
  refine ⟨fun q f o h => Elem.param_bits wf hp h, fun q f o h => ?_, fun q f o h => ?_,
    fun q f o h => hc q f o h.1 h.2.2, fun hn q f o h => hn q f o h.1 h.2.2, ?_⟩
  · have := Elem.param_room wf hp h; omega
  · have := Elem.param_room wf hp h; omega
  · intro q q' f f' o o' hne h h'
    rcases wf.at_cases hp with hw | ⟨nm, t, sy, he, ht⟩
    · refine hw.extent_disjoint (fd.at hp) h.1 h'.1 h.2.2 h'.2.2 ⟨fun hpre => ?_, fun hpre => ?_⟩
      · exact hne (hw.param_leaf h.1 h.2.1 h'.1 hpre)
      · exact hne (hw.param_leaf h'.1 h'.2.1 h.1 hpre).symm
    · exact absurd ((Elem.leaf_param he h).1.trans (Elem.leaf_param he h').1.symm) hne

theorem Elem.param_no_children {root e : Elem} (wf : root.WF) {p : Pos} (hp : root.at? p = some e) (q : Pos) (f : Elem)
    (hq : e.at? q = some f) (hf : f.kind.isParameter = true) : f.children = [] := by
  have : root.at? (p ++ q) = some f := by rw [Elem.at?_append, hp]; exact hq
  rcases wf.at_cases this with hf' | ⟨_, _, _, rfl, _⟩
  · cases hf' <;> first | rfl | simp [Elem.kind, EKind.isParameter] at hf
  · rfl

/-- Export then import, for an element of a well-formed structure: the memories hold the element at
`off` and at `off'`. -/
theorem Elem.round_trip {root e : Elem} (wf : root.WF) (fd : root.FieldsDisjoint) {p : Pos} (hp : root.at? p = some e)
    {rd : Reader} (hrd : ReadsDecimals rd) {ctx : Ctx} {hex raw : Bool}
    {b b' : Board} {off off' : Nat} (hraw : ctx.raw = true → raw = true ∨ e.NonNegative b off) (hl : off + e.areaSize ≤ b.length) (hl' : off' + e.areaSize ≤ b'.length)
    (hc : e.Carried ctx b off) :
    ∃ x raw' b'', e.exportXml ctx 0 b off = .ok x ∧ x.tag = e.kind.xmlTag ∧ x.name = e.name ∧
      e.importXml rd hex 0 off' x raw b' = (.ok (), raw', b'') ∧ e.SameSettings b off b'' off' := by
  obtain ⟨x, h1, h2, h3, raw', b'', h4, _, h5⟩ := Elem.export_import hrd (hex := hex) e
    (fun q f hq hf => Elem.param_no_children wf hp q f hq hf) (Elem.fits wf fd hp hc hl hl') hraw
  refine ⟨x, raw', b'', h1, h2, h3, h4, ?_⟩
  intro q f o o' hq hf ho ho' c
  exact (h5 q f o o' ⟨hq, hf, ho⟩ ⟨hq, hf, ho'⟩).1 c

/-- Bits outside the element are not changed. -/
theorem Elem.importXml_outside {root e : Elem} (wf : root.WF) {p : Pos} (hp : root.at? p = some e)
    (rd : Reader) (hex raw : Bool) (x : XElem) (b : Board) (off : Nat) :
    (e.importXml rd hex 0 off x raw b).2.2.length = b.length ∧
    ∀ i, i < (e.extent off).1 ∨ (e.extent off).2 ≤ i → (e.importXml rd hex 0 off x raw b).2.2.bit i = b.bit i := by
  have h := Elem.importXml_frame (rd := rd) (hex := hex) e (off := off) (x := x) (raw := raw) (b := b)
    (fun q f o h => Elem.param_bits wf hp h)
  refine ⟨h.1, fun i hi => h.2 i (fun q f o hq => ?_)⟩
  rcases wf.at_cases hp with hw | ⟨nm, t, sy, he, ht⟩
  · have := hw.extent_nested hq.1 hq.2.2
    omega
  · obtain ⟨-, rfl, rfl⟩ := Elem.leaf_param he hq
    exact hi

end PF
