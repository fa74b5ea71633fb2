import Verif.Lemmas.SchemaText
import Verif.Lemmas.XmlRoundTrip
import Verif.Lemmas.Listing

/-! Helper lemmas: the documents that are exported match the schemas. -/

namespace PF
open Spec

theorem Out.of_bind_ok {α β : Type} {x : Out α} {f : α → Out β} {b : β} (h : x.bind f = .ok b) : ∃ a, x = .ok a ∧ f a = .ok b := by
  cases x with
  | ok a => exact ⟨a, rfl, h⟩
  | err => simp [Out.bind] at h
  | abort => simp [Out.bind] at h

/-! ### The texts of parameters -/

theorem getScalarText_rx {t : ScalarType} {ctx : Ctx} {b : Board} {off : Nat} {w : Str} (h : getScalarText t ctx b off = .ok w)
    (hp : ∀ e, t = .float e → ∀ v, readScalar 4 b off = .ok v → FloatShown ctx v) (he : ∀ e, t ≠ .enum e) :
    (t.rx ctx).Matches w := by
  obtain ⟨v, hv, hw⟩ := Out.of_bind_ok h
  refine ScalarType.matches_rx he (fun e hf => ?_) hw
  subst hf
  exact hp e rfl v hv

theorem getElems_rx {t : ScalarType} {ctx : Ctx} {b : Board} {n : Nat} (he : ∀ e, t ≠ .enum e) : ∀ {off : Nat} {ws : List Str},
    getElems t ctx b off n = .ok ws →
    (∀ e, t = .float e → ∀ j v, j < n → readScalar 4 b (off + j * 4) = .ok v → FloatShown ctx v) →
    ∀ w ∈ ws, (t.rx ctx).Matches w := by
  induction n with
  | zero =>
    intro off ws h _ w hw
    simp only [getElems, Out.ok.injEq] at h
    subst h
    simp at hw
  | succ n ih =>
    intro off ws h hp w hw
    obtain ⟨w0, h0, h⟩ := Out.of_bind_ok h
    obtain ⟨ws', h1, h⟩ := Out.of_bind_ok h
    simp only [Out.ok.injEq] at h
    subst h
    rcases List.mem_cons.1 hw with rfl | hw
    · refine getScalarText_rx h0 (fun e hf v hv => hp e hf 0 v (by omega) ?_) he
      simpa using hv
    · refine ih h1 (fun e hf j v hj hv => hp e hf (j + 1) v (by omega) ?_) w hw
      have e4 : t.size = 4 := by rw [hf]; rfl
      rw [e4] at hv
      rw [← hv]
      congr 1
      omega

theorem getElems_length {t : ScalarType} {ctx : Ctx} {b : Board} {n : Nat} : ∀ {off : Nat} {ws : List Str},
    getElems t ctx b off n = .ok ws → ws.length = n := by
  induction n with
  | zero =>
    intro off ws h
    simp only [getElems, Out.ok.injEq] at h
    subst h
    rfl
  | succ n ih =>
    intro off ws h
    obtain ⟨w0, h0, h⟩ := Out.of_bind_ok h
    obtain ⟨ws', h1, h⟩ := Out.of_bind_ok h
    simp only [Out.ok.injEq] at h
    subst h
    simp [ih h1]

theorem scalar_content {t : ScalarType} {ctx : Ctx} {b : Board} {off : Nat} {w : Str}
    (h : getParamText ctx (.scalar t) b off 0 [] = .ok w) (hp : (EKind.scalar t).Presentable ctx b off) : t.Content w := by
  have h' : getScalarText t ctx b off = .ok w := by simpa [getParamText] using h
  have e : w = spaced [w] := by simp [spaced]
  rw [e]
  refine ScalarType.content_spaced (ctx := ctx) (by simp) fun he v hv => ?_
  obtain rfl : v = w := by simpa using hv
  refine getScalarText_rx h' (fun e hf => ?_) he
  subst hf
  exact hp

theorem array_content {t : ArrayType} {ctx : Ctx} {b : Board} {off : Nat} {w : Str} (hl : t.length ≠ 0)
    (h : getParamText ctx (.array t) b off 0 [] = .ok w) (hp : (EKind.array t).Presentable ctx b off) : t.elem.Content w := by
  have h' : getArrayText t ctx b off = .ok w := by simpa [getParamText, arrayAccessGet, arrayIndex] using h
  obtain ⟨ws, hws, hw⟩ := Out.of_bind_ok h'
  simp only [Out.ok.injEq] at hw
  subst hw
  have hlen := getElems_length hws
  refine ScalarType.content_spaced (ctx := ctx) (by intro e; rw [e] at hlen; exact hl hlen.symm) fun he => ?_
  refine getElems_rx he hws fun e hf => ?_
  obtain ⟨el, n⟩ := t
  simp only at hf
  subst hf
  exact hp

theorem bit_content {t : BitType} {ctx : Ctx} {b : Board} {off : Nat} {w : Str}
    (h : getParamText ctx (.bit t) b off 0 [] = .ok w) : IntegerContent w := by
  have h' : getBitText t ctx b off = .ok w := by simpa [getParamText] using h
  obtain ⟨data, _, hw⟩ := Out.of_bind_ok h'
  simp only [Out.ok.injEq] at hw
  subst hw
  unfold BitType.toText IntegerContent
  split
  · refine .inr ?_
    have := matches_spaced (r := Rx.hexadecimal) (ws := [hexText 0 (t.field data).toNat])
      (by simpa using matches_hexText 0 (t.field data).toNat) (by simp)
    simpa [spaced] using this
  · refine .inl ?_
    have := matches_spaced (r := Rx.integer) (ws := [natText (t.field data).toNat])
      (by simpa using matches_natText (t.field data).toNat) (by simp)
    simpa [spaced] using this

/-! ### The elements -/

theorem simple_xml {tag n vs t : Str} {content : Str → Prop} {space : Bool} (hn : NMToken n) (hc : content t)
    (hv : vs = [] ∨ space = true ∧ vs = s "Raw") : SimpleElement tag content space (XElem.mk tag n vs t []).xml where
  tag := by simp [XElem.xml, Xml.tag]
  attrs := by
    rcases hv with rfl | ⟨rfl, rfl⟩
    · refine ⟨by simp [XElem.xml, Xml.attrs], ?_⟩
      simp [XElem.xml, Xml.attrs]
    · refine ⟨?_, ?_⟩
      · have e : (XElem.mk tag n (s "Raw") t []).xml.attrs.map Prod.fst = [s "Name", s "ValueSpace"] := rfl
        rw [e]
        decide
      · simp only [XElem.xml, Xml.attrs]
        rw [if_neg (by decide)]
        simp
  name := ⟨n, by simp [XElem.xml, Xml.attr, Xml.attrs], hn⟩
  space := by
    intro w hw
    rcases hv with rfl | ⟨rfl, rfl⟩
    · simp [XElem.xml, Xml.attr, Xml.attrs] at hw
      simp [s] at hw
    · left
      simp only [XElem.xml, Xml.attr, Xml.attrs] at hw
      rw [if_neg (by decide)] at hw
      simp [s] at hw
      rw [← hw]; rfl
  content := by simpa [XElem.xml, Xml.text] using hc
  children := by simp [XElem.xml, XElem.xmls, Xml.children]

theorem XElem.xmls_eq_map (xs : List XElem) : XElem.xmls xs = xs.map XElem.xml := by
  induction xs with
  | nil => rfl
  | cons x xs ih => simp [XElem.xmls, ih]

theorem Elem.export_head {ctx : Ctx} {b : Board} {e : Elem} {off : Nat} {x : XElem} (h : e.exportXml ctx 0 b off = .ok x) :
    x.name = e.name := by
  cases e with | mk n k sy cs =>
  simp only [Elem.exportXml] at h
  obtain ⟨t, _, h⟩ := Out.of_bind_ok h
  obtain ⟨xs, _, h⟩ := Out.of_bind_ok h
  simp only [Out.ok.injEq] at h
  subst h
  rfl

theorem Elem.exportChildren_spec {ctx : Ctx} {b : Board} : ∀ {cs : List Elem} {off : Nat} {xs : List XElem},
    Elem.exportChildren ctx 0 b cs off = .ok xs → xs.length = cs.length ∧ ∀ (i : Nat) c x, cs[i]? = some c → xs[i]? = some x →
      c.exportXml ctx 0 b (off + Elem.footprints (cs.take i)) = .ok x
  | [], off, xs, h => by
    simp only [Elem.exportChildren, Out.ok.injEq] at h
    subst h
    simp
  | c :: cs, off, xs, h => by
    simp only [Elem.exportChildren] at h
    obtain ⟨x, hx, h⟩ := Out.of_bind_ok h
    obtain ⟨ys, hy, h⟩ := Out.of_bind_ok h
    simp only [Out.ok.injEq] at h
    subst h
    obtain ⟨h1, h2⟩ := exportChildren_spec hy
    refine ⟨by simp [h1], ?_⟩
    intro i d y hd hy
    cases i with
    | zero =>
      simp only [List.getElem?_cons_zero, Option.some.injEq] at hd hy
      subst hd; subst hy
      simpa [Elem.footprints] using hx
    | succ i =>
      simp only [List.getElem?_cons_succ] at hd hy
      have := h2 i d y hd hy
      rw [List.take_succ_cons, Elem.footprints]
      rwa [Nat.add_assoc] at this

/-- The names of the elements are names of the schemas. -/
def Elem.TokenNames (e : Elem) : Prop := ∀ q f, e.at? q = some f → NMToken f.name

theorem Elem.TokenNames.here {e : Elem} (h : e.TokenNames) : NMToken e.name := h [] e (by cases e; rfl)

theorem Elem.TokenNames.child {n : Str} {k : EKind} {sy : Option Nat} {cs : List Elem} {c : Elem} {i : Nat}
    (h : (Elem.mk n k sy cs).TokenNames) (hc : cs[i]? = some c) : c.TokenNames := by
  intro q f hf
  exact h (i :: q) f (by simp [Elem.at?, hc, hf])

theorem Elem.TokenNames.pathName {e : Elem} (h : e.TokenNames) : e.pathName = e.name := by
  unfold Elem.pathName
  rw [if_pos h.here.1]

theorem names_nodup {cs : List Elem} (h : (cs.map Elem.pathName).Nodup) (ht : ∀ c ∈ cs, c.pathName = c.name) :
    (cs.map Elem.name).Nodup := by
  have e : cs.map Elem.pathName = cs.map Elem.name := List.map_congr_left ht
  rwa [e] at h

theorem unique_children {ctx : Ctx} {b : Board} {cs : List Elem} {off : Nat} {xs : List XElem}
    (h : Elem.exportChildren ctx 0 b cs off = .ok xs) (hn : (cs.map Elem.name).Nodup) : UniqueNames (xs.map XElem.xml) := by
  obtain ⟨hl, hx⟩ := Elem.exportChildren_spec h
  unfold UniqueNames
  have e : (xs.map XElem.xml).filterMap (fun x => x.attr (s "Name")) = cs.map Elem.name := by
    have e1 : (xs.map XElem.xml).filterMap (fun x => x.attr (s "Name")) = xs.map XElem.name := by
      rw [List.filterMap_map, ← List.filterMap_eq_map]
      apply List.filterMap_congr
      intro x _
      cases x
      simp [XElem.xml, Xml.attr, Xml.attrs, XElem.name]
    rw [e1]
    apply List.ext_getElem?
    intro i
    rw [List.getElem?_map, List.getElem?_map]
    by_cases hi : i < cs.length
    · have h1 : cs[i]? = some cs[i] := List.getElem?_eq_getElem hi
      have h2 : xs[i]? = some (xs[i]'(by omega)) := List.getElem?_eq_getElem (by omega)
      rw [h1, h2]
      simp only [Option.map_some, Option.some.injEq]
      exact Elem.export_head (hx i _ _ h1 h2)
    · rw [List.getElem?_eq_none (by omega), List.getElem?_eq_none (by omega)]
      rfl
  rw [e]
  exact hn

theorem Elem.export_bit {ctx : Ctx} {b : Board} {n : Str} {t : BitType} {sy : Option Nat} {off : Nat} {x : XElem} (hn : NMToken n)
    (h : (Elem.mk n (.bit t) sy []).exportXml ctx 0 b off = .ok x) : BitElement x.xml := by
  simp only [Elem.exportXml, EKind.isParameter, if_true] at h
  obtain ⟨w, hw, h⟩ := Out.of_bind_ok h
  simp only [Elem.exportChildren, Out.bind, Out.ok.injEq] at h
  subst h
  exact simple_xml hn (bit_content hw) (.inl rfl)

theorem at_child {n : Str} {k : EKind} {sy : Option Nat} {cs : List Elem} {c : Elem} {i off : Nat} {P : EKind → Nat → Prop}
    (h : ∀ q f o, (Elem.mk n k sy cs).at? q = some f → (Elem.mk n k sy cs).offset off q = some o → P f.kind o) (hc : cs[i]? = some c) :
    ∀ q f o, c.at? q = some f → c.offset (off + Elem.footprints (cs.take i)) q = some o → P f.kind o := by
  intro q f o hf ho
  exact h (i :: q) f o (by simp [Elem.at?, hc, hf]) (by simp [Elem.offset, hc, ho])

theorem group_attrs {tag n : Str} {xs : List XElem} (hn : NMToken n) : OnlyAttrs (XElem.mk tag n [] [] xs).xml [s "Name"] ∧
    Required (XElem.mk tag n [] [] xs).xml (s "Name") NMToken :=
  ⟨⟨by simp [XElem.xml, Xml.attrs], by simp [XElem.xml, Xml.attrs]⟩, n, by simp [XElem.xml, Xml.attr, Xml.attrs], hn⟩

theorem scalar_element {ctx : Ctx} {n w : Str} (hn : NMToken n) {k : EKind} {t : ScalarType}
    (hk : k.xmlTag = t.kindText) (hv : k.hasValueSpace = (EKind.scalar t).hasValueSpace) (hc : t.Content w) :
    ParameterElement (XElem.mk k.xmlTag n (if (k.hasValueSpace && ctx.raw) = true then s "Raw" else []) w []).xml := by
  rw [hk, hv]
  cases t with
  | bool => exact .bool (simple_xml hn hc (.inl rfl))
  | int t => exact .int (simple_xml hn hc (.inl rfl))
  | enum t => exact .enum (simple_xml hn hc (.inl rfl))
  | fixed t =>
    refine .fixed (simple_xml hn hc ?_)
    simp only [EKind.hasValueSpace, Bool.true_and]
    split
    · exact .inr ⟨trivial, rfl⟩
    · exact .inl rfl
  | float t =>
    refine .float (simple_xml hn hc ?_)
    simp only [EKind.hasValueSpace, Bool.true_and]
    split
    · exact .inr ⟨trivial, rfl⟩
    · exact .inl rfl

/-- The settings of an element are as the schemas want them. -/
theorem Elem.export_valid {ctx : Ctx} {b : Board} {e : Elem} (hk : e.Known) : ∀ {off : Nat} {x : XElem}, e.WF → e.GoodNames →
    e.TokenNames → (∀ q f o, e.at? q = some f → e.offset off q = some o → f.kind.Presentable ctx b o) →
    e.exportXml ctx 0 b off = .ok x → ParameterElement x.xml := by
  induction hk with
  | @group n k sy cs hkind hne _ ih =>
    intro off x wf g ht hp h
    have hgroup : (EKind.group k).xmlTag = s "ParameterBlock" := by
      rcases hkind with rfl | rfl <;> decide
    simp only [Elem.exportXml, EKind.isParameter, Bool.false_eq_true, if_false, Out.bind, hgroup, EKind.hasValueSpace,
      Bool.false_and] at h
    obtain ⟨xs, hxs, h⟩ := Out.of_bind_ok (f := fun xs => Out.ok (XElem.mk (s "ParameterBlock") n [] [] xs)) h
    simp only [Out.ok.injEq] at h
    subst h
    obtain ⟨hl, hx⟩ := Elem.exportChildren_spec hxs
    cases wf with | group hwf _ =>
    cases g with | mk _ _ hnd hg =>
    have hch : (XElem.mk (s "ParameterBlock") n [] [] xs).xml.children = xs.map XElem.xml := by
      simp [XElem.xml, Xml.children, XElem.xmls_eq_map]
    refine .block (by simp [XElem.xml, Xml.tag]) (group_attrs ht.here).1 (group_attrs ht.here).2 (by simp [XElem.xml, Xml.text]) ?_ ?_ ?_
    · rw [hch]
      intro e
      rw [List.map_eq_nil_iff] at e
      rw [e] at hl
      exact hne (List.length_eq_zero_iff.1 hl.symm)
    · rw [hch]
      intro y hy
      obtain ⟨z, hz, rfl⟩ := List.mem_map.1 hy
      obtain ⟨i, hi⟩ := List.mem_iff_getElem?.1 hz
      have hlt : i < cs.length := by
        rw [← hl]; exact (List.getElem?_eq_some_iff.1 hi).1
      have hc : cs[i]? = some cs[i] := List.getElem?_eq_getElem hlt
      have hm : cs[i] ∈ cs := List.getElem_mem hlt
      exact ih _ hm (hwf _ hm) (hg _ hm) (ht.child hc) (at_child (P := fun k o => k.Presentable ctx b o) hp hc) (hx i _ _ hc hi)
    · rw [hch]
      refine unique_children hxs (names_nodup hnd fun c hc => ?_)
      obtain ⟨i, hi⟩ := List.mem_iff_getElem?.1 hc
      exact (ht.child hi).pathName
  | @bitBlock n size sy cs hne =>
    intro off x wf g ht hp h
    simp only [Elem.exportXml, EKind.isParameter, Bool.false_eq_true, if_false, Out.bind, EKind.hasValueSpace,
      Bool.false_and] at h
    obtain ⟨xs, hxs, h⟩ := Out.of_bind_ok (f := fun xs => Out.ok (XElem.mk (EKind.bitBlock size).xmlTag n [] [] xs)) h
    simp only [Out.ok.injEq] at h
    subst h
    obtain ⟨hl, hx⟩ := Elem.exportChildren_spec hxs
    cases wf with | bitBlock _ hwf =>
    cases g with | mk _ _ hnd hg =>
    have hch : (XElem.mk (EKind.bitBlock size).xmlTag n [] [] xs).xml.children = xs.map XElem.xml := by
      simp [XElem.xml, Xml.children, XElem.xmls_eq_map]
    refine .bits rfl (group_attrs ht.here).1 (group_attrs ht.here).2
      (by simp [XElem.xml, Xml.text]) ?_ ?_ ?_
    · rw [hch]
      intro e
      rw [List.map_eq_nil_iff] at e
      rw [e] at hl
      exact hne (List.length_eq_zero_iff.1 hl.symm)
    · rw [hch]
      intro y hy
      obtain ⟨z, hz, rfl⟩ := List.mem_map.1 hy
      obtain ⟨i, hi⟩ := List.mem_iff_getElem?.1 hz
      have hlt : i < cs.length := by
        rw [← hl]; exact (List.getElem?_eq_some_iff.1 hi).1
      have hc : cs[i]? = some cs[i] := List.getElem?_eq_getElem hlt
      have hm : cs[i] ∈ cs := List.getElem_mem hlt
      have hexp := hx i _ _ hc hi
      obtain ⟨nm, t, cy, he, _, _⟩ := hwf _ hm
      have htok := (ht.child hc).here
      rw [he] at hexp htok
      exact Elem.export_bit htok hexp
    · rw [hch]
      refine unique_children hxs (names_nodup hnd fun c hc => ?_)
      obtain ⟨i, hi⟩ := List.mem_iff_getElem?.1 hc
      exact (ht.child hi).pathName
  | bit => intro off x wf; cases wf
  | @scalar n t sy cs =>
    intro off x wf g ht hp h
    cases wf with | scalar _ =>
    simp only [Elem.exportXml, EKind.isParameter, if_true] at h
    obtain ⟨w, hw, h⟩ := Out.of_bind_ok h
    simp only [Elem.exportChildren, Out.bind, Out.ok.injEq] at h
    subst h
    have hpres := hp [] _ off rfl rfl
    exact scalar_element ht.here (k := .scalar t) (by cases t <;> rfl) rfl (scalar_content hw hpres)
  | @array n t sy cs hlen =>
    intro off x wf g ht hp h
    cases wf with | array _ =>
    simp only [Elem.exportXml, EKind.isParameter, if_true] at h
    obtain ⟨w, hw, h⟩ := Out.of_bind_ok h
    simp only [Elem.exportChildren, Out.bind, Out.ok.injEq] at h
    subst h
    have hpres := hp [] _ off rfl rfl
    obtain ⟨el, len⟩ := t
    exact scalar_element ht.here (k := .array ⟨el, len⟩) (t := el) (by cases el <;> rfl) (by cases el <;> rfl)
      (array_content hlen hw hpres)
  | @string n m sy cs =>
    intro off x wf g ht hp h
    cases wf with | string =>
    simp only [Elem.exportXml, EKind.isParameter, if_true] at h
    obtain ⟨w, hw, h⟩ := Out.of_bind_ok h
    simp only [Elem.exportChildren, Out.bind, Out.ok.injEq] at h
    subst h
    exact .string (simple_xml ht.here trivial (.inl rfl))

end PF
