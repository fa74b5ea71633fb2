import Verif.Spec.Answer
import Verif.Lemmas.XmlFits
import Verif.Lemmas.Lookup
import Verif.Lemmas.Listing

/-! # Reads that are answered -/

namespace PF
open Spec

theorem cString_some {bs : List Byte} (h : 0#8 ∈ bs) : ∃ t, cString bs = some t := by
  induction bs with
  | nil => simp at h
  | cons b bs ih =>
    unfold cString
    split
    · exact ⟨_, rfl⟩
    · rename_i hb
      rcases List.mem_cons.1 h with h1 | h1
      · exact absurd h1.symm hb
      · obtain ⟨t, ht⟩ := ih h1
        exact ⟨_, by rw [ht]; rfl⟩

theorem Spec.Ends.read {b : Board} {off n : Nat} (h : Ends b off n) : ∃ t, getString b off = .ok t := by
  obtain ⟨j, h1, _, h3⟩ := h
  have hj : j < b.length := by
    rcases Nat.lt_or_ge j b.length with h | h
    · exact h
    · rw [List.getElem?_eq_none h] at h3; simp at h3
  have hm : 0#8 ∈ b.drop off := by
    apply List.mem_of_getElem? (i := j - off)
    rw [List.getElem?_drop, show off + (j - off) = j by omega]
    exact h3
  obtain ⟨t, ht⟩ := cString_some hm
  refine ⟨t, ?_⟩
  unfold getString Board.readString
  rw [if_pos (by omega), ht]

theorem readScalar_room {size : Nat} {b : Board} {off : Nat} (h : off + size ≤ b.length) :
    ∃ v, readScalar size b off = .ok v := by
  unfold readScalar Board.read
  rw [if_pos h]
  exact ⟨_, rfl⟩

/-- The format does not need the mask of an enumeration of 32 bits. -/
def Ctx.Shows (ctx : Ctx) (t : ScalarType) : Prop := ctx.raw = true → ctx.hex = true → ∀ u, t = .enum u → ¬ 4 ≤ u.size

theorem getScalarText_answers {t : ScalarType} {ctx : Ctx} {b : Board} {off : Nat} (h : off + t.size ≤ b.length)
    (hs : ctx.Shows t) : ∃ w, getScalarText t ctx b off = .ok w := by
  obtain ⟨v, hv⟩ := readScalar_room h
  unfold getScalarText
  rw [hv]
  simp only [Out.bind]
  cases t with
  | enum u =>
    simp only [ScalarType.toText, EnumType.toText]
    by_cases h1 : ctx.raw = true
    · by_cases h2 : ctx.hex = true
      · rw [if_pos h1, if_pos h2, if_neg (hs h1 h2 u rfl)]; exact ⟨_, rfl⟩
      · rw [if_pos h1, if_neg h2]; exact ⟨_, rfl⟩
    · rw [if_neg h1]; exact ⟨_, rfl⟩
  | _ => exact ⟨_, rfl⟩

theorem getElems_answers {t : ScalarType} {ctx : Ctx} {b : Board} (hs : ctx.Shows t) (n : Nat) {off : Nat}
    (h : off + t.size * n ≤ b.length) : ∃ ws, getElems t ctx b off n = .ok ws := by
  induction n generalizing off with
  | zero => exact ⟨_, rfl⟩
  | succ n ih =>
    rw [Nat.mul_succ] at h
    obtain ⟨w, hw⟩ := getScalarText_answers (t := t) (ctx := ctx) (b := b) (off := off) (by omega) hs
    obtain ⟨ws, hws⟩ := ih (off := off + t.size) (by omega)
    exact ⟨w :: ws, by simp [getElems, hw, hws, Out.bind]⟩

/-- What a kind needs to be read at an offset. -/
structure Readable (ctx : Ctx) (k : EKind) (b : Board) (off : Nat) : Prop where
  room : off + k.room ≤ b.length
  ends : ∀ n, k = .string n → Ends b off n
  scalar : ∀ t, k = .scalar t → ctx.Shows t
  array : ∀ t, k = .array t → ctx.Shows t.elem

theorem getParamText_answers {ctx : Ctx} {k : EKind} {b : Board} {off : Nat} (hk : k.isParameter = true)
    (h : Readable ctx k b off) : ∃ t, getParamText ctx k b off 0 [] = .ok t := by
  have hr := h.room
  cases k with
  | group g => simp [EKind.isParameter] at hk
  | bitBlock g => simp [EKind.isParameter] at hk
  | scalar t =>
    simp only [getParamText, ne_eq, not_true, if_false, Nat.not_lt_zero, Nat.sub_zero]
    exact getScalarText_answers hr (h.scalar t rfl)
  | array t =>
    simp only [getParamText, arrayAccessGet, arrayIndex, Nat.not_lt_zero, if_false, Nat.sub_zero]
    obtain ⟨ws, hw⟩ := getElems_answers (h.array t rfl) t.length (off := off) (b := b) hr
    exact ⟨spaced ws, by simp [getArrayText, hw, Out.bind]⟩
  | string n =>
    simp only [getParamText, ne_eq, not_true, if_false, Nat.not_lt_zero, Nat.sub_zero]
    obtain ⟨t, ht⟩ := (h.ends n rfl).read
    exact ⟨_, by rw [ht]; rfl⟩
  | bit t =>
    simp only [getParamText, ne_eq, not_true, if_false, Nat.not_lt_zero, Nat.sub_zero, getBitText, BitType.readBlock,
      Board.read]
    have hr' : off + t.blockSize ≤ b.length := hr
    rw [if_pos hr']
    exact ⟨_, rfl⟩

/-- With what is left of a path after the parameter, the read may fail. -/
theorem getParamText_items {ctx : Ctx} {k : EKind} {b : Board} {off : Nat} (h : Readable ctx k b off) (items : List Str) :
    getParamText ctx k b off 0 items ≠ .abort := by
  by_cases hi : items = []
  · subst hi
    by_cases hk : k.isParameter = true
    · obtain ⟨t, ht⟩ := getParamText_answers hk h
      rw [ht]; simp
    · cases k <;> simp [EKind.isParameter] at hk <;> simp [getParamText]
  · cases k with
    | array t =>
      simp only [getParamText, arrayAccessGet]
      split
      · simp
      · rename_i ha
        cases items with
        | nil => exact absurd rfl hi
        | cons a r =>
          simp only [arrayIndex] at ha
          repeat' split at ha
          all_goals simp at ha
      · rename_i i ha
        have hlt : i < t.length := by
          cases items with
          | nil => exact absurd rfl hi
          | cons a r =>
            simp only [arrayIndex] at ha
            split at ha
            · simp at ha
            · rename_i j _
              split at ha
              · simp at ha
              · rename_i hj
                split at ha
                · simp at ha
                · simp only [Option.some.injEq] at ha; omega
        have hr := h.room
        simp only [EKind.room, ArrayType.footprint] at hr
        have hm : (i + 1) * t.elem.size ≤ t.elem.size * t.length := by
          rw [Nat.mul_comm t.elem.size]; exact Nat.mul_le_mul_right _ hlt
        rw [Nat.add_mul, Nat.one_mul] at hm
        obtain ⟨w, hw⟩ := getScalarText_answers (t := t.elem) (ctx := ctx) (b := b) (off := off + i * t.elem.size)
          (by omega) (h.array t rfl)
        rw [hw]; simp
    | _ => simp [getParamText, hi]

/-! ## Documents of settings -/

mutual
theorem Elem.exportXml_answers {ctx : Ctx} {b : Board} (e : Elem) {off : Nat}
    (h : ∀ q f o, e.Param off q f o → Readable ctx f.kind b o) : ∃ x, e.exportXml ctx 0 b off = .ok x := by
  cases e with | mk n k sy cs =>
  unfold Elem.exportXml
  obtain ⟨xs, hx⟩ := Elem.exportChildren_answers (ctx := ctx) (b := b) cs (off := off) (fun q f o hp => by
    cases q with
    | nil => simp [Elem.Params] at hp
    | cons j q => exact h (j :: q) f o (Elem.param_cons.2 hp))
  rw [hx]
  by_cases hk : k.isParameter = true
  · obtain ⟨t, ht⟩ := getParamText_answers hk (h [] (.mk n k sy cs) off ⟨rfl, hk, rfl⟩)
    rw [if_pos hk]
    have ht' : getParamText ctx k b off 0 [] = .ok t := ht
    rw [ht']
    exact ⟨_, rfl⟩
  · rw [if_neg hk]
    exact ⟨_, rfl⟩
theorem Elem.exportChildren_answers {ctx : Ctx} {b : Board} (cs : List Elem) {off : Nat}
    (h : ∀ q f o, Elem.Params cs off q f o → Readable ctx f.kind b o) : ∃ xs, Elem.exportChildren ctx 0 b cs off = .ok xs := by
  cases cs with
  | nil => exact ⟨[], rfl⟩
  | cons c cs =>
    obtain ⟨x, hx⟩ := Elem.exportXml_answers (ctx := ctx) (b := b) c (off := off) (fun q f o hp =>
      h (0 :: q) f o (Elem.params_zero.2 hp))
    obtain ⟨xs, hxs⟩ := Elem.exportChildren_answers (ctx := ctx) (b := b) cs (off := off + c.footprint) (fun q f o hp => by
      cases q with
      | nil => simp [Elem.Params] at hp
      | cons j q => exact h ((j + 1) :: q) f o (Elem.params_succ.2 hp))
    exact ⟨x :: xs, by simp [Elem.exportChildren, hx, hxs, Out.bind]⟩
end

theorem Spec.FormatFits.shows {root : Elem} {ctx : Ctx} (hf : FormatFits root ctx) {p : Pos} {e : Elem} (he : root.at? p = some e) :
    (∀ t, e.kind = .scalar t → ctx.Shows t) ∧ ∀ t, e.kind = .array t → ctx.Shows t.elem := by
  constructor
  · intro t ht h1 h2 u hu h4
    refine hf h1 h2 p e he ?_
    rw [ht, hu]; exact h4
  · intro t ht h1 h2 u hu h4
    refine hf h1 h2 p e he ?_
    obtain ⟨el, n⟩ := t
    simp only at hu
    subst hu
    rw [ht]; exact h4

/-- A parameter below `p` is read in a memory that has the element of `p` at offset 0. -/
theorem readable_area {root e : Elem} (wf : root.WF) {ctx : Ctx} (hf : FormatFits root ctx) {p : Pos} (hp : root.at? p = some e)
    {base : Nat} (hb : root.offset 0 p = some base) {b : Board} (hl : b.length = e.areaSize)
    (ends : ∀ q f n off, p <+: q → root.at? q = some f → f.kind = .string n → root.offset 0 q = some off → Ends b (off - base) n)
    {q : Pos} {f : Elem} {o : Nat} (h : e.Param 0 q f o) : Readable ctx f.kind b o := by
  have hat : root.at? (p ++ q) = some f := by rw [Elem.at?_append, hp]; exact h.1
  have hoff : root.offset 0 (p ++ q) = some (base + o) := by
    rw [Elem.offset_append, hb, hp]
    exact Elem.offset_shift h.2.2
  refine ⟨?_, ?_, (hf.shows hat).1, (hf.shows hat).2⟩
  · have := Elem.param_room wf hp h; omega
  · intro n hn
    have := ends (p ++ q) f n (base + o) (List.prefix_append _ _) hat hn hoff
    rwa [Nat.add_sub_cancel_left] at this

/-- A parameter is read in the main memory. -/
theorem readable_main {root : Elem} (wf : root.WF) {ctx : Ctx} (hf : FormatFits root ctx) {b : Board}
    (hl : b.length = root.footprint)
    (ends : ∀ q f n off, root.at? q = some f → f.kind = .string n → root.offset 0 q = some off → Ends b off n)
    {q : Pos} {f : Elem} {o : Nat} (hq : root.at? q = some f) (hk : f.kind.isParameter = true) (ho : root.offset 0 q = some o) :
    Readable ctx f.kind b o := by
  refine readable_area (p := []) (e := root) (base := 0) wf hf (by cases root; rfl) (by simp [Elem.offset])
    (by rw [hl, wf.areaSize_self]) (fun q f n off _ h1 h2 h3 => by simpa using ends q f n off h1 h2 h3) (q := q)
    ⟨hq, hk, ho⟩

/-! ## Texts of parameters -/

theorem Spec.StringsEnd.readable {root : Elem} (wf : root.WF) {st : St} (hs : StringsEnd root st)
    (hl : st.mem.main.length = root.footprint) {ctx : Ctx} (hf : FormatFits root ctx) {q : Pos} {f : Elem} {o : Nat}
    (hq : root.at? q = some f) (hk : f.kind.isParameter = true) (ho : root.offset 0 q = some o) :
    Readable ctx f.kind st.mem.main o :=
  readable_main wf hf hl (fun q f n off h1 h2 h3 => hs.main q f n off h1 h2 h3) hq hk ho

theorem getText_answers {root : Elem} (wf : root.WF) {st : St} (hs : StringsEnd root st)
    (hl : st.mem.main.length = root.footprint) {ctx : Ctx} (hf : FormatFits root ctx) (path : Str) :
    Elem.getText ctx root 0 st.mem.main path ≠ .abort ∧
    ∀ p, root.accessTarget path = some (p, []) → ∃ t, Elem.getText ctx root 0 st.mem.main path = .ok t := by
  unfold Elem.getText
  cases ht : root.accessTarget path with
  | none => exact ⟨by simp, by simp⟩
  | some r =>
    obtain ⟨p, items⟩ := r
    obtain ⟨f, h1, h2⟩ := Elem.accessTarget_at ht
    obtain ⟨o, ho⟩ := Elem.offset_of_at (off := 0) h1
    have hr := hs.readable wf hl hf h1 h2 ho
    simp only [h1, ho]
    refine ⟨getParamText_items hr items, fun p' he => ?_⟩
    simp only [Option.some.injEq, Prod.mk.injEq] at he
    rw [he.2]
    exact getParamText_answers h2 hr

theorem St.Inv.area_sized {root : Elem} {st : St} (inv : st.Inv root) {d : Domain} (hd : d ∈ st.domains) {c : Config}
    (hc : c ∈ d.configs) {a : Area} (ha : a ∈ c.areas) :
    ∃ e base, root.at? a.elem = some e ∧ root.offset 0 a.elem = some base ∧ a.board.length = e.areaSize := by
  obtain ⟨e, he, hl⟩ := ((inv.good d hd).ok c hc).sized a ha
  obtain ⟨base, hb⟩ := Elem.offset_of_at (off := 0) he
  exact ⟨e, base, he, hb, hl⟩

theorem getConfigParam_answers {root : Elem} (wf : root.WF) {st : St} (inv : st.Inv root) (hs : StringsEnd root st)
    {ctx : Ctx} (hf : FormatFits root ctx) (dom conf path : Str) : st.getConfigParam root ctx dom conf path ≠ .abort := by
  unfold St.getConfigParam
  cases hb : st.findBlackboard root dom conf path with
  | none => simp
  | some r =>
    obtain ⟨d, c, q, isLast⟩ := r
    obtain ⟨p, hp, hd, hc, hq, hqp, _⟩ := St.findBlackboard_spec hb
    have hdm := (St.findDomain_mem hd).1
    have hcm := (Domain.findConfig_mem hc).1
    have hm := (((inv.good d hdm).ok c hcm).mem q).2 hq
    obtain ⟨a, ha, hae⟩ := List.mem_map.1 hm
    have haq : c.area? q = some a := (find_elem ((inv.good d hdm).ok c hcm).nodup).2 ⟨ha, hae⟩
    obtain ⟨e, base, he, hbase, hl⟩ := inv.area_sized hdm hcm ha
    rw [hae] at he hbase
    simp only [haq, hbase]
    have h1 : Elem.getText ctx root base a.board path ≠ .abort := by
      unfold Elem.getText
      cases ht : root.accessTarget path with
      | none => simp
      | some r =>
        obtain ⟨p', items⟩ := r
        obtain ⟨rfl, rfl⟩ := wf.access_locate hp ht
        obtain ⟨f, h1, h2⟩ := Elem.accessTarget_at ht
        obtain ⟨o, ho⟩ := Elem.offset_of_at (off := 0) h1
        simp only [h1, ho]
        have hle := Elem.offset_le wf hqp he h1 hbase ho
        rw [getParamText_base hle]
        obtain ⟨r, rfl⟩ := hqp
        have hpar : e.Param 0 r f (o - base) := by
          refine ⟨by rw [Elem.at?_append, he] at h1; exact h1, h2, ?_⟩
          rw [Elem.at?_append, he] at h1
          simp only [Option.bind_some] at h1
          obtain ⟨v, hv⟩ := Elem.offset_of_at (off := 0) h1
          rw [Elem.offset_append, hbase, he] at ho
          simp only [Option.bind_some] at ho
          rw [Elem.offset_shift hv] at ho
          simp only [Option.some.injEq] at ho
          rw [hv, ← ho, Nat.add_sub_cancel_left]
        have hr := readable_area wf hf he hbase hl (fun q' f n off k1 k2 k3 k4 =>
          hs.settings d hdm c hcm a ha q' f n base off (by rw [hae]; exact k1) k2 k3 (by rw [hae]; exact hbase) k4) hpar
        obtain ⟨t, ht'⟩ := getParamText_answers h2 hr
        rw [ht']; simp
    cases ht : Elem.getText ctx root base a.board path with
    | abort => exact absurd ht h1
    | err => simp [Out.bind]
    | ok t =>
      simp only [Out.bind]
      split
      · exact (getText_answers wf hs inv.main hf path).1
      · simp

/-! ## Exports -/

theorem getXml_answers {root e : Elem} (wf : root.WF) {st : St} (inv : st.Inv root) (hs : StringsEnd root st)
    {ctx : Ctx} (hf : FormatFits root ctx) {p : Pos} (he : root.at? p = some e) :
    ∃ x, root.getXml ctx st.mem.main p = .ok x := by
  obtain ⟨off, ho⟩ := Elem.offset_of_at (off := 0) he
  unfold Elem.getXml
  simp only [he, ho]
  refine Elem.exportXml_answers e (fun q f o h => ?_)
  refine hs.readable wf inv.main hf (q := p ++ q) (by rw [Elem.at?_append, he]; exact h.1) h.2.1 ?_
  rw [Elem.offset_append, ho, he]
  exact h.2.2

theorem Area.toXml_answers {root : Elem} (wf : root.WF) {st : St} (inv : st.Inv root) (hs : StringsEnd root st)
    {ctx : Ctx} (hf : FormatFits root ctx) {d : Domain} (hd : d ∈ st.domains) {c : Config}
    (hc : c ∈ d.configs) {a : Area} (ha : a ∈ c.areas) : ∃ x, a.toXml root ctx = .ok x := by
  obtain ⟨e, base, he, hbase, hl⟩ := inv.area_sized hd hc ha
  unfold Area.toXml
  rw [he, hbase, Elem.path_some he]
  simp only
  rw [Elem.exportXml_base e (Nat.le_refl base), Nat.sub_self]
  obtain ⟨x, hx⟩ := Elem.exportXml_answers (ctx := ctx) (b := a.board) e (off := 0) (fun q f o h =>
    readable_area wf hf he hbase hl (fun q' f n off k1 k2 k3 k4 => hs.settings d hd c hc a ha q' f n base off k1 k2 k3 hbase k4) h)
  rw [hx]
  exact ⟨_, rfl⟩

theorem areasToXml_answers {root : Elem} {ctx : Ctx} {as : List Area} (h : ∀ a ∈ as, ∃ x, a.toXml root ctx = .ok x) :
    ∃ xs, areasToXml root ctx as = .ok xs := by
  induction as with
  | nil => exact ⟨[], rfl⟩
  | cons a as ih =>
    obtain ⟨x, hx⟩ := h a (by simp)
    obtain ⟨xs, hxs⟩ := ih (fun a ha => h a (by simp [ha]))
    exact ⟨x :: xs, by simp [areasToXml, hx, hxs, Out.bind]⟩

theorem settingsToXml_answers {root : Elem} {ctx : Ctx} {l : List Config}
    (h : ∀ c ∈ l, ∀ a ∈ c.areas, ∃ x, a.toXml root ctx = .ok x) : ∃ xs, settingsToXml root ctx l = .ok xs := by
  induction l with
  | nil => exact ⟨[], rfl⟩
  | cons c l ih =>
    obtain ⟨x, hx⟩ := areasToXml_answers (h c (by simp))
    obtain ⟨xs, hxs⟩ := ih (fun a ha => h a (by simp [ha]))
    unfold settingsToXml
    rw [hx, hxs]
    exact ⟨_, rfl⟩

mutual
theorem Rule.toXml_answers {cs : List Criterion} (r : Rule) (h : Refs cs r) : ∃ x, r.toXml cs = some x := by
  cases r with
  | crit i v n =>
    cases h with | crit _ _ _ hi =>
    unfold Rule.toXml
    rw [List.getElem?_eq_getElem hi]
    exact ⟨_, rfl⟩
  | compound all rs =>
    cases h with | compound _ _ hrs =>
    obtain ⟨xs, hx⟩ := Rule.toXmlAll_answers rs hrs
    unfold Rule.toXml
    rw [hx]
    exact ⟨_, rfl⟩
theorem Rule.toXmlAll_answers {cs : List Criterion} (rs : List Rule) (h : ∀ r ∈ rs, Refs cs r) :
    ∃ xs, Rule.toXmlAll cs rs = some xs := by
  cases rs with
  | nil => exact ⟨[], by unfold Rule.toXmlAll; rfl⟩
  | cons r rs =>
    obtain ⟨x, hx⟩ := Rule.toXml_answers r (h r (by simp))
    obtain ⟨xs, hxs⟩ := Rule.toXmlAll_answers rs (fun r hr => h r (by simp [hr]))
    unfold Rule.toXmlAll
    rw [hx, hxs]
    exact ⟨_, rfl⟩
end

theorem configsToXml_answers {cs : List Criterion} {l : List Config} (h : RulesOK cs l) : ∃ xs, configsToXml cs l = .ok xs := by
  induction l with
  | nil => exact ⟨[], rfl⟩
  | cons c l ih =>
    obtain ⟨xs, hxs⟩ := ih (fun a ha => h a (by simp [ha]))
    have : ∃ x, c.toXml cs = some x := by
      unfold Config.toXml
      cases hr : c.rule with
      | none => exact ⟨_, rfl⟩
      | some r =>
        obtain ⟨x, hx⟩ := Rule.toXml_answers r (h c (by simp) r hr).refs
        simp only [hx, Option.map_some]
        exact ⟨_, rfl⟩
    obtain ⟨x, hx⟩ := this
    exact ⟨x :: xs, by simp [configsToXml, hx, hxs, Out.bind]⟩

theorem elemsToXml_answers {root : Elem} {l : List Pos} (h : ∀ p ∈ l, ∃ e, root.at? p = some e) :
    ∃ xs, elemsToXml root l = .ok xs := by
  induction l with
  | nil => exact ⟨[], rfl⟩
  | cons p l ih =>
    obtain ⟨xs, hxs⟩ := ih (fun a ha => h a (by simp [ha]))
    obtain ⟨e, he⟩ := h p (by simp)
    unfold elemsToXml
    rw [Elem.path_some he, hxs]
    exact ⟨_, rfl⟩

theorem Domain.toXml_answers {root : Elem} (wf : root.WF) {st : St} (inv : st.Inv root) (hs : StringsEnd root st)
    {ctx : Ctx} (hf : FormatFits root ctx) {d : Domain} (hd : d ∈ st.domains) (withSettings : Bool) :
    ∃ x, d.toXml root st.criteria ctx withSettings = .ok x := by
  obtain ⟨x1, h1⟩ := configsToXml_answers (inv.rules d hd)
  obtain ⟨x2, h2⟩ := elemsToXml_answers (inv.good d hd).at_
  obtain ⟨x3, h3⟩ := settingsToXml_answers (root := root) (ctx := ctx) (l := d.configs) (fun c hc a ha =>
    Area.toXml_answers wf inv hs hf hd hc ha)
  unfold Domain.toXml
  rw [h1, h2, h3]
  cases withSettings <;> exact ⟨_, rfl⟩

theorem domainsToXml_answers {root : Elem} {cs : List Criterion} {ctx : Ctx} {ws : Bool} {l : List Domain}
    (h : ∀ d ∈ l, ∃ x, d.toXml root cs ctx ws = .ok x) : ∃ xs, domainsToXml root cs ctx ws l = .ok xs := by
  induction l with
  | nil => exact ⟨[], rfl⟩
  | cons d l ih =>
    obtain ⟨x, hx⟩ := h d (by simp)
    obtain ⟨xs, hxs⟩ := ih (fun a ha => h a (by simp [ha]))
    exact ⟨x :: xs, by simp [domainsToXml, hx, hxs, Out.bind]⟩

theorem exportDomains_answers {root : Elem} (wf : root.WF) {st : St} (inv : st.Inv root) (hs : StringsEnd root st)
    {ctx : Ctx} (hf : FormatFits root ctx) (withSettings : Bool) : ∃ x, st.exportDomains root ctx withSettings = .ok x := by
  obtain ⟨xs, hx⟩ := domainsToXml_answers (root := root) (cs := st.criteria) (ctx := ctx) (ws := withSettings) (l := st.domains)
    (fun d hd => Domain.toXml_answers wf inv hs hf hd withSettings)
  unfold St.exportDomains
  rw [hx]
  exact ⟨_, rfl⟩

/-! ## Dumps -/

mutual
theorem Elem.dump_answers {root : Elem} {ctx : Ctx} {b : Board} (e : Elem) (p : Pos) (depth : Nat)
    (h : ∀ q f, e.at? q = some f → ∃ t, root.logValue ctx b (p ++ q) f.kind = .ok t) :
    ∃ t, Elem.dump root ctx b depth p e = .ok t := by
  cases e with | mk n k sy cs =>
  obtain ⟨v, hv⟩ := h [] (.mk n k sy cs) rfl
  obtain ⟨t, ht⟩ := Elem.dumpAll_answers (root := root) (ctx := ctx) (b := b) cs p 0 (depth + 1)
    (fun j c hj q f hq => by
      have := h (j :: q) f (by simp [Elem.at?, hj, hq])
      simpa using this)
  rw [List.append_nil] at hv
  have hv' : root.logValue ctx b p k = .ok v := hv
  unfold Elem.dump
  rw [hv', ht]
  exact ⟨_, rfl⟩
theorem Elem.dumpAll_answers {root : Elem} {ctx : Ctx} {b : Board} (cs : List Elem) (p : Pos) (i depth : Nat)
    (h : ∀ (j : Nat) c, cs[j]? = some c → ∀ q f, c.at? q = some f → ∃ t, root.logValue ctx b (p ++ (i + j) :: q) f.kind = .ok t) :
    ∃ t, Elem.dumpAll root ctx b depth p i cs = .ok t := by
  cases cs with
  | nil => exact ⟨[], by unfold Elem.dumpAll; rfl⟩
  | cons c cs =>
    obtain ⟨t, ht⟩ := Elem.dump_answers (root := root) (ctx := ctx) (b := b) c (p ++ [i]) depth (fun q f hq => by
      have := h 0 c (by simp) q f hq
      simpa using this)
    obtain ⟨u, hu⟩ := Elem.dumpAll_answers (root := root) (ctx := ctx) (b := b) cs p (i + 1) depth
      (fun j c hj q f hq => by
        have := h (j + 1) c (by simpa using hj) q f hq
        rw [show i + 1 + j = i + (j + 1) by omega]
        exact this)
    unfold Elem.dumpAll
    rw [ht, hu]
    exact ⟨_, rfl⟩
end

theorem dumpText_answers {root : Elem} (wf : root.WF) {st : St} (inv : st.Inv root) (hs : StringsEnd root st)
    {ctx : Ctx} (hf : FormatFits root ctx) (path : Str) : root.dumpText ctx st.mem.main path ≠ .abort := by
  unfold Elem.dumpText
  cases hl : root.locate path with
  | none => simp
  | some p =>
    obtain ⟨e, he⟩ := Elem.locate_at hl
    simp only [he]
    obtain ⟨t, ht⟩ := Elem.dump_answers (root := root) (ctx := ctx) (b := st.mem.main) e p 0 (fun q f hq => by
      have hat : root.at? (p ++ q) = some f := by rw [Elem.at?_append, he]; exact hq
      obtain ⟨o, ho⟩ := Elem.offset_of_at (off := 0) hat
      unfold Elem.logValue
      split
      · rename_i hk
        simp only [ho]
        exact getParamText_answers hk (hs.readable wf inv.main hf hat hk ho)
      · exact ⟨_, rfl⟩)
    rw [ht]; simp

theorem getBytes_answers {root e : Elem} (wf : root.WF) {b : Board} (hl : b.length = root.footprint) {p : Pos}
    (he : root.at? p = some e) : ∃ bs, root.getBytes b p = .ok bs := by
  obtain ⟨off, ho⟩ := Elem.offset_of_at (off := 0) he
  unfold Elem.getBytes
  have h1 := wf.area_main he ho
  have h2 : e.footprint ≤ e.areaSize := by
    rcases wf.at_cases he with hw | ⟨nm, t, sy, rfl, ht⟩
    · rw [hw.areaSize_self]
    · simp [Elem.areaSize, Elem.kind, Elem.footprint, EKind.ownSize]
  simp only [he, ho, Board.read]
  rw [if_pos (by omega)]
  exact ⟨_, rfl⟩

end PF
