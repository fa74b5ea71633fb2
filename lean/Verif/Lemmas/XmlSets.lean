import Verif.Lemmas.XmlFits

/-! Helper lemmas: an import of settings sets every parameter to the text of its XML element. -/

namespace PF

/-- The results of an access in two memories: same outcome, and every bit that was the same still is. -/
def Parallel (b b' : Board) (r r' : Out Unit × Board) : Prop :=
  r'.1 = r.1 ∧ r.2.length = b.length ∧ r'.2.length = b'.length ∧ ∀ i, b'.bit i = b.bit i → r'.2.bit i = r.2.bit i

theorem Parallel.same {b b' : Board} (o : Out Unit) : Parallel b b' (o, b) (o, b') := ⟨rfl, rfl, rfl, fun _ h => h⟩

theorem Parallel.write {b b' : Board} (hl : b'.length = b.length) (off : Nat) (bs : List Byte) :
    (b.write off bs = none ∧ b'.write off bs = none) ∨
    ∃ r r', b.write off bs = some r ∧ b'.write off bs = some r' ∧
      r.length = b.length ∧ r'.length = b'.length ∧ ∀ i, b'.bit i = b.bit i → r'.bit i = r.bit i := by
  cases h : b.write off bs with
  | none =>
    left
    unfold Board.write at h ⊢
    split at h
    · cases h
    · rw [hl, if_neg ‹_›]; exact ⟨rfl, rfl⟩
  | some r =>
    right
    have h' : ∃ r', b'.write off bs = some r' := by
      unfold Board.write at h ⊢
      split at h
      · rw [hl, if_pos ‹_›]; exact ⟨_, rfl⟩
      · cases h
    obtain ⟨r', h'⟩ := h'
    refine ⟨r, r', rfl, h', (Board.write_length h).1, (Board.write_length h').1, fun i hi => ?_⟩
    rw [Board.write_bit h, Board.write_bit h', hi]

theorem Parallel.writeScalar {b b' : Board} (hl : b'.length = b.length) (size off : Nat) (v : BitVec 32) :
    (PF.writeScalar size b off v = .abort ∧ PF.writeScalar size b' off v = .abort) ∨
    ∃ r r', PF.writeScalar size b off v = .ok r ∧ PF.writeScalar size b' off v = .ok r' ∧
      r.length = b.length ∧ r'.length = b'.length ∧ ∀ i, b'.bit i = b.bit i → r'.bit i = r.bit i := by
  unfold PF.writeScalar
  rcases Parallel.write hl off (encLE size v.toNat) with ⟨h1, h2⟩ | ⟨r, r', h1, h2, h3⟩
  · left; simp [h1, h2]
  · right; exact ⟨r, r', by simp [h1], by simp [h2], h3⟩

theorem Parallel.setElems (size : Nat) (vs : List (Option (BitVec 32))) {b b' : Board} (hl : b'.length = b.length)
    (off : Nat) : Parallel b b' (PF.setElems size b off vs) (PF.setElems size b' off vs) := by
  induction vs generalizing b b' off with
  | nil => exact .same _
  | cons v vs ih =>
    cases v with
    | none => exact .same _
    | some v =>
      simp only [PF.setElems]
      rcases Parallel.writeScalar hl size off v with ⟨h1, h2⟩ | ⟨r, r', h1, h2, h3, h4, h5⟩
      · rw [h1, h2]; exact .same _
      · rw [h1, h2]
        have := ih (show r'.length = r.length by omega) (off + size)
        exact ⟨this.1, this.2.1.trans h3, this.2.2.1.trans h4, fun i hi => this.2.2.2 i (h5 i hi)⟩

theorem setBitText_parallel {t : BitType} (wf : t.WF) {b b' : Board} (hl : b'.length = b.length) (off : Nat) (text : Str) :
    Parallel b b' ((setBitText t b off text).withBoard b) ((setBitText t b' off text).withBoard b') := by
  have key : ∀ {a a' r : Board}, a'.length = a.length → setBitText t a off text = .ok r →
      ∃ r', setBitText t a' off text = .ok r' := by
    intro a a' r hl h
    unfold setBitText BitType.set BitType.readBlock at h ⊢
    have hr : ∀ {c : Board}, c.length = a.length → off + t.blockSize ≤ a.length →
        c.read off t.blockSize = some ((c.drop off).take t.blockSize) := by
      intro c hc h; unfold Board.read; rw [hc, if_pos h]
    split at h
    · rename_i bs hrd
      have hroom : off + t.blockSize ≤ a.length := (Board.read_length hrd).2
      rw [hr hl hroom]
      simp only [Out.bind] at h ⊢
      unfold BitType.fromText BitType.fromNum at h ⊢
      split at h
      · cases h
      · rename_i d' hd
        split at hd
        · cases hd
        · rename_i hle
          rw [if_neg hle]
          simp only
          unfold Board.write
          rw [encLE_length, hl, if_pos hroom]
          exact ⟨_, rfl⟩
    · cases h
  cases h : setBitText t b off text with
  | ok r =>
    obtain ⟨r', h'⟩ := key hl h
    rw [h']
    obtain ⟨_, f1, bs, bs1, f2, f3, f4, f5⟩ := BitType.set_effect wf (u := strtoull text) h
    obtain ⟨_, g1, cs, cs1, g2, g3, g4, g5⟩ := BitType.set_effect wf (u := strtoull text) h'
    refine ⟨rfl, f1.1, g1.1, fun i hi => ?_⟩
    simp only [Out.withBoard]
    by_cases hin : 8 * off + t.pos ≤ i ∧ i < 8 * off + t.pos + t.bits
    · have e : bitField t.pos t.bits cs1 = bitField t.pos t.bits bs1 := by rw [f4, g4]
      have e2 := congrArg (fun n => n.testBit (i - 8 * off - t.pos)) e
      simp only [bitField, Nat.testBit_mod_two_pow, Nat.testBit_div_two_pow,
        show i - 8 * off - t.pos < t.bits by omega, decide_true, Bool.true_and] at e2
      rw [show i - 8 * off - t.pos + t.pos = i - 8 * off by omega, decLE_testBit, decLE_testBit,
        Board.read_bit f3, Board.read_bit g3, show 8 * off + (i - 8 * off) = i by omega] at e2
      have := wf.fits
      simpa [show i - 8 * off < 8 * t.blockSize by omega] using e2
    · rw [(BitType.set_bits wf (u := strtoull text) h).2 i (by omega),
        (BitType.set_bits wf (u := strtoull text) h').2 i (by omega), hi]
  | err =>
    cases h' : setBitText t b' off text with
    | ok r' => obtain ⟨r, hr⟩ := key hl.symm h'; rw [h] at hr; cases hr
    | err => exact .same _
    | abort =>
      exfalso
      unfold setBitText BitType.set BitType.readBlock Board.read at h h'
      rw [hl] at h'
      split at h
      · rename_i bs hb
        split at hb
        · rename_i hroom
          rw [if_pos hroom] at h'
          simp only [Out.bind] at h'
          split at h'
          · cases h'
          · unfold Board.write at h'
            rw [encLE_length, hl, if_pos hroom] at h'
            cases h'
        · cases hb
      · cases h
  | abort =>
    cases h' : setBitText t b' off text with
    | ok r' => obtain ⟨r, hr⟩ := key hl.symm h'; rw [h] at hr; cases hr
    | abort => exact .same _
    | err =>
      exfalso
      unfold setBitText BitType.set BitType.readBlock Board.read at h h'
      rw [hl] at h'
      split at h'
      · rename_i bs hb
        split at hb
        · rename_i hroom
          rw [if_pos hroom] at h
          simp only [Out.bind] at h
          split at h
          · cases h
          · unfold Board.write at h
            rw [encLE_length, if_pos hroom] at h
            cases h
        · cases hb
      · cases h'

/-- A set does the same in two memories, bit by bit. -/
theorem setParamText_parallel {rd : Reader} {ctx : Ctx} {k : EKind} {b b' : Board} {off : Nat} {text : Str}
    (hbit : ∀ t, k = .bit t → t.WF) (hl : b'.length = b.length) :
    Parallel b b' (setParamText rd ctx k b off 0 [] text) (setParamText rd ctx k b' off 0 [] text) := by
  cases k with
  | group _ => exact .same _
  | bitBlock _ => exact .same _
  | scalar t =>
    simp only [setParamText, ne_eq, not_true_eq_false, Nat.not_lt_zero, ↓reduceIte, Nat.sub_zero, setScalarText]
    split
    · exact .same _
    · rename_i v _
      rcases Parallel.writeScalar hl t.size off v with ⟨h1, h2⟩ | ⟨r, r', h1, h2, h3, h4, h5⟩
      · rw [h1, h2]; exact .same _
      · rw [h1, h2]; exact ⟨rfl, h3, h4, h5⟩
  | array t =>
    simp only [setParamText, arrayAccessSet, arrayIndex, Nat.not_lt_zero, ↓reduceIte, Nat.sub_zero, setArrayText]
    split
    · exact .same _
    · exact Parallel.setElems _ _ hl _
  | string m =>
    simp only [setParamText, ne_eq, not_true_eq_false, Nat.not_lt_zero, ↓reduceIte, Nat.sub_zero, setString, Board.writeString]
    split
    · exact .same _
    · rcases Parallel.write hl off (strBytes text ++ [0#8]) with ⟨h1, h2⟩ | ⟨r, r', h1, h2, h3, h4, h5⟩
      · rw [h1, h2]; exact .same _
      · rw [h1, h2]; exact ⟨rfl, h3, h4, h5⟩
  | bit t =>
    simp only [setParamText, ne_eq, not_true_eq_false, Nat.not_lt_zero, ↓reduceIte, Nat.sub_zero]
    exact setBitText_parallel (hbit t rfl) hl off text

/-- Every parameter has the bits that setting it, alone, to the text of its XML element gives. -/
def SetsOf (rd : Reader) (hex raw : Bool) (b b' : Board) (node : Pos → Option XElem)
    (ps : Pos → Elem → Nat → Prop) (plain : Prop) : Prop :=
  ∀ q f o, ps q f o → ∃ y rw b1, node q = some y ∧ (f.kind.hasValueSpace = true → rw = (y.valueSpace == s "Raw")) ∧
    (plain → rw = raw) ∧ setParamText rd ⟨rw, hex⟩ f.kind b o 0 [] y.text = (.ok (), b1) ∧
    ∀ i, (f.extent o).1 ≤ i → i < (f.extent o).2 → b'.bit i = b1.bit i

/-- The brothers are listed. -/
def XElem.ListsAll (xs : List XElem) (cs : List Elem) : Prop :=
  xs.length = cs.length ∧
  (∀ (i : Nat) (x : XElem) (c : Elem), xs[i]? = some x → cs[i]? = some c →
    (x.tag = c.kind.settingsTag ∨ c.kind.settingsTag = s "ParameterBlock" ∧ x.tag = s "Component") ∧ x.name = c.name) ∧
  ∀ (i : Nat) (x : XElem) (c : Elem), xs[i]? = some x → cs[i]? = some c → x.Lists c

/-- The node of a position among brothers. -/
def XElem.nodes (xs : List XElem) : Pos → Option XElem
  | [] => none
  | j :: q => match xs[j]? with | none => none | some x => x.at? q

theorem XElem.at?_nodes (x : XElem) (j : Nat) (q : Pos) : x.at? (j :: q) = XElem.nodes x.children (j :: q) := by
  cases x; rfl

theorem XElem.ListsAll.lists {x : XElem} {n : Str} {k : EKind} {sy : Option Nat} {cs : List Elem}
    (h : XElem.ListsAll x.children cs) : x.Lists (.mk n k sy cs) := by
  cases x with | mk tag name vs text xs =>
  exact .mk h.1 h.2.1 h.2.2

theorem EKind.xmlTag_eq (k : EKind) : k.xmlTag = k.settingsTag := by
  unfold EKind.xmlTag
  cases k with
  | group k => rfl
  | bitBlock n => rw [if_neg (by simp [EKind.text]; decide)]; rfl
  | bit t => rw [if_neg (by simp [EKind.text]; decide)]; rfl
  | string m => rw [if_neg (by simp [EKind.text]; decide)]; rfl
  | scalar t => cases t <;> (rw [if_neg (by simp [EKind.text, ScalarType.kindText]; decide)]; rfl)
  | array t =>
    obtain ⟨t, n⟩ := t
    cases t <;> (rw [if_neg (by simp [EKind.text, ScalarType.kindText]; decide)]; rfl)

theorem EKind.acceptsTag_iff {k : EKind} {tag : Str} : k.acceptsTag tag = true ↔
    (tag = k.settingsTag ∨ k.settingsTag = s "ParameterBlock" ∧ tag = s "Component") := by
  simp [EKind.acceptsTag, EKind.xmlTag_eq]

mutual
theorem Elem.import_sets {rd : Reader} {hex : Bool} (e : Elem) {off : Nat} {x : XElem} {raw raw' : Bool}
    {b b' : Board} (leaf : ∀ q f, e.at? q = some f → f.kind.isParameter = true → f.children = [])
    (bits : ∀ q f o, e.Param off q f o → ∀ t, f.kind = .bit t → t.WF)
    (dis : ∀ q q' f f' o o', q ≠ q' → e.Param off q f o → e.Param off q' f' o' →
      (f.extent o).2 ≤ (f'.extent o').1 ∨ (f'.extent o').2 ≤ (f.extent o).1)
    (h : e.importXml rd hex 0 off x raw b = (.ok (), raw', b')) :
    x.Lists e ∧ ((∀ q f, e.at? q = some f → f.kind.hasValueSpace = false) → raw' = raw) ∧
      SetsOf rd hex raw b b' x.at? (e.Param off) (∀ q f, e.at? q = some f → f.kind.hasValueSpace = false) := by
  cases e with | mk n k sy cs =>
  simp only [Elem.importXml] at h
  by_cases hk : k.isParameter = true
  · have hcs : cs = [] := leaf [] _ rfl hk
    subst hcs
    rw [if_pos hk] at h
    have honly : ∀ q f o, (Elem.mk n k sy []).Param off q f o → q = [] ∧ f = .mk n k sy [] ∧ o = off :=
      fun q f o hp => Elem.leaf_param rfl hp
    split at h
    · rename_i b1 hset
      cases hx : x.children with
      | cons y ys => rw [hx] at h; simp [Elem.importChildren] at h
      | nil =>
        rw [hx] at h
        simp only [Elem.importChildren, Prod.mk.injEq, true_and] at h
        obtain ⟨h1, h2⟩ := h
        subst h1 h2
        have hpl : (∀ q f, (Elem.mk n k sy []).at? q = some f → f.kind.hasValueSpace = false) → k.importRaw x raw = raw := by
          intro hp
          have := hp [] _ rfl
          simp only [Elem.kind] at this
          simp [EKind.importRaw, this]
        refine ⟨XElem.ListsAll.lists (by rw [hx]; exact ⟨rfl, by simp, by simp⟩), hpl, ?_⟩
        intro q f o hp
        obtain ⟨rfl, rfl, rfl⟩ := honly q f o hp
        refine ⟨x, k.importRaw x raw, b1, by cases x; rfl, ?_, hpl, hset, fun _ _ _ => rfl⟩
        intro hv
        simp only [Elem.kind] at hv
        simp [EKind.importRaw, hv]
    · simp at h
    · simp at h
  · rw [if_neg hk] at h
    have hsub : (Elem.mk n k sy cs).Param off = Elem.Params cs off := by
      funext q f o
      refine propext ?_
      cases q with
      | nil =>
        constructor
        · intro hp
          simp only [Elem.Param, Elem.at?, Option.some.injEq] at hp
          rw [← hp.1] at hp
          exact absurd hp.2.1 hk
        · intro hp; simp [Elem.Params] at hp
      | cons j q => exact Elem.param_cons
    rw [hsub] at bits dis
    obtain ⟨h1, h2, h3⟩ := Elem.import_setsChildren cs (fun j c hj q f hq => leaf (j :: q) f (by simp [Elem.at?, hj, hq]))
      bits dis h
    have hpl : (∀ q f, (Elem.mk n k sy cs).at? q = some f → f.kind.hasValueSpace = false) →
        ∀ (j : Nat) c, cs[j]? = some c → ∀ q f, c.at? q = some f → f.kind.hasValueSpace = false :=
      fun hp j c hj q f hq => hp (j :: q) f (by simp [Elem.at?, hj, hq])
    refine ⟨h1.lists, fun hp => h2 (hpl hp), ?_⟩
    rw [hsub]
    intro q f o hp
    obtain ⟨y, rw', b1, g1, g2, g3, g4, g5⟩ := h3 q f o hp
    refine ⟨y, rw', b1, ?_, g2, fun hp => g3 (hpl hp), g4, g5⟩
    cases q with
    | nil => simp [Elem.Params] at hp
    | cons j q => rw [XElem.at?_nodes]; exact g1
theorem Elem.import_setsChildren {rd : Reader} {hex : Bool} (cs : List Elem) {off : Nat} {xs : List XElem}
    {raw raw' : Bool} {b b' : Board}
    (leaf : ∀ (j : Nat) c, cs[j]? = some c → ∀ q f, c.at? q = some f → f.kind.isParameter = true → f.children = [])
    (bits : ∀ q f o, Elem.Params cs off q f o → ∀ t, f.kind = .bit t → t.WF)
    (dis : ∀ q q' f f' o o', q ≠ q' → Elem.Params cs off q f o → Elem.Params cs off q' f' o' →
      (f.extent o).2 ≤ (f'.extent o').1 ∨ (f'.extent o').2 ≤ (f.extent o).1)
    (h : Elem.importChildren rd hex 0 cs off xs raw b = (.ok (), raw', b')) :
    XElem.ListsAll xs cs ∧
      ((∀ (j : Nat) c, cs[j]? = some c → ∀ q f, c.at? q = some f → f.kind.hasValueSpace = false) → raw' = raw) ∧
      SetsOf rd hex raw b b' (XElem.nodes xs) (Elem.Params cs off)
        (∀ (j : Nat) c, cs[j]? = some c → ∀ q f, c.at? q = some f → f.kind.hasValueSpace = false) := by
  cases cs with
  | nil =>
    cases xs with
    | cons y ys => simp [Elem.importChildren] at h
    | nil =>
      simp only [Elem.importChildren, Prod.mk.injEq, true_and] at h
      refine ⟨⟨rfl, by simp, by simp⟩, fun _ => h.1.symm, ?_⟩
      intro q f o hp
      cases q <;> simp [Elem.Params] at hp
  | cons c cs =>
    cases xs with
    | nil => simp [Elem.importChildren] at h
    | cons x xs =>
      simp only [Elem.importChildren] at h
      split at h
      · simp at h
      split at h
      · simp at h
      rename_i htag hname
      split at h
      · rename_i raw1 b1 hc
        have bits1 : ∀ q f o, c.Param off q f o → ∀ t, f.kind = .bit t → t.WF :=
          fun q f o hp => bits (0 :: q) f o (Elem.params_zero.2 hp)
        have hsucc : ∀ {q f o}, Elem.Params cs (off + c.footprint) q f o → ∃ q', Elem.Params (c :: cs) off q' f o ∧
            ∃ j r, q = j :: r ∧ q' = (j + 1) :: r := by
          intro q f o hp
          cases q with
          | nil => simp [Elem.Params] at hp
          | cons j r => exact ⟨(j + 1) :: r, Elem.params_succ.2 hp, j, r, rfl, rfl⟩
        have bits2 : ∀ q f o, Elem.Params cs (off + c.footprint) q f o → ∀ t, f.kind = .bit t → t.WF := by
          intro q f o hp; obtain ⟨q', hp', _⟩ := hsucc hp; exact bits q' f o hp'
        obtain ⟨e1, e2, e3⟩ := Elem.import_sets c (leaf 0 c rfl) bits1
          (fun q q' f f' o o' hne hp hp' => dis (0 :: q) (0 :: q') f f' o o' (by simpa using hne)
            (Elem.params_zero.2 hp) (Elem.params_zero.2 hp')) hc
        obtain ⟨g1, g2, g3⟩ := Elem.import_setsChildren cs (fun j d hj => leaf (j + 1) d (by simpa using hj)) bits2
          (fun q r f g o u hne hp hr => by
            obtain ⟨q', hp', j, t, rfl, rfl⟩ := hsucc hp
            obtain ⟨r', hr', i, v, rfl, rfl⟩ := hsucc hr
            exact dis _ _ f g o u (by simpa using hne) hp' hr') h
        have hfr1 := Elem.importXml_frame (rd := rd) (hex := hex) c (off := off) (x := x) (raw := raw) (b := b) bits1
        rw [hc] at hfr1
        have hfr2 := Elem.importChildren_frame (rd := rd) (hex := hex) cs (off := off + c.footprint) (xs := xs)
          (raw := raw1) (b := b1) bits2
        rw [h] at hfr2
        simp only at hfr1 hfr2
        have htag' := EKind.acceptsTag_iff.1 (by simpa using htag)
        have hname' : x.name = c.name := by simpa using hname
        refine ⟨⟨by simp [g1.1], ?_, ?_⟩, ?_, ?_⟩
        · intro i y d hy hd
          cases i with
          | zero =>
            simp only [List.getElem?_cons_zero, Option.some.injEq] at hy hd
            subst hy hd; exact ⟨htag', hname'⟩
          | succ i => exact g1.2.1 i y d (by simpa using hy) (by simpa using hd)
        · intro i y d hy hd
          cases i with
          | zero =>
            simp only [List.getElem?_cons_zero, Option.some.injEq] at hy hd
            subst hy hd; exact e1
          | succ i => exact g1.2.2 i y d (by simpa using hy) (by simpa using hd)
        · intro hp
          rw [g2 (fun j d hj => hp (j + 1) d (by simpa using hj)), e2 (hp 0 c rfl)]
        · intro q f o hp
          cases q with
          | nil => simp [Elem.Params] at hp
          | cons j q =>
            cases j with
            | zero =>
              rw [Elem.params_zero] at hp
              obtain ⟨y, rw', b2, k1, k2, k3, k4, k5⟩ := e3 q f o hp
              refine ⟨y, rw', b2, k1, k2, fun hpl => k3 (hpl 0 c rfl), k4, fun i hi1 hi2 => ?_⟩
              rw [← k5 i hi1 hi2]
              refine hfr2.2 i (fun r g u hr => ?_)
              obtain ⟨r', hr', j, t, rfl, rfl⟩ := hsucc hr
              have := dis (0 :: q) ((j + 1) :: t) f g o u (by simp) (Elem.params_zero.2 hp) hr'
              omega
            | succ j =>
              have hp2 := Elem.params_succ.1 hp
              obtain ⟨y, rw', b2, k1, k2, k3, k4, k5⟩ := g3 (j :: q) f o hp2
              have hpar := setParamText_parallel (rd := rd) (ctx := ⟨rw', hex⟩) (off := o) (text := y.text)
                (bits ((j + 1) :: q) f o hp) (show b.length = b1.length by omega)
              rw [k4] at hpar
              generalize hr : setParamText rd ⟨rw', hex⟩ f.kind b o 0 [] y.text = r at hpar
              obtain ⟨r1, r2⟩ := r
              obtain ⟨p1, p2, p3, p4⟩ := hpar
              simp only at p1 p2 p3 p4
              subst p1
              refine ⟨y, rw', r2, k1, k2, fun hpl => ?_, hr, fun i hi1 hi2 => ?_⟩
              · rw [k3 (fun j d hj => hpl (j + 1) d (by simpa using hj)), e2 (hpl 0 c rfl)]
              · rw [k5 i hi1 hi2]
                refine (p4 i ?_).symm
                refine (hfr1.2 i (fun r g u hr' => ?_)).symm
                have := dis ((j + 1) :: q) (0 :: r) f g o u (by simp) hp (Elem.params_zero.2 hr')
                omega
      · simp at h
      · simp at h
end

end PF
