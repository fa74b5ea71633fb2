import Verif.Lemmas.XmlSettings

/-! Helper lemmas: export and import of the settings of a whole element. -/

namespace PF

theorem getParamText_base {ctx : Ctx} {k : EKind} {b : Board} {off base : Nat} (h : base ≤ off) :
    getParamText ctx k b off base [] = getParamText ctx k b (off - base) 0 [] := by
  have : ¬ off < base := by omega
  cases k <;> simp [getParamText, this, arrayAccessGet, arrayIndex]

theorem setParamText_base {rd : Reader} {ctx : Ctx} {k : EKind} {b : Board} {off base : Nat} {w : Str}
    (h : base ≤ off) : setParamText rd ctx k b off base [] w = setParamText rd ctx k b (off - base) 0 [] w := by
  have : ¬ off < base := by omega
  cases k <;> simp [setParamText, this, arrayAccessSet, arrayIndex]

mutual
theorem Elem.exportXml_base {ctx : Ctx} {b : Board} {base : Nat} (e : Elem) {off : Nat} (h : base ≤ off) :
    e.exportXml ctx base b off = e.exportXml ctx 0 b (off - base) := by
  cases e with | mk n k sy cs =>
  simp only [Elem.exportXml]
  rw [getParamText_base h, Elem.exportChildren_base cs h]
theorem Elem.exportChildren_base {ctx : Ctx} {b : Board} {base : Nat} (cs : List Elem) {off : Nat} (h : base ≤ off) :
    Elem.exportChildren ctx base b cs off = Elem.exportChildren ctx 0 b cs (off - base) := by
  cases cs with
  | nil => rfl
  | cons c cs =>
    simp only [Elem.exportChildren]
    rw [Elem.exportXml_base c h, Elem.exportChildren_base cs (show base ≤ off + c.footprint by omega),
      show off + c.footprint - base = off - base + c.footprint by omega]
end

mutual
theorem Elem.importXml_base {rd : Reader} {hex : Bool} {base : Nat} (e : Elem) {off : Nat} {x : XElem}
    {raw : Bool} {b : Board} (h : base ≤ off) :
    e.importXml rd hex base off x raw b = e.importXml rd hex 0 (off - base) x raw b := by
  cases e with | mk n k sy cs =>
  simp only [Elem.importXml]
  rw [setParamText_base h, Elem.importChildren_base cs h]
  split
  · split
    · rw [Elem.importChildren_base cs h]
    · rfl
    · rfl
  · rfl
theorem Elem.importChildren_base {rd : Reader} {hex : Bool} {base : Nat} (cs : List Elem) {off : Nat}
    {xs : List XElem} {raw : Bool} {b : Board} (h : base ≤ off) :
    Elem.importChildren rd hex base cs off xs raw b = Elem.importChildren rd hex 0 cs (off - base) xs raw b := by
  cases cs with
  | nil => cases xs <;> rfl
  | cons c cs =>
    cases xs with
    | nil => rfl
    | cons x xs =>
      simp only [Elem.importChildren]
      rw [Elem.importXml_base c h]
      split
      · rfl
      · split
        · rfl
        · split
          · rw [Elem.importChildren_base cs (show base ≤ off + c.footprint by omega),
              show off + c.footprint - base = off - base + c.footprint by omega]
          · rfl
          · rfl
end

/-! ## The parameters of an element -/

/-- The parameter `f` is at position `q` of the element, at offset `o`. -/
def Elem.Param (e : Elem) (off : Nat) (q : Pos) (f : Elem) (o : Nat) : Prop :=
  e.at? q = some f ∧ f.kind.isParameter = true ∧ e.offset off q = some o

/-- The same among brothers; the first number of the position is the rank of the brother. -/
def Elem.Params (cs : List Elem) (off : Nat) : Pos → Elem → Nat → Prop
  | [], _, _ => False
  | j :: q, f, o => ∃ c, cs[j]? = some c ∧ c.Param (off + Elem.footprints (cs.take j)) q f o

theorem Elem.param_cons {n : Str} {k : EKind} {sy : Option Nat} {cs : List Elem} {off j : Nat} {q : Pos} {f : Elem}
    {o : Nat} : (Elem.mk n k sy cs).Param off (j :: q) f o ↔ Elem.Params cs off (j :: q) f o := by
  simp only [Elem.Param, Elem.Params, Elem.at?, Elem.offset]
  cases h : cs[j]? with
  | none => simp
  | some c => simp

theorem Elem.params_zero {c : Elem} {cs : List Elem} {off : Nat} {q : Pos} {f : Elem} {o : Nat} :
    Elem.Params (c :: cs) off (0 :: q) f o ↔ c.Param off q f o := by
  simp [Elem.Params, Elem.footprints]

theorem Elem.params_succ {c : Elem} {cs : List Elem} {off j : Nat} {q : Pos} {f : Elem} {o : Nat} :
    Elem.Params (c :: cs) off ((j + 1) :: q) f o ↔ Elem.Params cs (off + c.footprint) (j :: q) f o := by
  simp [Elem.Params, Elem.footprints, Nat.add_assoc]

/-! ## What an import changes -/

theorem Elem.Param.bitWF {e : Elem} (hb : ∀ q f t, e.at? q = some f → f.kind = .bit t → t.WF) {q : Pos} {f : Elem} {off o : Nat}
    (h : e.Param off q f o) (t : BitType) (hk : f.kind = .bit t) : t.WF := hb q f t h.1 hk

mutual
/-- An import only changes bits of the parameters of the element. -/
theorem Elem.importXml_frame {rd : Reader} {hex : Bool} (e : Elem) {off : Nat} {x : XElem}
    {raw : Bool} {b : Board} (hb : ∀ q f o, e.Param off q f o → ∀ t, f.kind = .bit t → t.WF) :
    (e.importXml rd hex 0 off x raw b).2.2.length = b.length ∧
    ∀ i, (∀ q f o, e.Param off q f o → i < (f.extent o).1 ∨ (f.extent o).2 ≤ i) →
      (e.importXml rd hex 0 off x raw b).2.2.bit i = b.bit i := by
  cases e with | mk n k sy cs =>
  simp only [Elem.importXml]
  have hch := fun raw b => Elem.importChildren_frame (rd := rd) (hex := hex) cs (off := off) (xs := x.children)
    (raw := raw) (b := b) (fun q f o hp => by
      cases q with
      | nil => exact absurd hp (by simp [Elem.Params])
      | cons j q => exact hb (j :: q) f o (Elem.param_cons.2 hp))
  have hin : ∀ i, (∀ q f o, (Elem.mk n k sy cs).Param off q f o → i < (f.extent o).1 ∨ (f.extent o).2 ≤ i) →
      ∀ q f o, Elem.Params cs off q f o → i < (f.extent o).1 ∨ (f.extent o).2 ≤ i := by
    intro i hi q f o hp
    cases q with
    | nil => exact absurd hp (by simp [Elem.Params])
    | cons j q => exact hi (j :: q) f o (Elem.param_cons.2 hp)
  split
  · rename_i hk
    have hself : (Elem.mk n k sy cs).Param off [] (.mk n k sy cs) off := ⟨rfl, hk, rfl⟩
    have hf := setParamText_frame (rd := rd) (ctx := ⟨k.importRaw x raw, hex⟩) (e := .mk n k sy cs) (b := b)
      (off := off) (base := 0) (items := []) (text := x.text) (hb [] _ off hself) (Nat.zero_le _)
    simp only [Elem.kind, Nat.sub_zero] at hf
    generalize setParamText rd ⟨k.importRaw x raw, hex⟩ k b off 0 [] x.text = r at hf
    obtain ⟨r1, r2⟩ := r
    simp only at hf
    have hbit : ∀ i, (∀ q f o, (Elem.mk n k sy cs).Param off q f o → i < (f.extent o).1 ∨ (f.extent o).2 ≤ i) →
        r2.bit i = b.bit i := fun i hi => hf.2 i (hi [] _ off hself)
    rcases r1 with _ | _ | _
    · have := hch (k.importRaw x raw) r2
      refine ⟨by rw [this.1, hf.1], fun i hi => ?_⟩
      rw [this.2 i (hin i hi), hbit i hi]
    · exact ⟨hf.1, hbit⟩
    · exact ⟨hf.1, hbit⟩
  · have := hch raw b
    exact ⟨this.1, fun i hi => this.2 i (hin i hi)⟩
theorem Elem.importChildren_frame {rd : Reader} {hex : Bool} (cs : List Elem) {off : Nat}
    {xs : List XElem} {raw : Bool} {b : Board} (hb : ∀ q f o, Elem.Params cs off q f o → ∀ t, f.kind = .bit t → t.WF) :
    (Elem.importChildren rd hex 0 cs off xs raw b).2.2.length = b.length ∧
    ∀ i, (∀ q f o, Elem.Params cs off q f o → i < (f.extent o).1 ∨ (f.extent o).2 ≤ i) →
      (Elem.importChildren rd hex 0 cs off xs raw b).2.2.bit i = b.bit i := by
  cases cs with
  | nil => cases xs <;> exact ⟨rfl, fun _ _ => rfl⟩
  | cons c cs =>
    cases xs with
    | nil => exact ⟨rfl, fun _ _ => rfl⟩
    | cons x xs =>
      simp only [Elem.importChildren]
      have h1 := Elem.importXml_frame (rd := rd) (hex := hex) c (off := off) (x := x) (raw := raw) (b := b)
        (fun q f o hp => hb (0 :: q) f o (Elem.params_zero.2 hp))
      split
      · exact ⟨rfl, fun _ _ => rfl⟩
      · split
        · exact ⟨rfl, fun _ _ => rfl⟩
        · generalize Elem.importXml rd hex 0 c off x raw b = r at h1
          obtain ⟨r1, raw', b'⟩ := r
          simp only at h1
          have hc : ∀ i, (∀ q f o, Elem.Params (c :: cs) off q f o → i < (f.extent o).1 ∨ (f.extent o).2 ≤ i) →
              b'.bit i = b.bit i := fun i hi => h1.2 i (fun q f o hp => hi (0 :: q) f o (Elem.params_zero.2 hp))
          rcases r1 with _ | _ | _
          · have h2 := Elem.importChildren_frame (rd := rd) (hex := hex) cs (off := off + c.footprint) (xs := xs)
              (raw := raw') (b := b') (fun q f o hp => by
                cases q with
                | nil => exact absurd hp (by simp [Elem.Params])
                | cons j q => exact hb ((j + 1) :: q) f o (Elem.params_succ.2 hp))
            refine ⟨by rw [h2.1, h1.1], fun i hi => ?_⟩
            rw [h2.2 i (fun q f o hp => ?_), hc i hi]
            cases q with
            | nil => exact absurd hp (by simp [Elem.Params])
            | cons j q => exact hi ((j + 1) :: q) f o (Elem.params_succ.2 hp)
          · exact ⟨h1.1, hc⟩
          · exact ⟨h1.1, hc⟩
end

/-! ## Export then import -/

/-- What the round trip needs to know about two memories and the parameters of an element in them. -/
structure Fits (N : Prop) (ctx : Ctx) (b b' : Board) (ps ps' : Pos → Elem → Nat → Prop) : Prop where
  bits : ∀ q f o, ps' q f o → ∀ t, f.kind = .bit t → t.WF
  room : ∀ q f o, ps q f o → o + f.kind.room ≤ b.length
  room' : ∀ q f o, ps' q f o → o + f.kind.room ≤ b'.length
  carried : ∀ q f o, ps q f o → f.kind.Carried ctx b o
  nonNegative : N → ∀ q f o, ps q f o → f.kind.NonNegative b o
  disjoint : ∀ q q' f f' o o', q ≠ q' → ps' q f o → ps' q' f' o' →
    (f.extent o).2 ≤ (f'.extent o').1 ∨ (f'.extent o').2 ≤ (f.extent o).1

/-- The reads after the import are those of the memory exported. -/
def Landed (b b' : Board) (ps ps' : Pos → Elem → Nat → Prop) : Prop :=
  ∀ q f o o', ps q f o → ps' q f o' →
    (∀ c, getParamText c f.kind b' o' 0 [] = getParamText c f.kind b o 0 []) ∧
    ∀ m, f.kind = .string m → StringTerminated b' o' m

theorem StringTerminated.congr {b b' : Board} {off m : Nat} (h : StringTerminated b off m) (hl : b'.length = b.length)
    (hb : ∀ i, 8 * off ≤ i → i < 8 * (off + (m + 1)) → b'.bit i = b.bit i) : StringTerminated b' off m := by
  obtain ⟨bs, h1, h2⟩ := h
  refine ⟨bs, ?_, h2⟩
  rw [← h1]
  exact Board.read_congr_bits hl hb

/-- Reads are kept when the bits of the parameter are. -/
theorem Landed.keep {b b1 b2 : Board} {ps ps' : Pos → Elem → Nat → Prop} (h : Landed b b1 ps ps')
    (bits : ∀ q f o, ps' q f o → ∀ t, f.kind = .bit t → t.WF) (hl : b2.length = b1.length)
    (hk : ∀ q f o, ps' q f o → ∀ i, (f.extent o).1 ≤ i → i < (f.extent o).2 → b2.bit i = b1.bit i) :
    Landed b b2 ps ps' := by
  intro q f o o' hp hp'
  obtain ⟨h1, h2⟩ := h q f o o' hp hp'
  refine ⟨fun c => ?_, fun m hm => ?_⟩
  · rw [← h1 c]
    exact getParamText_congr (bits q f o' hp') hl h2 (hk q f o' hp')
  · refine (h2 m hm).congr hl (fun i hi1 hi2 => hk q f o' hp' i ?_ ?_)
    · simpa [Elem.extent, hm] using hi1
    · obtain ⟨n, k, sy, cs⟩ := f
      simp only [Elem.kind] at hm
      subst hm
      simpa [Elem.extent, Elem.kind, Elem.footprint, EKind.ownSize, stringSize] using hi2

mutual
theorem Elem.export_import {N : Prop} {rd : Reader} (hrd : ReadsDecimals rd) {ctx : Ctx} {hex : Bool} (e : Elem)
    {off off' : Nat} {b b' : Board} {raw : Bool} (leaf : ∀ q f, e.at? q = some f → f.kind.isParameter = true → f.children = [])
    (hf : Fits N ctx b b' (e.Param off) (e.Param off'))
    (hraw : ctx.raw = true → raw = true ∨ N) :
    ∃ x, e.exportXml ctx 0 b off = .ok x ∧ x.tag = e.kind.xmlTag ∧ x.name = e.name ∧
      ∃ raw' b'', e.importXml rd hex 0 off' x raw b' = (.ok (), raw', b'') ∧ (ctx.raw = true → raw' = true ∨ N) ∧
        Landed b b'' (e.Param off) (e.Param off') := by
  cases e with | mk n k sy cs =>
  simp only [Elem.exportXml, Elem.importXml, Elem.kind, Elem.name]
  by_cases hk : k.isParameter = true
  · have hself : ∀ o, (Elem.mk n k sy cs).Param o [] (.mk n k sy cs) o := fun o => ⟨rfl, hk, rfl⟩
    have hcs : cs = [] := leaf [] _ rfl hk
    subst hcs
    have honly : ∀ off q f o, (Elem.mk n k sy []).Param off q f o → q = [] ∧ f = .mk n k sy [] ∧ o = off := by
      intro off q f o hp
      cases q with
      | nil =>
        simp only [Elem.Param, Elem.at?, Elem.offset, Option.some.injEq] at hp
        exact ⟨rfl, hp.1.symm, hp.2.2.symm⟩
      | cons j q => rw [Elem.param_cons] at hp; simp [Elem.Params] at hp
    simp only [hk, if_true, Elem.exportChildren]
    have hr2 : ctx.raw = true → (if k.hasValueSpace = true then ctx.raw else raw) = true ∨ N := by
      intro h; split
      · exact .inl h
      · exact hraw h
    obtain ⟨w, b'', h1, h2, h3, h4⟩ := EKind.Carried.carries hrd hk (hf.bits [] _ off' (hself off')) (ctx := ctx)
      (ctx' := ⟨if k.hasValueSpace = true then ctx.raw else raw, hex⟩) (fun h => (hr2 h).imp_right fun h => hf.nonNegative h [] _ off (hself off)) (fun h => by simp [h])
      (hf.room [] _ off (hself off)) (hf.room' [] _ off' (hself off')) (hf.carried [] _ off (hself off))
    have himp : ∀ t xs, k.importRaw (.mk k.xmlTag n (if (k.hasValueSpace && ctx.raw) = true then s "Raw" else []) t xs) raw =
        if k.hasValueSpace = true then ctx.raw else raw := by
      intro t xs
      unfold EKind.importRaw
      split
      · rename_i hv
        cases hr : ctx.raw <;> simp [XElem.valueSpace, hv, s]
      · rfl
    refine ⟨.mk k.xmlTag n (if (k.hasValueSpace && ctx.raw) = true then s "Raw" else []) w [], ?_, rfl, rfl, ?_⟩
    · have h1' : getParamText ctx k b off 0 [] = .ok w := h1
      rw [h1']
      rfl
    simp only [himp, XElem.text, XElem.children]
    replace h2 : setParamText rd ⟨if k.hasValueSpace = true then ctx.raw else raw, hex⟩ k b' off' 0 [] w = (.ok (), b'') := h2
    rw [h2]
    simp only [Elem.importChildren]
    refine ⟨_, _, rfl, hr2, ?_⟩
    intro q f o o' hp hp'
    obtain ⟨-, rfl, rfl⟩ := honly _ _ _ _ hp
    obtain ⟨-, -, rfl⟩ := honly _ _ _ _ hp'
    exact ⟨h3, h4⟩
  · simp only [hk, Bool.false_eq_true, if_false, Out.bind]
    have hsub : ∀ off q f o, (Elem.mk n k sy cs).Param off q f o ↔ Elem.Params cs off q f o := by
      intro off q f o
      cases q with
      | nil =>
        constructor
        · intro hp
          simp only [Elem.Param, Elem.at?, Option.some.injEq] at hp
          rw [← hp.1] at hp
          exact absurd hp.2.1 hk
        · intro hp; simp [Elem.Params] at hp
      | cons j q => exact Elem.param_cons
    have hfun : ∀ off, (Elem.mk n k sy cs).Param off = Elem.Params cs off := by
      intro off; funext q f o; exact propext (hsub off q f o)
    rw [hfun off, hfun off'] at hf
    rw [hfun off, hfun off']
    obtain ⟨xs, e1, raw', b'', e2, e3, e4⟩ := Elem.export_importChildren hrd (hex := hex) cs
      (fun j c hj q f hq => leaf (j :: q) f (by simp [Elem.at?, hj, hq])) hf hraw
    have hv : k.hasValueSpace = false := by
      cases k <;> simp [EKind.isParameter] at hk <;> rfl
    refine ⟨_, by rw [e1], rfl, rfl, ?_⟩
    simp only [XElem.children]
    exact ⟨raw', b'', e2, e3, e4⟩
theorem Elem.export_importChildren {N : Prop} {rd : Reader} (hrd : ReadsDecimals rd) {ctx : Ctx} {hex : Bool} (cs : List Elem)
    {off off' : Nat} {b b' : Board} {raw : Bool}
    (leaf : ∀ (j : Nat) c, cs[j]? = some c → ∀ q f, c.at? q = some f → f.kind.isParameter = true → f.children = [])
    (hf : Fits N ctx b b' (Elem.Params cs off) (Elem.Params cs off'))
    (hraw : ctx.raw = true → raw = true ∨ N) :
    ∃ xs, Elem.exportChildren ctx 0 b cs off = .ok xs ∧
      ∃ raw' b'', Elem.importChildren rd hex 0 cs off' xs raw b' = (.ok (), raw', b'') ∧ (ctx.raw = true → raw' = true ∨ N) ∧
        Landed b b'' (Elem.Params cs off) (Elem.Params cs off') := by
  cases cs with
  | nil =>
    refine ⟨[], rfl, raw, b', rfl, hraw, ?_⟩
    intro q f o o' hp
    cases q <;> simp [Elem.Params] at hp
  | cons c cs =>
    have hf1 : Fits N ctx b b' (c.Param off) (c.Param off') := by
      refine ⟨fun q f o hp => hf.bits (0 :: q) f o (Elem.params_zero.2 hp),
        fun q f o hp => hf.room (0 :: q) f o (Elem.params_zero.2 hp),
        fun q f o hp => hf.room' (0 :: q) f o (Elem.params_zero.2 hp),
        fun q f o hp => hf.carried (0 :: q) f o (Elem.params_zero.2 hp),
        fun h q f o hp => hf.nonNegative h (0 :: q) f o (Elem.params_zero.2 hp), ?_⟩
      intro q q' f f' o o' hne hp hp'
      exact hf.disjoint (0 :: q) (0 :: q') f f' o o' (by simpa using hne) (Elem.params_zero.2 hp) (Elem.params_zero.2 hp')
    obtain ⟨x, e1, etag, ename, raw1, b1, e2, e3, e4⟩ := Elem.export_import hrd (hex := hex) c (leaf 0 c rfl) hf1 hraw
    have hfr := Elem.importXml_frame (rd := rd) (hex := hex) c (off := off') (x := x) (raw := raw) (b := b') hf1.bits
    rw [e2] at hfr
    simp only at hfr
    have hsucc : ∀ {off q f o}, Elem.Params cs (off + c.footprint) q f o → ∃ q', Elem.Params (c :: cs) off q' f o ∧
        ∃ j r, q = j :: r ∧ q' = (j + 1) :: r := by
      intro off q f o hp
      cases q with
      | nil => simp [Elem.Params] at hp
      | cons j r => exact ⟨(j + 1) :: r, Elem.params_succ.2 hp, j, r, rfl, rfl⟩
    have hf2 : Fits N ctx b b1 (Elem.Params cs (off + c.footprint)) (Elem.Params cs (off' + c.footprint)) := by
      refine ⟨?_, ?_, ?_, ?_, ?_, ?_⟩
      · intro q f o hp; obtain ⟨q', hp', _⟩ := hsucc hp; exact hf.bits q' f o hp'
      · intro q f o hp; obtain ⟨q', hp', _⟩ := hsucc hp; exact hf.room q' f o hp'
      · intro q f o hp; obtain ⟨q', hp', _⟩ := hsucc hp; rw [hfr.1]; exact hf.room' q' f o hp'
      · intro q f o hp; obtain ⟨q', hp', _⟩ := hsucc hp; exact hf.carried q' f o hp'
      · intro h q f o hp; obtain ⟨q', hp', _⟩ := hsucc hp; exact hf.nonNegative h q' f o hp'
      · intro q r f g o u hne hp hr
        obtain ⟨q', hp', j, t, rfl, rfl⟩ := hsucc hp
        obtain ⟨r', hr', i, v, rfl, rfl⟩ := hsucc hr
        refine hf.disjoint _ _ f g o u ?_ hp' hr'
        simpa using hne
    obtain ⟨xs, g1, raw2, b2, g2, g3, g4⟩ := Elem.export_importChildren hrd (hex := hex) cs
      (fun j d hj => leaf (j + 1) d (by simpa using hj)) hf2 e3
    have hfr2 := Elem.importChildren_frame (rd := rd) (hex := hex) cs (off := off' + c.footprint) (xs := xs)
      (raw := raw1) (b := b1) hf2.bits
    rw [g2] at hfr2
    simp only at hfr2
    refine ⟨x :: xs, by simp only [Elem.exportChildren, e1, g1, Out.bind], raw2, b2, ?_, g3, ?_⟩
    · simp only [Elem.importChildren, EKind.acceptsTag, etag, ename, beq_self_eq_true, Bool.true_or, Bool.not_true,
        Bool.false_eq_true, if_false, ne_eq, not_true_eq_false, e2, g2]
    · have k1 : Landed b b2 (c.Param off) (c.Param off') := by
        refine e4.keep hf1.bits hfr2.1 ?_
        intro q f o hp i hi1 hi2
        refine hfr2.2 i (fun r g u hr => ?_)
        obtain ⟨r', hr', j, t, rfl, rfl⟩ := hsucc hr
        have := hf.disjoint (0 :: q) ((j + 1) :: t) f g o u (by simp) (Elem.params_zero.2 hp) hr'
        omega
      intro q f o o' hp hp'
      cases q with
      | nil => simp [Elem.Params] at hp
      | cons j q =>
        cases j with
        | zero => exact k1 q f o o' (Elem.params_zero.1 hp) (Elem.params_zero.1 hp')
        | succ j => exact g4 (j :: q) f o o' (Elem.params_succ.1 hp) (Elem.params_succ.1 hp')
end

end PF
