import Verif.Lemmas.Structure

/-!
# The structures that the documents declare

Helper lemmas for Props/StructureWF.
-/

namespace PF

open Spec

variable {rd : Reader}

/-- The element and all the elements below it have the property. -/
inductive Elem.Each (Q : Elem → Prop) : Elem → Prop
  | mk {n k sy cs} : Q (.mk n k sy cs) → (∀ c, c ∈ cs → Elem.Each Q c) → Elem.Each Q (.mk n k sy cs)

theorem Elem.Each.at? {Q : Elem → Prop} {root : Elem} (h : root.Each Q) :
    ∀ {p : Pos} {e : Elem}, root.at? p = some e → Q e := by
  induction h with
  | mk h1 _ ih =>
    intro p e he
    cases p with
    | nil => simp only [Elem.at?, Option.some.injEq] at he; exact he ▸ h1
    | cons i p =>
      simp only [Elem.at?] at he
      split at he
      · cases he
      · rename_i c hc
        exact ih c (List.mem_of_getElem? hc) he

theorem IElem.elems_eq : ∀ is : List IElem, IElem.elems is = is.map IElem.elem
  | [] => rfl
  | i :: is => by simp [IElem.elems, IElem.elems_eq is]

/-- The content of a block or component, or of one element of an array of them. -/
inductive Content (rd : Reader) (lib : List SXml) : SXml → List IElem → Prop
  | block {y is} : y.tag = s "ParameterBlock" → Insts rd lib none y.children is → Content rd lib y is
  | comp {y t ts is} : y.tag = s "Component" → TypeNamed lib ((y.attr (s "Type")).getD []) t →
      Chain lib t ts → Insts rd lib none (y.children ++ ts.flatMap SXml.children) is → Content rd lib y is

theorem Chain.mem {lib : List SXml} {t : SXml} {ts : List SXml} (h : Chain lib t ts) (ht : t ∈ lib) :
    ∀ u ∈ ts, u ∈ lib := by
  induction h with
  | last => intro u hu; simp only [List.mem_singleton] at hu; exact hu ▸ ht
  | more _ h2 _ ih =>
    obtain ⟨b, a, e, -, -⟩ := h2
    intro u hu
    rcases List.mem_cons.1 hu with rfl | hu
    · exact ht
    · exact ih (e ▸ by simp) u hu

theorem TypeNamed.mem {lib : List SXml} {n : Str} {t : SXml} (h : TypeNamed lib n t) : t ∈ lib := by
  obtain ⟨b, a, e, -, -⟩ := h
  exact e ▸ by simp

theorem Everywhere.here {P : SXml → Prop} {x : SXml} (h : Everywhere P x) : P x := by cases h; assumption
theorem Everywhere.child {P : SXml → Prop} {x c : SXml} (h : Everywhere P x) (hc : c ∈ x.children) :
    Everywhere P c := by cases h; rename_i h; exact h c hc

theorem comp_children {P : SXml → Prop} {lib : List SXml} {x t : SXml} {n : Str} {ts : List SXml}
    (hlib : ∀ t ∈ lib, ∀ c ∈ t.children, Everywhere P c) (hx : Everywhere P x) (hn : TypeNamed lib n t)
    (hc : Chain lib t ts) : ∀ y ∈ x.children ++ ts.flatMap SXml.children, Everywhere P y := by
  intro y hy
  rcases List.mem_append.1 hy with hy | hy
  · exact Everywhere.child hx hy
  · obtain ⟨u, hu, hy⟩ := List.mem_flatMap.1 hy
    exact hlib u (Chain.mem hc (TypeNamed.mem hn) u hu) y hy

mutual
theorem Inst.each {P : SXml → Prop} {Q : Elem → Prop} {lib : List SXml}
    (hlib : ∀ t ∈ lib, ∀ c ∈ t.children, Everywhere P c)
    (h1 : ∀ blk y j, P y → Inst rd lib blk y j → Q j.elem)
    (h2 : ∀ y is n k, P y → Content rd lib y is → Q (.mk (natText n) (.group k) none (IElem.elems is)))
    {blk : Option Nat} {x : SXml} {i : IElem} (h : Inst rd lib blk x i) (hx : Everywhere P x) :
    i.elem.Each Q := by
  have hq := h1 _ _ _ (Everywhere.here hx) h
  match h with
  | .scalar a b c => exact .mk hq (by simp [IElem.elems])
  | .string a b c => exact .mk hq (by simp [IElem.elems])
  | .bit a b => exact .mk hq (by simp [IElem.elems])
  | .bitBlock a b c d =>
    exact .mk hq (Insts.each hlib h1 h2 d (fun y hy => Everywhere.child hx hy))
  | .block a b c d =>
    exact .mk hq (Insts.each hlib h1 h2 d (fun y hy => Everywhere.child hx hy))
  | .blocks a b c d e f =>
    have hs := Insts.each hlib h1 h2 e (fun y hy => Everywhere.child hx hy)
    refine .mk hq (fun c hc => ?_)
    rw [IElem.elems_eq] at hc
    obtain ⟨j, hj, rfl⟩ := List.mem_map.1 hc
    obtain ⟨n, hn, hj⟩ := List.mem_iff_getElem.1 hj
    have := f.2 n (f.1 ▸ hn)
    rw [List.getElem?_eq_getElem hn, hj, Option.some.injEq] at this
    subst this
    exact .mk (h2 _ _ _ _ (Everywhere.here hx) (.block a e)) hs
  | .comp a b c d e f =>
    exact .mk hq (Insts.each hlib h1 h2 f (comp_children hlib hx b c))
  | .comps a b c d e f g i =>
    have hs := Insts.each hlib h1 h2 g (comp_children hlib hx b c)
    refine .mk hq (fun d hd => ?_)
    rw [IElem.elems_eq] at hd
    obtain ⟨j, hj, rfl⟩ := List.mem_map.1 hd
    obtain ⟨n, hn, hj⟩ := List.mem_iff_getElem.1 hj
    have := i.2 n (i.1 ▸ hn)
    rw [List.getElem?_eq_getElem hn, hj, Option.some.injEq] at this
    subst this
    exact .mk (h2 _ _ _ _ (Everywhere.here hx) (.comp a b c g)) hs
theorem Insts.each {P : SXml → Prop} {Q : Elem → Prop} {lib : List SXml}
    (hlib : ∀ t ∈ lib, ∀ c ∈ t.children, Everywhere P c)
    (h1 : ∀ blk y j, P y → Inst rd lib blk y j → Q j.elem)
    (h2 : ∀ y is n k, P y → Content rd lib y is → Q (.mk (natText n) (.group k) none (IElem.elems is)))
    {blk : Option Nat} {xs : List SXml} {is : List IElem} (h : Insts rd lib blk xs is)
    (hx : ∀ x ∈ xs, Everywhere P x) : ∀ c ∈ IElem.elems is, c.Each Q := by
  match h with
  | .nil => simp [IElem.elems]
  | .cons a b =>
    intro c hc
    simp only [IElem.elems, List.mem_cons] at hc
    exact hc.elim (fun e => e ▸ Inst.each hlib h1 h2 a (hx _ (List.mem_cons_self ..)))
      (fun hc => Insts.each hlib h1 h2 b (fun x hx' => hx x (List.mem_cons_of_mem _ hx')) c hc)
end

/-- The declaration of the element number `i`. -/
theorem Insts.get {lib : List SXml} {blk : Option Nat} {xs : List SXml} {is : List IElem}
    (h : Insts rd lib blk xs is) : is.length = xs.length ∧
    ∀ (n : Nat) j, is[n]? = some j → ∃ x, xs[n]? = some x ∧ Inst rd lib blk x j := by
  induction xs generalizing is with
  | nil => cases h; simp
  | cons x xs ih =>
    cases h with
    | cons a b =>
      obtain ⟨h1, h2⟩ := ih b
      refine ⟨by simp [h1], fun n j hj => ?_⟩
      cases n with
      | zero => simp only [List.getElem?_cons_zero, Option.some.injEq] at hj; subst hj; exact ⟨x, rfl, a⟩
      | succ n => simpa using h2 n j (by simpa using hj)

theorem Insts.mem {lib : List SXml} {blk : Option Nat} {xs : List SXml} {is : List IElem}
    (h : Insts rd lib blk xs is) {j : IElem} (hj : j ∈ is) : ∃ x ∈ xs, Inst rd lib blk x j := by
  obtain ⟨n, hn⟩ := List.mem_iff_getElem?.1 hj
  obtain ⟨x, hx, hi⟩ := (Insts.get h).2 n j hn
  exact ⟨x, List.mem_of_getElem? hx, hi⟩

theorem Insts.mem_elems {lib : List SXml} {blk : Option Nat} {xs : List SXml} {is : List IElem}
    (h : Insts rd lib blk xs is) {e : Elem} (he : e ∈ IElem.elems is) :
    ∃ x ∈ xs, ∃ j, Inst rd lib blk x j ∧ e = j.elem := by
  rw [IElem.elems_eq] at he
  obtain ⟨j, hj, rfl⟩ := List.mem_map.1 he
  obtain ⟨x, hx, hi⟩ := Insts.mem h hj
  exact ⟨x, hx, j, hi, rfl⟩

/-! ## Sizes -/

/-- What `Elem.WF` and `TypesOk` say of one element. -/
def Elem.Local : Elem → Prop
  | .mk _ k _ cs =>
    match k with
    | .group _ => ∀ c ∈ cs, ∀ t, c.kind ≠ .bit t
    | .bitBlock size => size ≤ 8 ∧ ∀ c ∈ cs, ∃ nm t cy, c = .mk nm (.bit t) cy [] ∧ t.WF ∧ t.blockSize = size
    | .scalar t => TypeOk t ∧ cs = []
    | .array t => TypeOk t.elem ∧ cs = []
    | .string _ => cs = []
    | .bit _ => True

theorem TypeOk.sizeOk {t : ScalarType} (h : TypeOk t) : t.SizeOk := by
  cases t with
  | bool => exact .inl rfl
  | int t => exact h.size
  | enum t => exact h
  | fixed t => exact h.size
  | float t => exact .inr (.inr rfl)

theorem Elem.wf_of_each {root : Elem} (h : root.Each Elem.Local) (hb : ∀ t, root.kind ≠ .bit t) :
    root.WF := by
  induction h with
  | @mk n k sy cs h1 h2 ih =>
    cases k with
    | group k => exact .group (fun c hc => ih c hc (h1 c hc)) h1
    | bitBlock size => exact .bitBlock h1.1 h1.2
    | scalar t => obtain ⟨h1, rfl⟩ := h1; exact .scalar (TypeOk.sizeOk h1)
    | array t => obtain ⟨h1, rfl⟩ := h1; exact .array (TypeOk.sizeOk h1)
    | string m =>
      have : cs = [] := h1
      subst this; exact .string
    | bit t => exact absurd rfl (hb t)

theorem Elem.typesOk_of_each {root : Elem} (h : root.Each Elem.Local) : TypesOk root := by
  intro p e t he hk
  have := h.at? he
  obtain ⟨n, k, sy, cs⟩ := e
  rcases hk with rfl | ⟨n, rfl⟩
  · exact this.1
  · exact this.1

theorem Scalar.typeOk {x : SXml} {t : ScalarType} (hs : SizesDeclared x) (h : Scalar rd x t) : TypeOk t := by
  cases h with
  | bool => trivial
  | @int size signed lo hi _ b c d e f g i j =>
    refine ⟨c, j, ?_, ?_⟩
    · simp only [lowest] at f
      cases signed
      · simpa using f
      · simpa [IntType.bits] using f
    · simp only [highest] at i
      cases signed
      · simp only [Bool.false_eq_true, if_false] at i ⊢
        simp only [IntType.bits] at i ⊢
        omega
      · simp only [if_true] at i ⊢
        simp only [IntType.bits] at i ⊢
        omega
  | enum a b c d =>
    obtain ⟨n, hn, hn'⟩ := hs.enum a
    have := NumAttr.unique hn' c
    simp only [List.mem_cons, List.not_mem_nil, or_false] at hn
    show _ / 8 = 1 ∨ _ / 8 = 2 ∨ _ / 8 = 4
    omega
  | fixed a b c d e f g =>
    obtain ⟨n, hn, hn'⟩ := hs.fixed a
    have := NumAttr.unique hn' b
    have hw := hs.noWrap a _ _ c d
    simp only [List.mem_cons, List.not_mem_nil, or_false] at hn
    refine ⟨?_, ?_⟩
    · show _ / 8 = 1 ∨ _ / 8 = 2 ∨ _ / 8 = 4
      omega
    · have := g (by omega)
      simp only
      omega
  | float _ _ c d e => exact ⟨c.1, d.1, e⟩

theorem Bits.wf {size : Nat} {x : SXml} {t : BitType} (hsize : size ≤ 8) (hs : SizesDeclared x)
    (h : Bits size x t) : t.WF ∧ t.blockSize = size := by
  cases h with
  | @mk pos bits m a b c d e f g i j =>
    obtain ⟨n, hn, hn'⟩ := hs.pos a
    have := NumAttr.unique hn' b
    have hp : 1 ≤ 2 ^ bits := Nat.one_le_two_pow
    have hp' : 2 ^ bits ≤ 2 ^ 64 := Nat.pow_le_pow_right (by decide) e
    refine ⟨⟨d, g (by omega), hsize, ?_⟩, rfl⟩
    show (BitVec.ofNat 64 m).toNat < 2 ^ bits
    rw [BitVec.toNat_ofNat, Nat.mod_eq_of_lt (by omega)]
    omega

theorem Inst.not_bit {lib : List SXml} {x : SXml} {i : IElem} (h : Inst rd lib none x i) (t : BitType) :
    i.elem.kind ≠ .bit t := by
  cases h with
  | scalar => simp only [IElem.elem, Elem.kind]; split <;> simp
  | _ => simp [IElem.elem, Elem.kind]

theorem Everywhere.dup {P : SXml → Prop} {x : SXml} (h : Everywhere P x) :
    Everywhere (Everywhere P) x := by
  induction h with
  | mk h1 h2 ih => exact .mk (.mk h1 h2) ih

/-- Elements of the declared sizes. -/
theorem Inst.local_here {lib : List SXml} {blk : Option Nat} {x : SXml}
    {i : IElem} (hx : Everywhere SizesDeclared x) (h : Inst rd lib blk x i) : i.elem.Local := by
  have hs := Everywhere.here hx
  have hgroup : ∀ {k : Str} {ys : List SXml} {is : List IElem} {n : Str},
      Insts rd lib none ys is → (Elem.mk n (.group k) none (IElem.elems is)).Local := by
    intro k ys is n hi c hc t
    obtain ⟨y, -, j, hj, rfl⟩ := Insts.mem_elems hi hc
    exact Inst.not_bit hj t
  have hnum : ∀ {k k' : Str} {len : Nat} {ms : List MData} {is es : List IElem} {n : Str},
      Numbered len (.group k') ms is es → (Elem.mk n (.group k) none (IElem.elems es)).Local := by
    intro k k' len ms is es n hi c hc t
    rw [IElem.elems_eq] at hc
    obtain ⟨j, hj, rfl⟩ := List.mem_map.1 hc
    obtain ⟨n, hn, hj⟩ := List.mem_iff_getElem.1 hj
    have := hi.2 n (hi.1 ▸ hn)
    rw [List.getElem?_eq_getElem hn, hj, Option.some.injEq] at this
    subst this
    simp [IElem.elem, Elem.kind]
  cases h with
  | scalar a b c =>
    have := Scalar.typeOk hs a
    simp only [IElem.elem, IElem.elems]
    split
    · exact ⟨this, rfl⟩
    · exact ⟨this, rfl⟩
  | string => rfl
  | bit => trivial
  | @bitBlock _ _ bits ms is a b c d =>
    obtain ⟨⟨n, hn, hn'⟩, htags⟩ := hs.block a
    have := NumAttr.unique hn' b
    simp only [List.mem_cons, List.not_mem_nil, or_false] at hn
    have hsize : bits / 8 ≤ 8 := by omega
    refine ⟨hsize, fun c hc => ?_⟩
    obtain ⟨y, hy, j, hj, rfl⟩ := Insts.mem_elems d hc
    have hyt := htags y hy
    have hys := Everywhere.here (Everywhere.child hx hy)
    cases hj with
    | bit e f =>
      obtain ⟨h1, h2⟩ := Bits.wf hsize hys e
      exact ⟨_, _, _, rfl, h1, h2⟩
    | scalar e => exact (tag_not_mem hyt (Scalar.tag e) (by decide)).elim
    | string e => exact (tag_ne hyt e (by decide)).elim
    | bitBlock e => exact (tag_ne hyt e (by decide)).elim
    | block e => exact (tag_ne hyt e (by decide)).elim
    | blocks e => exact (tag_ne hyt e (by decide)).elim
    | comp e => exact (tag_ne hyt e (by decide)).elim
    | comps e => exact (tag_ne hyt e (by decide)).elim
  | block a b c d => exact hgroup d
  | blocks a b c d e f => exact hnum f
  | comp a b c d e f => exact hgroup f
  | comps a b c d e f g i => exact hnum i

theorem Content.local {lib : List SXml} {y : SXml} {is : List IElem} (h : Content rd lib y is) (n : Str)
    (k : Str) : (Elem.mk n (.group k) none (IElem.elems is)).Local := by
  intro c hc t
  cases h with
  | block _ h =>
    obtain ⟨y, -, j, hj, rfl⟩ := Insts.mem_elems h hc
    exact Inst.not_bit hj t
  | comp _ _ _ h =>
    obtain ⟨y, -, j, hj, rfl⟩ := Insts.mem_elems h hc
    exact Inst.not_bit hj t

theorem Insts.local {lib : List SXml}
    (hlib : ∀ t ∈ lib, ∀ c ∈ t.children, Everywhere SizesDeclared c) {blk : Option Nat} {xs : List SXml}
    {is : List IElem} (h : Insts rd lib blk xs is) (hx : ∀ x ∈ xs, Everywhere SizesDeclared x) :
    ∀ c ∈ IElem.elems is, c.Each Elem.Local :=
  Insts.each (P := Everywhere SizesDeclared) (fun t ht c hc => Everywhere.dup (hlib t ht c hc))
    (fun _ _ _ hy h => Inst.local_here hy h) (fun _ _ _ k _ hc => Content.local hc _ k) h
    (fun x hx' => Everywhere.dup (hx x hx'))

/-! ## Fields -/

/-- What `Elem.FieldsDisjoint` says of one element. -/
def Elem.FieldsHere (e : Elem) : Prop :=
  ∀ (i j : Nat) (c d : Elem) (t u : BitType), i ≠ j → e.children[i]? = some c → e.children[j]? = some d → c.kind = .bit t →
    d.kind = .bit u → t.pos + t.bits ≤ u.pos ∨ u.pos + u.bits ≤ t.pos

theorem Elem.at?_parent {root e : Elem} {p : Pos} {i : Nat} (h : root.at? (p ++ [i]) = some e) :
    ∃ d, root.at? p = some d ∧ d.children[i]? = some e := by
  induction p generalizing root with
  | nil =>
    obtain ⟨n, k, sy, cs⟩ := root
    simp only [List.nil_append, Elem.at?] at h
    split at h
    · cases h
    · rename_i c hc
      simp only [Option.some.injEq] at h; subst h
      exact ⟨_, rfl, hc⟩
  | cons j p ih =>
    obtain ⟨n, k, sy, cs⟩ := root
    simp only [List.cons_append, Elem.at?] at h ⊢
    split at h
    · cases h
    · rename_i c hc
      exact ih h

theorem Elem.fieldsDisjoint_of_each {root : Elem} (h : root.Each Elem.FieldsHere) : root.FieldsDisjoint := by
  rintro p i j t u hij ⟨c, hc, hct⟩ ⟨d, hd, hdu⟩
  obtain ⟨e, he, hec⟩ := Elem.at?_parent hc
  obtain ⟨e', he', hed⟩ := Elem.at?_parent hd
  rw [he] at he'; cases he'
  exact h.at? he i j c d t u hij hec hed hct hdu

theorem fieldsHere_of_not_bit {n : Str} {k : EKind} {sy : Option Nat} {cs : List Elem}
    (h : ∀ c ∈ cs, ∀ t, c.kind ≠ .bit t) : (Elem.mk n k sy cs).FieldsHere := by
  intro i j c d t u _ hc _ hct _
  exact absurd hct (h c (List.mem_of_getElem? hc) t)

theorem Inst.bit_of_kind {lib : List SXml} {blk : Option Nat} {x : SXml} {i : IElem} {t : BitType}
    (h : Inst rd lib blk x i) (hk : i.elem.kind = .bit t) : ∃ size, Bits size x t := by
  cases h with
  | scalar => simp only [IElem.elem, Elem.kind] at hk; split at hk <;> cases hk
  | bit a b => simp only [IElem.elem, Elem.kind, EKind.bit.injEq] at hk; subst hk; exact ⟨_, a⟩
  | _ => simp [IElem.elem, Elem.kind] at hk

theorem Inst.fieldsHere {lib : List SXml} {blk : Option Nat} {x : SXml} {i : IElem}
    (hx : FieldsDeclaredDisjoint x) (h : Inst rd lib blk x i) : i.elem.FieldsHere := by
  have hgroup : ∀ {k : EKind} {ys : List SXml} {is : List IElem} {n : Str},
      Insts rd lib none ys is → (Elem.mk n k none (IElem.elems is)).FieldsHere := by
    intro k ys is n hi
    refine fieldsHere_of_not_bit (fun c hc t => ?_)
    obtain ⟨y, -, j, hj, rfl⟩ := Insts.mem_elems hi hc
    exact Inst.not_bit hj t
  have hnum : ∀ {k : EKind} {k' : Str} {len : Nat} {ms : List MData} {is es : List IElem} {n : Str},
      Numbered len (.group k') ms is es → (Elem.mk n k none (IElem.elems es)).FieldsHere := by
    intro k k' len ms is es n hi
    refine fieldsHere_of_not_bit (fun c hc t => ?_)
    rw [IElem.elems_eq] at hc
    obtain ⟨j, hj, rfl⟩ := List.mem_map.1 hc
    obtain ⟨n, hn, hj⟩ := List.mem_iff_getElem.1 hj
    have := hi.2 n (hi.1 ▸ hn)
    rw [List.getElem?_eq_getElem hn, hj, Option.some.injEq] at this
    subst this
    simp [IElem.elem, Elem.kind]
  cases h with
  | scalar => exact fieldsHere_of_not_bit (by simp [IElem.elems])
  | string => exact fieldsHere_of_not_bit (by simp [IElem.elems])
  | bit => exact fieldsHere_of_not_bit (by simp [IElem.elems])
  | @bitBlock _ _ bits ms is a b c d =>
    have hp := hx a
    intro i j c' d' t u hij hc hd hct hdu
    simp only [IElem.elem, Elem.children, IElem.elems_eq, List.getElem?_map, Option.map_eq_some_iff] at hc hd
    obtain ⟨ci, hci, rfl⟩ := hc
    obtain ⟨di, hdi, rfl⟩ := hd
    obtain ⟨y, hy, hyi⟩ := (Insts.get d).2 _ _ hci
    obtain ⟨z, hz, hzi⟩ := (Insts.get d).2 _ _ hdi
    obtain ⟨_, hby⟩ := Inst.bit_of_kind hyi hct
    obtain ⟨_, hbz⟩ := Inst.bit_of_kind hzi hdu
    rw [List.pairwise_iff_getElem] at hp
    obtain ⟨hil, hie⟩ := List.getElem?_eq_some_iff.1 hy
    obtain ⟨hjl, hje⟩ := List.getElem?_eq_some_iff.1 hz
    cases hby with
    | mk _ p1 s1 =>
      cases hbz with
      | mk _ p2 s2 =>
        rcases Nat.lt_or_gt_of_ne hij with hlt | hlt
        · have := hp i j hil hjl hlt _ _ _ _ (hie ▸ p1) (hie ▸ s1) (hje ▸ p2) (hje ▸ s2)
          simp only; omega
        · have := hp j i hjl hil hlt _ _ _ _ (hje ▸ p2) (hje ▸ s2) (hie ▸ p1) (hie ▸ s1)
          simp only; omega
  | block a b c d => exact hgroup d
  | blocks a b c d e f => exact hnum f
  | comp a b c d e f => exact hgroup f
  | comps a b c d e f g i => exact hnum i

theorem Insts.fields {lib : List SXml}
    (hlib : ∀ t ∈ lib, ∀ c ∈ t.children, Everywhere FieldsDeclaredDisjoint c) {blk : Option Nat}
    {xs : List SXml} {is : List IElem} (h : Insts rd lib blk xs is)
    (hx : ∀ x ∈ xs, Everywhere FieldsDeclaredDisjoint x) :
    ∀ c ∈ IElem.elems is, c.Each Elem.FieldsHere :=
  Insts.each hlib (fun _ _ _ hy h => Inst.fieldsHere hy h)
    (fun _ _ _ k _ hc => fieldsHere_of_not_bit (Content.local hc [] k)) h hx

/-! ## Names -/

/-- What `Elem.GoodNames` says of one element. -/
def Elem.NamesHere (e : Elem) : Prop :=
  e.pathName ≠ [] ∧ '/' ∉ e.pathName ∧ (e.children.map Elem.pathName).Nodup

theorem Elem.goodNames_of_each {root : Elem} (h : root.Each Elem.NamesHere) : root.GoodNames := by
  induction h with
  | mk h1 _ ih => exact .mk h1.1 h1.2.1 h1.2.2 ih

theorem Inst.declTag {lib : List SXml} {blk : Option Nat} {x : SXml} {i : IElem} (h : Inst rd lib blk x i) :
    x.tag ∈ declTags := by
  cases h with
  | scalar a => cases a <;> simp_all [declTags]
  | bit a => rw [Bits.tag a]; decide
  | string a => rw [a]; decide
  | bitBlock a => rw [a]; decide
  | block a => rw [a]; decide
  | blocks a => rw [a]; decide
  | comp a => rw [a]; decide
  | comps a => rw [a]; decide

theorem Inst.elem_name {lib : List SXml} {blk : Option Nat} {x : SXml} {i : IElem}
    (h : Inst rd lib blk x i) : i.elem.name = x.nameAttr := by
  cases h <;> rfl

theorem Inst.pathName {lib' lib : List SXml} {blk : Option Nat} {x : SXml} {i : IElem}
    (hx : NamesDeclared lib' x) (h : Inst rd lib blk x i) : i.elem.pathName = x.nameAttr := by
  have := (hx.name (Inst.declTag h)).1
  rw [Elem.pathName, Inst.elem_name h, if_pos this]

theorem Insts.names {lib' lib : List SXml} {blk : Option Nat} {xs : List SXml} {is : List IElem}
    (h : Insts rd lib blk xs is) (hx : ∀ x ∈ xs, NamesDeclared lib' x) :
    (IElem.elems is).map Elem.pathName = xs.map SXml.nameAttr := by
  induction xs generalizing is with
  | nil => cases h; rfl
  | cons x xs ih =>
    cases h with
    | cons a b =>
      simp only [IElem.elems, List.map_cons]
      rw [Inst.pathName (hx _ (List.mem_cons_self ..)) a,
        ih b (fun y hy => hx y (List.mem_cons_of_mem _ hy))]

theorem natText_ne_nil (n : Nat) : natText n ≠ [] := by
  exact (numeral_natText n).chars.1

theorem natText_inj {n m : Nat} (h : natText n = natText m) : n = m := by
  have := numeral_natText n
  rw [h] at this
  exact this.unique (numeral_natText m)

theorem natText_no_slash (n : Nat) : '/' ∉ natText n := by
  intro h
  obtain ⟨d, hd⟩ := (numeral_natText n).chars.2 '/' h
  have key : ∀ p ∈ digitTable, p.1 ≠ '/' := by decide
  exact key _ hd.2 rfl

theorem Numbered.names {len : Nat} {k : EKind} {ms : List MData} {is es : List IElem}
    (h : Numbered len k ms is es) : ((IElem.elems es).map Elem.pathName).Nodup := by
  have : (IElem.elems es).map Elem.pathName = (List.range len).map natText := by
    apply List.ext_getElem?
    intro i
    simp only [IElem.elems_eq, List.getElem?_map]
    by_cases hi : i < len
    · rw [h.2 i hi, List.getElem?_range hi]
      simp [IElem.elem, Elem.pathName, Elem.name, natText_ne_nil]
    · rw [List.getElem?_eq_none (by rw [h.1]; omega), List.getElem?_eq_none (by simp; omega)]; rfl
  rw [this]
  exact List.Pairwise.map _ (fun a b hab h => hab (natText_inj h)) List.nodup_range

theorem Inst.namesHere {lib : List SXml} {blk : Option Nat} {x : SXml} {i : IElem}
    (hlib : ∀ t ∈ lib, ∀ c ∈ t.children, Everywhere (NamesDeclared lib) c)
    (hx : Everywhere (NamesDeclared lib) x) (h : Inst rd lib blk x i) : i.elem.NamesHere := by
  have hs := Everywhere.here hx
  have hn := hs.name (Inst.declTag h)
  have hc : (i.elem.children.map Elem.pathName).Nodup → i.elem.NamesHere := by
    intro h3
    rw [Elem.NamesHere, Inst.pathName hs h]
    exact ⟨hn.1, hn.2, h3⟩
  apply hc
  cases h with
  | scalar => simp [IElem.elem, IElem.elems, Elem.children]
  | string => simp [IElem.elem, IElem.elems, Elem.children]
  | bit => simp [IElem.elem, IElem.elems, Elem.children]
  | bitBlock a b c d =>
    simp only [IElem.elem, Elem.children]
    rw [Insts.names d (fun y hy => Everywhere.here (Everywhere.child hx hy))]
    exact hs.block (by rw [a]; decide)
  | block a b c d =>
    simp only [IElem.elem, Elem.children]
    rw [Insts.names d (fun y hy => Everywhere.here (Everywhere.child hx hy))]
    exact hs.block (by rw [a]; decide)
  | blocks a b c d e f => exact Numbered.names f
  | comp a b c d e f =>
    simp only [IElem.elem, Elem.children]
    rw [Insts.names f (fun y hy => Everywhere.here (comp_children hlib hx b c y hy))]
    exact hs.comp a _ _ b c
  | comps a b c d e f g i => exact Numbered.names i

theorem Content.namesHere {lib : List SXml} {x : SXml} {is : List IElem}
    (hlib : ∀ t ∈ lib, ∀ c ∈ t.children, Everywhere (NamesDeclared lib) c)
    (hx : Everywhere (NamesDeclared lib) x) (h : Content rd lib x is) (n : Nat) (k : Str) :
    (Elem.mk (natText n) (.group k) none (IElem.elems is)).NamesHere := by
  have hs := Everywhere.here hx
  refine ⟨?_, ?_, ?_⟩
  · simp [Elem.pathName, Elem.name, natText_ne_nil]
  · simp [Elem.pathName, Elem.name, natText_ne_nil, natText_no_slash]
  · cases h with
    | block a d =>
      simp only [Elem.children]
      rw [Insts.names d (fun y hy => Everywhere.here (Everywhere.child hx hy))]
      exact hs.block (by rw [a]; decide)
    | comp a b c f =>
      simp only [Elem.children]
      rw [Insts.names f (fun y hy => Everywhere.here (comp_children hlib hx b c y hy))]
      exact hs.comp a _ _ b c

theorem Insts.namesEach {lib : List SXml}
    (hlib : ∀ t ∈ lib, ∀ c ∈ t.children, Everywhere (NamesDeclared lib) c) {blk : Option Nat}
    {xs : List SXml} {is : List IElem} (h : Insts rd lib blk xs is)
    (hx : ∀ x ∈ xs, Everywhere (NamesDeclared lib) x) :
    ∀ c ∈ IElem.elems is, c.Each Elem.NamesHere :=
  Insts.each (P := Everywhere (NamesDeclared lib)) (fun t ht c hc => Everywhere.dup (hlib t ht c hc))
    (fun _ _ _ hy h => Inst.namesHere hlib hy h)
    (fun _ _ n k hy hc => Content.namesHere hlib hy hc n k) h (fun x hx' => Everywhere.dup (hx x hx'))

/-! ## The types of a library -/

mutual
theorem Everywhere.typesIn {P : SXml → Prop} : ∀ {x : SXml}, Everywhere P x → ∀ t ∈ typesIn x, Everywhere P t
  | .mk tag attrs cs, h, t, ht => by
    unfold Spec.typesIn at ht
    split at ht
    · exact Everywhere.typesInAll (fun c hc => Everywhere.child h hc) t ht
    · simp only [List.mem_singleton] at ht; exact ht ▸ h
theorem Everywhere.typesInAll {P : SXml → Prop} : ∀ {xs : List SXml}, (∀ x ∈ xs, Everywhere P x) →
    ∀ t ∈ typesInAll xs, Everywhere P t
  | [], _, t, ht => by simp [Spec.typesInAll] at ht
  | x :: xs, h, t, ht => by
    unfold Spec.typesInAll at ht
    rcases List.mem_append.1 ht with ht | ht
    · exact Everywhere.typesIn (h x (List.mem_cons_self ..)) t ht
    · exact Everywhere.typesInAll (fun c hc => h c (List.mem_cons_of_mem _ hc)) t ht
end

end PF
