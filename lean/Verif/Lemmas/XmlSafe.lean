import Verif.Lemmas.XmlSets
import Verif.Lemmas.HandleSet
import Verif.Lemmas.Area
import Mathlib.Tactic.Ring

/-! Helper lemmas: imports of settings do not stop the program; decimal texts have one value. -/

namespace PF

mutual
theorem Elem.importXml_fits {rd : Reader} {hex : Bool} (e : Elem) {off : Nat} {x : XElem}
    {raw : Bool} {b : Board} (bits : ∀ q f o, e.Param off q f o → ∀ t, f.kind = .bit t → t.WF)
    (room : ∀ q f o, e.Param off q f o → o + f.areaSize ≤ b.length) :
    (e.importXml rd hex 0 off x raw b).1 ≠ .abort := by
  cases e with | mk n k sy cs =>
  simp only [Elem.importXml]
  have hch := fun raw (b' : Board) (hl : b'.length = b.length) => Elem.importChildren_fits (rd := rd) (hex := hex) cs (off := off)
    (xs := x.children) (raw := raw) (b := b') (fun q f o hp => by
      cases q with
      | nil => simp [Elem.Params] at hp
      | cons j q => exact bits (j :: q) f o (Elem.param_cons.2 hp)) (fun q f o hp => by
      rw [hl]
      cases q with
      | nil => simp [Elem.Params] at hp
      | cons j q => exact room (j :: q) f o (Elem.param_cons.2 hp))
  split
  · rename_i hk
    have hself : (Elem.mk n k sy cs).Param off [] (.mk n k sy cs) off := ⟨rfl, hk, rfl⟩
    have hf := setParamText_frame (rd := rd) (ctx := ⟨k.importRaw x raw, hex⟩) (e := .mk n k sy cs) (b := b)
      (off := off) (base := 0) (items := []) (text := x.text) (bits [] _ off hself) (Nat.zero_le _)
    have hs := setParamText_fits rd ⟨k.importRaw x raw, hex⟩ (e := .mk n k sy cs) (b := b) (off := off) (base := 0)
      [] x.text (Nat.zero_le _) (by simpa using room [] _ off hself)
    simp only [Elem.kind] at hf hs
    generalize setParamText rd ⟨k.importRaw x raw, hex⟩ k b off 0 [] x.text = r at hf hs
    obtain ⟨r1, r2⟩ := r
    rcases r1 with _ | _ | _
    · exact hch _ _ hf.1
    · simp
    · exact absurd rfl hs
  · exact hch _ _ rfl
theorem Elem.importChildren_fits {rd : Reader} {hex : Bool} (cs : List Elem) {off : Nat}
    {xs : List XElem} {raw : Bool} {b : Board} (bits : ∀ q f o, Elem.Params cs off q f o → ∀ t, f.kind = .bit t → t.WF)
    (room : ∀ q f o, Elem.Params cs off q f o → o + f.areaSize ≤ b.length) :
    (Elem.importChildren rd hex 0 cs off xs raw b).1 ≠ .abort := by
  cases cs with
  | nil => cases xs <;> simp [Elem.importChildren]
  | cons c cs =>
    cases xs with
    | nil => simp [Elem.importChildren]
    | cons x xs =>
      simp only [Elem.importChildren]
      have bits1 := fun q f o (hp : c.Param off q f o) => bits (0 :: q) f o (Elem.params_zero.2 hp)
      have h1 := Elem.importXml_frame (rd := rd) (hex := hex) c (off := off) (x := x) (raw := raw) (b := b) bits1
      have h2 := Elem.importXml_fits (rd := rd) (hex := hex) c (off := off) (x := x) (raw := raw) (b := b) bits1
        (fun q f o hp => room (0 :: q) f o (Elem.params_zero.2 hp))
      split
      · simp
      split
      · simp
      generalize Elem.importXml rd hex 0 c off x raw b = r at h1 h2
      obtain ⟨r1, raw', b'⟩ := r
      rcases r1 with _ | _ | _
      · refine Elem.importChildren_fits (rd := rd) (hex := hex) cs (off := off + c.footprint) (xs := xs)
          (raw := raw') (b := b') (fun q f o hp => ?_) (fun q f o hp => ?_)
        · cases q with
          | nil => simp [Elem.Params] at hp
          | cons j q => exact bits ((j + 1) :: q) f o (Elem.params_succ.2 hp)
        · rw [h1.1]
          cases q with
          | nil => simp [Elem.Params] at hp
          | cons j q => exact room ((j + 1) :: q) f o (Elem.params_succ.2 hp)
      · simp
      · exact absurd rfl h2
end

theorem Elem.importXml_safe {root e : Elem} (wf : root.WF) {p : Pos} (hp : root.at? p = some e)
    (rd : Reader) (hex raw : Bool) (x : XElem) {b : Board} {off : Nat} (hl : off + e.areaSize ≤ b.length) :
    (e.importXml rd hex 0 off x raw b).1 ≠ .abort := by
  refine Elem.importXml_fits e (fun q f o h => Elem.param_bits wf hp h) (fun q f o h => ?_)
  obtain ⟨a, ha⟩ := Elem.offset_of_at (off := 0) hp
  obtain ⟨u, hu⟩ := Elem.offset_of_at (off := 0) h.1
  have h1 := Elem.offset_shift (off := a) hu
  have h2 := Elem.offset_shift (off := off) hu
  have ho : o = off + u := by
    have := h.2.2; rw [h2] at this; simpa using this.symm
  have := wf.area_inside (q := p ++ q) (f := f) (List.prefix_append _ _) hp
    (by rw [Elem.at?_append, hp]; exact h.1) ha (by rw [Elem.offset_append, hp, ha]; exact h1)
  omega

theorem Elem.params_disjoint {root e : Elem} (wf : root.WF) (fd : root.FieldsDisjoint) {p : Pos} (hp : root.at? p = some e)
    {off : Nat} (q q' : Pos) (f f' : Elem) (o o' : Nat) (hne : q ≠ q') (h : e.Param off q f o) (h' : e.Param off q' f' o') :
    (f.extent o).2 ≤ (f'.extent o').1 ∨ (f'.extent o').2 ≤ (f.extent o).1 := by
  rcases wf.at_cases hp with hw | ⟨nm, t, sy, he, ht⟩
  · refine hw.extent_disjoint (fd.at hp) h.1 h'.1 h.2.2 h'.2.2 ⟨fun hpre => ?_, fun hpre => ?_⟩
    · exact hne (hw.param_leaf h.1 h.2.1 h'.1 hpre)
    · exact hne (hw.param_leaf h'.1 h'.2.1 h.1 hpre).symm
  · exact absurd ((Elem.leaf_param he h).1.trans (Elem.leaf_param he h').1.symm) hne

/-! ## Decimal texts have one value -/

/-- The value of an unsigned decimal text. -/
def decimalMagnitude (t : Str) : Rat :=
  (((parseNat 10 (t.takeWhile (· ≠ '.'))).getD 0 : Nat) : Rat) +
    (((parseNat 10 (t.dropWhile (· ≠ '.')).tail).getD 0 : Nat) : Rat) / (10 ^ (t.dropWhile (· ≠ '.')).tail.length : Nat)

theorem Numeral.no_char {t : Str} {n : Nat} (h : Numeral 10 t n) : '.' ∉ t ∧ '-' ∉ t := by
  have key : ∀ p ∈ digitTable, p.1 ≠ '.' ∧ p.1 ≠ '-' := by decide
  constructor
  · intro hc; obtain ⟨dd, hdd⟩ := h.chars.2 _ hc; exact (key _ hdd.2).1 rfl
  · intro hc; obtain ⟨dd, hdd⟩ := h.chars.2 _ hc; exact (key _ hdd.2).2 rfl

theorem split_dot (t u : Str) (h : '.' ∉ t) :
    (t ++ '.' :: u).takeWhile (· ≠ '.') = t ∧ (t ++ '.' :: u).dropWhile (· ≠ '.') = '.' :: u := by
  induction t with
  | nil => simp
  | cons c t ih =>
    simp only [List.mem_cons, not_or] at h
    have hc : (c ≠ '.') := fun e => h.1 e.symm
    have := ih h.2
    constructor
    · simpa [hc] using this.1
    · simpa [hc] using this.2

theorem no_dot (t : Str) (h : '.' ∉ t) :
    t.takeWhile (· ≠ '.') = t ∧ t.dropWhile (· ≠ '.') = [] := by
  induction t with
  | nil => simp
  | cons c t ih =>
    simp only [List.mem_cons, not_or] at h
    have hc : (c ≠ '.') := fun e => h.1 e.symm
    have := ih h.2
    constructor
    · simpa [hc] using this.1
    · simpa [hc] using this.2

theorem decimalMagnitude_int {t : Str} {n : Nat} (h : Numeral 10 t n) : decimalMagnitude t = n := by
  have h0 : parseNat 10 [] = none := rfl
  unfold decimalMagnitude
  rw [(no_dot t h.no_char.1).1, (no_dot t h.no_char.1).2, parseNat_of_numeral h]
  simp [h0]

theorem decimalMagnitude_frac {t u : Str} {n m : Nat} (h : Numeral 10 t n) (h' : Numeral 10 u m) :
    decimalMagnitude (t ++ '.' :: u) = (n : Rat) + (m : Rat) / (10 ^ u.length : Nat) := by
  unfold decimalMagnitude
  rw [(split_dot t u h.no_char.1).1, (split_dot t u h.no_char.1).2, parseNat_of_numeral h, List.tail_cons, parseNat_of_numeral h']
  simp

/-- The value of a decimal text. -/
def decimalValue (t : Str) : Rat :=
  match t with
  | '-' :: u => - decimalMagnitude u
  | u => decimalMagnitude u

theorem decimalValue_of_not_neg {t : Str} (h : '-' ∉ t) : decimalValue t = decimalMagnitude t := by
  unfold decimalValue
  split
  · exact absurd (by simp) h
  · rfl

theorem DecimalText.value {t : Str} {v : Rat} (h : DecimalText t v) : decimalValue t = v := by
  cases h with
  | int h => rw [decimalValue_of_not_neg h.no_char.2, decimalMagnitude_int h]
  | negInt h => simp only [decimalValue]; rw [decimalMagnitude_int h]
  | frac h h' =>
    rw [decimalValue_of_not_neg ?_, decimalMagnitude_frac h h']
    simp only [List.mem_append, List.mem_cons, not_or]
    exact ⟨h.no_char.2, by decide, h'.no_char.2⟩
  | negFrac h h' => simp only [decimalValue]; rw [decimalMagnitude_frac h h']

/-- The value of a text with an optional exponent. -/
def realValue (t : Str) : Rat :=
  match t.dropWhile (· ≠ 'e') with
  | 'e' :: '+' :: u => decimalValue (t.takeWhile (· ≠ 'e')) * 10 ^ (parseNat 10 u).getD 0
  | 'e' :: '-' :: u => decimalValue (t.takeWhile (· ≠ 'e')) / 10 ^ (parseNat 10 u).getD 0
  | _ => decimalValue t

theorem DecimalText.no_e {t : Str} {v : Rat} (h : DecimalText t v) : 'e' ∉ t := by
  have num : ∀ {t : Str} {n : Nat}, Numeral 10 t n → 'e' ∉ t := by
    intro t n h hc
    have key : ∀ p ∈ digitTable, p.2 < 10 → p.1 ≠ 'e' := by decide
    obtain ⟨d, hd⟩ := h.chars.2 _ hc
    exact key _ hd.2 hd.1 rfl
  cases h with
  | int h => exact num h
  | negInt h => simp [num h]
  | frac h h' => simp [num h, num h']
  | negFrac h h' => simp [num h, num h']

theorem split_e (t u : Str) (h : 'e' ∉ t) :
    (t ++ 'e' :: u).takeWhile (· ≠ 'e') = t ∧ (t ++ 'e' :: u).dropWhile (· ≠ 'e') = 'e' :: u := by
  induction t with
  | nil => simp
  | cons c t ih =>
    simp only [List.mem_cons, not_or] at h
    have hc : (c ≠ 'e') := fun e => h.1 e.symm
    have := ih h.2
    constructor
    · simpa [hc] using this.1
    · simpa [hc] using this.2

theorem no_e (t : Str) (h : 'e' ∉ t) : t.dropWhile (· ≠ 'e') = [] := by
  induction t with
  | nil => simp
  | cons c t ih =>
    simp only [List.mem_cons, not_or] at h
    have hc : (c ≠ 'e') := fun e => h.1 e.symm
    simpa [hc] using ih h.2

theorem Spec.RealText.value {t : Str} {v : Rat} (h : Spec.RealText t v) : realValue t = v := by
  unfold realValue
  cases h with
  | plain h => rw [no_e t h.no_e]; exact h.value
  | exp h h' =>
    rw [(split_e _ _ h.no_e).1, (split_e _ _ h.no_e).2]
    simp only [parseNat_of_numeral h', Option.getD_some, h.value]
  | negExp h h' =>
    rw [(split_e _ _ h.no_e).1, (split_e _ _ h.no_e).2]
    simp only [parseNat_of_numeral h', Option.getD_some, h.value]

theorem DecimalText.sign {t : Str} {q : Rat} (h : DecimalText t q) (r : Str) :
    (t ++ r).head? = some '-' ∧ q ≤ 0 ∨ (t ++ r).head? ≠ some '-' ∧ 0 ≤ q := by
  have num : ∀ {t : Str} {n : Nat} (r : Str), Numeral 10 t n → (t ++ r).head? ≠ some '-' := by
    intro t n r h
    rw [List.head?_append_of_ne_nil _ h.chars.1]
    intro e
    have := List.mem_of_mem_head? e
    exact (h.noSpecial _ this).2.1 rfl
  cases h with
  | int h => exact .inr ⟨num _ h, by positivity⟩
  | negInt h => exact .inl ⟨rfl, by simp⟩
  | frac h h' => rw [List.append_assoc]; exact .inr ⟨num _ h, by positivity⟩
  | negFrac h h' => exact .inl ⟨rfl, by rw [neg_nonpos]; positivity⟩

theorem Spec.RealText.sign {t : Str} {q : Rat} (h : Spec.RealText t q) :
    t.head? = some '-' ∧ q ≤ 0 ∨ t.head? ≠ some '-' ∧ 0 ≤ q := by
  cases h with
  | plain h => have := h.sign []; simpa using this
  | exp h h' =>
    rcases h.sign _ with ⟨h1, h2⟩ | ⟨h1, h2⟩
    · exact .inl ⟨h1, mul_nonpos_of_nonpos_of_nonneg h2 (by positivity)⟩
    · exact .inr ⟨h1, by positivity⟩
  | negExp h h' =>
    rcases h.sign _ with ⟨h1, h2⟩ | ⟨h1, h2⟩
    · exact .inl ⟨h1, div_nonpos_of_nonpos_of_nonneg h2 (by positivity)⟩
    · exact .inr ⟨h1, by positivity⟩

/-- There is a reader of decimal texts as the round trip needs it. -/
theorem ReadsDecimals.exists : ∃ rd : Reader, ReadsDecimals rd := by
  classical
  refine ⟨⟨fun t => if h : ∃ d : Dbl, decimalValue t = d.val then some h.choose else none,
    fun t => some (f32Round (realValue t).num (realValue t).den (decide (t.head? = some '-')))⟩, ?_, ?_⟩
  · intro t d hd _ _
    have h : ∃ d : Dbl, decimalValue t = d.val := ⟨d, hd.value⟩
    refine ⟨h.choose, by simp only [dif_pos h], ?_⟩
    rw [← h.choose_spec, hd.value]
  · intro t q hq hm
    refine ⟨_, rfl, ?_⟩
    rw [hq.value]
    have hden : 0 < q.den := q.den_pos
    have hb := (abs_le_f32Max q.num hden).1 (by rw [Rat.num_div_den]; exact hm)
    have hs := hq.sign
    refine ⟨?_, ?_⟩
    · have := f32Round_nearest (neg := decide (t.head? = some '-')) hden hb (by
        rcases hs with ⟨h1, h2⟩ | ⟨h1, h2⟩
        · simpa [h1] using h2
        · simpa [h1] using h2)
      rwa [Rat.num_div_den] at this
    · rw [(f32Round_spec hden hb _).2.2.1, decide_eq_true_eq]

end PF
