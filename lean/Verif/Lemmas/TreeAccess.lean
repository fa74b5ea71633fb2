import Verif.Lemmas.Tree
import Verif.Lemmas.Bits
import Verif.Lemmas.Scalar
import Verif.Lemmas.StringArray

/-! # Helper lemmas: what each parameter access reads and writes -/

namespace PF
open Spec

theorem SameOutside.bits {b b' : Board} {off size : Nat} (h : SameOutside b b' off size) (i : Nat)
    (hi : i < 8 * off ∨ 8 * (off + size) ≤ i) : b'.bit i = b.bit i :=
  Board.bit_of_byte' (h.2 (i / 8) (by omega)) rfl

theorem SameOutside.refl (b : Board) (off size : Nat) : SameOutside b b off size := ⟨rfl, fun _ _ => rfl⟩

theorem SameOutside.trans {a b c : Board} {off size off' size' off'' size'' : Nat}
    (h : SameOutside a b off size) (h' : SameOutside b c off' size')
    (l : off'' ≤ off ∧ off + size ≤ off'' + size'') (l' : off'' ≤ off' ∧ off' + size' ≤ off'' + size'') :
    SameOutside a c off'' size'' :=
  ⟨h'.1.trans h.1, fun i hi => (h'.2 i (by omega)).trans (h.2 i (by omega))⟩

theorem Board.read_congr_bits {b b' : Board} {off size : Nat} (hl : b'.length = b.length)
    (h : ∀ i, 8 * off ≤ i → i < 8 * (off + size) → b'.bit i = b.bit i) :
    b'.read off size = b.read off size := by
  by_cases hr : off + size ≤ b.length
  · obtain ⟨x, hx⟩ := Board.read_some hr
    obtain ⟨y, hy⟩ := Board.read_some (b := b') (off := off) (size := size) (by omega)
    rw [hx, hy]
    congr 1
    have h1 := (Board.read_length hx).1
    have h2 := (Board.read_length hy).1
    refine Board.ext_bits (by omega) (fun i => ?_)
    rw [Board.read_bit hx, Board.read_bit hy]
    by_cases hi : i < 8 * size
    · rw [h (8 * off + i) (by omega) (by omega)]
    · simp [hi]
  · unfold Board.read
    rw [if_neg (by omega), if_neg hr]

theorem setElems_frame (size : Nat) (vs : List (Option (BitVec 32))) (b : Board) (off : Nat) :
    SameOutside b (setElems size b off vs).2 off (vs.length * size) := by
  induction vs generalizing b off with
  | nil => exact SameOutside.refl _ _ _
  | cons v vs ih =>
    cases v with
    | none => exact SameOutside.refl _ _ _
    | some v =>
      unfold setElems
      cases hw : writeScalar size b off v with
      | ok b' =>
        have h1 : SameOutside b b' off size := writeScalar_frame hw
        simp only [List.length_cons, Nat.succ_mul]
        exact h1.trans (ih b' (off + size)) ⟨by omega, by omega⟩ ⟨by omega, by omega⟩
      | err => exact SameOutside.refl _ _ _
      | abort => exact SameOutside.refl _ _ _

theorem setArrayText_frame (rd : Reader) (t : ArrayType) (ctx : Ctx) (b : Board) (start off : Nat)
    (text : Str) : SameOutside b (setArrayText rd t ctx b start off text).2 off t.footprint := by
  unfold setArrayText
  dsimp only
  split
  · exact SameOutside.refl _ _ _
  · have := setElems_frame t.elem.size ((tokenize arrayDelimiters true text).map (fun tok => t.elem.fromText rd ctx tok))
      b (off + start * t.elem.size)
    have hlen : start * t.elem.size + (tokenize arrayDelimiters true text).length * t.elem.size ≤ t.footprint := by
      rw [← Nat.add_mul]
      unfold ArrayType.footprint
      rw [Nat.mul_comm t.elem.size]
      exact Nat.mul_le_mul_right _ (by omega)
    rw [List.length_map] at this
    exact this.trans (SameOutside.refl _ (off + start * t.elem.size) 0)
      ⟨by omega, by omega⟩ ⟨by omega, by omega⟩

/-- Bits of a block after a successful set of a bit parameter. -/
theorem BitType.set_bits {t : BitType} (wf : t.WF) {u : BitVec 64} {b b' : Board} {off : Nat}
    (h : t.set (t.fromNum u) b off = .ok b') :
    b'.length = b.length ∧
    ∀ i, i < 8 * off + t.pos ∨ 8 * off + t.pos + t.bits ≤ i → b'.bit i = b.bit i := by
  obtain ⟨_, h1, bs, bs', h2, h3, _, h5⟩ := BitType.set_effect wf h
  refine ⟨h1.1, fun i hi => ?_⟩
  have hf := wf.fits
  by_cases ho : i < 8 * off ∨ 8 * (off + t.blockSize) ≤ i
  · exact h1.bits i ho
  · have := h5.2 (i - 8 * off) (by omega)
    rw [decLE_testBit, decLE_testBit, Board.read_bit h2, Board.read_bit h3,
      show 8 * off + (i - 8 * off) = i by omega] at this
    simpa [show i - 8 * off < 8 * t.blockSize by omega] using this

/-- A set never changes a bit outside the parameter, whatever its result. -/
theorem setParamText_frame {rd : Reader} {ctx : Ctx} {e : Elem} {b : Board} {off base : Nat}
    {items : List Str} {text : Str} (wf : ∀ t, e.kind = .bit t → t.WF) (hb : base ≤ off) :
    (setParamText rd ctx e.kind b off base items text).2.length = b.length ∧
    ∀ i, i < (e.extent (off - base)).1 ∨ (e.extent (off - base)).2 ≤ i →
      (setParamText rd ctx e.kind b off base items text).2.bit i = b.bit i := by
  cases e with | mk n k sy cs =>
  have triv : ∀ (x : Out Unit), ((x, b) : Out Unit × Board).2.length = b.length := fun _ => rfl
  simp only [Elem.kind]
  cases k with
  | group g => exact ⟨rfl, fun _ _ => rfl⟩
  | bitBlock g => exact ⟨rfl, fun _ _ => rfl⟩
  | scalar t =>
    simp only [setParamText]
    split
    · exact ⟨rfl, fun _ _ => rfl⟩
    · rw [if_neg (by omega)]
      unfold setScalarText
      split
      · exact ⟨rfl, fun _ _ => rfl⟩
      · rename_i v _
        cases hw : writeScalar t.size b (off - base) v with
        | ok b' =>
          have h1 : SameOutside b b' (off - base) t.size := writeScalar_frame hw
          refine ⟨h1.1, fun i hi => h1.bits i ?_⟩
          simpa [Elem.extent, Elem.kind, Elem.footprint, EKind.ownSize] using hi
        | err => exact ⟨rfl, fun _ _ => rfl⟩
        | abort => exact ⟨rfl, fun _ _ => rfl⟩
  | array t =>
    simp only [setParamText, arrayAccessSet]
    split
    · exact ⟨rfl, fun _ _ => rfl⟩
    · rw [if_neg (by omega)]
      have h1 := setArrayText_frame rd t ctx b (Option.getD ‹_› 0) (off - base) text
      refine ⟨h1.1, fun i hi => h1.bits i ?_⟩
      simpa [Elem.extent, Elem.kind, Elem.footprint, EKind.ownSize] using hi
  | string m =>
    simp only [setParamText]
    split
    · exact ⟨rfl, fun _ _ => rfl⟩
    · rw [if_neg (by omega)]
      unfold setString
      split
      · exact ⟨rfl, fun _ _ => rfl⟩
      · rename_i hlen
        unfold Board.writeString
        cases hw : b.write (off - base) (strBytes text ++ [0#8]) with
        | none => exact ⟨rfl, fun _ _ => rfl⟩
        | some b' =>
          refine ⟨(Board.write_length hw).1, fun i hi => ?_⟩
          have := Board.write_bit hw i
          simp only [Out.withBoard]
          rw [this, if_neg]
          simp only [Elem.extent, Elem.kind, Elem.footprint, EKind.ownSize, stringSize] at hi
          simp only [List.length_append, List.length_cons, List.length_nil]
          unfold stringSize at hlen
          omega
  | bit t =>
    simp only [setParamText]
    split
    · exact ⟨rfl, fun _ _ => rfl⟩
    · rw [if_neg (by omega)]
      cases hw : setBitText t b (off - base) text with
      | ok b' =>
        have := BitType.set_bits (wf t rfl) (u := strtoull text) hw
        exact ⟨this.1, fun i hi => this.2 i (by simpa [Elem.extent, Elem.kind] using hi)⟩
      | err => exact ⟨rfl, fun _ _ => rfl⟩
      | abort => exact ⟨rfl, fun _ _ => rfl⟩

theorem getElems_congr (t : ScalarType) (ctx : Ctx) (b b' : Board) (off n : Nat)
    (h : ∀ j, j < n → b'.read (off + j * t.size) t.size = b.read (off + j * t.size) t.size) :
    getElems t ctx b' off n = getElems t ctx b off n := by
  induction n generalizing off with
  | zero => rfl
  | succ n ih =>
    unfold getElems
    have h0 := h 0 (by omega)
    simp only [Nat.zero_mul, Nat.add_zero] at h0
    have e1 : getScalarText t ctx b' off = getScalarText t ctx b off := by
      unfold getScalarText readScalar; rw [h0]
    rw [e1, ih (off + t.size)]
    intro j hj
    have := h (j + 1) (by omega)
    rw [show off + (j + 1) * t.size = off + t.size + j * t.size by rw [Nat.add_mul]; omega] at this
    exact this

/-- The bytes of a string parameter contain a terminator. -/
def StringTerminated (b : Board) (off maxLength : Nat) : Prop :=
  ∃ bs, b.read off (stringSize maxLength) = some bs ∧ 0#8 ∈ bs

/-- A get only depends on the bits of the parameter. -/
theorem getParamText_congr {ctx : Ctx} {e : Elem} {b b' : Board} {off : Nat} {items : List Str}
    (wf : ∀ t, e.kind = .bit t → t.WF) (hl : b'.length = b.length)
    (term : ∀ m, e.kind = .string m → StringTerminated b off m)
    (h : ∀ i, (e.extent off).1 ≤ i → i < (e.extent off).2 → b'.bit i = b.bit i) :
    getParamText ctx e.kind b' off 0 items = getParamText ctx e.kind b off 0 items := by
  cases e with | mk n k sy cs =>
  simp only [Elem.kind] at *
  cases k with
  | group g => rfl
  | bitBlock g => rfl
  | scalar t =>
    simp only [getParamText, Nat.sub_zero, Nat.not_lt_zero, ↓reduceIte]
    split
    · rfl
    · unfold getScalarText readScalar
      rw [Board.read_congr_bits hl]
      intro i h1 h2
      exact h i (by simpa [Elem.extent, Elem.kind] using h1)
        (by simpa [Elem.extent, Elem.kind, Elem.footprint, EKind.ownSize] using h2)
  | array t =>
    have hr : ∀ j, j < t.length → b'.read (off + j * t.elem.size) t.elem.size = b.read (off + j * t.elem.size) t.elem.size := by
      intro j hj
      have hle : (j + 1) * t.elem.size ≤ t.length * t.elem.size := Nat.mul_le_mul_right _ (by omega)
      rw [Nat.add_mul, Nat.mul_comm t.length] at hle
      refine Board.read_congr_bits hl (fun i h1 h2 => h i ?_ ?_)
      · simp only [Elem.extent, Elem.kind]; omega
      · simp only [Elem.extent, Elem.kind, Elem.footprint, EKind.ownSize, ArrayType.footprint]; omega
    simp only [getParamText, arrayAccessGet, Nat.sub_zero, Nat.not_lt_zero, ↓reduceIte]
    split
    · rfl
    · unfold getArrayText
      rw [getElems_congr t.elem ctx b b' off t.length hr]
    · rename_i i hi
      have hlt : i < t.length := by
        unfold arrayIndex at hi
        split at hi
        · simp at hi
        · split at hi
          · simp at hi
          · split at hi
            · simp at hi
            · split at hi
              · simp at hi
              · simp at hi; omega
      unfold getScalarText readScalar
      rw [hr i hlt]
  | string m =>
    simp only [getParamText, Nat.sub_zero, Nat.not_lt_zero, ↓reduceIte]
    split
    · rfl
    · obtain ⟨bs, hbs, h0⟩ := term m rfl
      have hb' : b'.read off (stringSize m) = some bs := by
        rw [← hbs]
        refine Board.read_congr_bits hl (fun i h1 h2 => h i ?_ ?_)
        · simpa [Elem.extent, Elem.kind] using h1
        · simpa [Elem.extent, Elem.kind, Elem.footprint, EKind.ownSize] using h2
      have key : ∀ c : Board, c.read off (stringSize m) = some bs →
          getString c off = .ok (bs.takeWhile (fun c => decide (c ≠ 0#8))) := by
        intro c hc
        have hlen := (Board.read_length hc).2
        have hd : c.drop off = bs ++ (c.drop off).drop (stringSize m) := by
          unfold Board.read at hc
          rw [if_pos hlen] at hc
          simp only [Option.some.injEq] at hc
          rw [← hc, List.take_append_drop]
        unfold getString Board.readString
        rw [if_pos (by unfold stringSize at hlen; omega), hd, cString_cons_of_mem bs _ h0]
      rw [key b hbs, key b' hb']
  | bit t =>
    simp only [getParamText, Nat.sub_zero, Nat.not_lt_zero, ↓reduceIte]
    split
    · rfl
    · unfold getBitText BitType.readBlock
      by_cases hr : off + t.blockSize ≤ b.length
      · obtain ⟨x, hx⟩ := Board.read_some hr
        obtain ⟨y, hy⟩ := Board.read_some (b := b') (off := off) (size := t.blockSize) (by omega)
        rw [hx, hy]
        simp only [Out.bind]
        congr 1
        have hw := wf t rfl
        have hfit := hw.fits
        have : t.field (BitVec.ofNat 64 (decLE y)) = t.field (BitVec.ofNat 64 (decLE x)) := by
          apply BitVec.eq_of_getLsbD_eq
          intro i hi
          rw [BitType.field_getLsbD hw, BitType.field_getLsbD hw]
          by_cases hlt : i < t.bits
          · have := h (8 * off + (t.pos + i)) (by simp only [Elem.extent, Elem.kind]; omega)
              (by simp only [Elem.extent, Elem.kind]; omega)
            simp only [hlt, decide_true, Bool.true_and, BitVec.getLsbD_ofNat]
            rw [decLE_testBit, decLE_testBit, Board.read_bit hx, Board.read_bit hy, this]
          · simp [hlt]
        unfold BitType.toText
        rw [this]
      · unfold Board.read
        rw [if_neg (by omega), if_neg hr]

/-! ## Walks -/

theorem Elem.findDescendant_iff (e : Elem) (ns : List Str) (p : Pos) :
    e.findDescendant ns = some p →
    ∃ f, e.at? p = some f ∧ e.namesTo p = e.pathName :: ns := by
  induction ns generalizing e p with
  | nil => intro h; simp only [Elem.findDescendant, Option.some.injEq] at h; subst h
           cases e; exact ⟨_, rfl, rfl⟩
  | cons n ns ih =>
    intro h
    unfold Elem.findDescendant at h
    cases hi : e.findChild n with
    | none => simp [hi] at h
    | some i =>
      simp only [hi] at h
      cases hc : e.children[i]? with
      | none => simp [hc] at h
      | some c =>
        simp only [hc, Option.map_eq_some_iff] at h
        obtain ⟨q, hq, rfl⟩ := h
        obtain ⟨f, h1, h2⟩ := ih c q hq
        refine ⟨f, by rw [Elem.at?_cons, hc]; exact h1, ?_⟩
        unfold Elem.findChild at hi
        have hn : c.pathName = n := by
          have := List.findIdx?_eq_some_iff_getElem.1 hi
          obtain ⟨hlt, hp, _⟩ := this
          have : e.children[i] = c := by
            have := List.getElem?_eq_getElem hlt
            rw [hc] at this; simpa using this.symm
          rw [this] at hp; simpa using hp
        cases e with | mk nm k sy cs =>
        simp only [Elem.children] at hc
        simp only [Elem.namesTo, hc, h2, hn]

theorem Elem.GoodNames.child {e c : Elem} {i : Nat} (g : e.GoodNames) (h : e.children[i]? = some c) :
    c.GoodNames := by
  cases g with | mk h1 h2 h3 h4 => exact h4 _ (List.mem_of_getElem? h)

theorem Elem.GoodNames.findChild {e c : Elem} {i : Nat} (g : e.GoodNames) (h : e.children[i]? = some c) :
    e.findChild c.pathName = some i := by
  cases g with | mk h1 h2 h3 h4 =>
  simp only [Elem.children] at h
  unfold Elem.findChild
  rw [List.findIdx?_eq_some_iff_getElem]
  obtain ⟨hlt, hg⟩ := List.getElem?_eq_some_iff.1 h
  refine ⟨hlt, by simp [Elem.children, hg], ?_⟩
  intro j hj
  simp only [Elem.children]
  intro hc
  have := List.pairwise_iff_getElem.1 h3 j i (by simp; omega) (by simpa using hlt) hj
  apply this
  simp only [List.getElem_map]
  rw [hg]; simpa using hc

theorem Elem.GoodNames.findDescendant {e f : Elem} (g : e.GoodNames) {p : Pos} (h : e.at? p = some f) :
    ∃ ns, e.namesTo p = e.pathName :: ns ∧ e.findDescendant ns = some p := by
  induction p generalizing e with
  | nil => cases e; exact ⟨[], rfl, rfl⟩
  | cons i p ih =>
    rw [Elem.at?_cons] at h
    cases hc : e.children[i]? with
    | none => simp [hc] at h
    | some c =>
      simp only [hc, Option.bind_some] at h
      obtain ⟨ns, h1, h2⟩ := ih (g.child hc) h
      refine ⟨c.pathName :: ns, ?_, ?_⟩
      · cases e with | mk nm k sy cs =>
        simp only [Elem.children] at hc
        simp only [Elem.namesTo, hc, h1]
      · unfold Elem.findDescendant
        rw [g.findChild hc]
        simp only [hc, h2, Option.map_some]

/-- The path text is the names, each after a slash. -/
theorem Elem.path_eq {e f : Elem} {p : Pos} (h : e.at? p = some f) :
    e.path p = some ((e.namesTo p).map (fun n => '/' :: n)).flatten := by
  induction p generalizing e with
  | nil => cases e; simp [Elem.path, Elem.namesTo]
  | cons i p ih =>
    rw [Elem.at?_cons] at h
    cases hc : e.children[i]? with
    | none => simp [hc] at h
    | some c =>
      simp only [hc, Option.bind_some] at h
      have := ih h
      cases e with | mk nm k sy cs =>
      simp only [Elem.children] at hc
      simp [Elem.path, Elem.namesTo, hc, this]

theorem slashes_join (ns : List Str) (h : ns ≠ []) :
    (ns.map (fun n => '/' :: n)).flatten = joinWith '/' ([] :: ns) := by
  induction ns with
  | nil => exact absurd rfl h
  | cons n ns ih =>
    cases ns with
    | nil => simp [joinWith]
    | cons m ns =>
      have := ih (by simp)
      simp only [List.map_cons, List.flatten_cons] at this ⊢
      simp only [joinWith, List.nil_append, List.cons_append] at this ⊢
      rw [this]

theorem Elem.GoodNames.namesTo {e f : Elem} (g : e.GoodNames) {p : Pos} (h : e.at? p = some f) :
    ∀ n ∈ e.namesTo p, n ≠ [] ∧ '/' ∉ n := by
  induction p generalizing e with
  | nil => cases g with | mk h1 h2 h3 h4 => intro n hn; simp [Elem.namesTo] at hn; subst hn; exact ⟨h1, h2⟩
  | cons i p ih =>
    rw [Elem.at?_cons] at h
    cases hc : e.children[i]? with
    | none => simp [hc] at h
    | some c =>
      simp only [hc, Option.bind_some] at h
      have hh := ih (g.child hc) h
      cases g with | mk h1 h2 h3 h4 =>
      simp only [Elem.children] at hc
      intro n hn
      simp only [Elem.namesTo, hc, List.mem_cons] at hn
      rcases hn with rfl | hn
      · exact ⟨h1, h2⟩
      · exact hh n hn

theorem Elem.accessWalk_at {e : Elem} {ns : List Str} {p : Pos} {items : List Str}
    (h : e.accessWalk ns = some (p, items)) : ∃ f, e.at? p = some f ∧ f.kind.isParameter = true := by
  induction ns generalizing e p with
  | nil =>
    unfold Elem.accessWalk at h
    split at h
    · simp only [Option.some.injEq, Prod.mk.injEq] at h
      obtain ⟨rfl, _⟩ := h
      exact ⟨e, rfl, by assumption⟩
    · simp at h
  | cons n ns ih =>
    unfold Elem.accessWalk at h
    split at h
    · simp only [Option.some.injEq, Prod.mk.injEq] at h
      obtain ⟨rfl, _⟩ := h
      exact ⟨e, rfl, by assumption⟩
    · cases hi : e.findChild n with
      | none => simp [hi] at h
      | some i =>
        simp only [hi] at h
        cases hc : e.children[i]? with
        | none => simp [hc] at h
        | some c =>
          simp only [hc, Option.map_eq_some_iff, Prod.mk.injEq] at h
          obtain ⟨⟨q, it⟩, hq, rfl, rfl⟩ := h
          obtain ⟨f, h1, h2⟩ := ih hq
          exact ⟨f, by rw [Elem.at?_cons, hc]; exact h1, h2⟩

theorem Elem.accessTarget_at {root : Elem} {path : Str} {p : Pos} {items : List Str}
    (h : root.accessTarget path = some (p, items)) : ∃ f, root.at? p = some f ∧ f.kind.isParameter = true := by
  unfold Elem.accessTarget at h
  split at h
  · simp at h
  · split at h
    · simp at h
    · split at h
      · simp at h
      · exact Elem.accessWalk_at h

/-- Parameters have no descendants, so two distinct parameters are unrelated. -/
theorem Elem.WF.param_leaf {e f g : Elem} (wf : e.WF) {p q : Pos} (hp : e.at? p = some f)
    (hf : f.kind.isParameter = true) (hq : e.at? q = some g) (h : p <+: q) : p = q := by
  obtain ⟨r, rfl⟩ := h
  rw [Elem.at?_append, hp] at hq
  cases r with
  | nil => simp
  | cons i r =>
    simp only [Option.bind_some] at hq
    rw [Elem.at?_cons] at hq
    have : f.children = [] := by
      rcases wf.at hp with hw | ⟨_, _, _, _, _, _, _, _, _, _, _, rfl, _⟩
      · cases hw <;> first | rfl | simp [Elem.kind, EKind.isParameter] at hf
      · rfl
    rw [this] at hq
    simp at hq

theorem Elem.WF.bit_wf {e f : Elem} (wf : e.WF) {p : Pos} (hp : e.at? p = some f) (t : BitType)
    (hk : f.kind = .bit t) : t.WF ∧ ∃ q i g, p = q ++ [i] ∧ e.at? q = some g ∧ g.WF ∧ g.kind = .bitBlock t.blockSize := by
  rcases wf.at hp with hw | ⟨q, i, g, size, nm, t', sy, h1, h2, h3, h4, rfl, h5, h6, _⟩
  · cases hw <;> simp [Elem.kind] at hk
  · simp only [Elem.kind, EKind.bit.injEq] at hk; subst hk
    exact ⟨h5, q, i, g, h1, h2, h3, by rw [h6]; exact h4⟩

end PF
