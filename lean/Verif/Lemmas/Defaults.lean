import Verif.Spec.Start
import Verif.Lemmas.TreeAccess
import Verif.Lemmas.Access

/-! # Default values -/

namespace PF
open Spec

theorem isDefault_encLE {t : ScalarType} (hs : Sound t) (hz : t.SizeOk) : IsDefault (encLE t.size t.default.toNat) t := by
  cases t with
  | bool => simp [IsDefault, ScalarType.default, decLE_encLE]
  | fixed t => simp [IsDefault, ScalarType.default, decLE_encLE]
  | float t => simp [IsDefault, ScalarType.default, decLE_encLE]
  | int t =>
    simp only [Sound] at hs
    simp only [IsDefault, ScalarType.default, IntType.default, ScalarType.size]
    exact memValue_encLE t hs (Int.le_refl _) hs.ordered
  | enum t =>
    simp only [Sound] at hs
    simp only [IsDefault, ScalarType.default, EnumType.default, ScalarType.size]
    cases t.pairs with
    | nil => simp [decLE_encLE]
    | cons p ps =>
      obtain ⟨l, v⟩ := p
      simp only
      unfold memValue
      rw [if_pos rfl, encLE_length, decLE_encLE, pow256]
      have := v.isLt
      have hi := BitVec.toInt_eq_toNat_bmod v
      rw [hi]
      rcases hs with e | e | e <;> rw [e] <;> simp [Int.bmod_def] <;> omega

/-- Whether a parameter has its default value depends on its bits. -/
theorem DefaultAt.congr {e : Elem} {b b' : Board} {off : Nat} (hl : b'.length = b.length)
    (h : ∀ i, (e.extent off).1 ≤ i → i < (e.extent off).2 → b'.bit i = b.bit i) (hd : DefaultAt b off e.kind) :
    DefaultAt b' off e.kind := by
  cases e with | mk n k sy cs =>
  simp only [Elem.kind] at *
  cases k with
  | group g => exact hd
  | bitBlock g => exact hd
  | scalar t =>
    obtain ⟨bs, h1, h2⟩ := hd
    refine ⟨bs, ?_, h2⟩
    rw [Board.read_congr_bits hl, h1]
    intro i h3 h4
    exact h i (by simpa [Elem.extent, Elem.kind] using h3)
      (by simpa [Elem.extent, Elem.kind, Elem.footprint, EKind.ownSize] using h4)
  | array t =>
    intro j hj
    obtain ⟨bs, h1, h2⟩ := hd j hj
    refine ⟨bs, ?_, h2⟩
    rw [Board.read_congr_bits hl, h1]
    intro i h3 h4
    have hle : (j + 1) * t.elem.size ≤ t.length * t.elem.size := Nat.mul_le_mul_right _ (by omega)
    rw [Nat.add_mul, Nat.mul_comm t.length] at hle
    refine h i ?_ ?_
    · simp only [Elem.extent, Elem.kind]; omega
    · simp only [Elem.extent, Elem.kind, Elem.footprint, EKind.ownSize, ArrayType.footprint]; omega
  | string m =>
    have key : ∀ c : Board, getString c off = .ok [] ↔ c[off]? = some 0#8 := by
      intro c
      unfold getString Board.readString
      by_cases hlt : off < c.length
      · have h1 : c.drop off = c[off] :: c.drop (off + 1) := List.drop_eq_getElem_cons hlt
        rw [if_pos (by omega), h1]
        simp only [cString, List.getElem?_eq_getElem hlt, Option.some.injEq]
        by_cases hz : c[off] = 0#8
        · simp [hz]
        · simp only [hz, if_false, iff_false]
          cases cString (c.drop (off + 1)) <;> simp
      · have : c[off]? = none := by simp; omega
        rw [this]
        rw [if_neg (by omega)]; simp
    rw [show DefaultAt b off (.string m) = (getString b off = .ok []) from rfl, key] at hd
    rw [show DefaultAt b' off (.string m) = (getString b' off = .ok []) from rfl, key]
    have hlt : off < b.length := (List.getElem?_eq_some_iff.1 hd).1
    have hlt' : off < b'.length := by omega
    rw [List.getElem?_eq_getElem hlt'] 
    rw [List.getElem?_eq_getElem hlt, Option.some.injEq] at hd
    congr 1
    rw [← hd]
    apply BitVec.eq_of_getLsbD_eq
    intro i hi
    have := h (8 * off + i) (by simp [Elem.extent, Elem.kind]) (by
      simp [Elem.extent, Elem.kind, Elem.footprint, EKind.ownSize, stringSize]; omega)
    unfold Board.bit at this
    rw [show (8 * off + i) / 8 = off by omega, show (8 * off + i) % 8 = i by omega] at this
    simpa [List.getD_eq_getElem?_getD, hlt, hlt'] using this
  | bit t =>
    intro i hi
    rw [h _ (by simp only [Elem.extent, Elem.kind]; omega) (by simp only [Elem.extent, Elem.kind]; omega)]
    exact hd i hi

/-- Setting one parameter to its default value. -/
theorem EKind.setDefault_leaf {e : Elem} (wf : e.WF) (hg : ∀ g, e.kind ≠ .group g) {b : Board} {off : Nat}
    (room : off + e.footprint ≤ b.length) :
    ∃ b', e.kind.setDefault b off = .ok b' ∧ SameOutside b b' off e.footprint ∧
      ((∀ g, e.kind ≠ .bitBlock g) → SoundKind e.kind → DefaultAt b' off e.kind) ∧
      (∀ g, e.kind = .bitBlock g → ∀ i, 8 * off ≤ i → i < 8 * (off + g) → b'.bit i = false) := by
  cases wf with
  | group h1 h2 => exact absurd rfl (hg _)
  | @bitBlock n size sy cs h1 h2 =>
    have hf : (Elem.mk n (.bitBlock size) sy cs).footprint = size := by simp [Elem.footprint, EKind.ownSize]
    rw [hf] at room ⊢
    obtain ⟨b', hb⟩ := Board.write_some (b := b) (off := off) (bs := encLE size 0) (by rw [encLE_length]; exact room)
    have hw := Board.write_length hb
    refine ⟨b', by simp [Elem.kind, EKind.setDefault, setBitBlockDefault, hb], ⟨hw.1, ?_⟩, ?_, ?_⟩
    · intro i hi
      rw [Board.write_getElem? hb, if_neg (by rw [encLE_length]; omega)]
    · intro hne; exact absurd rfl (hne size)
    · intro g hk i h3 h4
      simp only [Elem.kind, EKind.bitBlock.injEq] at hk
      subst hk
      rw [Board.write_bit hb, encLE_length, if_pos (by omega)]
      rw [← decLE_testBit, decLE_encLE]; simp
  | @scalar n t sy hz =>
    have hf : (Elem.mk n (.scalar t) sy []).footprint = t.size := by simp [Elem.footprint, EKind.ownSize]
    rw [hf] at room ⊢
    obtain ⟨b', hb⟩ := writeScalar_ok (size := t.size) (b := b) (off := off) t.default room
    refine ⟨b', hb, writeScalar_frame hb, ?_, ?_⟩
    · intro _ hs
      refine ⟨_, ?_, isDefault_encLE hs hz⟩
      unfold writeScalar at hb
      split at hb
      · rename_i b'' hw
        simp only [Out.ok.injEq] at hb; subst hb
        have := Board.read_write_same hw
        rwa [encLE_length] at this
      · simp at hb
    · intro g hk; simp [Elem.kind] at hk
  | @array n t sy hz =>
    have hf : (Elem.mk n (.array t) sy []).footprint = t.length * t.elem.size := by
      simp [Elem.footprint, EKind.ownSize, ArrayType.footprint, Nat.mul_comm]
    rw [hf] at room ⊢
    obtain ⟨b', h1, h2, h3⟩ := setElems_ok t.elem.size (List.replicate t.length t.elem.default) b off (by simpa using room)
    have hm : (List.replicate t.length t.elem.default).map some = List.replicate t.length (some t.elem.default) := by simp
    rw [hm] at h1
    refine ⟨b', by simp [Elem.kind, EKind.setDefault, setArrayDefault, h1], by simpa using h2, ?_, ?_⟩
    · intro _ hs j hj
      exact ⟨_, h3 j _ (by simp [hj]), isDefault_encLE hs hz⟩
    · intro g hk; simp [Elem.kind] at hk
  | @string n m sy =>
    have hf : (Elem.mk n (.string m) sy []).footprint = m + 1 := by simp [Elem.footprint, EKind.ownSize, stringSize]
    rw [hf] at room ⊢
    obtain ⟨b', hb⟩ := Board.write_some (b := b) (off := off) (bs := [] ++ [0#8]) (by simp; omega)
    have hb' : b.writeString off [] = some b' := hb
    have hw := Board.write_length hb
    refine ⟨b', by simp [Elem.kind, EKind.setDefault, setStringDefault, hb'], ⟨hw.1, ?_⟩, ?_, ?_⟩
    · intro i hi
      rw [Board.write_getElem? hb, if_neg (by simp; omega)]
    · intro _ _
      show getString b' off = .ok []
      have h0 : b'[off]? = some 0#8 := by rw [Board.write_getElem? hb, if_pos (by simp)]; simp
      have hlt : off < b'.length := (List.getElem?_eq_some_iff.1 h0).1
      rw [List.getElem?_eq_getElem hlt, Option.some.injEq] at h0
      have h1 : b'.drop off = b'[off] :: b'.drop (off + 1) := List.drop_eq_getElem_cons hlt
      unfold getString Board.readString
      rw [if_pos (by omega), h1, h0]
      simp [cString]
    · intro g hk; simp [Elem.kind] at hk

theorem SameOutside.mono {b b' : Board} {off size off' size' : Nat} (h : SameOutside b b' off size) (h1 : off' ≤ off)
    (h2 : off + size ≤ off' + size') : SameOutside b b' off' size' :=
  ⟨h.1, fun i hi => h.2 i (by omega)⟩

/-- Setting an element to its default values, and what is below it. -/
theorem Elem.setDefaults_spec {e : Elem} (wf : e.WF) {b : Board} {off : Nat} (room : off + e.footprint ≤ b.length) :
    ∃ b', e.setDefaults off b = .ok b' ∧ SameOutside b b' off e.footprint ∧
      ∀ p f o, e.at? p = some f → e.offset off p = some o → f.kind.isParameter = true → SoundKind f.kind →
        DefaultAt b' o f.kind := by
  cases e with | mk n k sy cs =>
  by_cases hg : ∃ g, k = .group g
  · obtain ⟨g, rfl⟩ := hg
    have hc : ∀ c ∈ cs, c.WF := by cases wf with | group h1 _ => exact h1
    have hnb : ∀ c ∈ cs, ∀ t, c.kind ≠ .bit t := by cases wf with | group _ h2 => exact h2
    simp only [Elem.setDefaults]
    rw [Elem.footprint_group] at room ⊢
    have key : ∀ (l : List Elem) (off : Nat) (b : Board), (∀ c ∈ l, c ∈ cs) → off + Elem.footprints l ≤ b.length →
        ∃ b', Elem.setDefaultsAll l off b = .ok b' ∧ SameOutside b b' off (Elem.footprints l) ∧
          ∀ (j : Nat) c p f o, l[j]? = some c → c.at? p = some f →
            c.offset (off + Elem.footprints (l.take j)) p = some o → f.kind.isParameter = true → SoundKind f.kind →
            DefaultAt b' o f.kind := by
      intro l
      induction l with
      | nil => intro off b _ _; exact ⟨b, rfl, SameOutside.refl _ _ _, by simp⟩
      | cons c l ih =>
        intro off b hm hroom
        simp only [Elem.footprints] at hroom
        have hcm := hm c (by simp)
        obtain ⟨b1, h1, h2, h3⟩ := Elem.setDefaults_spec (hc c hcm) (b := b) (off := off) (by omega)
        obtain ⟨b2, h4, h5, h6⟩ := ih (off + c.footprint) b1 (fun d hd => hm d (by simp [hd])) (by rw [h2.1]; omega)
        refine ⟨b2, by simp only [Elem.setDefaultsAll, h1, Out.bind, h4], ?_, ?_⟩
        · simp only [Elem.footprints]
          exact h2.trans h5 ⟨by omega, by omega⟩ ⟨by omega, by omega⟩
        · intro j d p f o hj hp ho hpar hs
          cases j with
          | zero =>
            simp only [List.getElem?_cons_zero, Option.some.injEq] at hj
            subst hj
            simp only [List.take_zero, Elem.footprints, Nat.add_zero] at ho
            refine DefaultAt.congr h5.1 ?_ (h3 p f o hp ho hpar hs)
            intro i hi1 hi2
            have hn := (hc c hcm).extent_nested hp ho
            have he : c.extent off = (8 * off, 8 * (off + c.footprint)) := by
              unfold Elem.extent
              split
              · rename_i t ht; exact absurd ht (hnb c hcm t)
              · rfl
            rw [he] at hn
            exact h5.bits i (by simp only at hn; omega)
          | succ j =>
            simp only [List.getElem?_cons_succ] at hj
            simp only [List.take_succ_cons, Elem.footprints] at ho
            exact h6 j d p f o hj hp (by rw [← ho]; congr 1; omega) hpar hs
    obtain ⟨b', h1, h2, h3⟩ := key cs off b (fun _ h => h) room
    refine ⟨b', h1, h2, ?_⟩
    intro p f o hp ho hpar hs
    cases p with
    | nil =>
      simp only [Elem.at?, Option.some.injEq] at hp
      subst hp
      simp [Elem.kind, EKind.isParameter] at hpar
    | cons i p =>
      rw [Elem.at?_cons] at hp
      rw [Elem.offset_cons] at ho
      simp only [Elem.children] at hp ho
      cases hi : cs[i]? with
      | none => simp [hi] at hp
      | some c =>
        simp only [hi, Option.bind_some] at hp ho
        exact h3 i c p f o hi hp ho hpar hs
  · have hg' : ∀ g, (Elem.mk n k sy cs).kind ≠ .group g := fun g h => hg ⟨g, h⟩
    obtain ⟨b', h1, h2, h3, h4⟩ := EKind.setDefault_leaf wf hg' room
    refine ⟨b', ?_, h2, ?_⟩
    · rw [← h1]
      simp only [Elem.setDefaults]
      split
      · exact absurd rfl (hg' _)
      · rfl
    · intro p f o hp ho hpar hs
      cases p with
      | nil =>
        simp only [Elem.at?, Option.some.injEq] at hp
        simp only [Elem.offset, Option.some.injEq] at ho
        subst hp ho
        refine h3 (fun g hk => ?_) hs
        rw [hk] at hpar
        simp [EKind.isParameter] at hpar
      | cons i p =>
        rw [Elem.at?_cons] at hp
        rw [Elem.offset_cons] at ho
        cases hi : (Elem.mk n k sy cs).children[i]? with
        | none => simp [hi] at hp
        | some c =>
          simp only [hi, Option.bind_some] at hp ho
          rcases wf.child hi with ⟨_, ⟨g, hk⟩, _⟩ | ⟨size, nm, t, cy, hk, rfl, w1, w2, w3⟩
          · exact absurd hk (hg' g)
          · cases p with
            | cons j p => simp [Elem.at?] at hp
            | nil =>
              simp only [Elem.at?, Option.some.injEq] at hp
              subst hp
              simp only [Elem.offset, Option.some.injEq] at ho
              rw [Elem.bitBlock_child_offset wf hk hi] at ho
              subst ho
              intro j hj
              have := w1.fits
              exact h4 size hk _ (by omega) (by omega)
termination_by sizeOf e
decreasing_by
  have := List.sizeOf_lt_of_mem hcm
  subst_vars
  simp
  omega

end PF
