import Verif.Spec.Tree
import Verif.Lemmas.Bytes
import Verif.Lemmas.Tokenizer

/-! # Helper lemmas about the structure tree -/

namespace PF
open Spec

/-! ## Bits of a memory -/

theorem Board.ext_bits {a b : Board} (hl : a.length = b.length) (h : ∀ i, a.bit i = b.bit i) : a = b := by
  apply List.ext_getElem? 
  intro j
  by_cases hj : j < a.length
  · have ha : a[j]? = some a[j] := List.getElem?_eq_getElem hj
    have hb : b[j]? = some b[j] := List.getElem?_eq_getElem (by omega)
    rw [ha, hb]
    congr 1
    apply BitVec.eq_of_getLsbD_eq
    intro i hi
    have := h (8 * j + i)
    unfold Board.bit at this
    rw [show (8 * j + i) / 8 = j by omega, show (8 * j + i) % 8 = i by omega] at this
    simpa [List.getD_eq_getElem?_getD, ha, hb] using this
  · rw [List.getElem?_eq_none (by omega), List.getElem?_eq_none (by omega)]

theorem Board.bit_of_byte {a b : Board} {j k : Nat} (h : a[j]? = b[k]?) (i : Nat) (hi : i < 8) :
    a.bit (8 * j + i) = b.bit (8 * k + i) := by
  unfold Board.bit
  rw [show (8 * j + i) / 8 = j by omega, show (8 * j + i) % 8 = i by omega,
    show (8 * k + i) / 8 = k by omega, show (8 * k + i) % 8 = i by omega]
  simp [List.getD_eq_getElem?_getD, h]

theorem Board.bit_of_byte' {a b : Board} {j k : Nat} (h : a[j / 8]? = b[k / 8]?) (hjk : j % 8 = k % 8) :
    a.bit j = b.bit k := by
  have := Board.bit_of_byte h (j % 8) (Nat.mod_lt _ (by decide))
  rw [show 8 * (j / 8) + j % 8 = j by omega, hjk, show 8 * (k / 8) + k % 8 = k by omega] at this
  exact this

theorem decLE_testBit (bs : List Byte) (i : Nat) : (decLE bs).testBit i = Board.bit bs i := by
  induction bs generalizing i with
  | nil => simp [decLE, Board.bit]
  | cons b bs ih =>
    unfold decLE
    have hb := b.isLt
    by_cases hi : i < 8
    · unfold Board.bit
      rw [show i / 8 = 0 by omega, show i % 8 = i by omega]
      simp only [List.getD_cons_zero]
      rw [show (b.toNat + 256 * decLE bs) = 2 ^ 8 * decLE bs + b.toNat by omega]
      rw [Nat.testBit_two_pow_mul_add _ (by simpa using hb)]
      simp only [hi, ↓reduceIte]
      exact BitVec.testBit_toNat b
    · have := ih (i - 8)
      rw [show (b.toNat + 256 * decLE bs) = 2 ^ 8 * decLE bs + b.toNat by omega]
      rw [Nat.testBit_two_pow_mul_add _ (by simpa using hb)]
      simp only [hi, ↓reduceIte]
      rw [this]
      unfold Board.bit
      rw [show i / 8 = (i - 8) / 8 + 1 by omega, show (i - 8) % 8 = i % 8 by omega]
      simp

theorem Board.bit_past {b : Board} {i : Nat} (h : 8 * b.length ≤ i) : b.bit i = false := by
  unfold Board.bit
  simp [List.getD_eq_getElem?_getD, List.getElem?_eq_none (show b.length ≤ i / 8 by omega)]

theorem Board.write_bit {b b' : Board} {off : Nat} {bs : List Byte} (h : b.write off bs = some b') (i : Nat) :
    b'.bit i = if 8 * off ≤ i ∧ i < 8 * (off + bs.length) then Board.bit bs (i - 8 * off) else b.bit i := by
  have hw := Board.write_getElem? h (i / 8)
  split
  · rw [if_pos (by omega)] at hw
    exact Board.bit_of_byte' (by rw [hw]; congr 1; omega) (by omega)
  · rw [if_neg (by omega)] at hw
    exact Board.bit_of_byte' hw rfl

theorem Board.read_bit {b : Board} {off size : Nat} {bs : List Byte} (h : b.read off size = some bs) (i : Nat) :
    Board.bit bs i = (decide (i < 8 * size) && b.bit (8 * off + i)) := by
  by_cases hi : i < 8 * size
  · have hr := Board.read_getElem? h (i / 8) (by omega)
    simp only [hi, decide_true, Bool.true_and]
    exact Board.bit_of_byte' (by rw [hr]; congr 1; omega) (by omega)
  · have hl := (Board.read_length h).1
    rw [Board.bit_past (by omega)]
    simp [hi]

/-! ## Positions -/

theorem Elem.at?_cons (e : Elem) (i : Nat) (p : Pos) :
    e.at? (i :: p) = (e.children[i]?).bind (fun c => c.at? p) := by
  cases e with | mk n k sy cs =>
  simp only [Elem.at?, Elem.children]
  cases cs[i]? <;> rfl

theorem Elem.at?_append (e : Elem) (p q : Pos) : e.at? (p ++ q) = (e.at? p).bind (fun c => c.at? q) := by
  induction p generalizing e with
  | nil => rfl
  | cons i p ih =>
    rw [List.cons_append, Elem.at?_cons, Elem.at?_cons]
    cases e.children[i]? with
    | none => rfl
    | some c => simpa using ih c

theorem Elem.at?_single (e : Elem) (i : Nat) : e.at? [i] = e.children[i]? := by
  rw [Elem.at?_cons]; cases e.children[i]? <;> rfl

theorem Elem.offset_cons (e : Elem) (off i : Nat) (p : Pos) :
    e.offset off (i :: p) = (e.children[i]?).bind (fun c =>
      c.offset (off + Elem.footprints (e.children.take i)) p) := by
  cases e with | mk n k sy cs =>
  simp only [Elem.offset, Elem.children]
  cases cs[i]? <;> rfl

theorem Elem.offset_append (e : Elem) (off : Nat) (p q : Pos) :
    e.offset off (p ++ q) = (e.at? p).bind (fun c => (e.offset off p).bind (fun o => c.offset o q)) := by
  induction p generalizing e off with
  | nil => rfl
  | cons i p ih =>
    rw [List.cons_append, Elem.offset_cons, Elem.at?_cons, Elem.offset_cons]
    cases e.children[i]? with
    | none => rfl
    | some c => simpa using ih c _

theorem Elem.offset_isSome (e : Elem) (off : Nat) (p : Pos) : (e.offset off p).isSome = (e.at? p).isSome := by
  induction p generalizing e off with
  | nil => rfl
  | cons i p ih =>
    rw [Elem.offset_cons, Elem.at?_cons]
    cases e.children[i]? with
    | none => rfl
    | some c => exact ih c _

theorem Elem.offset_of_at {e f : Elem} {off : Nat} {p : Pos} (h : e.at? p = some f) :
    ∃ o, e.offset off p = some o := by
  have := Elem.offset_isSome e off p
  rw [h] at this
  exact Option.isSome_iff_exists.1 this

theorem Elem.offset_shift {e : Elem} {off : Nat} {p : Pos} {o : Nat} (h : e.offset 0 p = some o) :
    e.offset off p = some (off + o) := by
  suffices ∀ (e : Elem) (a off : Nat) (p : Pos), e.offset (off + a) p = (e.offset a p).map (off + ·) by
    have := this e 0 off p
    rw [h] at this
    simpa using this
  intro e a off p
  induction p generalizing e a off with
  | nil => rfl
  | cons i p ih =>
    rw [Elem.offset_cons, Elem.offset_cons]
    cases e.children[i]? with
    | none => rfl
    | some c => simp only [Option.bind_some]; rw [Nat.add_assoc]; exact ih c _ _

theorem Elem.footprints_append (a b : List Elem) :
    Elem.footprints (a ++ b) = Elem.footprints a + Elem.footprints b := by
  induction a with
  | nil => simp [Elem.footprints]
  | cons c a ih => simp only [List.cons_append, Elem.footprints, ih]; omega

theorem Elem.footprints_take_succ {cs : List Elem} {i : Nat} {c : Elem} (h : cs[i]? = some c) :
    Elem.footprints (cs.take (i + 1)) = Elem.footprints (cs.take i) + c.footprint := by
  rw [List.take_add_one, Elem.footprints_append, h]
  simp [Elem.footprints]

theorem Elem.footprints_take_mono (cs : List Elem) {i j : Nat} (h : i ≤ j) :
    Elem.footprints (cs.take i) ≤ Elem.footprints (cs.take j) := by
  have e : cs.take j = cs.take i ++ (cs.take j).drop i := by
    have := (List.take_append_drop i (cs.take j)).symm
    rwa [List.take_take, Nat.min_eq_left h] at this
  rw [e, Elem.footprints_append]; omega

theorem Elem.footprints_take_le (cs : List Elem) (i : Nat) :
    Elem.footprints (cs.take i) ≤ Elem.footprints cs := by
  have e : cs = cs.take i ++ cs.drop i := (List.take_append_drop i cs).symm
  have := Elem.footprints_append (cs.take i) (cs.drop i)
  rw [← e] at this; omega

theorem Elem.footprint_group {n k sy cs} : (Elem.mk n (.group k) sy cs).footprint = Elem.footprints cs := by
  simp [Elem.footprint, EKind.ownSize]

/-! ## Well-formed trees -/

theorem Elem.WF.child {e c : Elem} {i : Nat} (wf : e.WF) (h : e.children[i]? = some c) :
    (c.WF ∧ (∃ k, e.kind = .group k) ∧ ∀ t, c.kind ≠ .bit t) ∨
    (∃ size nm t sy, e.kind = .bitBlock size ∧ c = .mk nm (.bit t) sy [] ∧ t.WF ∧ t.blockSize = size ∧ size ≤ 8) := by
  cases wf with
  | group h1 h2 =>
    have hm := List.mem_of_getElem? h
    exact .inl ⟨h1 _ hm, ⟨_, rfl⟩, h2 _ hm⟩
  | bitBlock h1 h2 =>
    obtain ⟨nm, t, cy, e1, e2, e3⟩ := h2 _ (List.mem_of_getElem? h)
    exact .inr ⟨_, nm, t, cy, rfl, e1, e2, e3, h1⟩
  | scalar => simp [Elem.children] at h
  | array => simp [Elem.children] at h
  | string => simp [Elem.children] at h

/-- An element inside a well-formed one is well formed, or is a bit parameter of a block. -/
theorem Elem.WF.at {e f : Elem} (wf : e.WF) {p : Pos} (h : e.at? p = some f) :
    f.WF ∨ ∃ q i g size nm t sy, p = q ++ [i] ∧ e.at? q = some g ∧ g.WF ∧ g.kind = .bitBlock size ∧
      f = .mk nm (.bit t) sy [] ∧ t.WF ∧ t.blockSize = size ∧ size ≤ 8 := by
  induction p generalizing e with
  | nil => simp only [Elem.at?, Option.some.injEq] at h; subst h; exact .inl wf
  | cons i p ih =>
    rw [Elem.at?_cons] at h
    cases hc : e.children[i]? with
    | none => simp [hc] at h
    | some c =>
      simp only [hc, Option.bind_some] at h
      rcases wf.child hc with ⟨hw, _⟩ | ⟨size, nm, t, sy, hk, rfl, h1, h2, h3⟩
      · rcases ih hw h with hf | ⟨q, j, g, size, nm, t, sy, e1, e2, e3⟩
        · exact .inl hf
        · refine .inr ⟨i :: q, j, g, size, nm, t, sy, by rw [e1]; rfl, ?_, e3⟩
          rw [Elem.at?_cons, hc]; exact e2
      · cases p with
        | nil =>
          simp only [Elem.at?, Option.some.injEq] at h
          exact .inr ⟨[], i, e, size, nm, t, sy, rfl, rfl, wf, hk, h.symm, h1, h2, h3⟩
        | cons j p => simp [Elem.at?] at h

theorem Elem.bitBlock_child_offset {e c : Elem} {i size : Nat} (wf : e.WF) (hk : e.kind = .bitBlock size)
    (h : e.children[i]? = some c) : Elem.footprints (e.children.take i) = 0 := by
  cases wf with
  | bitBlock h1 h2 =>
    have h0 : ∀ l : List Elem, (∀ c ∈ l, Elem.footprint c = 0) → Elem.footprints l = 0 := by
      intro l
      induction l with
      | nil => intro _; rfl
      | cons c l ih => intro hl; simp [Elem.footprints, hl c (by simp), ih (fun d hd => hl d (by simp [hd]))]
    refine h0 _ (fun c hc => ?_)
    obtain ⟨nm, t, cy, rfl, _⟩ := h2 c (List.mem_of_mem_take hc)
    simp [Elem.footprint, EKind.ownSize]
  | _ => simp [Elem.kind] at hk

/-- The children of an element are laid out one after the other, inside the element. -/
theorem Elem.WF.child_range {e c : Elem} {i : Nat} (wf : e.WF) (h : e.children[i]? = some c) :
    Elem.footprints (e.children.take i) + c.footprint ≤ e.footprint := by
  cases wf with
  | group h1 h2 =>
    rw [Elem.footprint_group, ← Elem.footprints_take_succ h]
    exact Elem.footprints_take_le _ _
  | bitBlock h1 h2 =>
    have := Elem.bitBlock_child_offset (.bitBlock h1 h2) rfl h
    rw [this]
    obtain ⟨nm, t, cy, rfl, _⟩ := h2 c (List.mem_of_getElem? h)
    simp [Elem.footprint, EKind.ownSize]
  | scalar => simp [Elem.children] at h
  | array => simp [Elem.children] at h
  | string => simp [Elem.children] at h

/-- The bits of a descendant are among the bits of the element. -/
theorem Elem.WF.extent_nested {e f : Elem} (wf : e.WF) {p : Pos} {a o : Nat} (h : e.at? p = some f)
    (ho : e.offset a p = some o) :
    (e.extent a).1 ≤ (f.extent o).1 ∧ (f.extent o).2 ≤ (e.extent a).2 := by
  induction p generalizing e a with
  | nil =>
    simp only [Elem.at?, Option.some.injEq] at h
    simp only [Elem.offset, Option.some.injEq] at ho
    subst h ho; exact ⟨Nat.le_refl _, Nat.le_refl _⟩
  | cons i p ih =>
    rw [Elem.at?_cons] at h
    rw [Elem.offset_cons] at ho
    cases hc : e.children[i]? with
    | none => simp [hc] at h
    | some c =>
      simp only [hc, Option.bind_some] at h ho
      have hr := wf.child_range hc
      rcases wf.child hc with ⟨hw, ⟨k, hk⟩, hb⟩ | ⟨size, nm, t, sy, hk, rfl, h1, h2, h3⟩
      · have := ih hw h ho
        have he : e.extent a = (8 * a, 8 * (a + e.footprint)) := by simp [Elem.extent, hk]
        have hce : ∀ x, c.extent x = (8 * x, 8 * (x + c.footprint)) := by
          intro x
          unfold Elem.extent
          split
          · rename_i t ht; exact absurd ht (hb t)
          · rfl
        rw [he]; rw [hce] at this
        simp only at this ⊢
        omega
      · cases p with
        | cons j p => simp [Elem.at?] at h
        | nil =>
          simp only [Elem.at?, Option.some.injEq] at h
          subst h
          simp only [Elem.offset, Option.some.injEq] at ho
          subst ho
          rw [Elem.bitBlock_child_offset wf hk hc]
          have he : e.extent a = (8 * a, 8 * (a + e.footprint)) := by simp [Elem.extent, hk]
          have hf : e.footprint = size := by
            cases e with | mk n k2 s2 cs =>
            simp only [Elem.kind] at hk; subst hk; simp [Elem.footprint, EKind.ownSize]
          have := h1.fits
          rw [he, hf]
          simp only [Elem.extent, Elem.kind]
          omega

/-- Two unrelated elements own no common bit, provided bit fields do not overlap. -/
theorem Elem.WF.extent_disjoint {e f g : Elem} (wf : e.WF) (fd : e.FieldsDisjoint) {p q : Pos} {a o u : Nat}
    (hp : e.at? p = some f) (hq : e.at? q = some g) (hop : e.offset a p = some o)
    (hoq : e.offset a q = some u) (hu : Unrelated p q) :
    (f.extent o).2 ≤ (g.extent u).1 ∨ (g.extent u).2 ≤ (f.extent o).1 := by
  induction p generalizing e q a with
  | nil => exact absurd (List.nil_prefix) hu.1
  | cons i p ih =>
    cases q with
    | nil => exact absurd (List.nil_prefix) hu.2
    | cons j q =>
      rw [Elem.at?_cons] at hp hq
      rw [Elem.offset_cons] at hop hoq
      cases hc : e.children[i]? with
      | none => simp [hc] at hp
      | some c =>
      cases hd : e.children[j]? with
      | none => simp [hd] at hq
      | some d =>
      simp only [hc, hd, Option.bind_some] at hp hq hop hoq
      by_cases hij : i = j
      · subst hij
        have : d = c := by simpa [hc] using hd.symm
        subst this
        rcases wf.child hc with ⟨hw, _⟩ | ⟨size, nm, t, sy, hk, rfl, h1, h2, h3⟩
        · refine ih hw ?_ hp hq hop hoq ?_
          · intro p' i' j' t' u' hne ha hb
            refine fd (i :: p') i' j' t' u' hne ?_ ?_
            · obtain ⟨x, hx, hk⟩ := ha
              exact ⟨x, by rw [List.cons_append, Elem.at?_cons, hc]; exact hx, hk⟩
            · obtain ⟨x, hx, hk⟩ := hb
              exact ⟨x, by rw [List.cons_append, Elem.at?_cons, hc]; exact hx, hk⟩
          · exact ⟨fun h => hu.1 (by simpa using h), fun h => hu.2 (by simpa using h)⟩
        · cases p with
          | nil => exact absurd (by simp) hu.1
          | cons => simp [Elem.at?] at hp
      · have hrc := wf.child_range hc
        rcases wf.child hc with ⟨hwc, ⟨k, hk⟩, hbc⟩ | ⟨size, nm, t, sy, hk, rfl, h1, h2, h3⟩
        · rcases wf.child hd with ⟨hwd, _, hbd⟩ | ⟨size, nm, t, sy, hk', _⟩
          · have n1 := hwc.extent_nested hp hop
            have n2 := hwd.extent_nested hq hoq
            have hce : ∀ x, c.extent x = (8 * x, 8 * (x + c.footprint)) := by
              intro x
              unfold Elem.extent
              split
              · rename_i t ht; exact absurd ht (hbc t)
              · rfl
            have hde : ∀ x, d.extent x = (8 * x, 8 * (x + d.footprint)) := by
              intro x
              unfold Elem.extent
              split
              · rename_i t ht; exact absurd ht (hbd t)
              · rfl
            rw [hce] at n1; rw [hde] at n2
            simp only at n1 n2
            rcases Nat.lt_or_gt_of_ne hij with hlt | hgt
            · have := Elem.footprints_take_mono e.children (show i + 1 ≤ j from hlt)
              rw [Elem.footprints_take_succ hc] at this
              left; omega
            · have := Elem.footprints_take_mono e.children (show j + 1 ≤ i from hgt)
              rw [Elem.footprints_take_succ hd] at this
              right; omega
          · rw [hk] at hk'; cases hk'
        · rcases wf.child hd with ⟨hwd, ⟨k', hk'⟩, hbd⟩ | ⟨size', nm', t', sy', hk', rfl, h1', h2', h3'⟩
          · rw [hk] at hk'; cases hk'
          · cases p with
            | cons => simp [Elem.at?] at hp
            | nil =>
            cases q with
            | cons => simp [Elem.at?] at hq
            | nil =>
              simp only [Elem.at?, Option.some.injEq] at hp hq
              simp only [Elem.offset, Option.some.injEq] at hop hoq
              subst hp hq hop hoq
              rw [Elem.bitBlock_child_offset wf hk hc, Elem.bitBlock_child_offset wf hk hd]
              have := fd [] i j t t' hij ⟨_, by rw [List.nil_append, Elem.at?_single]; exact hc, rfl⟩
                ⟨_, by rw [List.nil_append, Elem.at?_single]; exact hd, rfl⟩
              simp only [Elem.extent, Elem.kind]
              omega

end PF
