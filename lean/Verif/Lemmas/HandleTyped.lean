import Verif.Spec.Handle
import Verif.Props.Integer
import Verif.Props.Enum
import Verif.Props.FixedPoint
import Verif.Props.StringArray
import Verif.Lemmas.FloatingPoint

/-! # Typed conversions, value by value -/

namespace PF

/-- A value read from memory is one of the type's size. -/
def lowBytes (size : Nat) (v : BitVec 32) : BitVec 32 := BitVec.ofNat 32 (v.toNat % 2 ^ (8 * size))

theorem readScalar_written {size : Nat} {b b' : Board} {off : Nat} {v : BitVec 32}
    (h : writeScalar size b off v = .ok b') : readScalar size b' off = .ok (lowBytes size v) :=
  readScalar_writeScalar h

/-- The access a type has: accepted exactly when the type takes the value, and shown when read. -/
theorem ScalarType.ofAtom_spec (rd : Reader) (t : ScalarType) (a : Atom) (hs : a.ty ≠ .str)
    (hf : t.Faithful a.ty) :
    (t.Takes a → ∃ v a', t.ofAtom rd a = some v ∧ t.toAtom (lowBytes t.size v) a.ty = .ok a' ∧ t.Shows a a') ∧
    (¬ t.Takes a → t.ofAtom rd a = none) := by
  have room : ∀ n, 0 + n ≤ (List.replicate n (0#8 : Byte)).length := by simp
  cases t with
  | bool =>
    cases a with
    | bool v =>
      refine ⟨fun _ => ⟨_, .bool v, rfl, ?_, rfl⟩, fun h => absurd trivial h⟩
      cases v <;> rfl
    | uint u =>
      obtain ⟨-, h2, h3⟩ := C36_boolean_typed (List.replicate 1 0#8) 0 (by simp)
      refine ⟨fun h => ?_, fun h => h3 u (by simp only [ScalarType.Takes] at h; omega)⟩
      obtain ⟨b', h4, h5, -, h6⟩ := h2 u h
      rw [readScalar_written h5] at h6
      simp only [Out.bind, Out.ok.injEq] at h6
      exact ⟨u, .uint u, h4, by simp only [Atom.ty, ScalarType.toAtom, ScalarType.size]; rw [h6], rfl⟩
    | str w => exact absurd rfl hs
    | _ => exact ⟨fun h => h.elim, fun _ => rfl⟩
  | int t =>
    cases a with
    | uint u =>
      have h := C34_unsigned_access_partial t hf.1 hf.2 (List.replicate t.size 0#8) 0 (room _) u
      refine ⟨fun ht => ?_, fun ht => ?_⟩
      · simp only [ScalarType.Takes] at ht
        rw [if_pos ht] at h
        obtain ⟨b', h1, h2, -⟩ := h
        unfold setUInt at h1
        split at h1
        · simp at h1
        · rename_i v hv
          unfold getUInt at h2
          rw [readScalar_written h1] at h2
          simp only [Out.bind, Out.ok.injEq] at h2
          exact ⟨v, .uint u, hv, by simp only [Atom.ty, ScalarType.toAtom, ScalarType.size]; rw [h2], rfl⟩
      · simp only [ScalarType.Takes] at ht
        rw [if_neg ht] at h
        unfold setUInt at h
        split at h
        · assumption
        · rename_i v hv
          obtain ⟨b', hb⟩ := writeScalar_ok (size := t.size) (off := 0) v (room t.size)
          rw [hb] at h; simp at h
    | sint i =>
      have h := C34_signed_access_partial t hf.1 hf.2 (List.replicate t.size 0#8) 0 (room _) i
      refine ⟨fun ht => ?_, fun ht => ?_⟩
      · simp only [ScalarType.Takes] at ht
        rw [if_pos ht] at h
        obtain ⟨b', h1, h2, -⟩ := h
        unfold setSInt at h1
        split at h1
        · simp at h1
        · rename_i v hv
          unfold getSInt at h2
          rw [readScalar_written h1] at h2
          simp only [Out.bind, Out.ok.injEq] at h2
          exact ⟨v, .sint i, hv, by simp only [Atom.ty, ScalarType.toAtom, ScalarType.size]; rw [h2], rfl⟩
      · simp only [ScalarType.Takes] at ht
        rw [if_neg ht] at h
        unfold setSInt at h
        split at h
        · assumption
        · rename_i v hv
          obtain ⟨b', hb⟩ := writeScalar_ok (size := t.size) (off := 0) v (room t.size)
          rw [hb] at h; simp at h
    | str w => exact absurd rfl hs
    | _ => exact ⟨fun h => h.elim, fun _ => rfl⟩
  | enum t =>
    cases a with
    | sint i =>
      have hi := t.fromInt_iff hf handleCtx i i
      simp only [handleCtx, Bool.false_eq_true, if_false, true_and] at hi
      have hd : (∃ p ∈ t.pairs, p.2 = i) ↔ t.Declared i.toInt := by
        unfold EnumType.Declared
        simp only [BitVec.toInt_inj]
      rw [hd] at hi
      refine ⟨fun ht => ⟨i, .sint i, hi.2 ht, ?_, rfl⟩, fun ht => ?_⟩
      · simp only [Atom.ty, ScalarType.toAtom, ScalarType.size, EnumType.toInt, lowBytes]
        rw [signExtend_low hf, signExtend_of_fits hf ht.2]
      · cases hv : ScalarType.ofAtom rd (.enum t) (.sint i) with
        | none => rfl
        | some v =>
          have h1 := (t.fromInt_iff hf handleCtx i v).1 hv
          have h2 : v = i := by simpa [handleCtx] using h1.1
          subst h2
          exact absurd (hi.1 hv) ht
    | str w => exact absurd rfl hs
    | _ => exact ⟨fun h => h.elim, fun _ => rfl⟩
  | fixed t =>
    cases a with
    | dbl d =>
      refine ⟨fun ht => ?_, fun ht => ?_⟩
      · obtain ⟨b', r, h1, h2, -, h3, -, h4, -⟩ := C38_set_then_get t hf (List.replicate t.size 0#8) 0 (room _) d ht
        unfold setDbl at h1
        split at h1
        · simp at h1
        · rename_i v hv
          unfold getDbl at h2
          rw [readScalar_written h1] at h2
          simp only [Out.bind, Out.ok.injEq] at h2
          exact ⟨v, .dbl r, hv, by simp only [Atom.ty, ScalarType.toAtom, ScalarType.size]; rw [h2], h3, h4⟩
      · have h := (C38_accepted_iff_in_range t (List.replicate t.size 0#8) 0 (room _) d).2 ht
        unfold setDbl at h
        split at h
        · assumption
        · rename_i v hv
          obtain ⟨b', hb⟩ := writeScalar_ok (size := t.size) (off := 0) v (room t.size)
          rw [hb] at h; simp at h
    | str w => exact absurd rfl hs
    | _ => exact ⟨fun h => h.elim, fun _ => rfl⟩
  | float t =>
    cases a with
    | dbl d =>
      refine ⟨fun ht => ?_, fun ht => (t.fromDbl_none d).2 ht⟩
      obtain ⟨h1, v, h2, h3⟩ := ht
      have hn := f32OfDbl_nearest (d.le_f32Max.1 h1)
      have hv := (t.fromDbl_iff d (f32OfDbl d)).2 ⟨h1, Spec.FloatAllows.congr h3 hn.finite (hn.val_unique h2), rfl⟩
      refine ⟨f32OfDbl d, .dbl (f32ToDbl (f32OfDbl d)), hv, ?_, f32OfDbl d, hn, f32ToDbl_val _⟩
      have e : lowBytes 4 (f32OfDbl d) = f32OfDbl d := by
        unfold lowBytes
        rw [Nat.mod_eq_of_lt (f32OfDbl d).isLt, BitVec.ofNat_toNat, BitVec.setWidth_eq]
      show ScalarType.toAtom (lowBytes 4 (f32OfDbl d)) (.float t) .dbl = _
      rw [e]
      simp only [ScalarType.toAtom]
      rw [if_pos ((f32Finite_iff _).2 hn.finite)]
    | str w => exact absurd rfl hs
    | _ => exact ⟨fun h => h.elim, fun _ => rfl⟩

/-- Access of a type that the parameter type does not have is refused. -/
theorem ScalarType.ofAtom_none (rd : Reader) (t : ScalarType) (a : Atom) (hs : a.ty ≠ .str)
    (hf : ¬ t.Has a.ty) : t.ofAtom rd a = none := by
  cases t <;> cases a <;> first | rfl | exact absurd trivial hf | exact absurd rfl hs

theorem ScalarType.toAtom_err (v : BitVec 32) (t : ScalarType) (ty : ATy) (hs : ty ≠ .str)
    (hf : ¬ t.Has ty) : t.toAtom v ty = .err := by
  cases t <;> cases ty <;> first | rfl | exact absurd trivial hf | exact absurd rfl hs

/-- Element by element reading of an array. -/
theorem getAtoms_ok (t : ScalarType) (ty : ATy) (as : List Atom) (b : Board) (off : Nat)
    (h : ∀ j a, as[j]? = some a → (readScalar t.size b (off + j * t.size)).bind (fun v => t.toAtom v ty) = .ok a) :
    getAtoms t ty b off as.length = .ok as := by
  induction as generalizing off with
  | nil => rfl
  | cons a as ih =>
    have e := h 0 a (by simp)
    simp only [Nat.zero_mul, Nat.add_zero] at e
    have r := ih (off + t.size) (fun j a' hj => by
      have := h (j + 1) a' (by simpa using hj)
      rw [Nat.succ_mul, Nat.add_comm _ t.size, ← Nat.add_assoc] at this
      exact this)
    simp only [List.length_cons, getAtoms]
    cases hr : readScalar t.size b off with
    | ok v =>
      rw [hr] at e
      simp only [Out.bind] at e ⊢
      rw [e]
      simp only [r]
    | err => rw [hr] at e; simp [Out.bind] at e
    | abort => rw [hr] at e; simp [Out.bind] at e

theorem setElems_none (size : Nat) (vs : List (Option (BitVec 32))) (b : Board) (off : Nat)
    (room : off + vs.length * size ≤ b.length) (h : none ∈ vs) : (setElems size b off vs).1 = .err := by
  induction vs generalizing b off with
  | nil => simp at h
  | cons v vs ih =>
    cases v with
    | none => rfl
    | some v =>
      simp only [List.length_cons, Nat.succ_mul] at room
      obtain ⟨b', hb⟩ := writeScalar_ok (size := size) (b := b) (off := off) v (by omega)
      simp only [setElems, hb]
      exact ih b' (off + size) (by rw [(writeScalar_frame hb).1]; omega) (by simpa using h)

/-- Typed set of a whole array, then typed read. -/
theorem setArrayTyped_spec (rd : Reader) (t : ArrayType) (as : List Atom) (ty : ATy) (hty : ∀ a ∈ as, a.ty = ty)
    (hs : ty ≠ .str) (hf : t.elem.Faithful ty) (b : Board) (off : Nat)
    (room : off + t.length * t.elem.size ≤ b.length) (hl : as.length = t.length) :
    ((∀ a ∈ as, t.elem.Takes a) → ∃ b' as', setArrayTyped t (t.elem.ofAtom rd) b off as = (.ok (), b') ∧
      getAtoms t.elem ty b' off t.length = .ok as' ∧ as'.length = as.length ∧
      ∀ (j : Nat) a a', as[j]? = some a → as'[j]? = some a' → t.elem.Shows a a') ∧
    ((¬ ∀ a ∈ as, t.elem.Takes a) → (setArrayTyped t (t.elem.ofAtom rd) b off as).1 = .err) := by
  refine ⟨fun h => ?_, fun h => ?_⟩
  · have : ∀ as : List Atom, (∀ a ∈ as, a.ty = ty) → (∀ a ∈ as, t.elem.Takes a) →
        ∃ (vs : List (BitVec 32)) (as' : List Atom), as.map (t.elem.ofAtom rd) = vs.map some ∧ as'.length = as.length ∧ vs.length = as.length ∧
        (∀ (j : Nat) v a', vs[j]? = some v → as'[j]? = some a' → t.elem.toAtom (lowBytes t.elem.size v) ty = .ok a') ∧
        ∀ (j : Nat) a a', as[j]? = some a → as'[j]? = some a' → t.elem.Shows a a' := by
      intro as
      induction as with
      | nil => intro _ _; exact ⟨[], [], rfl, rfl, rfl, by simp, by simp⟩
      | cons a as ih =>
        intro hty h
        obtain ⟨vs, as', h1, h2, h3, h4, h5⟩ := ih (fun x hx => hty x (List.mem_cons_of_mem _ hx))
          (fun x hx => h x (List.mem_cons_of_mem _ hx))
        have ha := hty a List.mem_cons_self
        obtain ⟨v, a', e1, e2, e3⟩ := (t.elem.ofAtom_spec rd a (by rw [ha]; exact hs) (by rw [ha]; exact hf)).1
          (h a List.mem_cons_self)
        rw [ha] at e2
        refine ⟨v :: vs, a' :: as', by simp [h1, e1], by simp [h2], by simp [h3], ?_, ?_⟩
        · intro j w x hj hx
          cases j with
          | zero => simp at hj hx; subst hj hx; exact e2
          | succ j => exact h4 j w x (by simpa using hj) (by simpa using hx)
        · intro j w x hj hx
          cases j with
          | zero => simp at hj hx; subst hj hx; exact e3
          | succ j => exact h5 j w x (by simpa using hj) (by simpa using hx)
    obtain ⟨vs, as', h1, h2, h3, h4, h5⟩ := this as hty h
    obtain ⟨b', g1, g2, g3⟩ := setElems_ok t.elem.size vs b off (by rw [h3, hl]; exact room)
    refine ⟨b', as', ?_, ?_, h2, h5⟩
    · unfold setArrayTyped
      rw [if_neg (by simp [hl]), h1, g1]
    · rw [← hl, ← h2]
      apply getAtoms_ok
      intro j a' hj
      have hjl : j < vs.length := by
        have := (List.getElem?_eq_some_iff.1 hj).1
        omega
      have hv : vs[j]? = some vs[j] := List.getElem?_eq_getElem hjl
      unfold readScalar
      rw [g3 j _ hv]
      simp only [decLE_encLE, Out.bind]
      rw [pow256]
      exact h4 j _ a' hv hj
  · unfold setArrayTyped
    rw [if_neg (by simp [hl])]
    apply setElems_none
    · rw [List.length_map, hl]; exact room
    · simp only [Classical.not_forall] at h
      obtain ⟨a, ha, hn⟩ := h
      have e := hty a ha
      exact List.mem_map.2 ⟨a, ha, (t.elem.ofAtom_spec rd a (by rw [e]; exact hs) (by rw [e]; exact hf)).2 hn⟩

theorem HVal.atoms_ty {v : HVal} : ∀ a ∈ v.atoms, a.ty = v.ty := by
  intro a ha
  cases v with
  | one b => rw [HVal.atoms, List.mem_singleton] at ha; subst ha; rfl
  | _ l => obtain ⟨x, -, rfl⟩ := List.mem_map.1 ha; rfl

end PF
