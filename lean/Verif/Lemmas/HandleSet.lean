import Verif.Model.Handle
import Verif.Lemmas.Area
import Verif.Lemmas.TreeAccess

/-! # Sets inside a memory: what they change, and that they do not stop -/

namespace PF
open Spec

theorem setElems_fits (size : Nat) (vs : List (Option (BitVec 32))) (b : Board) (off : Nat)
    (h : off + vs.length * size ≤ b.length) : (setElems size b off vs).1 ≠ .abort := by
  induction vs generalizing b off with
  | nil => simp [setElems]
  | cons v vs ih =>
    rw [List.length_cons, Nat.add_mul, Nat.one_mul] at h
    cases v with
    | none => simp [setElems]
    | some v =>
      obtain ⟨b', hb⟩ := writeScalar_ok (size := size) (b := b) (off := off) v (by omega)
      simp only [setElems, hb]
      exact ih b' (off + size) (by rw [(writeScalar_frame hb).1]; omega)

theorem BitType.set_fits {t : BitType} (conv : BitVec 64 → Option (BitVec 64)) {b : Board} {off : Nat}
    (h : off + t.blockSize ≤ b.length) : t.set conv b off ≠ .abort := by
  obtain ⟨bs, hr⟩ := Board.read_some h
  unfold BitType.set BitType.readBlock
  rw [hr]
  simp only [Out.bind]
  split
  · simp
  · rename_i d _
    obtain ⟨b', hb⟩ := Board.write_some (b := b) (off := off) (bs := encLE t.blockSize d.toNat) (by rw [encLE_length]; exact h)
    simp [hb]

theorem setString_fits {m : Nat} {b : Board} {off : Nat} (t : List Byte) (h : off + stringSize m ≤ b.length) :
    setString m b off t ≠ .abort := by
  unfold setString
  split
  · simp
  · obtain ⟨b', hb⟩ := Board.write_some (b := b) (off := off) (bs := t ++ [0#8])
      (by simp only [List.length_append, List.length_cons, List.length_nil]; unfold stringSize at *; omega)
    simp [Board.writeString, hb]

theorem Out.withBoard_abort {b : Board} {o : Out Board} : (o.withBoard b).1 = .abort ↔ o = .abort := by
  cases o <;> simp [Out.withBoard]

/-- A text set of a parameter whose memory is there does not stop. -/
theorem setParamText_fits (rd : Reader) (ctx : Ctx) {e : Elem} {b : Board} {off base : Nat}
    (items : List Str) (text : Str) (hb : base ≤ off) (h : off - base + e.areaSize ≤ b.length) :
    (setParamText rd ctx e.kind b off base items text).1 ≠ .abort := by
  cases e with | mk n k sy cs =>
  simp only [Elem.areaSize, Elem.kind] at *
  cases k with
  | group g => simp [setParamText]
  | bitBlock g => simp [setParamText]
  | scalar t =>
    simp only [setParamText]
    split
    · simp
    · rw [if_neg (by omega)]
      rw [Ne, Out.withBoard_abort]
      unfold setScalarText
      split
      · simp
      · rename_i v _
        obtain ⟨b', hb'⟩ := writeScalar_ok (size := t.size) (b := b) (off := off - base) v h
        simp [hb']
  | array t =>
    simp only [setParamText, arrayAccessSet]
    split
    · simp
    · rename_i i hi
      rw [if_neg (by omega)]
      unfold setArrayText
      dsimp only
      split
      · simp
      · apply setElems_fits
        rw [List.length_map]
        have h2 : off - base + t.footprint ≤ b.length := h
        have h3 : i.getD 0 * t.elem.size + (tokenize arrayDelimiters true text).length * t.elem.size ≤ t.footprint := by
          rw [← Nat.add_mul]
          unfold ArrayType.footprint
          rw [Nat.mul_comm t.elem.size]
          exact Nat.mul_le_mul_right _ (by omega)
        omega
  | string m =>
    simp only [setParamText]
    split
    · simp
    · rw [if_neg (by omega), Ne, Out.withBoard_abort]
      exact setString_fits _ h
  | bit t =>
    simp only [setParamText]
    split
    · simp
    · rw [if_neg (by omega), Ne, Out.withBoard_abort]
      exact BitType.set_fits _ h

/-- The argument of a typed set has the form the parameter takes. -/
def HVal.Suits (v : HVal) (k : EKind) : Prop :=
  match v, k with
  | .one _, .array _ => False
  | .one _, .group _ => False
  | .one _, .bitBlock _ => False
  | .one _, _ => True
  | v, .array t => v.atoms.length = t.length
  | .strs _, _ => False
  | _, _ => True

theorem setParamAtom_frame {rd : Reader} {e : Elem} {b : Board} {off : Nat} (a : Atom)
    (wf : ∀ t, e.kind = .bit t → t.WF) :
    (setParamAtom rd e.kind b off a).2.length = b.length ∧
    ∀ i, i < (e.extent off).1 ∨ (e.extent off).2 ≤ i → (setParamAtom rd e.kind b off a).2.bit i = b.bit i := by
  cases e with | mk n k sy cs =>
  simp only [Elem.kind] at *
  cases k with
  | group g => exact ⟨rfl, fun _ _ => rfl⟩
  | bitBlock g => exact ⟨rfl, fun _ _ => rfl⟩
  | array t => exact ⟨rfl, fun _ _ => rfl⟩
  | scalar t =>
    simp only [setParamAtom]
    split
    · exact ⟨rfl, fun _ _ => rfl⟩
    · rename_i v _
      cases hw : writeScalar t.size b off v with
      | ok b' =>
        have h1 : SameOutside b b' off t.size := writeScalar_frame hw
        refine ⟨h1.1, fun i hi => h1.bits i ?_⟩
        simpa [Elem.extent, Elem.kind, Elem.footprint, EKind.ownSize] using hi
      | err => exact ⟨rfl, fun _ _ => rfl⟩
      | abort => exact ⟨rfl, fun _ _ => rfl⟩
  | string m =>
    simp only [setParamAtom]
    split
    · rename_i w
      unfold setString
      split
      · exact ⟨rfl, fun _ _ => rfl⟩
      · rename_i hlen
        unfold Board.writeString
        cases hw : b.write off (strBytes w ++ [0#8]) with
        | none => exact ⟨rfl, fun _ _ => rfl⟩
        | some b' =>
          refine ⟨(Board.write_length hw).1, fun i hi => ?_⟩
          have := Board.write_bit hw i
          simp only [Out.withBoard]
          rw [this, if_neg]
          simp only [Elem.extent, Elem.kind, Elem.footprint, EKind.ownSize, stringSize] at hi
          simp only [List.length_append, List.length_cons, List.length_nil]
          unfold stringSize at hlen
          omega
    · exact ⟨rfl, fun _ _ => rfl⟩
  | bit t =>
    have key : ∀ (o : Out Board), (∀ b', o = .ok b' → ∃ u, t.set (t.fromNum u) b off = .ok b') →
        (o.withBoard b).2.length = b.length ∧
        ∀ i, i < ((Elem.mk n (.bit t) sy cs).extent off).1 ∨ ((Elem.mk n (.bit t) sy cs).extent off).2 ≤ i →
          (o.withBoard b).2.bit i = b.bit i := by
      intro o ho
      cases o with
      | ok b' =>
        obtain ⟨u, hu⟩ := ho b' rfl
        have := BitType.set_bits (wf t rfl) hu
        exact ⟨this.1, fun i hi => this.2 i (by simpa [Elem.extent, Elem.kind] using hi)⟩
      | err => exact ⟨rfl, fun _ _ => rfl⟩
      | abort => exact ⟨rfl, fun _ _ => rfl⟩
    simp only [setParamAtom]
    split
    · apply key
      intro b' hb'
      unfold setBitBool at hb'
      split at hb'
      · simp at hb'
      · exact ⟨_, hb'⟩
    · exact key _ (fun b' hb' => ⟨_, hb'⟩)
    · exact key _ (fun b' hb' => ⟨_, hb'⟩)
    · exact ⟨rfl, fun _ _ => rfl⟩

theorem setArrayTyped_frame {α : Type} (t : ArrayType) (conv : α → Option (BitVec 32)) (b : Board) (off : Nat)
    (vals : List α) : SameOutside b (setArrayTyped t conv b off vals).2 off t.footprint := by
  unfold setArrayTyped
  split
  · exact SameOutside.refl _ _ _
  · rename_i hl
    have := setElems_frame t.elem.size (vals.map conv) b off
    rw [List.length_map, Decidable.not_not.1 hl] at this
    rw [ArrayType.footprint, Nat.mul_comm]
    exact this

/-- A typed set never changes a bit outside the parameter, whatever its result. -/
theorem setParamVal_frame {rd : Reader} {e : Elem} {b : Board} {off : Nat} (v : HVal)
    (wf : ∀ t, e.kind = .bit t → t.WF) :
    (setParamVal rd e.kind b off v).2.length = b.length ∧
    ∀ i, i < (e.extent off).1 ∨ (e.extent off).2 ≤ i → (setParamVal rd e.kind b off v).2.bit i = b.bit i := by
  unfold setParamVal
  split
  · exact setParamAtom_frame _ wf
  · rename_i w _ _ t hk _
    have h1 := setArrayTyped_frame t (t.elem.ofAtom rd) b off w.atoms
    refine ⟨h1.1, fun i hi => h1.bits i ?_⟩
    cases e with | mk n k sy cs =>
    simp only [Elem.kind] at hk
    subst hk
    simpa [Elem.extent, Elem.kind, Elem.footprint, EKind.ownSize] using hi
  · exact ⟨rfl, fun _ _ => rfl⟩
  · exact ⟨rfl, fun _ _ => rfl⟩

/-- A typed set of a parameter whose memory is there does not stop, if its argument suits it. -/
theorem setParamVal_fits (rd : Reader) {e : Elem} {b : Board} {off : Nat} (v : HVal)
    (hs : v.Suits e.kind) (h : off + e.areaSize ≤ b.length) : (setParamVal rd e.kind b off v).1 ≠ .abort := by
  cases e with | mk n k sy cs =>
  simp only [Elem.areaSize, Elem.kind] at *
  have hone : ∀ a, (HVal.one a).Suits k → (setParamAtom rd k b off a).1 ≠ .abort := by
    intro a ha
    cases k with
    | group g => exact absurd ha (fun x => x)
    | bitBlock g => exact absurd ha (fun x => x)
    | array t => exact absurd ha (fun x => x)
    | scalar t =>
      simp only [setParamAtom]
      split
      · simp
      · rename_i w _
        obtain ⟨b', hb'⟩ := writeScalar_ok (size := t.size) (b := b) (off := off) w h
        simp [hb', Out.withBoard]
    | string m =>
      simp only [setParamAtom]
      split
      · rw [Ne, Out.withBoard_abort]
        exact setString_fits _ h
      · simp
    | bit t =>
      simp only [setParamAtom]
      split
      · rw [Ne, Out.withBoard_abort]
        unfold setBitBool
        split
        · simp
        · exact BitType.set_fits _ h
      · rw [Ne, Out.withBoard_abort]; exact BitType.set_fits _ h
      · rw [Ne, Out.withBoard_abort]; exact BitType.set_fits _ h
      · simp
  have harr : ∀ t, k = .array t → v.atoms.length = t.length → (setArrayTyped t (t.elem.ofAtom rd) b off v.atoms).1 ≠ .abort := by
    intro t hk hl
    subst hk
    unfold setArrayTyped
    rw [if_neg (by simpa using hl)]
    apply setElems_fits
    rw [List.length_map, hl, Nat.mul_comm]
    exact h
  unfold setParamVal
  split
  · exact hone _ hs
  · rename_i t hne
    refine harr t rfl ?_
    cases v <;> first | exact absurd rfl (hne _) | exact hs
  · rename_i hne
    exfalso
    cases k <;> first | exact absurd rfl (hne _) | exact hs
  · simp

end PF
