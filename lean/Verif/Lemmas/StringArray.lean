import Verif.Model.StringArray
import Verif.Spec.Scalar
import Verif.Lemmas.Scalar
import Verif.Lemmas.Bits
import Verif.Lemmas.Tokenizer

/-! Helper lemmas about string and array parameters. -/

namespace PF
open Spec

theorem cString_takeWhile (t rest : List Byte) :
    cString (t ++ 0#8 :: rest) = some (t.takeWhile (fun c => decide (c ≠ 0#8))) := by
  induction t with
  | nil => simp [cString]
  | cons b t ih =>
    by_cases hb : b = 0#8
    · simp [cString, hb]
    · simp [cString, hb, ih]

theorem cString_cons_of_mem (bs rest : List Byte) (h : 0#8 ∈ bs) :
    cString (bs ++ rest) = some (bs.takeWhile (fun c => decide (c ≠ 0#8))) := by
  induction bs with
  | nil => simp at h
  | cons b bs ih =>
    by_cases hb : b = 0#8
    · simp [cString, hb]
    · have : 0#8 ∈ bs := by
        rcases List.mem_cons.1 h with h | h
        · exact absurd h.symm hb
        · exact h
      simp [cString, hb, ih this]

/-- Everything about the loop of `setValues` when all the values are accepted. -/
theorem setElems_ok (size : Nat) (vs : List (BitVec 32)) (b : Board) (off : Nat)
    (room : off + vs.length * size ≤ b.length) :
    ∃ b', setElems size b off (vs.map some) = (.ok (), b') ∧
      SameOutside b b' off (vs.length * size) ∧
      ∀ j v, vs[j]? = some v → b'.read (off + j * size) size = some (encLE size v.toNat) := by
  induction vs generalizing b off with
  | nil => exact ⟨b, rfl, ⟨rfl, fun _ _ => rfl⟩, by simp⟩
  | cons v vs ih =>
    simp only [List.length_cons, Nat.succ_mul] at room
    obtain ⟨b1, hb1⟩ := writeScalar_ok (size := size) (b := b) (off := off) v (by omega)
    have hf := writeScalar_frame hb1
    obtain ⟨b', h1, h2, h3⟩ := ih b1 (off + size) (by rw [hf.1]; omega)
    refine ⟨b', ?_, ⟨by rw [h2.1, hf.1], ?_⟩, ?_⟩
    · simp only [List.map_cons, setElems, hb1, h1]
    · intro i hi
      simp only [List.length_cons, Nat.succ_mul] at hi
      rw [h2.2 i (by omega), hf.2 i (by omega)]
    · intro j w hj
      cases j with
      | zero =>
        simp only [List.getElem?_cons_zero, Option.some.injEq] at hj; subst hj
        simp only [Nat.zero_mul, Nat.add_zero]
        have : b'.read off size = b1.read off size := by
          apply Board.read_congr h2.1
          intro i _ hi
          exact h2.2 i (by omega)
        rw [this]
        unfold writeScalar at hb1
        split at hb1
        · rename_i b'' hw
          simp only [Out.ok.injEq] at hb1; subst hb1
          have := Board.read_write_same hw
          rwa [encLE_length] at this
        · simp at hb1
      | succ j =>
        simp only [List.getElem?_cons_succ] at hj
        have := h3 j w hj
        rw [Nat.succ_mul, show off + (j * size + size) = off + size + j * size by omega]
        exact this

/-- The loop of `setValues` runs the accepted values before the first refused one. -/
theorem setElems_append (size : Nat) (vs : List (BitVec 32)) (rest : List (Option (BitVec 32)))
    (b b' : Board) (off : Nat) (h : setElems size b off (vs.map some) = (.ok (), b')) :
    setElems size b off (vs.map some ++ rest) = setElems size b' (off + vs.length * size) rest := by
  induction vs generalizing b off with
  | nil =>
    simp only [List.map_nil, setElems, Prod.mk.injEq, true_and] at h; subst h
    simp
  | cons v vs ih =>
    simp only [List.map_cons, List.cons_append, setElems] at h ⊢
    split at h
    · rename_i b1 hb1
      rw [ih b1 (off + size) h]
      congr 1
      simp only [List.length_cons, Nat.succ_mul]; omega
    · simp at h
    · simp at h

theorem spaced_eq_joinWith (ws : List Str) : spaced ws = joinWith ' ' ws := by
  cases ws with
  | nil => rfl
  | cons w ws =>
    induction ws generalizing w with
    | nil => simp [spaced, joinWith]
    | cons v vs ih =>
      have := ih v
      simp only [spaced, joinWith, List.map_cons, List.flatten_cons, List.cons_append] at this ⊢
      rw [← this]

theorem getElems_iff (t : ScalarType) (ctx : Ctx) (b : Board) (off n : Nat) (ws : List Str) :
    getElems t ctx b off n = .ok ws ↔
      ws.length = n ∧ ∀ j w, ws[j]? = some w → getScalarText t ctx b (off + j * t.size) = .ok w := by
  induction n generalizing off ws with
  | zero =>
    simp only [getElems, Out.ok.injEq]
    constructor
    · rintro rfl; exact ⟨rfl, by simp⟩
    · rintro ⟨h, _⟩; exact (List.length_eq_zero_iff.1 h).symm
  | succ n ih =>
    simp only [getElems]
    constructor
    · intro h
      cases h1 : getScalarText t ctx b off with
      | ok w =>
        rw [h1] at h; simp only [Out.bind] at h
        cases h2 : getElems t ctx b (off + t.size) n with
        | ok ws' =>
          rw [h2] at h; simp only [Out.ok.injEq] at h; subst h
          obtain ⟨h3, h4⟩ := (ih _ _).1 h2
          refine ⟨by simp [h3], ?_⟩
          intro j w' hj
          cases j with
          | zero => simp at hj; subst hj; simpa using h1
          | succ j =>
            simp only [List.getElem?_cons_succ] at hj
            rw [Nat.succ_mul, show off + (j * t.size + t.size) = off + t.size + j * t.size by omega]
            exact h4 j w' hj
        | err => rw [h2] at h; simp at h
        | abort => rw [h2] at h; simp at h
      | err => rw [h1] at h; simp [Out.bind] at h
      | abort => rw [h1] at h; simp [Out.bind] at h
    · rintro ⟨h1, h2⟩
      match ws, h1, h2 with
      | w :: ws', h1, h2 =>
        have e := h2 0 w (by simp)
        simp only [Nat.zero_mul, Nat.add_zero] at e
        rw [e]
        have := (ih (off + t.size) ws').2 ⟨by simpa using h1, by
          intro j w' hj
          have := h2 (j + 1) w' (by simpa using hj)
          rwa [Nat.succ_mul, show off + (j * t.size + t.size) = off + t.size + j * t.size by omega] at this⟩
        simp only [Out.bind, this]

theorem streamSize_numeral {t : Str} {n : Nat} (h : Numeral 10 t n) (hn : n < 2 ^ 64) :
    streamSize t = some n := by
  match t, h.chars.1, h.ne, h with
  | c :: r, _, hne, h =>
    have h1 := hne c (by simp)
    have e : (c :: r : Str).dropWhile (fun c => decide (c ∈ cSpaces)) = c :: r := by
      simp [List.dropWhile, h1.1]
    have e2 : splitSign (c :: r) = (false, c :: r) := by
      unfold splitSign
      split
      · rename_i heq; simp at heq; exact absurd heq.1 h1.2.1
      · rename_i heq; simp at heq; exact absurd heq.1 h1.2.2.1
      · rfl
    unfold streamSize
    simp only [e, e2, digitPrefix_of_numeral h, parseNat_of_numeral h]
    rw [if_neg (by omega)]; simp

theorem getElemsTyped_ok {α : Type} (size : Nat) (conv : BitVec 32 → α) (vs : List (BitVec 32)) (b : Board)
    (off : Nat) (h : ∀ j v, vs[j]? = some v → readScalar size b (off + j * size) = .ok v) :
    getElemsTyped size conv b off vs.length = .ok (vs.map conv) := by
  induction vs generalizing off with
  | nil => rfl
  | cons v vs ih =>
    have e := h 0 v (by simp)
    simp only [Nat.zero_mul, Nat.add_zero] at e
    simp only [List.length_cons, getElemsTyped, e, Out.bind]
    rw [ih (off + size)]
    · rfl
    · intro j w hj
      have := h (j + 1) w (by simpa using hj)
      rwa [Nat.succ_mul, show off + (j * size + size) = off + size + j * size by omega] at this

end PF
