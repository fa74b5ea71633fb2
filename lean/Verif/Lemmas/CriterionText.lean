import Verif.Lemmas.Criterion
import Verif.Lemmas.Tokenizer
import Verif.Spec.Criterion

/-! Helper lemmas: texts of criterion states. -/

namespace PF
open Spec

theorem CritType.Inv.run {t t' : CritType} {calls} (hi : t.Inv) (h : t.run calls = some t') :
    t'.Inv ∧ t'.inclusive = t.inclusive := by
  induction calls generalizing t with
  | nil => simp [CritType.run] at h; subst h; exact ⟨hi, rfl⟩
  | cons c cs ih =>
    simp only [CritType.run, Option.bind_eq_some_iff] at h
    obtain ⟨t1, h1, h2⟩ := h
    unfold CritType.call at h1
    split at h1
    · rename_i t2 hadd
      simp only [Option.some.injEq] at h1; subst h1
      obtain ⟨a, b⟩ := ih (hi.add hadd) h2
      refine ⟨a, b.trans ?_⟩
      obtain ⟨-, -, -, rfl⟩ := addValuePair_added hadd
      rfl
    · simp only [Option.some.injEq] at h1; subst h1; exact ih hi h2
    · simp at h1

theorem orAll_eq (t : CritType) (ls : List Str) (acc : BitVec 32) :
    t.orAll ls acc = (ls.mapM t.atomic).map (fun vs => acc ||| orOf vs) := by
  induction ls generalizing acc with
  | nil => simp [CritType.orAll, orOf]
  | cons l ls ih =>
    simp only [CritType.orAll, List.mapM_cons]
    cases h : t.atomic l with
    | none => simp
    | some v =>
      simp only [ih]
      cases h2 : ls.mapM t.atomic <;> simp [orOf, BitVec.or_assoc]

theorem mapM_option_some {α β} (f : α → Option β) (l : List α) (r : List β) :
    l.mapM f = some r ↔ l.map f = r.map some := by
  induction l generalizing r with
  | nil => cases r <;> simp
  | cons a l ih =>
    cases r with
    | nil => simp only [List.mapM_cons]; cases f a <;> cases l.mapM f <;> simp
    | cons b r =>
      simp only [List.mapM_cons, List.map_cons, List.cons.injEq, ← ih]
      cases f a <;> cases l.mapM f <;> simp

theorem mapM_option_none {α β} (f : α → Option β) (l : List α) :
    l.mapM f = none ↔ ∃ a ∈ l, f a = none := by
  induction l with
  | nil => simp
  | cons a l ih =>
    simp only [List.mapM_cons]
    cases h1 : f a with
    | none => simp [h1]
    | some b =>
      cases h2 : l.mapM f with
      | none => simp [h1]; exact ih.mp h2
      | some c =>
        simp [h1]
        intro x hx hn
        have := ih.mpr ⟨x, hx, hn⟩
        simp [this] at h2

/-- The literals printed for the bits `bit .. bit+n-1`. -/
def fmtParts (t : CritType) (v : BitVec 32) (bit n : Nat) : List Str :=
  (List.range' bit n).filterMap (fun k => if v.getLsbD k then t.literal (bitVal k) else none)

theorem and_bitVal (v : BitVec 32) (k : Nat) (hk : k < 32) :
    v &&& bitVal k = if v.getLsbD k then bitVal k else 0#32 := by
  apply BitVec.eq_of_getLsbD_eq
  intro i hi
  rw [BitVec.getLsbD_and, bitVal_getLsbD]
  split
  · rename_i h; rw [bitVal_getLsbD]; by_cases hik : i = k <;> simp_all
  · rename_i h; by_cases hik : i = k <;> simp_all

theorem fmtLoop_eq (t : CritType) (v : BitVec 32) (n bit : Nat) (hb : bit + n ≤ 32)
    (first : Bool) (acc : Str) :
    t.fmtLoop v n bit first acc =
      if fmtParts t v bit n = [] then acc
      else acc ++ (if first then [] else ['|']) ++ joinWith '|' (fmtParts t v bit n) := by
  induction n generalizing bit first acc with
  | zero => simp [CritType.fmtLoop, fmtParts]
  | succ n ih =>
    have hstep : fmtParts t v bit (n+1) =
        (match (if v.getLsbD bit then t.literal (bitVal bit) else none) with
          | none => fmtParts t v (bit+1) n
          | some l => l :: fmtParts t v (bit+1) n) := by
      simp only [fmtParts, List.range'_succ, List.filterMap_cons]
      split <;> simp_all
    rw [hstep]
    simp only [CritType.fmtLoop]
    rw [and_bitVal v bit (by omega)]
    by_cases hbit : v.getLsbD bit = true
    · simp only [hbit, if_true]
      rw [if_neg (bitVal_ne_zero bit (by omega))]
      cases hl : t.literal (bitVal bit) with
      | none => simp only [ih (bit+1) (by omega)]
      | some l =>
        simp only [ih (bit+1) (by omega)]
        generalize fmtParts t v (bit+1) n = ps
        cases first <;> cases ps <;> simp [joinWith]
    · simp only [hbit]
      simp only [Bool.false_eq_true, if_false, if_true]
      simp only [ih (bit+1) (by omega)]

theorem joinWith_ne_nil {d : Char} {ws : List Str} (h : ws ≠ []) (hw : ∀ w ∈ ws, w ≠ []) :
    joinWith d ws ≠ [] := by
  match ws, h with
  | [w], _ => simpa [joinWith] using hw w (by simp)
  | w :: v :: vs, _ => simp [joinWith]

theorem orOf_getLsbD (vs : List (BitVec 32)) (i : Nat) :
    (orOf vs).getLsbD i = true ↔ ∃ v ∈ vs, v.getLsbD i = true := by
  induction vs with
  | nil => simp [orOf]
  | cons v vs ih => simp [orOf, BitVec.getLsbD_or, ih]

theorem joinWith_tokenize (ls : List Str) (hne : ∀ l ∈ ls, l ≠ []) (hf : ∀ l ∈ ls, '|' ∉ l) :
    tokenize ['|'] true (joinWith '|' ls) = ls := by
  cases ls with
  | nil => rfl
  | cons w ws =>
    rw [tokenize_true_of_pieces (pieces_join ['|'] '|' (by simp) _ (by simp)
      (by intro w hw c hc hcd; simp at hcd; subst hcd; exact hf w hw hc))]
    exact List.filter_eq_self.mpr (by simpa using hne)

end PF
