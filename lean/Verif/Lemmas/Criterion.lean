import Verif.Model.Criterion

/-! Helper lemmas about selection criterion types. -/

namespace PF

theorem nat_and_pred_pow2 (n : Nat) (hn : n ≠ 0) (h : n &&& (n - 1) = 0) : ∃ k, n = 2 ^ k := by
  induction n using Nat.strongRecOn with
  | _ n ih =>
    have hdiv : (n &&& (n - 1)) / 2 = 0 := by rw [h]
    rw [Nat.and_div_two] at hdiv
    rcases Nat.mod_two_eq_zero_or_one n with h0 | h1
    · have hm : n / 2 ≠ 0 := by omega
      have : (n - 1) / 2 = n / 2 - 1 := by omega
      rw [this] at hdiv
      obtain ⟨k, hk⟩ := ih (n / 2) (by omega) hm hdiv
      exact ⟨k + 1, by rw [Nat.pow_succ]; omega⟩
    · have : (n - 1) / 2 = n / 2 := by omega
      rw [this, Nat.and_self] at hdiv
      exact ⟨0, by simp; omega⟩

theorem bitVal_toNat (k : Nat) (hk : k < 32) : (bitVal k).toNat = 2 ^ k := by
  have : 2 ^ k < 2 ^ 32 := Nat.pow_lt_pow_iff_right (by omega) |>.mpr hk
  rw [bitVal, BitVec.toNat_shiftLeft, Nat.shiftLeft_eq]
  simp only [BitVec.toNat_ofNat, Nat.reducePow]
  omega

/-- A non-zero 32-bit value with `v & (v - 1) = 0` is one bit. -/
theorem single_bit (v : BitVec 32) (h0 : v ≠ 0#32) (h : v &&& (v - 1#32) = 0#32) :
    ∃ k, k < 32 ∧ v = bitVal k := by
  have hn : v.toNat ≠ 0 := by
    intro hz; apply h0; apply BitVec.eq_of_toNat_eq; simpa using hz
  have hsub : (v - 1#32).toNat = v.toNat - 1 := by
    have := v.isLt
    simp only [BitVec.toNat_sub, BitVec.toNat_ofNat]; omega
  have h2 : v.toNat &&& (v.toNat - 1) = 0 := by
    have := congrArg BitVec.toNat h
    rw [BitVec.toNat_and, hsub] at this
    simpa using this
  obtain ⟨k, hk⟩ := nat_and_pred_pow2 v.toNat hn h2
  have hlt : k < 32 := by
    apply (Nat.pow_lt_pow_iff_right (a := 2) (by omega)).mp
    rw [← hk]; exact v.isLt
  refine ⟨k, hlt, BitVec.eq_of_toNat_eq ?_⟩
  rw [hk, bitVal_toNat k hlt]

theorem bitVal_and_pred (k : Nat) (hk : k < 32) : bitVal k &&& (bitVal k - 1#32) = 0#32 := by
  apply BitVec.eq_of_toNat_eq
  have h1 := bitVal_toNat k hk
  have hpos : 0 < 2 ^ k := Nat.two_pow_pos k
  have hlt : 2 ^ k < 2 ^ 32 := Nat.pow_lt_pow_iff_right (by omega) |>.mpr hk
  have hsub : (bitVal k - 1#32).toNat = 2 ^ k - 1 := by
    simp only [BitVec.toNat_sub, BitVec.toNat_ofNat, h1]; omega
  rw [BitVec.toNat_and, h1, hsub]
  simp only [BitVec.toNat_ofNat]
  apply Nat.eq_of_testBit_eq
  intro i
  rw [Nat.testBit_and, Nat.testBit_two_pow, Nat.testBit_two_pow_sub_one]
  simp; omega

theorem bitVal_ne_zero (k : Nat) (hk : k < 32) : bitVal k ≠ 0#32 := by
  intro h
  have := bitVal_toNat k hk
  rw [h] at this
  have hpos : 0 < 2 ^ k := Nat.two_pow_pos k
  simp at this; omega

theorem bitVal_inj {j k : Nat} (hj : j < 32) (hk : k < 32) (h : bitVal j = bitVal k) : j = k := by
  have := congrArg BitVec.toNat h
  rw [bitVal_toNat j hj, bitVal_toNat k hk] at this
  exact (Nat.pow_right_inj (a := 2) (by omega)).mp this

theorem bitVal_31 : bitVal 31 = intMin := by decide

theorem bitVal_getLsbD (k i : Nat) : (bitVal k).getLsbD i = (decide (i < 32) && decide (i = k)) := by
  unfold bitVal
  rw [BitVec.getLsbD_shiftLeft, BitVec.getLsbD_one]
  by_cases h1 : i < 32 <;> by_cases h2 : i < k <;> by_cases h3 : i = k <;> simp_all <;> omega

namespace LitMap

theorem find_insert (m : LitMap) (lit lit' : Str) (v : BitVec 32) (h : m.find lit = none) :
    LitMap.find (LitMap.insert m lit v) lit' = if lit' = lit then some v else m.find lit' := by
  induction m with
  | nil => simp only [insert, find]; by_cases hl : lit = lit' <;> simp [hl, eq_comm]
  | cons p m ih =>
    obtain ⟨l, w⟩ := p
    simp only [find] at h
    split at h
    · exact absurd h (by simp)
    · rename_i hl
      simp only [insert]
      split
      · simp only [find]
        by_cases h1 : lit = lit'
        · simp [h1]
        · have h1' : ¬ lit' = lit := fun h => h1 h.symm
          simp [h1, h1']
      · simp only [find]
        rw [ih h]
        by_cases h1 : lit' = lit
        · subst h1; simp [hl]
        · simp [h1]

theorem mem_insert (m : LitMap) (lit : Str) (v : BitVec 32) (p : Str × BitVec 32) :
    p ∈ LitMap.insert m lit v ↔ p ∈ m ∨ p = (lit, v) := by
  induction m with
  | nil => simp [insert]
  | cons q m ih =>
    simp only [insert]
    split
    · simp only [List.mem_cons]; grind
    · simp only [List.mem_cons, ih]; grind

theorem find_none_iff (m : LitMap) (lit : Str) : m.find lit = none ↔ ∀ v, (lit, v) ∉ m := by
  induction m with
  | nil => simp [find]
  | cons q m ih =>
    obtain ⟨l, w⟩ := q
    simp only [find]
    split
    · rename_i h; subst h; simp only [reduceCtorEq, false_iff, Classical.not_forall]; exact ⟨w, by simp⟩
    · rename_i h
      have h' : ¬ lit = l := fun e => h e.symm
      simp [ih, h']

theorem mem_of_find {m : LitMap} {lit v} (h : m.find lit = some v) : (lit, v) ∈ m := by
  induction m with
  | nil => simp [find] at h
  | cons q m ih =>
    obtain ⟨l, w⟩ := q
    simp only [find] at h
    split at h
    · rename_i hl; subst hl; simp_all
    · simp [ih h]

end LitMap

/-- Table invariant kept by `addValuePair`. -/
structure CritType.Inv (t : CritType) : Prop where
  litUnique : ∀ l v v', (l, v) ∈ t.map → (l, v') ∈ t.map → v = v'
  numUnique : ∀ l l' v, (l, v) ∈ t.map → (l', v) ∈ t.map → l = l'
  oneBit : t.inclusive = true → ∀ l v, (l, v) ∈ t.map →
    (l = s "none" ∧ v = 0#32) ∨ (l ≠ s "none" ∧ ∃ k, k < 32 ∧ v = bitVal k)
  hasNone : t.inclusive = true → (s "none", 0#32) ∈ t.map

theorem CritType.Inv.new (incl : Bool) : (CritType.new incl).Inv := by
  cases incl <;> constructor <;> simp [CritType.new] <;> grind

theorem addValuePair_added {t t' : CritType} {v lit} (h : t.addValuePair v lit = .added t') :
    (t.inclusive = true → v ≠ 0#32 ∧ v ≠ intMin ∧ v &&& (v - 1#32) = 0#32) ∧
    t.map.find lit = none ∧ (∀ l, (l, v) ∉ t.map) ∧
    t' = { t with map := LitMap.insert t.map lit v } := by
  unfold CritType.addValuePair at h
  split at h; · simp at h
  split at h; · simp at h
  split at h; · simp at h
  split at h; · simp at h
  split at h; · simp at h
  rename_i h1 h2 h3 h4 h5
  simp only [AddRes.added.injEq] at h
  refine ⟨?_, ?_, ?_, h.symm⟩
  · intro hi; simp_all
  · simpa using h4
  · intro l hl; apply h5; simp only [List.any_eq_true]; exact ⟨_, hl, by simp⟩

theorem CritType.Inv.add {t t' : CritType} (hi : t.Inv) {v lit}
    (h : t.addValuePair v lit = .added t') : t'.Inv := by
  obtain ⟨h1, h2, h3, rfl⟩ := addValuePair_added h
  rw [LitMap.find_none_iff] at h2
  constructor
  · intro l w w' hw hw'
    simp only [LitMap.mem_insert] at hw hw'
    rcases hw with hw | hw <;> rcases hw' with hw' | hw'
    · exact hi.litUnique _ _ _ hw hw'
    · obtain ⟨rfl, rfl⟩ := Prod.mk.inj hw'; exact absurd hw (h2 _)
    · obtain ⟨rfl, rfl⟩ := Prod.mk.inj hw; exact absurd hw' (h2 _)
    · obtain ⟨rfl, rfl⟩ := Prod.mk.inj hw; exact (Prod.mk.inj hw').2.symm
  · intro l l' w hw hw'
    simp only [LitMap.mem_insert] at hw hw'
    rcases hw with hw | hw <;> rcases hw' with hw' | hw'
    · exact hi.numUnique _ _ _ hw hw'
    · obtain ⟨rfl, rfl⟩ := Prod.mk.inj hw'; exact absurd hw (h3 _)
    · obtain ⟨rfl, rfl⟩ := Prod.mk.inj hw; exact absurd hw' (h3 _)
    · obtain ⟨rfl, rfl⟩ := Prod.mk.inj hw; exact (Prod.mk.inj hw').1.symm
  · intro hincl l w hw
    simp only [LitMap.mem_insert] at hw
    rcases hw with hw | hw
    · exact hi.oneBit hincl _ _ hw
    · obtain ⟨rfl, rfl⟩ := Prod.mk.inj hw
      right
      refine ⟨fun hn => ?_, ?_⟩
      · subst hn; exact h2 _ (hi.hasNone hincl)
      · obtain ⟨a, _, b⟩ := h1 hincl; exact single_bit _ a b
  · intro hincl; simp only [LitMap.mem_insert]; exact .inl (hi.hasNone hincl)

theorem CritType.Inv.find_iff {t : CritType} (hi : t.Inv) (l : Str) (v : BitVec 32) :
    t.map.find l = some v ↔ (l, v) ∈ t.map := by
  constructor
  · exact LitMap.mem_of_find
  · intro h
    cases hf : t.map.find l with
    | none => exact absurd h ((LitMap.find_none_iff _ _).mp hf _)
    | some w => rw [hi.litUnique _ _ _ (LitMap.mem_of_find hf) h]

theorem literal_mem {t : CritType} {l v} (h : t.literal v = some l) : (l, v) ∈ t.map := by
  unfold CritType.literal at h
  simp only [Option.map_eq_some_iff] at h
  obtain ⟨⟨a, b⟩, h1, h2⟩ := h
  have hm := List.mem_of_find?_eq_some h1
  have hp := List.find?_some h1
  simp at hp h2; subst hp h2; exact hm

theorem CritType.Inv.literal_iff {t : CritType} (hi : t.Inv) (l : Str) (v : BitVec 32) :
    t.literal v = some l ↔ (l, v) ∈ t.map := by
  refine ⟨literal_mem, fun h => ?_⟩
  cases hf : t.literal v with
  | none =>
    simp only [CritType.literal, Option.map_eq_none_iff, List.find?_eq_none] at hf
    simpa using hf _ h
  | some l' => rw [hi.numUnique _ _ _ (literal_mem hf) h]

end PF
