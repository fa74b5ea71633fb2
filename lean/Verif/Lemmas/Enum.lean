import Verif.Lemmas.Integer

/-! Helper lemmas about enum parameters. -/

namespace PF

/-- Wrapping of a number to the signed range of `size` bytes. -/
theorem signExtend_ofInt {size : Nat} (h : size = 1 ∨ size = 2 ∨ size = 4) (n : Int) :
    (signExtend size (BitVec.ofInt 32 n)).toInt = Int.bmod n (2 ^ (8 * size)) := by
  rw [signExtend_toInt h, BitVec.toNat_ofInt]
  rcases h with rfl | rfl | rfl <;> simp [Int.bmod_def] <;> omega

theorem signExtend_toInt' {size : Nat} (h : size = 1 ∨ size = 2 ∨ size = 4) (v : BitVec 32) :
    (signExtend size v).toInt = Int.bmod v.toInt (2 ^ (8 * size)) := by
  rw [← signExtend_ofInt h, BitVec.ofInt_toInt]

theorem bmod_of_fits {size : Nat} (h : size = 1 ∨ size = 2 ∨ size = 4) {n : Int}
    (hf : FitsSigned size n) : Int.bmod n (2 ^ (8 * size)) = n := by
  unfold FitsSigned at hf
  rcases h with rfl | rfl | rfl <;> simp [Int.bmod_def] at hf ⊢ <;> omega

theorem signExtend_of_fits {size : Nat} (h : size = 1 ∨ size = 2 ∨ size = 4) {v : BitVec 32}
    (hf : FitsSigned size v.toInt) : signExtend size v = v := by
  apply BitVec.eq_of_toInt_eq
  rw [signExtend_toInt' h, bmod_of_fits h hf]

/-- Sign extension only looks at the low bytes. -/
theorem signExtend_low {size : Nat} (h : size = 1 ∨ size = 2 ∨ size = 4) (v : BitVec 32) :
    signExtend size (BitVec.ofNat 32 (v.toNat % 2 ^ (8 * size))) = signExtend size v := by
  apply BitVec.eq_of_toInt_eq
  rw [signExtend_toInt h, signExtend_toInt h, BitVec.toNat_ofNat]
  have := v.isLt
  rcases h with rfl | rfl | rfl <;> simp [Int.bmod_def] <;> omega

theorem EnumType.range_iff {t : EnumType} (h : t.size = 1 ∨ t.size = 2 ∨ t.size = 4) (v : BitVec 32) :
    (v.toInt < t.minVal || v.toInt > t.maxVal) = false ↔ FitsSigned t.size v.toInt := by
  unfold EnumType.minVal EnumType.maxVal FitsSigned
  rcases h with h | h | h <;> rw [h] <;> simp <;> omega

theorem EnumType.fromInt_iff (t : EnumType) (h : t.size = 1 ∨ t.size = 2 ∨ t.size = 4) (ctx : Ctx)
    (i v : BitVec 32) :
    t.fromInt ctx i = some v ↔
      v = (if ctx.raw then signExtend t.size i else i) ∧ (∃ p ∈ t.pairs, p.2 = v) ∧
        FitsSigned t.size v.toInt := by
  unfold EnumType.fromInt
  dsimp only
  generalize (if ctx.raw = true then signExtend t.size i else i) = w
  constructor
  · intro hh
    split at hh
    · simp at hh
    · rename_i hany
      split at hh
      · simp at hh
      · rename_i hr
        simp only [Option.some.injEq] at hh
        subst hh
        refine ⟨rfl, ?_, (t.range_iff h w).1 (by simpa using hr)⟩
        simp only [Bool.not_eq_true', Bool.not_eq_false, List.any_eq_true, beq_iff_eq] at hany
        exact hany
  · rintro ⟨rfl, ⟨p, hp, hpv⟩, hf⟩
    rw [if_neg, if_neg]
    · simpa using (t.range_iff h v).2 hf
    · simp only [Bool.not_eq_true', Bool.not_eq_false, List.any_eq_true, beq_iff_eq]
      exact ⟨p, hp, hpv⟩

theorem find_first {α : Type} (l : List α) (p : α → Bool) (a : α) :
    l.find? p = some a ↔ p a = true ∧ ∃ x y, l = x ++ a :: y ∧ ∀ z ∈ x, p z = false := by
  rw [List.find?_eq_some_iff_append]
  simp

theorem EnumType.numerical_iff (t : EnumType) (l : Str) (v : BitVec 32) :
    t.numerical l = some v ↔
      ∃ before after, t.pairs = before ++ (l, v) :: after ∧ ∀ p ∈ before, p.1 ≠ l := by
  unfold EnumType.numerical
  rw [Option.map_eq_some_iff]
  constructor
  · rintro ⟨⟨l', v'⟩, hf, rfl⟩
    rw [find_first] at hf
    obtain ⟨he, x, y, hxy, hz⟩ := hf
    simp only [beq_iff_eq] at he
    subst he
    exact ⟨x, y, hxy, by simpa using hz⟩
  · rintro ⟨x, y, hxy, hz⟩
    refine ⟨(l, v), ?_, rfl⟩
    rw [find_first]
    exact ⟨by simp, x, y, hxy, by simpa using hz⟩

theorem EnumType.fromText_iff (t : EnumType) (h : t.size = 1 ∨ t.size = 2 ∨ t.size = 4) (ctx : Ctx)
    (text : Str) (v : BitVec 32) :
    t.fromText ctx text = some v ↔
      ∃ n, t.Selects text n ∧ v.toInt = (if ctx.raw then Int.bmod n (2 ^ (8 * t.size)) else n) ∧
        t.Declared v.toInt ∧ FitsSigned t.size v.toInt := by
  have hdecl : (∃ p ∈ t.pairs, p.2 = v) ↔ t.Declared v.toInt := by
    unfold EnumType.Declared
    constructor
    · rintro ⟨p, hp, rfl⟩; exact ⟨p, hp, rfl⟩
    · rintro ⟨p, hp, e⟩; exact ⟨p, hp, BitVec.eq_of_toInt_eq e⟩
  have hval : ∀ i : BitVec 32, v = (if ctx.raw then signExtend t.size i else i) ↔
      v.toInt = (if ctx.raw then Int.bmod i.toInt (2 ^ (8 * t.size)) else i.toInt) := by
    intro i
    constructor
    · intro e; rw [e]; split
      · exact signExtend_toInt' h i
      · rfl
    · intro e
      apply BitVec.eq_of_toInt_eq
      rw [e]; split
      · exact (signExtend_toInt' h i).symm
      · rfl
  unfold EnumType.fromText
  cases hc : convertTo true 32 text with
  | some n =>
    rw [convertTo_signed_iff] at hc
    have hfit : FitsSigned 4 n := hc.2
    have hoi : (BitVec.ofInt 32 n).toInt = n := by
      unfold FitsSigned at hfit
      rw [BitVec.toInt_ofInt, Int.bmod_def]
      simp at hfit ⊢; omega
    simp only
    rw [t.fromInt_iff h, hval, hdecl, hoi]
    constructor
    · rintro ⟨h1, h2, h3⟩
      exact ⟨n, .inl ⟨hc.1, hfit⟩, h1, h2, h3⟩
    · rintro ⟨m, hs, h1, h2, h3⟩
      have hm : m = n := by
        rcases hs with ⟨hp, hf⟩ | ⟨hno, _⟩
        · have a := (convertTo_signed_iff 32 text m).2 ⟨hp, hf⟩
          have b := (convertTo_signed_iff 32 text n).2 hc
          rw [a] at b; exact Option.some.inj b
        · exact absurd ⟨n, hc.1, hfit⟩ hno
      subst hm
      exact ⟨h1, h2, h3⟩
  | none =>
    have hno : ¬ ∃ m, PlainInt text m ∧ FitsSigned 4 m := by
      rintro ⟨m, hp, hf⟩
      have a := (convertTo_signed_iff 32 text m).2 ⟨hp, hf⟩
      rw [hc] at a; simp at a
    simp only
    cases hn : t.numerical text with
    | none =>
      simp only
      constructor
      · intro h; simp at h
      · rintro ⟨n, hs, _⟩
        rcases hs with ⟨hp, hf⟩ | ⟨_, x, w, y, e, hx, _⟩
        · exact absurd ⟨n, hp, hf⟩ hno
        · have := (t.numerical_iff text w).2 ⟨x, y, e, hx⟩
          rw [hn] at this; simp at this
    | some w =>
      simp only
      rw [t.fromInt_iff h, hval, hdecl]
      constructor
      · rintro ⟨h1, h2, h3⟩
        obtain ⟨x, y, e, hx⟩ := (t.numerical_iff text w).1 hn
        exact ⟨w.toInt, .inr ⟨hno, x, w, y, e, hx, rfl⟩, h1, h2, h3⟩
      · rintro ⟨n, hs, h1, h2, h3⟩
        rcases hs with ⟨hp, hf⟩ | ⟨_, x, w', y, e, hx, rfl⟩
        · exact absurd ⟨n, hp, hf⟩ hno
        · have := (t.numerical_iff text w').2 ⟨x, y, e, hx⟩
          rw [hn] at this
          simp only [Option.some.injEq] at this
          subst this
          exact ⟨h1, h2, h3⟩

theorem mod_of_bmod_eq {size : Nat} (hsz : size = 1 ∨ size = 2 ∨ size = 4) (x y : Nat)
    (h : Int.bmod x (2 ^ 32) = Int.bmod y (2 ^ (8 * size))) (hx : x < 4294967296)
    (hy : y < 2 ^ (8 * size)) : x % 2 ^ (8 * size) = y := by
  rcases hsz with rfl | rfl | rfl
  · simp [Int.bmod_def] at h hy ⊢; omega
  · simp [Int.bmod_def] at h hy ⊢; omega
  · simp [Int.bmod_def] at h hy ⊢; omega

theorem encLE_of_toInt {size : Nat} (hsz : size = 1 ∨ size = 2 ∨ size = 4) {bs : List Byte}
    (hl : bs.length = size) {w : BitVec 32} (h : w.toInt = Int.bmod (decLE bs) (2 ^ (8 * size))) :
    encLE size w.toNat = bs := by
  have e := encLE_decLE bs
  have hlt := decLE_lt bs
  rw [hl] at e hlt
  rw [pow256] at hlt
  refine Eq.trans ?_ e
  rw [← encLE_mod, pow256]
  congr 1
  rw [BitVec.toInt_eq_toNat_bmod] at h
  exact mod_of_bmod_eq hsz _ _ h w.isLt hlt

end PF
