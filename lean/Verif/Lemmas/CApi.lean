import Verif.Spec.CApi
import Verif.Lemmas.Criterion

/-! # Lemmas for the C API: the creation of the criteria -/

namespace PF
open Spec

theorem intMax_shift (i : Nat) : (intMax >>> i == 0#32) = decide (31 ≤ i) := by
  rw [Bool.eq_iff_iff, beq_iff_eq, decide_eq_true_eq, ← BitVec.toNat_inj]
  have h0 : intMax.toNat = 2 ^ 31 - 1 := by decide
  rw [BitVec.toNat_ushiftRight, Nat.shiftRight_eq_div_pow, h0, BitVec.toNat_ofNat, Nat.zero_mod,
    Nat.div_eq_zero_iff]
  constructor
  · rintro (h | h)
    · exact absurd h (by have := Nat.two_pow_pos i; omega)
    · apply Classical.byContradiction
      intro hi
      have : 2 ^ i ≤ 2 ^ 30 := Nat.pow_le_pow_right (by omega) (by omega)
      omega
  · intro h
    right
    have : 2 ^ 31 ≤ 2 ^ i := Nat.pow_le_pow_right (by omega) h
    omega

theorem bitVal_eq_numberAt {i : Nat} (h : i < 32) : bitVal i = numberAt true i := by
  apply BitVec.eq_of_toNat_eq
  rw [bitVal_toNat i h, numberAt, if_pos rfl, BitVec.toNat_ofNat,
    Nat.mod_eq_of_lt (Nat.pow_lt_pow_right (by omega) h)]

theorem valueNumber_eq (incl : Bool) (i : Nat) :
    valueNumber incl i = if incl = true ∧ 31 ≤ i then none else some (numberAt incl i) := by
  unfold valueNumber
  cases incl with
  | false => simp [numberAt]
  | true =>
    simp only [if_true, intMax_shift, decide_eq_true_eq, true_and]
    by_cases h : 31 ≤ i
    · simp [h]
    · rw [if_neg h, if_neg h, ← bitVal_eq_numberAt (by omega)]; rfl

theorem numberAt_inj {incl : Bool} {i j : Nat} (hi : if incl then i < 32 else i < 2 ^ 32)
    (hj : if incl then j < 32 else j < 2 ^ 32) (h : numberAt incl i = numberAt incl j) : i = j := by
  cases incl with
  | true =>
    simp only [if_true] at hi hj
    rw [← bitVal_eq_numberAt hi, ← bitVal_eq_numberAt hj] at h
    exact bitVal_inj hi hj h
  | false =>
    simp only [Bool.false_eq_true, if_false] at hi hj
    have := congrArg BitVec.toNat h
    simp only [numberAt, Bool.false_eq_true, if_false, BitVec.toNat_ofNat] at this
    rwa [Nat.mod_eq_of_lt hi, Nat.mod_eq_of_lt hj] at this

theorem goodValues_prefix {incl : Bool} {a b : List Str} (h : GoodValues incl (a ++ b)) : GoodValues incl a := by
  obtain ⟨h1, h2⟩ := h
  refine ⟨(List.nodup_append.1 h1).1, ?_⟩
  cases incl with
  | true =>
    simp only [if_true, List.length_append, List.mem_append, not_or] at h2 ⊢
    exact ⟨by omega, h2.2.1⟩
  | false =>
    simp only [Bool.false_eq_true, if_false, List.length_append] at h2 ⊢
    omega

/-- One value. -/
theorem addValue_step {t : CritType} {pre : List Str} (hg : GoodValues t.inclusive pre) (hv : HasValues t pre) (w : Str) :
    (GoodValues t.inclusive (pre ++ [w]) → ∃ v t', valueNumber t.inclusive pre.length = some v ∧
      t.addValuePair v w = .added t' ∧ t'.inclusive = t.inclusive ∧ HasValues t' (pre ++ [w])) ∧
    (¬ GoodValues t.inclusive (pre ++ [w]) → valueNumber t.inclusive pre.length = none ∨
      ∃ v, valueNumber t.inclusive pre.length = some v ∧ t.addValuePair v w = .rejected) := by
  have hfind : ∀ {w}, (t.map.find w).isSome = true ↔ w ∈ pre ∨ t.inclusive = true ∧ w = s "none" := by
    intro w
    constructor
    · intro h
      obtain ⟨v, h⟩ := Option.isSome_iff_exists.1 h
      rcases (hv w v).1 (LitMap.mem_of_find h) with ⟨i, h, _⟩ | ⟨h1, h2, _⟩
      · exact .inl (List.mem_of_getElem? h)
      · exact .inr ⟨h1, h2⟩
    · intro h
      rw [← Option.ne_none_iff_isSome, Ne, LitMap.find_none_iff]
      intro hn
      rcases h with h | ⟨h1, h2⟩
      · obtain ⟨i, hi⟩ := List.mem_iff_getElem?.1 h
        exact hn _ ((hv w _).2 (.inl ⟨i, hi, rfl⟩))
      · exact hn _ ((hv w _).2 (.inr ⟨h1, h2, rfl⟩))
  -- the part of the conditions that `addValuePair` checks on numbers
  have hnum : ¬ (t.inclusive = true ∧ 31 ≤ pre.length) →
      (t.inclusive && numberAt t.inclusive pre.length == 0#32) = false ∧
      (t.inclusive && numberAt t.inclusive pre.length == intMin) = false ∧
      (t.inclusive && (numberAt t.inclusive pre.length &&& (numberAt t.inclusive pre.length - 1#32)) != 0#32) = false := by
    intro h
    cases hi : t.inclusive with
    | false => simp
    | true =>
      have hl : pre.length < 31 := by
        apply Classical.byContradiction; intro hl; exact h ⟨hi, by omega⟩
      rw [← bitVal_eq_numberAt (by omega : pre.length < 32)]
      refine ⟨by simpa using bitVal_ne_zero _ (by omega), ?_, by simpa using bitVal_and_pred _ (by omega)⟩
      rw [← bitVal_31]
      simp only [Bool.true_and, beq_eq_false_iff_ne, ne_eq]
      intro hb
      have := bitVal_inj (by omega) (by omega) hb
      omega
  constructor
  · intro hg'
    have hl : ¬ (t.inclusive = true ∧ 31 ≤ pre.length) := by
      rintro ⟨h1, h2⟩
      have := hg'.2
      rw [h1] at this
      simp only [if_true, List.length_append, List.length_singleton] at this
      omega
    refine ⟨numberAt t.inclusive pre.length, ⟨t.inclusive, LitMap.insert t.map w (numberAt t.inclusive pre.length)⟩, ?_, ?_, rfl, ?_⟩
    · rw [valueNumber_eq, if_neg hl]
    · obtain ⟨a1, a2, a3⟩ := hnum hl
      unfold CritType.addValuePair
      rw [a1, a2, a3]
      simp only [Bool.false_eq_true, if_false]
      have hnf : (t.map.find w).isSome = false := by
        rw [Bool.eq_false_iff, Ne, hfind]
        rintro (h | ⟨h1, rfl⟩)
        · have := (List.nodup_append.1 hg'.1).2.2 w h w (by simp)
          exact this rfl
        · have := hg'.2
          rw [h1] at this
          simp at this
      have hnn : (t.map.any fun p => p.2 == numberAt t.inclusive pre.length) = false := by
        rw [Bool.eq_false_iff, Ne, List.any_eq_true]
        rintro ⟨⟨w', v'⟩, hm, hv'⟩
        simp only [beq_iff_eq] at hv'
        subst hv'
        rcases (hv w' _).1 hm with ⟨i, h1, h2⟩ | ⟨h1, _, h3⟩
        · have hi : i < pre.length := (List.getElem?_eq_some_iff.1 h1).1
          have hk : if t.inclusive = true then pre.length < 32 else pre.length < 2 ^ 32 := by
            have := hg'.2
            split <;> rename_i hc
            · rw [if_pos hc] at this; simp at this; omega
            · rw [if_neg hc] at this; simp at this; omega
          have := numberAt_inj hk (by split at hk <;> simp_all <;> omega) h2
          omega
        · have hlt : pre.length < 31 := by
            apply Classical.byContradiction; intro hlt; exact hl ⟨h1, by omega⟩
          rw [h1, ← bitVal_eq_numberAt (by omega)] at h3
          exact bitVal_ne_zero _ (by omega) h3
      simp only [hnf, hnn, Bool.false_eq_true, if_false]
    · intro w' v'
      simp only [LitMap.mem_insert, hv w' v', Prod.mk.injEq]
      constructor
      · rintro ((⟨i, h1, h2⟩ | h) | ⟨rfl, rfl⟩)
        · exact .inl ⟨i, by rw [List.getElem?_append_left (List.getElem?_eq_some_iff.1 h1).1]; exact h1, h2⟩
        · exact .inr h
        · exact .inl ⟨pre.length, by simp, rfl⟩
      · rintro (⟨i, h1, h2⟩ | h)
        · rcases Nat.lt_or_ge i pre.length with hi | hi
          · rw [List.getElem?_append_left hi] at h1
            exact .inl (.inl ⟨i, h1, h2⟩)
          · have hi' := (List.getElem?_eq_some_iff.1 h1).1
            simp at hi'
            have : i = pre.length := by omega
            subst this
            simp at h1
            exact .inr ⟨h1.symm, h2⟩
        · exact .inl (.inr h)
  · intro hg'
    by_cases hl : t.inclusive = true ∧ 31 ≤ pre.length
    · left; rw [valueNumber_eq, if_pos hl]
    right
    refine ⟨numberAt t.inclusive pre.length, by rw [valueNumber_eq, if_neg hl], ?_⟩
    obtain ⟨a1, a2, a3⟩ := hnum hl
    unfold CritType.addValuePair
    rw [a1, a2, a3]
    simp only [Bool.false_eq_true, if_false]
    by_cases hf : (t.map.find w).isSome = true
    · simp [hf]
    · have hw : ¬ (w ∈ pre ∨ t.inclusive = true ∧ w = s "none") := fun h => hf (hfind.2 h)
      simp only [not_or, not_and] at hw
      have hsz : t.inclusive = false ∧ pre.length = 2 ^ 32 := by
        apply Classical.byContradiction
        intro hc
        apply hg'
        refine ⟨List.nodup_append.2 ⟨hg.1, by simp, ?_⟩, ?_⟩
        · intro a ha b hb
          simp only [List.mem_singleton] at hb
          subst hb
          exact fun h => hw.1 (h ▸ ha)
        · have := hg.2
          split <;> rename_i hi
          · rw [if_pos hi] at this
            simp only [List.length_append, List.length_singleton, List.mem_append, List.mem_singleton, not_or]
            refine ⟨?_, this.2, fun h => hw.2 hi h.symm⟩
            apply Classical.byContradiction; intro hl'; exact hl ⟨hi, by omega⟩
          · rw [if_neg hi] at this
            simp only [List.length_append, List.length_singleton]
            apply Classical.byContradiction
            intro hl'
            exact hc ⟨by simpa using hi, by omega⟩
      have hany : (t.map.any fun p => p.2 == numberAt t.inclusive pre.length) = true := by
        rw [List.any_eq_true]
        have h0 : 0 < pre.length := by omega
        refine ⟨(pre[0], numberAt t.inclusive 0), (hv _ _).2 (.inl ⟨0, by simp [h0], rfl⟩), ?_⟩
        simp [numberAt, hsz.1, hsz.2]
      simp [hf, hany]

/-- All the values. -/
theorem addValues_spec (t : CritType) (pre ws : List Str) (hg : GoodValues t.inclusive pre) (hv : HasValues t pre) :
    (GoodValues t.inclusive (pre ++ ws) →
      ∃ t', t.addValues pre.length ws = .ok t' ∧ t'.inclusive = t.inclusive ∧ HasValues t' (pre ++ ws)) ∧
    (¬ GoodValues t.inclusive (pre ++ ws) → t.addValues pre.length ws = .err) := by
  induction ws generalizing t pre with
  | nil =>
    simp only [List.append_nil]
    exact ⟨fun _ => ⟨t, rfl, rfl, hv⟩, fun h => absurd hg h⟩
  | cons w ws ih =>
    have happ : pre ++ w :: ws = (pre ++ [w]) ++ ws := by simp
    rw [happ]
    obtain ⟨s1, s2⟩ := addValue_step hg hv w
    by_cases hw : GoodValues t.inclusive (pre ++ [w])
    · obtain ⟨v, t1, h1, h2, h3, h4⟩ := s1 hw
      have := ih t1 (pre ++ [w]) (by rw [h3]; exact hw) h4
      simp only [CritType.addValues, h1, h2]
      rw [h3] at this
      simpa using this
    · refine ⟨fun h => absurd (goodValues_prefix h) hw, fun _ => ?_⟩
      rcases s2 hw with h | ⟨v, h1, h2⟩
      · simp only [CritType.addValues, h]
      · simp only [CritType.addValues, h1, h2]

theorem hasValues_new (incl : Bool) : HasValues (CritType.new incl) [] := by
  intro w v
  cases incl <;> simp [CritType.new]

theorem new_addValues (incl : Bool) (ws : List Str) :
    (GoodValues incl ws → ∃ t, (CritType.new incl).addValues 0 ws = .ok t ∧ t.inclusive = incl ∧ HasValues t ws) ∧
    (¬ GoodValues incl ws → (CritType.new incl).addValues 0 ws = .err) := by
  have h0 : GoodValues incl [] := by
    refine ⟨List.nodup_nil, ?_⟩
    cases incl <;> simp
  exact addValues_spec (CritType.new incl) [] ws h0 (hasValues_new incl)

/-- All the criteria. -/
theorem createCriteria_spec (done ds : List PfwCriterion) (cs : List Criterion) (hd : WellDeclared done)
    (hc : DeclaresAll done cs) :
    (WellDeclared (done ++ ds) → ∃ cs', createCriteria cs ds = (.ok (), cs') ∧ DeclaresAll (done ++ ds) cs') ∧
    (¬ WellDeclared (done ++ ds) → (createCriteria cs ds).1 = .err) := by
  induction ds generalizing done cs with
  | nil =>
    simp only [List.append_nil]
    exact ⟨fun _ => ⟨cs, rfl, hc⟩, fun h => absurd hd h⟩
  | cons d ds ih =>
    have happ : done ++ d :: ds = (done ++ [d]) ++ ds := by simp
    have hany : ∀ n, (cs.any fun c => c.name == n) = true ↔ some n ∈ done.map (·.name) := by
      intro n
      simp only [List.any_eq_true, List.mem_map, beq_iff_eq]
      constructor
      · rintro ⟨c, hm, rfl⟩
        obtain ⟨i, hi⟩ := List.mem_iff_getElem?.1 hm
        have hl := (List.getElem?_eq_some_iff.1 hi).1
        obtain ⟨d', hd'⟩ : ∃ d', done[i]? = some d' := ⟨_, List.getElem?_eq_getElem (by rw [← hc.1]; exact hl)⟩
        exact ⟨d', List.mem_of_getElem? hd', (hc.2 i d' c hd' hi).name⟩
      · rintro ⟨d', hm, hn⟩
        obtain ⟨i, hi⟩ := List.mem_iff_getElem?.1 hm
        have hl := (List.getElem?_eq_some_iff.1 hi).1
        obtain ⟨c, hc'⟩ : ∃ c, cs[i]? = some c := ⟨_, List.getElem?_eq_getElem (by rw [hc.1]; exact hl)⟩
        refine ⟨c, List.mem_of_getElem? hc', ?_⟩
        have := (hc.2 i d' c hi hc').name
        rw [hn] at this
        simpa using this.symm
    have bad : ¬ WellDeclared (done ++ [d]) → ¬ WellDeclared (done ++ d :: ds) := by
      intro h hw
      apply h
      rw [happ] at hw
      refine ⟨fun x hx => hw.names x (List.mem_append.2 (.inl hx)), ?_, fun x hx => hw.values x (List.mem_append.2 (.inl hx))⟩
      have := hw.distinct
      rw [List.map_append] at this
      exact (List.nodup_append.1 this).1
    by_cases hw : WellDeclared (done ++ [d])
    · have hn := hw.names d (by simp)
      obtain ⟨n, hn⟩ := Option.ne_none_iff_exists'.1 hn
      obtain ⟨ws, hv, hgv⟩ := hw.values d (by simp)
      obtain ⟨t, h1, h2, h3⟩ := (new_addValues d.inclusive ws).1 hgv
      have hno : (cs.any fun c => c.name == n) = false := by
        rw [Bool.eq_false_iff, Ne, hany]
        intro hm
        have := hw.distinct
        rw [List.map_append, List.nodup_append] at this
        exact this.2.2 _ hm (some n) (by simp [hn]) rfl
      have hda : DeclaresAll (done ++ [d]) (cs ++ [⟨n, t, 0#32, 0#32⟩]) := by
        refine ⟨by simp [hc.1], ?_⟩
        intro i d' c hi hi'
        rcases Nat.lt_or_ge i done.length with hl | hl
        · rw [List.getElem?_append_left hl] at hi
          rw [List.getElem?_append_left (by rw [hc.1]; exact hl)] at hi'
          exact hc.2 i d' c hi hi'
        · have hi2 := (List.getElem?_eq_some_iff.1 hi).1
          simp at hi2
          have : i = done.length := by omega
          subst this
          simp at hi
          rw [← hc.1] at hi'
          simp at hi'
          subst hi hi'
          exact ⟨hn, h2, ⟨ws, hv, h3⟩, rfl⟩
      have := ih (done ++ [d]) (cs ++ [⟨n, t, 0#32, 0#32⟩]) hw hda
      rw [← happ] at this
      simp only [createCriteria, hn, hv, hno, Bool.false_eq_true, if_false, h1]
      exact this
    · refine ⟨fun h => absurd h (bad hw), fun _ => ?_⟩
      unfold createCriteria
      split
      · rfl
      · rfl
      · rename_i n ws hn hv
        split
        · rfl
        · rename_i hno
          rw [hany] at hno
          have : ¬ GoodValues d.inclusive ws := by
            intro hgv
            apply hw
            refine ⟨?_, ?_, ?_⟩
            · intro x hx
              rcases List.mem_append.1 hx with hx | hx
              · exact hd.names x hx
              · simp only [List.mem_singleton] at hx; subst hx; simp [hn]
            · rw [List.map_append, List.nodup_append]
              refine ⟨hd.distinct, by simp, ?_⟩
              intro a ha b hb
              simp only [List.map_cons, List.map_nil, List.mem_singleton] at hb
              subst hb
              rintro rfl
              rw [hn] at ha
              exact hno ha
            · intro x hx
              rcases List.mem_append.1 hx with hx | hx
              · exact hd.values x hx
              · simp only [List.mem_singleton] at hx; subst hx; exact ⟨ws, hv, hgv⟩
          rw [(new_addValues d.inclusive ws).2 this]

theorem createCriteria_new (ds : List PfwCriterion) :
    (WellDeclared ds → ∃ cs, createCriteria [] ds = (.ok (), cs) ∧ DeclaresAll ds cs) ∧
    (¬ WellDeclared ds → (createCriteria [] ds).1 = .err) := by
  have := createCriteria_spec [] ds [] ⟨by simp, by simp, by simp⟩ ⟨rfl, by simp⟩
  simpa using this

end PF
