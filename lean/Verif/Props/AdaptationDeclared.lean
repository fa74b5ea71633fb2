import Verif.Spec.AdaptationShown
import Verif.Props.AdaptationShown

/-!
# The adaptation shown is the one declared (C100)
-/

namespace PF
open Spec

theorem dbl_declared {rd : Reader} {x : SXml} {name : Str} {q : Rat} {v : F64} (h : x.dbl rd name (.fin q) = .ok v) :
    DeclaredReal rd x name q v.val ∧ v = .fin v.val := by
  unfold SXml.dbl at h
  cases ha : x.attr name with
  | none =>
    simp only [ha, Out.ok.injEq] at h
    subst h
    exact ⟨.inl ⟨ha, rfl⟩, rfl⟩
  | some t =>
    simp only [ha] at h
    cases hd : rd.dbl t with
    | none => simp [hd] at h
    | some d =>
      simp only [hd, Out.ok.injEq] at h
      subst h
      exact ⟨.inr ⟨t, d, ha, hd, by simp [F64.val, Dbl.val]⟩, rfl⟩

theorem num_declared {x : SXml} {name : Str} {n : Int} (h : x.num name true 32 0 = .ok n) : DeclaredInt x name n := by
  unfold SXml.num at h
  cases ha : x.attr name with
  | none =>
    simp only [ha, Out.ok.injEq] at h
    exact .inl ⟨ha, h.symm⟩
  | some t =>
    simp only [ha] at h
    cases hc : convertTo true 32 t with
    | none => simp [hc] at h
    | some m =>
      simp only [hc, Out.ok.injEq] at h
      subst h
      obtain ⟨h1, h2⟩ := (convertTo_iff _ _ _ _).1 hc
      refine .inr ⟨t, ha, ?_, by simpa using h2⟩
      rcases h1 with ⟨k, h1, rfl⟩ | ⟨u, k, rfl, h1, rfl⟩ | ⟨u, k, -, rfl, h1, rfl⟩ | ⟨u, k, rfl, h1, rfl⟩
      · exact .dec h1
      · exact .plus h1
      · exact .minus h1
      · exact .hex h1

theorem loadLinear_declared {rd : Reader} {x : SXml} {log : Option (F64 × F64)} {a : Adaptation} (h : loadLinear rd x log = .ok a) :
    DeclaredReal rd x (s "SlopeNumerator") 1 a.num ∧ DeclaredReal rd x (s "SlopeDenominator") 1 a.den ∧ a.den ≠ 0 ∧
      DeclaredInt x (s "Offset") a.off ∧ a.log = log := by
  unfold loadLinear at h
  obtain ⟨num, h1, h⟩ := Out.bind_ok.1 h
  obtain ⟨den, h2, h⟩ := Out.bind_ok.1 h
  split at h
  · cases h
  rename_i hne
  obtain ⟨off, h3, h⟩ := Out.bind_ok.1 h
  obtain ⟨-, -, h⟩ := Out.bind_ok.1 h
  simp only [Out.ok.injEq] at h
  subst h
  exact ⟨(dbl_declared h1).1, (dbl_declared h2).1, hne, num_declared h3, rfl⟩

theorem dbl_of_declared {rd : Reader} {x : SXml} {name : Str} {q r : Rat} (h : DeclaredReal rd x name q r) :
    x.dbl rd name (.fin q) = .ok (.fin r) := by
  unfold SXml.dbl
  rcases h with ⟨h, rfl⟩ | ⟨t, d, h, hd, rfl⟩
  · rw [h]
  · simp [h, hd, Dbl.val]

theorem num_of_declared {x : SXml} {name : Str} {n : Int} (h : DeclaredInt x name n) : x.num name true 32 0 = .ok n := by
  unfold SXml.num
  rcases h with ⟨h, rfl⟩ | ⟨t, h, hp, h1, h2⟩
  · rw [h]
  · have : convertTo true 32 t = some n := hp.convertTo (by simpa using ⟨h1, h2⟩)
    simp [h, this]

/-- What every adaptation must declare to be loaded. -/
theorem loadLinear_iff {rd : Reader} {x : SXml} {log : Option (F64 × F64)} : (∃ a, loadLinear rd x log = .ok a) ↔
    SlopeAndOffset rd x := by
  constructor
  · rintro ⟨a, h⟩
    obtain ⟨h1, h2, h3, h4, -⟩ := loadLinear_declared h
    refine ⟨?_, ⟨_, h1⟩, ⟨_, h2, h3⟩, _, h4⟩
    unfold loadLinear at h
    obtain ⟨num, -, h⟩ := Out.bind_ok.1 h
    obtain ⟨den, -, h⟩ := Out.bind_ok.1 h
    split at h
    · cases h
    obtain ⟨off, -, h⟩ := Out.bind_ok.1 h
    obtain ⟨-, h, -⟩ := Out.bind_ok.1 h
    cases hc : x.children with
    | nil => rfl
    | cons y ys => rw [hc] at h; cases h
  · rintro ⟨h0, ⟨n, h1⟩, ⟨d, h2, h3⟩, o, h4⟩
    refine ⟨⟨n, d, o, log⟩, ?_⟩
    unfold loadLinear
    simp [dbl_of_declared h1, dbl_of_declared h2, num_of_declared h4, Out.bind, F64.val, h3, h0, noChildren]

/-- C79: the structure is refused for an adaptation exactly when an attribute is not a number of its kind, the denominator of
the slope is zero, the base of the logarithm is not positive or is one, or there is an element in it. -/
theorem C79_declaration_accepted {rd : Reader} {lm : Libm} {x : SXml} : (∃ a, loadAdaptation rd lm x = .ok a) ↔
    SlopeAndOffset rd x ∧ (x.tag = s "LinearAdaptation" ∨ x.tag = s "LogarithmicAdaptation" ∧
      (∀ t, x.attr (s "LogarithmBase") = some t → ∃ d, rd.dbl t = some d ∧ 0 < d.val ∧ d.val ≠ 1) ∧
      ∀ t, x.attr (s "FloorValue") = some t → ∃ d, rd.dbl t = some d) := by
  have hval : ∀ d : Dbl, ((d.num : Rat) / 2 ^ d.k) = d.val := fun d => by simp [Dbl.val]
  unfold loadAdaptation
  by_cases h1 : x.tag = s "LinearAdaptation"
  · simp only [h1, if_true, true_or, and_true]
    exact loadLinear_iff
  by_cases h2 : x.tag = s "LogarithmicAdaptation"
  · rw [if_neg h1, if_pos h2]
    have hne : s "LogarithmicAdaptation" ≠ s "LinearAdaptation" := by decide
    simp only [h2, hne, false_or, true_and]
    unfold SXml.dbl
    cases hb : x.attr (s "LogarithmBase") with
    | none =>
      cases hf : x.attr (s "FloorValue") with
      | none => simp [Out.bind, loadLinear_iff]
      | some u => cases hu : rd.dbl u <;> simp [Out.bind, loadLinear_iff, hu]
    | some t =>
      cases ht : rd.dbl t with
      | none => simp [Out.bind, ht]
      | some d =>
        by_cases hd : d.val ≤ 0 ∨ d.val = 1
        · have : ¬ (0 < d.val ∧ d.val ≠ 1) := by
            rintro ⟨g1, g2⟩
            rcases hd with hd | hd
            · exact absurd g1 (not_lt.2 hd)
            · exact g2 hd
          simp [Out.bind, ht, F64.val, hval, hd]
          intro _ g1 g2
          exact absurd ⟨g1, g2⟩ this
        · have g := not_or.1 hd
          have g1 := not_le.1 g.1
          cases hf : x.attr (s "FloorValue") with
          | none => simp [Out.bind, ht, F64.val, hval, loadLinear_iff, g.1, g1, g.2]
          | some u => cases hu : rd.dbl u <;> simp [Out.bind, ht, F64.val, hval, loadLinear_iff, g.1, g1, g.2, hu]
  · rw [if_neg h1, if_neg h2]
    simp [h1, h2]

/-- C100: the lines shown of an adaptation give what its element in the structure declares: the offset exactly, the slope
within half a millionth; they are 0 and 1 by default, and the denominator is never zero. -/
theorem C100_adaptation_declared {rd : Reader} {lm : Libm} {x : SXml} {a : Adaptation} (h : loadAdaptation rd lm x = .ok a) :
    ∃ off num den n d rest, a.shownLines = [s " - Type: " ++ (if x.tag = s "LinearAdaptation" then s "Linear" else s "Logarithmic"),
        s " - Offset: " ++ intText off, s " - SlopeNumerator: " ++ num, s " - SlopeDenominator: " ++ den] ++ rest ∧
      DeclaredInt x (s "Offset") off ∧ DeclaredReal rd x (s "SlopeNumerator") 1 n ∧ ShowsNear num n ∧
      DeclaredReal rd x (s "SlopeDenominator") 1 d ∧ ShowsNear den d ∧ d ≠ 0 ∧
      (x.tag = s "LinearAdaptation" ↔ rest = []) := by
  unfold loadAdaptation at h
  split at h
  · rename_i htag
    obtain ⟨h1, h2, h3, h4, h5⟩ := loadLinear_declared h
    refine ⟨a.off, _, _, a.num, a.den, [], ?_, h4, h1, ratFixed_shows _, h2, ratFixed_shows _, h3, by simp [htag]⟩
    simp only [Adaptation.shownLines, h5, htag, Option.isSome, Bool.false_eq_true, if_false, if_true]
  · rename_i htag
    split at h
    · obtain ⟨base, -, h⟩ := Out.bind_ok.1 h
      split at h
      · cases h
      obtain ⟨floor, -, h⟩ := Out.bind_ok.1 h
      obtain ⟨h1, h2, h3, h4, h5⟩ := loadLinear_declared h
      refine ⟨a.off, _, _, a.num, a.den, [s " - LogarithmBase: " ++ base.fixed, s " - FloorValue: " ++ floor.fixed], ?_, h4, h1,
        ratFixed_shows _, h2, ratFixed_shows _, h3, by simp [htag]⟩
      simp only [Adaptation.shownLines, h5, htag, Option.isSome, if_false, if_true]
    · cases h

/-- C100: the base shown of a logarithmic adaptation is the one declared, within half a millionth, and so is the floor, which
is minus infinity by default. -/
theorem C100_logarithm_declared {rd : Reader} {lm : Libm} {x : SXml} {a : Adaptation} (h : loadAdaptation rd lm x = .ok a)
    (ht : x.tag = s "LogarithmicAdaptation") {t : Str} (hb : x.attr (s "LogarithmBase") = some t) :
    ∃ before base floor d, a.shownLines = before ++ [s " - LogarithmBase: " ++ base, s " - FloorValue: " ++ floor] ∧
      rd.dbl t = some d ∧ 0 < d.val ∧ d.val ≠ 1 ∧ ShowsNear base d.val ∧
      (match x.attr (s "FloorValue") with
       | none => floor = s "-inf"
       | some u => ∃ f, rd.dbl u = some f ∧ ShowsNear floor f.val) := by
  unfold loadAdaptation at h
  rw [if_neg (by rw [ht]; decide), if_pos ht] at h
  obtain ⟨base, h1, h⟩ := Out.bind_ok.1 h
  split at h
  · cases h
  rename_i hne
  obtain ⟨floor, h2, h⟩ := Out.bind_ok.1 h
  obtain ⟨-, -, -, -, h5⟩ := loadLinear_declared h
  unfold SXml.dbl at h1 h2
  simp only [hb] at h1
  cases hd : rd.dbl t with
  | none => simp [hd] at h1
  | some d =>
    simp only [hd, Out.ok.injEq] at h1
    subst h1
    have hv : ((d.num : Rat) / 2 ^ d.k) = d.val := by simp [Dbl.val]
    rw [hv] at hne h5
    simp only [hb, Option.isSome, F64.val, true_and, not_or, not_le] at hne
    refine ⟨[s " - Type: Logarithmic", s " - Offset: " ++ intText a.off, s " - SlopeNumerator: " ++ ratFixed a.num,
      s " - SlopeDenominator: " ++ ratFixed a.den], ratFixed d.val, floor.fixed, d, ?_, rfl, hne.1, hne.2, ratFixed_shows _, ?_⟩
    · have e : s " - Type: Logarithmic" = s " - Type: " ++ s "Logarithmic" := by decide
      simp only [Adaptation.shownLines, h5, Option.isSome, if_true, e, F64.fixed]
    · cases hu : x.attr (s "FloorValue") with
      | none =>
        simp only [hu, Out.ok.injEq] at h2
        subst h2
        rfl
      | some u =>
        simp only [hu] at h2
        cases hf : rd.dbl u with
        | none => simp [hf] at h2
        | some f =>
          simp only [hf, Out.ok.injEq] at h2
          subst h2
          refine ⟨f, hf, ?_⟩
          have : ((f.num : Rat) / 2 ^ f.k) = f.val := by simp [Dbl.val]
          rw [this]
          exact ratFixed_shows _

/-- An element that declares a slope of one half and an offset, and a logarithmic one of base 2. -/
example :
    let rd : Reader := ⟨fun t => if t = s "2" then some ⟨2, 0⟩ else none, fun _ => none⟩
    let lm : Libm := ⟨fun x => x, fun x => x⟩
    (match loadAdaptation rd lm (.mk (s "LinearAdaptation") [(s "SlopeDenominator", s "2"), (s "Offset", s "-5")] []) with
     | .ok a => decide (a.shownLines = [s " - Type: Linear", s " - Offset: -5", s " - SlopeNumerator: 1.000000",
        s " - SlopeDenominator: 2.000000"])
     | _ => false) = true ∧
    (match loadAdaptation rd lm (.mk (s "LogarithmicAdaptation") [(s "LogarithmBase", s "2")] []) with
     | .ok a => decide (a.shownLines = [s " - Type: Logarithmic", s " - Offset: 0", s " - SlopeNumerator: 1.000000",
        s " - SlopeDenominator: 1.000000", s " - LogarithmBase: 2.000000", s " - FloorValue: -inf"])
     | _ => false) = true := by
  decide +kernel

end PF
