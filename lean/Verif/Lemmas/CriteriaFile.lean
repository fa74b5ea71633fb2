import Verif.Spec.CriteriaFile

/-!
# Lemmas: files of criteria
-/

namespace PF
open Spec

theorem reSpace_iff (c : Char) : reSpace c = true ↔ White c := by
  simp [reSpace, White]

theorem not_reSpace_iff (c : Char) : reSpace c = false ↔ ¬ White c := by
  rw [← reSpace_iff]; simp

theorem dropPrefix_iff : ∀ (p t r : Str), dropPrefix p t = some r ↔ t = p ++ r
  | [], t, r => by simp [dropPrefix]
  | p :: ps, [], r => by simp [dropPrefix]
  | p :: ps, c :: cs, r => by
    unfold dropPrefix
    split
    · rename_i h; subst h; simp [dropPrefix_iff ps cs r]
    · rename_i h; simp [Ne.symm h]

theorem dropWhile_white {sp t : Str} (h : AllWhite sp) (ht : ∀ c, t.head? = some c → ¬ White c) : (sp ++ t).dropWhile reSpace = t := by
  induction sp with
  | nil =>
    cases t with
    | nil => rfl
    | cons c cs => simp [List.dropWhile, (not_reSpace_iff c).2 (ht c rfl)]
  | cons c sp ih =>
    simp only [List.cons_append, List.dropWhile, (reSpace_iff c).2 (h c (by simp))]
    exact ih fun x hx => h x (by simp [hx])

theorem takeWhile_allWhite (t : Str) : AllWhite (t.takeWhile reSpace) := by
  intro c hc
  rw [← reSpace_iff]
  have := List.all_takeWhile (p := reSpace) (l := t)
  exact List.all_eq_true.1 this c hc

theorem dropWhile_head (t : Str) : ∀ c, (t.dropWhile reSpace).head? = some c → ¬ White c := by
  intro c hc
  have := List.head?_dropWhile_not reSpace t
  rw [hc] at this
  rw [← reSpace_iff]
  simpa using this

theorem white_split (t : Str) : t = t.takeWhile reSpace ++ t.dropWhile reSpace := (List.takeWhile_append_dropWhile ..).symm

/-! ## The values -/

theorem reSplit_true : ∀ t : Str, reSplit true t = reSplit false (t.dropWhile reSpace)
  | [] => rfl
  | c :: cs => by
    cases h : reSpace c with
    | true => simp only [reSplit, List.dropWhile, h, if_true]; exact reSplit_true cs
    | false => simp [reSplit, List.dropWhile, h]

theorem reSplit_word {t : Str} {v : Str} {vs : List Str} (ht : reSplit false t = v :: vs) : ∀ {w : Str}, NoWhite w →
    reSplit false (w ++ t) = (w ++ v) :: vs
  | [], _ => ht
  | c :: w, h => by
    have hc := (not_reSpace_iff c).2 (h c (by simp))
    have := reSplit_word ht (w := w) fun x hx => h x (by simp [hx])
    simp [reSplit, hc, this, pushChar]

theorem reSplit_of {t : Str} {ws : List Str} (h : SplitInto t ws) : reSplit false t = ws := by
  induction h with
  | last h =>
    have := reSplit_word (t := []) (v := []) (vs := []) rfl h
    simpa using this
  | @more w sp t ws h1 h2 h3 h4 _ ih =>
    obtain ⟨c, sp, rfl⟩ := List.exists_cons_of_ne_nil h3
    have : reSplit false (c :: sp ++ t) = [] :: ws := by
      simp only [List.cons_append, reSplit, (reSpace_iff c).2 (h2 c (by simp)), if_true, Bool.false_eq_true, if_false]
      rw [reSplit_true, dropWhile_white (fun x hx => h2 x (by simp [hx])) h4, ih]
    have := reSplit_word this h1
    rw [List.append_assoc]
    simpa using this

theorem splitInto_exists : ∀ (n : Nat) (t : Str), t.length ≤ n → ∃ ws, SplitInto t ws
  | 0, t, h => by
    have : t = [] := List.eq_nil_of_length_eq_zero (by omega)
    subst this
    exact ⟨[[]], .last (by intro c hc; simp at hc)⟩
  | n + 1, t, h => by
    have hsplit : t = t.takeWhile (fun c => !reSpace c) ++ t.dropWhile (fun c => !reSpace c) := (List.takeWhile_append_dropWhile ..).symm
    have hw : NoWhite (t.takeWhile fun c => !reSpace c) := by
      intro c hc
      have := List.all_eq_true.1 (List.all_takeWhile (p := fun c => !reSpace c) (l := t)) c hc
      rw [← not_reSpace_iff]
      simpa using this
    generalize t.takeWhile (fun c => !reSpace c) = w at hsplit hw
    have hh := List.head?_dropWhile_not (fun c => !reSpace c) t
    generalize t.dropWhile (fun c => !reSpace c) = u at hsplit hh
    cases u with
    | nil =>
      rw [List.append_nil] at hsplit
      rw [hsplit]
      exact ⟨[w], .last hw⟩
    | cons c u =>
      have hc : reSpace c = true := by simpa using hh
      obtain ⟨ws, hws⟩ := splitInto_exists n ((c :: u).dropWhile reSpace) (by
        have h1 : ((c :: u).dropWhile reSpace).length ≤ u.length := by
          simp only [List.dropWhile, hc]
          exact (List.dropWhile_sublist _).length_le
        have : t.length = w.length + (u.length + 1) := by rw [hsplit]; simp
        omega)
      refine ⟨w :: ws, ?_⟩
      rw [hsplit, white_split (c :: u), ← List.append_assoc]
      refine .more hw (takeWhile_allWhite _) ?_ (dropWhile_head _) hws
      simp [List.takeWhile, hc]

theorem reSplit_iff (t : Str) (ws : List Str) : reSplit false t = ws ↔ SplitInto t ws := by
  refine ⟨fun h => ?_, reSplit_of⟩
  obtain ⟨ws', h'⟩ := splitInto_exists t.length t (Nat.le_refl _)
  rw [← h, reSplit_of h']
  exact h'

/-! ## The name -/

/-- A name of `i` characters can be read. -/
def ReadsName (r : Str) (i : Nat) (rest : Str) : Prop := ∃ vs, (r.drop i).dropWhile reSpace = ':' :: vs ∧ rest = vs.dropWhile reSpace

theorem criterionName_iff (r : Str) (name rest : Str) : ∀ n, criterionName r n = some (name, rest) ↔
    ∃ i, 1 ≤ i ∧ i ≤ n ∧ name = r.take i ∧ ReadsName r i rest ∧ ∀ j rest', 1 ≤ j → j ≤ n → ReadsName r j rest' → j ≤ i
  | 0 => by
    simp only [criterionName, reduceCtorEq, false_iff, not_exists, not_and]
    intro i h1 h2; omega
  | n + 1 => by
    unfold criterionName
    split
    · rename_i vs hvs
      simp only [Option.some.injEq, Prod.mk.injEq]
      constructor
      · rintro ⟨rfl, rfl⟩
        exact ⟨n + 1, by omega, by omega, rfl, ⟨vs, hvs, rfl⟩, fun j _ _ h _ => h⟩
      · rintro ⟨i, h1, h2, h3, ⟨vs', h4, h5⟩, h6⟩
        have : n + 1 ≤ i := h6 (n + 1) _ (by omega) (by omega) ⟨vs, hvs, rfl⟩
        obtain rfl : i = n + 1 := by omega
        rw [hvs] at h4
        simp only [List.cons.injEq, true_and] at h4
        subst h4
        exact ⟨h3.symm, h5.symm⟩
    · rename_i hno
      have hno' : ∀ rest', ¬ ReadsName r (n + 1) rest' := by
        rintro rest' ⟨vs, h, -⟩
        exact hno vs h
      rw [criterionName_iff r name rest n]
      constructor
      · rintro ⟨i, h1, h2, h3, h4, h5⟩
        refine ⟨i, h1, by omega, h3, h4, fun j rest' hj1 hj2 hr => ?_⟩
        by_cases hj : j = n + 1
        · subst hj; exact absurd hr (hno' _)
        · exact h5 j rest' hj1 (by omega) hr
      · rintro ⟨i, h1, h2, h3, h4, h5⟩
        by_cases hi : i = n + 1
        · subst hi; exact absurd h4 (hno' _)
        · exact ⟨i, h1, by omega, h3, h4, fun j rest' hj1 hj2 hr => h5 j rest' hj1 (by omega) hr⟩

theorem colon_not_white : ¬ White ':' := by rw [← reSpace_iff]; decide

/-- A line without its type. -/
def NamedRest (r name rest : Str) : Prop :=
  ∃ sp1 sp2 sp3, r = sp1 ++ name ++ sp2 ++ ':' :: sp3 ++ rest ∧ AllWhite sp1 ∧ AllWhite sp2 ∧ AllWhite sp3 ∧
    name ≠ [] ∧ NoWhite name ∧ ∀ c, rest.head? = some c → ¬ White c

theorem namedRest_iff (r name rest : Str) : NamedRest r name rest ↔ ∃ i, 1 ≤ i ∧
    i ≤ ((r.dropWhile reSpace).takeWhile fun c => !reSpace c).length ∧ name = (r.dropWhile reSpace).take i ∧
    ReadsName (r.dropWhile reSpace) i rest := by
  constructor
  · rintro ⟨sp1, sp2, sp3, rfl, h1, h2, h3, hn, hw, hr⟩
    have hd : (sp1 ++ name ++ sp2 ++ ':' :: sp3 ++ rest).dropWhile reSpace = name ++ (sp2 ++ ':' :: (sp3 ++ rest)) := by
      have : sp1 ++ name ++ sp2 ++ ':' :: sp3 ++ rest = sp1 ++ (name ++ (sp2 ++ ':' :: (sp3 ++ rest))) := by simp
      rw [this]
      refine dropWhile_white h1 fun c hc => ?_
      obtain ⟨a, l, rfl⟩ := List.exists_cons_of_ne_nil hn
      simp only [List.cons_append, List.head?_cons, Option.some.injEq] at hc
      subst hc
      exact hw a (by simp)
    rw [hd]
    refine ⟨name.length, by have := List.length_pos_iff.2 hn; omega, ?_, by simp, sp3 ++ rest, ?_, ?_⟩
    · rw [List.takeWhile_append_of_pos (fun c hc => by simp [(not_reSpace_iff c).2 (hw c hc)])]
      simp
    · rw [List.drop_left]
      refine dropWhile_white h2 fun c hc => ?_
      simp only [List.head?_cons, Option.some.injEq] at hc
      exact hc ▸ colon_not_white
    · exact (dropWhile_white h3 hr).symm
  · rintro ⟨i, h1, h2, rfl, vs, h3, rfl⟩
    have hL : ((r.dropWhile reSpace).takeWhile fun c => !reSpace c).length ≤ (r.dropWhile reSpace).length :=
      (List.takeWhile_sublist _).length_le
    refine ⟨r.takeWhile reSpace, ((r.dropWhile reSpace).drop i).takeWhile reSpace, vs.takeWhile reSpace, ?_, takeWhile_allWhite _,
      takeWhile_allWhite _, takeWhile_allWhite _, ?_, ?_, dropWhile_head _⟩
    · have e1 := white_split r
      have e2 : r.dropWhile reSpace = (r.dropWhile reSpace).take i ++ (r.dropWhile reSpace).drop i := (List.take_append_drop ..).symm
      have e3 := white_split ((r.dropWhile reSpace).drop i)
      have e4 := white_split vs
      rw [h3] at e3
      calc r = r.takeWhile reSpace ++ r.dropWhile reSpace := e1
        _ = r.takeWhile reSpace ++ ((r.dropWhile reSpace).take i ++ (r.dropWhile reSpace).drop i) := by rw [← e2]
        _ = r.takeWhile reSpace ++ ((r.dropWhile reSpace).take i ++ (((r.dropWhile reSpace).drop i).takeWhile reSpace ++ ':' :: vs)) := by
          rw [← e3]
        _ = _ := by
          conv => lhs; rw [e4]
          simp [List.append_assoc]
    · intro h
      have : ((r.dropWhile reSpace).take i).length = 0 := by rw [h]; rfl
      rw [List.length_take] at this
      omega
    · intro c hc
      have hpre : (r.dropWhile reSpace).take i <+: (r.dropWhile reSpace).takeWhile fun c => !reSpace c :=
        List.prefix_of_prefix_length_le (List.take_prefix ..) (List.takeWhile_prefix _) (by rw [List.length_take]; omega)
      have := List.all_eq_true.1 (List.all_takeWhile (p := fun c => !reSpace c) (l := r.dropWhile reSpace)) c (hpre.subset hc)
      rw [← not_reSpace_iff]
      simpa using this

theorem criterionRest_iff (r name rest : Str) : criterionRest r = some (name, rest) ↔ NamedRest r name rest ∧
    ∀ name' rest', NamedRest r name' rest' → name'.length ≤ name.length := by
  have hL : ((r.dropWhile reSpace).takeWhile fun c => !reSpace c).length ≤ (r.dropWhile reSpace).length :=
    (List.takeWhile_sublist _).length_le
  unfold criterionRest
  rw [criterionName_iff]
  constructor
  · rintro ⟨i, h1, h2, h3, h4, h5⟩
    refine ⟨(namedRest_iff ..).2 ⟨i, h1, h2, h3, h4⟩, fun name' rest' h => ?_⟩
    obtain ⟨j, g1, g2, g3, g4⟩ := (namedRest_iff ..).1 h
    have := h5 j rest' g1 g2 g4
    rw [g3, h3, List.length_take, List.length_take]
    omega
  · rintro ⟨h, hmax⟩
    obtain ⟨i, h1, h2, h3, h4⟩ := (namedRest_iff ..).1 h
    refine ⟨i, h1, h2, h3, h4, fun j rest' g1 g2 g3 => ?_⟩
    have := hmax _ _ ((namedRest_iff ..).2 ⟨j, g1, g2, rfl, g3⟩)
    rw [h3, List.length_take, List.length_take] at this
    omega

theorem namedLine_iff (t : Str) (b : Bool) (name rest : Str) : NamedLine t b name rest ↔
    ∃ r, t = kindText b ++ r ∧ NamedRest r name rest := by
  constructor
  · rintro ⟨sp1, sp2, sp3, h, hh⟩
    exact ⟨sp1 ++ name ++ sp2 ++ ':' :: sp3 ++ rest, by rw [h]; simp, sp1, sp2, sp3, rfl, hh⟩
  · rintro ⟨r, rfl, sp1, sp2, sp3, rfl, hh⟩
    exact ⟨sp1, sp2, sp3, by simp, hh⟩

theorem kindText_cancel {b b' : Bool} {r r' : Str} (h : kindText b ++ r = kindText b' ++ r') : b = b' ∧ r = r' := by
  cases b <;> cases b'
  · exact ⟨rfl, List.append_cancel_left h⟩
  · have := congrArg List.head? h; simp [kindText, s] at this
  · have := congrArg List.head? h; simp [kindText, s] at this
  · exact ⟨rfl, List.append_cancel_left h⟩

theorem parseCriterion_eq (t : Str) : ∀ c, parseCriterion t = some c ↔
    ∃ r rest, t = kindText c.inclusive ++ r ∧ criterionRest r = some (c.name, rest) ∧ c.values = reSplit false rest := by
  intro ⟨b, name, values⟩
  unfold parseCriterion
  cases h1 : dropPrefix (s "InclusiveCriterion") t with
  | some r =>
    have ht : t = kindText true ++ r := (dropPrefix_iff ..).1 h1
    simp only [Option.map_eq_some_iff, CriterionLine.mk.injEq, Prod.exists]
    constructor
    · rintro ⟨n, rest, h, rfl, rfl, rfl⟩
      exact ⟨r, rest, ht, h, rfl⟩
    · rintro ⟨r', rest, h, h', rfl⟩
      rw [ht] at h
      obtain ⟨rfl, rfl⟩ := kindText_cancel h
      exact ⟨name, rest, h', rfl, rfl, rfl⟩
  | none =>
    have hn : ∀ r, t ≠ kindText true ++ r := fun r e => by
      rw [(dropPrefix_iff (s "InclusiveCriterion") t r).2 e] at h1; simp at h1
    cases h2 : dropPrefix (s "ExclusiveCriterion") t with
    | some r =>
      have ht : t = kindText false ++ r := (dropPrefix_iff ..).1 h2
      simp only [Option.map_eq_some_iff, CriterionLine.mk.injEq, Prod.exists]
      constructor
      · rintro ⟨n, rest, h, rfl, rfl, rfl⟩
        exact ⟨r, rest, ht, h, rfl⟩
      · rintro ⟨r', rest, h, h', rfl⟩
        rw [ht] at h
        obtain ⟨rfl, rfl⟩ := kindText_cancel h
        exact ⟨name, rest, h', rfl, rfl, rfl⟩
    | none =>
      simp only [reduceCtorEq, false_iff, not_exists, not_and]
      intro r rest h
      cases b with
      | true => exact absurd h (hn r)
      | false => rw [(dropPrefix_iff (s "ExclusiveCriterion") t r).2 h] at h2; simp at h2

/-- A line as a specification of a criterion. -/
def CriterionLine.decl (c : CriterionLine) : GenCriterion := ⟨c.inclusive, c.name, c.values⟩

theorem parseCriterion_iff (t : Str) (c : CriterionLine) : parseCriterion t = some c ↔ LineDeclares t c.decl := by
  rw [parseCriterion_eq]
  constructor
  · rintro ⟨r, rest, rfl, h1, h2⟩
    obtain ⟨h3, h4⟩ := (criterionRest_iff ..).1 h1
    refine ⟨rest, (namedLine_iff ..).2 ⟨r, rfl, h3⟩, (reSplit_iff ..).1 h2.symm, fun name' rest' h => ?_⟩
    obtain ⟨r', e, h⟩ := (namedLine_iff ..).1 h
    obtain ⟨-, rfl⟩ := kindText_cancel e
    exact h4 _ _ h
  · rintro ⟨rest, h1, h2, h3⟩
    obtain ⟨r, rfl, h4⟩ := (namedLine_iff ..).1 h1
    exact ⟨r, rest, rfl, (criterionRest_iff ..).2 ⟨h4, fun name' rest' h => h3 _ _ ((namedLine_iff ..).2 ⟨r, rfl, h⟩)⟩,
      ((reSplit_iff ..).2 h2).symm⟩

end PF
