import Verif.Lemmas.CriterionText

/-!
# Properties of selection criteria (C01, C02, C03, C04, C10)
-/

namespace PF
open Spec

/-! ## C01: criterion values are unambiguous -/

/-- C01: after any history of `addValuePair` calls, a literal names one number, a number has one
literal, and in an inclusive type every number is zero (named `none`) or one bit. -/
theorem C01_values_unambiguous (incl : Bool) (calls : List (BitVec 32 × Str)) (t : CritType)
    (h : (CritType.new incl).run calls = some t) :
    t.inclusive = incl ∧
    (∀ l v v', (l, v) ∈ t.map → (l, v') ∈ t.map → v = v') ∧
    (∀ l l' v, (l, v) ∈ t.map → (l', v) ∈ t.map → l = l') ∧
    (incl = true → (s "none", 0#32) ∈ t.map ∧
      ∀ l v, (l, v) ∈ t.map → (l = s "none" ∧ v = 0#32) ∨ ∃ k, k < 31 ∧ v = BitVec.ofNat 32 (2 ^ k)) := by
  obtain ⟨hi, he⟩ := (CritType.Inv.new incl).run h
  replace he : t.inclusive = incl := he
  refine ⟨he, hi.litUnique, hi.numUnique, fun hincl => ?_⟩
  subst hincl
  refine ⟨hi.hasNone he, fun l v hm => ?_⟩
  have key : ∀ (calls : List (BitVec 32 × Str)) (t0 t : CritType), t0.inclusive = true →
      (∀ l v, (l, v) ∈ t0.map → v ≠ intMin) → t0.run calls = some t →
      ∀ l v, (l, v) ∈ t.map → v ≠ intMin := by
    intro calls
    induction calls with
    | nil => intro t0 t _ h0 hr; simp [CritType.run] at hr; subst hr; exact h0
    | cons c cs ih =>
      intro t0 t hinc h0 hr
      simp only [CritType.run, Option.bind_eq_some_iff] at hr
      obtain ⟨t1, h1, h2⟩ := hr
      unfold CritType.call at h1
      split at h1
      · rename_i t2 hadd
        simp only [Option.some.injEq] at h1; subst h1
        obtain ⟨a, b, c', rfl⟩ := addValuePair_added hadd
        refine ih ⟨t0.inclusive, LitMap.insert t0.map c.2 c.1⟩ t hinc ?_ h2
        intro l v hm
        simp only [LitMap.mem_insert] at hm
        rcases hm with hm | hm
        · exact h0 l v hm
        · obtain ⟨-, rfl⟩ := Prod.mk.inj hm; exact (a hinc).2.1
      · simp only [Option.some.injEq] at h1; subst h1; exact ih _ _ hinc h0 h2
      · simp at h1
  have hmin : v ≠ intMin := by
    refine key calls _ t rfl ?_ h l v hm
    intro l v hm; simp [CritType.new] at hm; rw [hm.2]; decide
  rcases hi.oneBit he l v hm with h0 | ⟨-, k, hk, rfl⟩
  · exact .inl h0
  · right
    have : k ≠ 31 := by rintro rfl; exact hmin bitVal_31
    refine ⟨k, by omega, BitVec.eq_of_toNat_eq ?_⟩
    rw [bitVal_toNat k hk, BitVec.toNat_ofNat]
    have : 2 ^ k < 2 ^ 32 := Nat.pow_lt_pow_iff_right (by omega) |>.mpr hk
    exact (Nat.mod_eq_of_lt this).symm

/-- C01: exactly which additions are accepted, and what an accepted one changes; the remaining
ones leave the type as it was (`INT_MIN` in an inclusive type is undefined behaviour). -/
theorem C01_add_decision (incl : Bool) (calls : List (BitVec 32 × Str)) (t : CritType)
    (_h : (CritType.new incl).run calls = some t) (v : BitVec 32) (lit : Str)
    (hub : ¬ (incl = true ∧ v = intMin)) :
    ((∃ t', t.addValuePair v lit = .added t') ↔
      (incl = true → ∃ k, k < 32 ∧ v = BitVec.ofNat 32 (2 ^ k)) ∧
      (∀ w, (lit, w) ∉ t.map) ∧ (∀ l, (l, v) ∉ t.map)) ∧
    (∀ t', t.addValuePair v lit = .added t' →
      t'.inclusive = incl ∧ ∀ p, p ∈ t'.map ↔ p ∈ t.map ∨ p = (lit, v)) ∧
    ((∀ t', t.addValuePair v lit ≠ .added t') → t.call (v, lit) = some t) := by
  obtain ⟨hi, he⟩ := (CritType.Inv.new incl).run _h
  replace he : t.inclusive = incl := he
  have hb : ∀ k, k < 32 → BitVec.ofNat 32 (2 ^ k) = bitVal k := by
    intro k hk
    apply BitVec.eq_of_toNat_eq
    rw [bitVal_toNat k hk, BitVec.toNat_ofNat]
    have : 2 ^ k < 2 ^ 32 := Nat.pow_lt_pow_iff_right (by omega) |>.mpr hk
    exact Nat.mod_eq_of_lt this
  have hnub : t.addValuePair v lit ≠ .ub := by
    intro hu
    unfold CritType.addValuePair at hu
    split at hu; · simp at hu
    split at hu
    · rename_i h2; simp [he] at h2; exact hub h2
    · split at hu; · simp at hu
      split at hu; · simp at hu
      split at hu <;> simp at hu
  refine ⟨⟨?_, ?_⟩, ?_, ?_⟩
  · rintro ⟨t', h'⟩
    obtain ⟨a, b, c, -⟩ := addValuePair_added h'
    refine ⟨fun hinc => ?_, (LitMap.find_none_iff _ _).mp b, c⟩
    obtain ⟨a1, -, a3⟩ := a (he.trans hinc)
    obtain ⟨k, hk, hv⟩ := single_bit v a1 a3
    exact ⟨k, hk, by rw [hb k hk, hv]⟩
  · rintro ⟨a, b, c⟩
    unfold CritType.addValuePair
    have hz : (t.inclusive && v == 0#32) = false := by
      cases hinc : t.inclusive with
      | false => rfl
      | true =>
        obtain ⟨k, hk, rfl⟩ := a (he ▸ hinc)
        rw [hb k hk]; simpa using bitVal_ne_zero k hk
    have hm : (t.inclusive && v == intMin) = false := by
      cases hinc : t.inclusive with
      | false => rfl
      | true => simp; intro hv; exact hub ⟨he ▸ hinc, hv⟩
    have hp : (t.inclusive && (v &&& (v - 1#32)) != 0#32) = false := by
      cases hinc : t.inclusive with
      | false => rfl
      | true =>
        obtain ⟨k, hk, rfl⟩ := a (he ▸ hinc)
        rw [hb k hk]; simpa using bitVal_and_pred k hk
    have hf : t.map.find lit = none := (LitMap.find_none_iff _ _).mpr b
    have ha : t.map.any (fun p => p.2 == v) = false := by
      simp only [List.any_eq_false]
      rintro ⟨l, w⟩ hw; simp; rintro rfl; exact c _ hw
    refine ⟨{ t with map := LitMap.insert t.map lit v }, ?_⟩
    rw [hz, hm, hp, hf, ha]; simp
  · intro t' h'
    obtain ⟨-, -, -, rfl⟩ := addValuePair_added h'
    exact ⟨he, fun p => LitMap.mem_insert _ _ _ _⟩
  · intro hno
    unfold CritType.call
    cases hr : t.addValuePair v lit with
    | added t' => exact absurd hr (hno t')
    | rejected => rfl
    | ub => exact absurd hr hnub

/-- C01: a pair once registered stays registered whatever is called later. -/
theorem C01_pairs_persist (t t' : CritType) (calls : List (BitVec 32 × Str))
    (h : t.run calls = some t') (p : Str × BitVec 32) (hp : p ∈ t.map) : p ∈ t'.map := by
  induction calls generalizing t with
  | nil => simp [CritType.run] at h; subst h; exact hp
  | cons c cs ih =>
    simp only [CritType.run, Option.bind_eq_some_iff] at h
    obtain ⟨t1, h1, h2⟩ := h
    unfold CritType.call at h1
    split at h1
    · rename_i t2 hadd
      simp only [Option.some.injEq] at h1; subst h1
      obtain ⟨-, -, -, rfl⟩ := addValuePair_added hadd
      exact ih _ h2 ((LitMap.mem_insert _ _ _ _).mpr (.inl hp))
    · simp only [Option.some.injEq] at h1; subst h1; exact ih _ h2 hp
    · simp at h1

/-- Sample history: one rejected number, one rejected literal, two accepted pairs. -/
def sampleIncl : CritType :=
  { inclusive := true, map := [(s "A", 1#32), (s "B", 4#32), (s "none", 0#32)] }

example : (CritType.new true).run [(4#32, s "B"), (3#32, s "C"), (1#32, s "A"), (2#32, s "A"), (4#32, s "D")]
    = some sampleIncl := by decide
example : (CritType.new false).run [(4#32, s "B"), (3#32, s "C"), (3#32, s "X")]
    = some { inclusive := false, map := [(s "B", 4#32), (s "C", 3#32)] } := by decide

/-! ## C02: literals and numbers are inverse -/

/-- C02 (exclusive types): the text reads as the number exactly when the number prints as it. -/
theorem C02_exclusive_inverse (calls : List (BitVec 32 × Str)) (t : CritType)
    (h : (CritType.new false).run calls = some t) (l : Str) (v : BitVec 32) :
    (t.numerical l = some v ↔ t.literal v = some l) ∧
    (t.numerical l = some v ↔ (l, v) ∈ t.map) := by
  obtain ⟨hi, he⟩ := (CritType.Inv.new false).run h
  replace he : t.inclusive = false := he
  simp only [CritType.numerical, he, CritType.atomic, hi.literal_iff, hi.find_iff,
    Bool.false_eq_true, if_false, and_self, iff_self]

/-- C02 (inclusive types): a text reads as a number exactly when every non-empty part between
`|` is a registered literal, and the number is then the OR of their numbers; otherwise it is
refused. -/
theorem C02_inclusive_or (calls : List (BitVec 32 × Str)) (t : CritType)
    (h : (CritType.new true).run calls = some t) (text : Str) (ps : List Str)
    (hps : Pieces ['|'] text ps) :
    (∀ v, t.numerical text = some v ↔
      ∃ vs, (ps.filter (· ≠ [])).length = vs.length ∧
        (∀ (i : Nat) l w, (ps.filter (· ≠ []))[i]? = some l → vs[i]? = some w → (l, w) ∈ t.map) ∧
        v = orOf vs) ∧
    (t.numerical text = none ↔ ∃ l ∈ ps, l ≠ [] ∧ ∀ w, (l, w) ∉ t.map) := by
  obtain ⟨hi, he⟩ := (CritType.Inv.new true).run h
  replace he : t.inclusive = true := he
  have hnum : t.numerical text = ((ps.filter (· ≠ [])).mapM t.atomic).map orOf := by
    simp only [CritType.numerical, he, if_true]
    rw [tokenize_true_of_pieces hps, orAll_eq]
    simp
  constructor
  · intro v
    rw [hnum]
    simp only [Option.map_eq_some_iff, mapM_option_some]
    constructor
    · rintro ⟨vs, hv, rfl⟩
      have hlen := congrArg List.length hv
      simp only [List.length_map] at hlen
      refine ⟨vs, hlen, ?_, rfl⟩
      intro i l w hl hw
      have := congrArg (fun x => x[i]?) hv
      simp only [List.getElem?_map, hl, hw, Option.map_some, Option.some.injEq] at this
      exact (hi.find_iff _ _).mp this
    · rintro ⟨vs, hlen, hm, rfl⟩
      refine ⟨vs, ?_, rfl⟩
      apply List.ext_getElem?
      intro i
      simp only [List.getElem?_map]
      by_cases hlt : i < vs.length
      · have h1 : (ps.filter (· ≠ []))[i]? = some ((ps.filter (· ≠ []))[i]'(hlen ▸ hlt)) :=
          List.getElem?_eq_getElem _
        have h2 : vs[i]? = some vs[i] := List.getElem?_eq_getElem _
        rw [h1, h2]
        simp only [Option.map_some, Option.some.injEq]
        exact (hi.find_iff _ _).mpr (hm i _ _ h1 h2)
      · rw [List.getElem?_eq_none (by omega), List.getElem?_eq_none (by omega)]; rfl
  · rw [hnum]
    simp only [Option.map_eq_none_iff, mapM_option_none]
    constructor
    · rintro ⟨l, hl, hn⟩
      simp only [List.mem_filter, decide_eq_true_eq] at hl
      exact ⟨l, hl.1, hl.2, (LitMap.find_none_iff _ _).mp hn⟩
    · rintro ⟨l, hl, hne, hn⟩
      exact ⟨l, by simp [hl, hne], (LitMap.find_none_iff _ _).mpr hn⟩

/-- C02 (inclusive types): for a non-empty literal free of `|`, reading and printing are inverse. -/
theorem C02_inclusive_inverse (calls : List (BitVec 32 × Str)) (t : CritType)
    (h : (CritType.new true).run calls = some t) (l : Str) (hne : l ≠ []) (hbar : '|' ∉ l)
    (v : BitVec 32) :
    (t.numerical l = some v ↔ t.literal v = some l) ∧
    (t.numerical l = some v ↔ (l, v) ∈ t.map) := by
  obtain ⟨hi, he⟩ := (CritType.Inv.new true).run h
  replace he : t.inclusive = true := he
  have htok : tokenize ['|'] true l = [l] := by
    have := joinWith_tokenize [l] (by simpa using hne) (by simpa using hbar)
    simpa [joinWith] using this
  have : t.numerical l = t.map.find l := by
    simp only [CritType.numerical, he, if_true, htok, CritType.orAll, CritType.atomic]
    cases t.map.find l <;> simp
  rw [this, hi.literal_iff, hi.find_iff]; simp

/-- C02, limit of the code: in an inclusive type the empty literal and a literal that contains
the separator can be registered, and are then not read back to their number. -/
theorem C02_separator_literal_not_read_back :
    ∃ t : CritType, (CritType.new true).run [(1#32, s ""), (2#32, s "a|b")] = some t ∧
      t.literal 1#32 = some (s "") ∧ t.numerical (s "") = some 0#32 ∧
      t.literal 2#32 = some (s "a|b") ∧ t.numerical (s "a|b") = none := by
  exact ⟨_, rfl, by decide, by decide, by decide, by decide⟩

example : sampleIncl.numerical (s "|A||B") = some 5#32 ∧ sampleIncl.literal 4#32 = some (s "B")
    ∧ sampleIncl.numerical (s "A|C") = none := by decide
example : Pieces ['|'] (s "A|C") [s "A", s "C"] := .cut (s "A") '|' (s "C") _ (by decide) (by decide)
  (.last _ (by decide))

/-! ## C03: the formatted state can be read back -/

/-- The part of a state whose bits are registered. -/
def registeredPart (t : CritType) (v : BitVec 32) : BitVec 32 :=
  orOf ((List.range 32).filterMap (fun k =>
    if v.getLsbD k ∧ (t.literal (bitVal k)).isSome then some (bitVal k) else none))

theorem registeredPart_bit (t : CritType) (v : BitVec 32) (i : Nat) :
    (registeredPart t v).getLsbD i = true ↔
      v.getLsbD i = true ∧ ∃ l, t.literal (bitVal i) = some l := by
  unfold registeredPart
  rw [orOf_getLsbD]
  simp only [List.mem_filterMap, List.mem_range]
  constructor
  · rintro ⟨w, ⟨k, hk, hw⟩, hb⟩
    split at hw
    · rename_i hc
      simp only [Option.some.injEq] at hw; subst hw
      rw [bitVal_getLsbD] at hb
      simp at hb; obtain ⟨_, rfl⟩ := hb
      exact ⟨hc.1, Option.isSome_iff_exists.mp hc.2⟩
    · simp at hw
  · rintro ⟨hv, l, hl⟩
    have hi : i < 32 := by
      apply Classical.byContradiction; intro hge
      rw [BitVec.getLsbD_of_ge _ _ (by omega)] at hv; simp at hv
    exact ⟨bitVal i, ⟨i, hi, by simp [hv, hl]⟩, by simp [bitVal_getLsbD, hi]⟩

/-- C03 (inclusive types, `_partial`: the state 0 and literals that are empty or contain `|` are
excluded, see the two witnesses below): the text printed for a state reads back to exactly the
bits of the state that have a literal; so it reads back to the state when all of them have one. -/
theorem C03_inclusive_read_back_partial (calls : List (BitVec 32 × Str)) (t : CritType)
    (h : (CritType.new true).run calls = some t)
    (hlit : ∀ l v, (l, v) ∈ t.map → l ≠ [] ∧ '|' ∉ l)
    (v : BitVec 32) (hv : ∃ i l, hasBit v i ∧ (l, bitVal i) ∈ t.map) :
    ∃ w, t.numerical (t.formattedState v) = some w ∧
      (∀ i, hasBit w i ↔ hasBit v i ∧ ∃ l, (l, bitVal i) ∈ t.map) ∧
      ((∀ i, hasBit v i → ∃ l, (l, bitVal i) ∈ t.map) → w = v) := by
  obtain ⟨hi, he⟩ := (CritType.Inv.new true).run h
  replace he : t.inclusive = true := he
  have hpne : fmtParts t v 0 32 ≠ [] := by
    obtain ⟨i, l, hb, hl⟩ := hv
    have hi32 : i < 32 := by
      apply Classical.byContradiction; intro hge
      unfold hasBit at hb
      rw [BitVec.getLsbD_of_ge _ _ (by omega)] at hb; simp at hb
    have : l ∈ fmtParts t v 0 32 := by
      simp only [fmtParts, List.mem_filterMap, List.mem_range']
      exact ⟨i, ⟨i, by omega, by omega⟩, by
        have : v.getLsbD i = true := hb
        simp [this, (hi.literal_iff l (bitVal i)).mpr hl]⟩
    intro hn; rw [hn] at this; simp at this
  have hmem : ∀ l ∈ fmtParts t v 0 32, l ≠ [] ∧ '|' ∉ l := by
    intro l hl
    simp only [fmtParts, List.mem_filterMap] at hl
    obtain ⟨k, -, hk⟩ := hl
    split at hk
    · exact hlit l _ (literal_mem hk)
    · simp at hk
  have hfmt : t.formattedState v = joinWith '|' (fmtParts t v 0 32) := by
    simp only [CritType.formattedState, he, if_true]
    rw [fmtLoop_eq t v 32 0 (by omega)]
    simp only [hpne, if_false, if_true, List.nil_append]
    rw [if_neg (joinWith_ne_nil hpne (fun w hw => (hmem w hw).1))]
  have hat : (fmtParts t v 0 32).mapM t.atomic = some ((List.range 32).filterMap (fun k =>
      if v.getLsbD k ∧ (t.literal (bitVal k)).isSome then some (bitVal k) else none)) := by
    rw [mapM_option_some]
    unfold fmtParts
    rw [List.range_eq_range']
    generalize List.range' 0 32 = ks
    induction ks with
    | nil => rfl
    | cons k ks ih =>
      simp only [List.filterMap_cons]
      by_cases hk : v.getLsbD k = true
      · cases hl : t.literal (bitVal k) with
        | none => simp [hk, ih]
        | some l =>
          have : t.atomic l = some (bitVal k) := (hi.find_iff _ _).mpr (literal_mem hl)
          simp [hk, this, ih]
      · simp [hk, ih]
  have hnum : t.numerical (t.formattedState v) = some (registeredPart t v) := by
    simp only [CritType.numerical, he, if_true, hfmt]
    rw [joinWith_tokenize _ (fun l hl => (hmem l hl).1) (fun l hl => (hmem l hl).2), orAll_eq, hat]
    simp [registeredPart]
  have hbits : ∀ i, hasBit (registeredPart t v) i ↔ hasBit v i ∧ ∃ l, (l, bitVal i) ∈ t.map := by
    intro i
    unfold hasBit
    rw [registeredPart_bit]
    simp only [hi.literal_iff]
  refine ⟨_, hnum, hbits, fun hall => ?_⟩
  apply BitVec.eq_of_getLsbD_eq
  intro i _
  have := hbits i
  unfold hasBit at this hall
  rw [Bool.eq_iff_iff, this]
  exact ⟨fun h => h.1, fun h => ⟨h, hall i h⟩⟩

/-- C03 (exclusive types): the text printed for a registered number reads back to it, unless the
literal is empty. -/
theorem C03_exclusive_read_back (calls : List (BitVec 32 × Str)) (t : CritType)
    (h : (CritType.new false).run calls = some t) (v : BitVec 32) (l : Str)
    (hl : (l, v) ∈ t.map) (hne : l ≠ []) :
    t.formattedState v = l ∧ t.numerical (t.formattedState v) = some v := by
  obtain ⟨hi, he⟩ := (CritType.Inv.new false).run h
  replace he : t.inclusive = false := he
  have : t.formattedState v = l := by
    simp [CritType.formattedState, he, (hi.literal_iff l v).mpr hl, hne]
  refine ⟨this, ?_⟩
  rw [this]
  exact ((C02_exclusive_inverse calls t h l v).2).mpr hl

/-- C03, what is missing and why: the state 0 of an inclusive type prints as `<none>`, which is
not a literal of the type (its literal is `none`), so it is not read back. -/
theorem C03_zero_not_read_back :
    ∃ t : CritType, (CritType.new true).run [(1#32, s "A")] = some t ∧
      t.formattedState 0#32 = s "<none>" ∧ t.numerical (t.formattedState 0#32) = none := by
  exact ⟨_, rfl, by decide, by decide⟩

example : sampleIncl.formattedState 5#32 = s "A|B" ∧ sampleIncl.numerical (s "A|B") = some 5#32 ∧
    sampleIncl.formattedState 7#32 = s "A|B" := by decide
example : (∀ p ∈ sampleIncl.map, p.1 ≠ [] ∧ '|' ∉ p.1) ∧ hasBit 5#32 2 ∧
    (s "B", bitVal 2) ∈ sampleIncl.map := by unfold hasBit; decide

/-! ## C04: match verbs -/

/-- C04: each verb answers its bitwise meaning, for every state and value. -/
theorem C04_verb_meaning (verb : Verb) (c : Criterion) (v : BitVec 32) :
    verb.eval c v = true ↔ VerbHolds verb c.state v := by
  cases verb
  · simp [Verb.eval, Criterion.is, VerbHolds]
  · simp [Verb.eval, Criterion.isNot, VerbHolds]
  · simp only [Verb.eval, Criterion.includes, VerbHolds, hasBit, beq_iff_eq]
    constructor
    · intro h i hv
      have := congrArg (fun x => x.getLsbD i) h
      simp only [BitVec.getLsbD_and, hv, Bool.and_true] at this
      exact this
    · intro h
      apply BitVec.eq_of_getLsbD_eq
      intro i _
      rw [BitVec.getLsbD_and]
      cases hv : v.getLsbD i with
      | false => simp
      | true => simp [h i hv]
  · simp only [Verb.eval, Criterion.excludes, VerbHolds, hasBit, beq_iff_eq]
    constructor
    · intro h i hv hs
      have := congrArg (fun x => x.getLsbD i) h
      simp [BitVec.getLsbD_and, hv, hs] at this
    · intro h
      apply BitVec.eq_of_getLsbD_eq
      intro i _
      rw [BitVec.getLsbD_and]
      cases hv : v.getLsbD i with
      | false => simp
      | true => simp [h i hv]

/-- C04: `Is` and `IsNot` are opposite; `Includes` and `Excludes` never hold together for a
non-zero value, and both hold for zero. -/
theorem C04_verb_relations (c : Criterion) (v : BitVec 32) :
    (Verb.is.eval c v = !(Verb.isNot.eval c v)) ∧
    (v ≠ 0#32 → ¬ (Verb.includes.eval c v = true ∧ Verb.excludes.eval c v = true)) ∧
    (Verb.includes.eval c 0#32 = true ∧ Verb.excludes.eval c 0#32 = true) := by
  refine ⟨?_, ?_, ?_⟩
  · simp [Verb.eval, Criterion.is, Criterion.isNot, bne]
  · rintro hv ⟨h1, h2⟩
    simp [Verb.eval, Criterion.includes, Criterion.excludes] at h1 h2
    exact hv (h1.symm.trans h2)
  · simp [Verb.eval, Criterion.includes, Criterion.excludes]

example : Verb.includes.eval ⟨s "c", sampleIncl, 5#32, 0⟩ 4#32 = true ∧
    Verb.excludes.eval ⟨s "c", sampleIncl, 5#32, 0⟩ 2#32 = true ∧
    Verb.includes.eval ⟨s "c", sampleIncl, 5#32, 0⟩ 6#32 = false := by decide

/-! ## C10: modification tracking -/

theorem event_foldl_sets (c : Criterion) (vs : List (BitVec 32)) :
    ((vs.map CritEvent.set).foldl Criterion.event c).nbModifications =
      c.nbModifications + BitVec.ofNat 32 (realChanges c.state vs) := by
  induction vs generalizing c with
  | nil => simp [realChanges]
  | cons v vs ih =>
    simp only [List.map_cons, List.foldl_cons, ih, Criterion.event, realChanges]
    by_cases h : c.state = v
    · simp [Criterion.setState, h]
    · simp only [Criterion.setState, ne_eq, h, not_false_eq_true, if_true, if_false]
      apply BitVec.eq_of_toNat_eq
      simp only [BitVec.toNat_add, BitVec.toNat_ofNat]
      omega

/-- C10: after any history whose last application of the configurations is followed by the calls
`set vs`, the criterion is reported modified exactly when the number of real changes is not a
multiple of 2^32; the reported state is the last value set. -/
theorem C10_modified_iff (c : Criterion) (before : List CritEvent) (vs : List (BitVec 32)) :
    let c0 := before.foldl Criterion.event c
    let c1 := (before ++ CritEvent.apply :: vs.map CritEvent.set).foldl Criterion.event c
    (c1.hasBeenModified = true ↔ realChanges c0.state vs % 2 ^ 32 ≠ 0) ∧
    c1.state = (vs.getLast?).getD c0.state := by
  intro c0 c1
  have e : c1 = (vs.map CritEvent.set).foldl Criterion.event c0.resetModified := by
    simp [c1, c0, List.foldl_append, Criterion.event]
  constructor
  · unfold Criterion.hasBeenModified
    rw [e, event_foldl_sets]
    simp only [Criterion.resetModified, BitVec.zero_add]
    rw [bne_iff_ne, ne_eq, ne_eq, not_congr]
    constructor
    · intro h
      have := congrArg BitVec.toNat h
      simpa [BitVec.toNat_ofNat] using this
    · intro h
      apply BitVec.eq_of_toNat_eq
      simpa [BitVec.toNat_ofNat] using h
  · rw [e]
    have : ∀ (vs : List (BitVec 32)) (c : Criterion),
        ((vs.map CritEvent.set).foldl Criterion.event c).state = (vs.getLast?).getD c.state := by
      intro vs
      induction vs with
      | nil => simp
      | cons v vs ih =>
        intro c
        simp only [List.map_cons, List.foldl_cons, ih, List.getLast?_cons]
        have : (c.event (.set v)).state = v := by
          simp only [Criterion.event, Criterion.setState]; split <;> simp_all
        rw [this]; cases vs.getLast? <;> simp
    rw [this]; rfl

/-- Number of changes is zero exactly when every value set equals the state: no real change. -/
theorem C10_no_change_iff (st : BitVec 32) (vs : List (BitVec 32)) :
    realChanges st vs = 0 ↔ ∀ v ∈ vs, v = st := by
  induction vs generalizing st with
  | nil => simp [realChanges]
  | cons v vs ih =>
    simp only [realChanges, List.mem_cons, forall_eq_or_imp]
    by_cases h : st = v
    · subst h; simp [ih]
    · simp [h]; intro h'; exact absurd h'.symm h

/-- C10 (`_partial`: fewer than 2^32 calls since the last application; the counter wraps, see
`C10_counter_wraps`): reported modified exactly when some value set since then differed from the
state at that time. -/
theorem C10_modified_iff_changed_partial (c : Criterion) (before : List CritEvent)
    (vs : List (BitVec 32)) (hlen : vs.length < 2 ^ 32) :
    let c0 := before.foldl Criterion.event c
    let c1 := (before ++ CritEvent.apply :: vs.map CritEvent.set).foldl Criterion.event c
    c1.hasBeenModified = true ↔ ∃ v ∈ vs, v ≠ c0.state := by
  intro c0 c1
  rw [(C10_modified_iff c before vs).1]
  have hle : ∀ (vs : List (BitVec 32)) st, realChanges st vs ≤ vs.length := by
    intro vs
    induction vs with
    | nil => simp [realChanges]
    | cons v vs ih => intro st; have := ih v; simp only [realChanges, List.length_cons]; split <;> omega
  have h1 := hle vs c0.state
  rw [Nat.mod_eq_of_lt (Nat.lt_of_le_of_lt h1 hlen), ne_eq, C10_no_change_iff]
  simp [c0]

/-- A list alternating between two values. -/
def alternate (a b : BitVec 32) : Nat → List (BitVec 32)
  | 0 => []
  | n + 1 => a :: alternate b a n

theorem realChanges_alternate (a b : BitVec 32) (h : a ≠ b) (n : Nat) :
    realChanges b (alternate a b n) = n := by
  induction n generalizing a b with
  | zero => rfl
  | succ n ih =>
    simp only [alternate, realChanges]
    rw [ih b a (Ne.symm h), if_neg (Ne.symm h)]; omega

/-- C10, limit of the code: after 2^32 real changes the 32-bit counter is back to zero and the
criterion is reported unmodified although it changed, and although its value may differ. -/
theorem C10_counter_wraps (c : Criterion) (a : BitVec 32) (h : a ≠ c.state) :
    let c1 := (CritEvent.apply :: (alternate a c.state (2 ^ 32)).map CritEvent.set).foldl
      Criterion.event c
    c1.hasBeenModified = false ∧ a ∈ alternate a c.state (2 ^ 32) := by
  intro c1
  constructor
  · have := (C10_modified_iff c [] (alternate a c.state (2 ^ 32))).1
    simp only [List.foldl_nil, List.nil_append] at this
    rw [realChanges_alternate a c.state h] at this
    have h2 : ¬ (c1.hasBeenModified = true) := by rw [this]; omega
    simpa using h2
  · have : ∀ n, 0 < n → a ∈ alternate a c.state n := by
      intro n hn; cases n with
      | zero => omega
      | succ n => simp [alternate]
    exact this _ (by omega)

example : ((([.set 1, .apply, .set 1, .set 1] : List CritEvent).foldl Criterion.event
    ⟨s "c", sampleIncl, 0#32, 0⟩).hasBeenModified = false) ∧
  ((([.set 1, .apply, .set 1, .set 2, .set 1] : List CritEvent).foldl Criterion.event
    ⟨s "c", sampleIncl, 0#32, 0⟩).hasBeenModified = true) := by decide

end PF
