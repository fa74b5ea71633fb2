import Verif.Model.RuleParser
import Verif.Lemmas.CriterionText

/-! Helper lemmas about the rule parser. -/

namespace PF
open Spec

theorem splitFirst_some {p : Char → Bool} {t a b : Str} {d : Char}
    (h : splitFirst p t = some (a, d, b)) :
    t = a ++ d :: b ∧ p d = true ∧ ∀ c ∈ a, p c = false := by
  induction t generalizing a with
  | nil => simp [splitFirst] at h
  | cons c t ih =>
    simp only [splitFirst] at h
    split at h
    · simp only [Option.some.injEq, Prod.mk.injEq] at h
      obtain ⟨rfl, rfl, rfl⟩ := h
      simp_all
    · rename_i hc
      simp only [Option.map_eq_some_iff, Prod.exists] at h
      obtain ⟨a', d', b', h1, h2⟩ := h
      simp only [Prod.mk.injEq] at h2
      obtain ⟨rfl, rfl, rfl⟩ := h2
      obtain ⟨h3, h4, h5⟩ := ih h1
      refine ⟨by simp [h3], h4, ?_⟩
      simp only [List.mem_cons]
      rintro x (rfl | hx)
      · simpa using hc
      · exact h5 x hx

theorem splitFirst_eq {p : Char → Bool} {a b : Str} {d : Char} (hd : p d = true)
    (ha : ∀ c ∈ a, p c = false) : splitFirst p (a ++ d :: b) = some (a, d, b) := by
  induction a with
  | nil => simp [splitFirst, hd]
  | cons c a ih =>
    have hc := ha c (by simp)
    simp [splitFirst, hc, ih (fun x hx => ha x (by simp [hx]))]

theorem splitFirst_none {p : Char → Bool} {t : Str} :
    splitFirst p t = none ↔ ∀ c ∈ t, p c = false := by
  induction t with
  | nil => simp [splitFirst]
  | cons c t ih =>
    simp only [splitFirst]
    split
    · simp_all
    · simp_all

theorem consumeSpaces_length (t : Str) : (consumeSpaces t).length ≤ t.length := by
  unfold consumeSpaces
  split
  · simp
  · rename_i h
    obtain ⟨h1, -, -⟩ := splitFirst_some h
    rw [h1]; simp

theorem consumeSpaces_cons {c : Char} (h : c ≠ ' ') (t : Str) : consumeSpaces (c :: t) = c :: t := by
  simp [consumeSpaces, splitFirst, h]

theorem consumeSpaces_space {c : Char} (h : c ≠ ' ') (t : Str) :
    consumeSpaces (' ' :: c :: t) = c :: t := by
  simp [consumeSpaces, splitFirst, h]

/-- Whenever `iterate` answers, either it consumed something or parsing is done. -/
theorem iterate_progress {st st' : PState} (h : iterate st = .ok st') :
    st'.rest.length < st.rest.length ∨
      (st'.status = .done ∧ st'.rest.length ≤ st.rest.length) := by
  unfold iterate at h; dsimp only at h
  have hl := consumeSpaces_length st.rest
  split at h
  · rename_i before c after hs
    obtain ⟨h1, -, -⟩ := splitFirst_some hs
    have h2 : (consumeSpaces st.rest).length = before.length + (after.length + 1) := by
      rw [h1]; simp
    left
    split at h
    · simp at h; subst h; simp; omega
    · split at h
      · split at h
        · simp at h
        · simp at h; subst h; simp; omega
      · split at h <;> (simp at h; subst h; simp; omega)
  · split at h; · simp at h
    split at h; · simp at h
    · simp at h; subst h; right; exact ⟨rfl, hl⟩

theorem iterate_not_fuel (st : PState) : iterate st ≠ .outOfFuel ∧ iterate st ≠ .abort := by
  unfold iterate; dsimp only
  constructor <;> (split <;> (repeat' split) <;> simp)

theorem nextWord_length {st st' : PState} {w} (h : nextWord st = .ok (w, st')) :
    st'.rest.length ≤ st.rest.length := by
  unfold nextWord at h; dsimp only at h
  have hl := consumeSpaces_length st.rest
  split at h
  · simp at h
  · rename_i before c after hs
    obtain ⟨h1, -, -⟩ := splitFirst_some hs
    have h2 : (consumeSpaces st.rest).length = before.length + (after.length + 1) := by
      rw [h1]; simp
    simp at h; obtain ⟨rfl, rfl⟩ := h; simp; omega

theorem nextWord_answers (st : PState) : nextWord st ≠ .outOfFuel ∧ nextWord st ≠ .abort := by
  unfold nextWord; dsimp only
  constructor <;> (split <;> simp)

theorem setMatchesWhen_answers (t w) :
    setMatchesWhen t w ≠ .outOfFuel ∧ setMatchesWhen t w ≠ .abort := by
  unfold setMatchesWhen
  simp only [setMatchesWhen.go]
  constructor <;> (repeat' split) <;> simp

theorem parseCriterionRule_answers (cs st) :
    parseCriterionRule cs st ≠ .outOfFuel ∧ parseCriterionRule cs st ≠ .abort := by
  unfold parseCriterionRule
  have h1 := nextWord_answers
  have h2 := setMatchesWhen_answers
  split; · simp
  split; · simp
  split
  · simp
  · rename_i h; exact absurd h (h1 _).2
  · rename_i h; exact absurd h (h1 _).1
  split
  · simp
  · rename_i h; exact absurd h (h1 _).2
  · rename_i h; exact absurd h (h1 _).1
  split
  · simp
  · rename_i h; exact absurd h (h2 _ _).2
  · rename_i h; exact absurd h (h2 _ _).1
  split <;> simp

theorem parseCriterionRule_length {cs st r st'} (h : parseCriterionRule cs st = .ok (r, st')) :
    st'.rest.length ≤ st.rest.length := by
  unfold parseCriterionRule at h
  split at h; · simp at h
  split at h; · simp at h
  split at h <;> try (simp at h; done)
  rename_i h1
  split at h <;> try (simp at h; done)
  rename_i h2
  split at h <;> try (simp at h; done)
  split at h <;> try (simp at h; done)
  simp at h
  obtain ⟨-, rfl⟩ := h
  have := nextWord_length h1
  have := nextWord_length h2
  omega

theorem parseLoop_fuel (cs : List Criterion) (fuel : Nat) : ∀ (hp : Bool) (acc : List Rule)
    (st : PState), st.rest.length < fuel →
      parseLoop cs fuel hp acc st ≠ .outOfFuel ∧
      ∀ ch st', parseLoop cs fuel hp acc st = .ok (ch, st') → st'.rest.length ≤ st.rest.length := by
  induction fuel with
  | zero => intro _ _ _ h; omega
  | succ fuel ih =>
    intro hp acc st hlt
    rw [parseLoop]
    have hit := iterate_not_fuel st
    split
    · simp
    · rename_i h; exact absurd h hit.2
    · rename_i h; exact absurd h hit.1
    rename_i st1 hst1
    have hprog := iterate_progress hst1
    split
    · -- beginCompound
      rename_i hs
      have hlen : st1.rest.length < st.rest.length := by
        rcases hprog with h | h
        · exact h
        · rw [hs] at h; simp at h
      split
      · simp
      · rename_i h; unfold parseCompoundType at h; (repeat' split at h) <;> simp at h
      · rename_i h; unfold parseCompoundType at h; (repeat' split at h) <;> simp at h
      rename_i all hall
      obtain ⟨i1, i2⟩ := ih true [] st1 (by omega)
      split
      · simp
      · simp
      · rename_i h; exact absurd h i1
      rename_i ch st2 h2
      have h3 := i2 _ _ h2
      split
      · obtain ⟨j1, j2⟩ := ih hp (acc ++ [.compound all ch]) st2 (by omega)
        exact ⟨j1, fun c s hcs => by have := j2 c s hcs; omega⟩
      · obtain ⟨j1, j2⟩ := ih hp acc { st2 with root := some (.compound all ch) } (by simp; omega)
        exact ⟨j1, fun c s hcs => by have := j2 c s hcs; simp at this; omega⟩
    · -- endCompound
      refine ⟨by simp, fun ch st' h => ?_⟩
      simp at h; obtain ⟨-, rfl⟩ := h
      rcases hprog with h | h <;> omega
    · -- continue
      rename_i hs
      have hlen : st1.rest.length < st.rest.length := by
        rcases hprog with h | h
        · exact h
        · rw [hs] at h; simp at h
      obtain ⟨j1, j2⟩ := ih hp acc st1 (by omega)
      exact ⟨j1, fun c s hcs => by have := j2 c s hcs; omega⟩
    · -- criterion
      rename_i hs
      have hlen : st1.rest.length < st.rest.length := by
        rcases hprog with h | h
        · exact h
        · rw [hs] at h; simp at h
      have hpc := parseCriterionRule_answers cs st1
      split
      · simp
      · rename_i h; exact absurd h hpc.2
      · rename_i h; exact absurd h hpc.1
      rename_i r st2 h2
      have := parseCriterionRule_length h2
      split
      · obtain ⟨j1, j2⟩ := ih hp (acc ++ [r]) st2 (by omega)
        exact ⟨j1, fun c s hcs => by have := j2 c s hcs; omega⟩
      · simp
    · -- done
      split
      · refine ⟨by simp, fun ch st' h => ?_⟩
        simp at h; obtain ⟨-, rfl⟩ := h
        rcases hprog with h | h <;> omega
      · simp
    · simp

end PF

namespace PF
open Spec

theorem numerical_known {t : CritType} {text : Str} {v : BitVec 32}
    (h : t.numerical text = some v) : KnownValue t v := by
  unfold KnownValue
  unfold CritType.numerical at h
  split at h
  · rename_i hi
    simp only [hi, if_true]
    rw [orAll_eq] at h
    simp only [Option.map_eq_some_iff, mapM_option_some] at h
    obtain ⟨vs, hm, hv⟩ := h
    refine ⟨vs, ?_, by simpa using hv.symm⟩
    intro w hw
    have : some w ∈ (tokenize ['|'] true text).map t.atomic := by
      rw [hm]; exact List.mem_map.mpr ⟨w, hw, rfl⟩
    obtain ⟨l, -, hl⟩ := List.mem_map.mp this
    exact ⟨l, LitMap.mem_of_find hl⟩
  · rename_i hi
    simp only [hi, Bool.false_eq_true, if_false]
    exact ⟨text, LitMap.mem_of_find h⟩

theorem setMatchesWhen_ok {t : CritType} {w : Str} {verb : Verb} (h : setMatchesWhen t w = .ok verb) :
    w = verb.text ∧ (t.inclusive = true ∨ verb = .is ∨ verb = .isNot) := by
  unfold setMatchesWhen at h
  simp only [setMatchesWhen.go] at h
  (repeat' split at h) <;> simp at h <;> subst h <;> simp_all [Verb.exclusiveOk]

theorem parseCriterionRule_wt {cs : List Criterion} {st st' : PState} {r : Rule}
    (h : parseCriterionRule cs st = .ok (r, st')) : WellTyped cs r ∧ st'.root = st.root := by
  unfold parseCriterionRule at h
  split at h; · simp at h
  split at h; · simp at h
  rename_i c hc
  split at h <;> try (simp at h; done)
  rename_i h1
  split at h <;> try (simp at h; done)
  rename_i h2
  split at h <;> try (simp at h; done)
  rename_i verb hverb
  split at h <;> try (simp at h; done)
  rename_i v hv
  simp at h
  obtain ⟨rfl, rfl⟩ := h
  have hroot : ∀ {a b : PState} {w}, nextWord a = .ok (w, b) → b.root = a.root := by
    intro a b w h
    unfold nextWord at h; dsimp only at h
    split at h
    · simp at h
    · simp at h; obtain ⟨-, rfl⟩ := h; rfl
  exact ⟨.crit _ _ _ c hc (setMatchesWhen_ok hverb).2 (numerical_known hv),
    (hroot h2).trans (hroot h1)⟩

theorem iterate_root {st st' : PState} (h : iterate st = .ok st') : st'.root = st.root := by
  unfold iterate at h; dsimp only at h
  split at h
  · (repeat' split at h) <;> simp at h <;> subst h <;> rfl
  · (repeat' split at h) <;> simp at h <;> subst h <;> rfl

theorem parseLoop_wt (cs : List Criterion) (fuel : Nat) : ∀ (hp : Bool) (acc : List Rule)
    (st : PState) (ch : List Rule) (st' : PState), (∀ r ∈ acc, WellTyped cs r) →
      (∀ r, st.root = some r → WellTyped cs r) → parseLoop cs fuel hp acc st = .ok (ch, st') →
      (∀ r ∈ ch, WellTyped cs r) ∧ (∀ r, st'.root = some r → WellTyped cs r) := by
  induction fuel with
  | zero => intro _ _ _ _ _ _ _ h; simp [parseLoop] at h
  | succ fuel ih =>
    intro hp acc st ch st' hacc hroot h
    rw [parseLoop] at h
    split at h <;> try (simp at h; done)
    rename_i st1 hst1
    have hr1 := iterate_root hst1
    have hroot1 : ∀ r, st1.root = some r → WellTyped cs r := by rw [hr1]; exact hroot
    split at h
    · split at h <;> try (simp at h; done)
      rename_i all hall
      split at h <;> try (simp at h; done)
      rename_i ch2 st2 h2
      obtain ⟨a, b⟩ := ih true [] st1 ch2 st2 (by simp) hroot1 h2
      split at h
      · refine ih hp _ st2 ch st' ?_ b h
        intro r hr
        simp only [List.mem_append, List.mem_singleton] at hr
        rcases hr with hr | rfl
        · exact hacc r hr
        · exact .compound _ _ a
      · refine ih hp _ _ ch st' hacc ?_ h
        intro r hr
        simp at hr; subst hr; exact .compound _ _ a
    · simp at h; obtain ⟨rfl, rfl⟩ := h; exact ⟨hacc, hroot1⟩
    · exact ih hp acc st1 ch st' hacc hroot1 h
    · split at h <;> try (simp at h; done)
      rename_i r st2 h2
      obtain ⟨a, b⟩ := parseCriterionRule_wt h2
      split at h
      · refine ih hp _ st2 ch st' ?_ (by rw [b]; exact hroot1) h
        intro r hr
        simp only [List.mem_append, List.mem_singleton] at hr
        rcases hr with hr | rfl
        · exact hacc r hr
        · exact a
      · simp at h
    · split at h
      · simp at h; obtain ⟨rfl, rfl⟩ := h; exact ⟨hacc, hroot1⟩
      · simp at h
    · simp at h

theorem parseLoop_compound (cs : List Criterion) (fuel : Nat) : ∀ (hp : Bool) (acc : List Rule)
    (st : PState) (ch : List Rule) (st' : PState), (∀ r, st.root = some r → ∃ a rs, r = .compound a rs) →
      parseLoop cs fuel hp acc st = .ok (ch, st') → ∀ r, st'.root = some r → ∃ a rs, r = .compound a rs := by
  induction fuel with
  | zero => intro _ _ _ _ _ _ h; simp [parseLoop] at h
  | succ fuel ih =>
    intro hp acc st ch st' hroot h
    rw [parseLoop] at h
    split at h <;> try (simp at h; done)
    rename_i st1 hst1
    have hr1 := iterate_root hst1
    have hroot1 : ∀ r, st1.root = some r → ∃ a rs, r = .compound a rs := by rw [hr1]; exact hroot
    split at h
    · split at h <;> try (simp at h; done)
      rename_i all hall
      split at h <;> try (simp at h; done)
      rename_i ch2 st2 h2
      have b := ih true [] st1 ch2 st2 hroot1 h2
      split at h
      · exact ih hp _ st2 ch st' b h
      · refine ih hp _ _ ch st' ?_ h
        intro r hr
        simp at hr; subst hr; exact ⟨_, _, rfl⟩
    · simp at h; obtain ⟨rfl, rfl⟩ := h; exact hroot1
    · exact ih hp acc st1 ch st' hroot1 h
    · split at h <;> try (simp at h; done)
      rename_i r st2 h2
      obtain ⟨a, b⟩ := parseCriterionRule_wt h2
      split at h
      · exact ih hp _ st2 ch st' (by rw [b]; exact hroot1) h
      · simp at h
    · split at h
      · simp at h; obtain ⟨rfl, rfl⟩ := h; exact hroot1
      · simp at h
    · simp at h

/-- An accepted text is that of a compound rule. -/
theorem parseRule_compound {cs : List Criterion} {text : Str} {r : Rule} (h : parseRule cs text = .ok r) :
    ∃ a rs, r = .compound a rs := by
  unfold parseRule at h
  split at h <;> try (simp at h; done)
  rename_i ch st h1
  split at h
  · simp at h; subst h
    rename_i r hr
    exact parseLoop_compound cs _ false [] _ ch st (by simp) h1 r hr
  · simp at h

/-! ### Round-trip -/

theorem iterate_delim {rest before after : Str} {c : Char} {st : PState}
    (hrest : consumeSpaces st.rest = rest) (hsplit : rest = before ++ c :: after)
    (hc : c ∈ st.status.delims) (hb : ∀ x ∈ before, x ∉ st.status.delims) :
    iterate st =
      if c = '{' then
        .ok { st with rest := after, status := .beginCompound, type := before, depth := st.depth + 1 }
      else if c = '}' then
        if st.depth = 0 then .err .missingOpeningBrace
        else .ok { st with rest := after, status := .endCompound, depth := st.depth - 1 }
      else if c = ' ' then
        .ok { st with rest := after, status := .criterion, type := before }
      else
        .ok { st with rest := after, status := .continue_ } := by
  unfold iterate
  dsimp only
  rw [hrest, hsplit, splitFirst_eq (by simpa using hc) (by simpa using hb)]

theorem nextWord_eq {st : PState} {before after : Str} {c : Char}
    (hrest : consumeSpaces st.rest = before ++ c :: after) (hc : c ∈ ['{', '}', ' ', ','])
    (hb : ∀ x ∈ before, x ∉ ['{', '}', ' ', ',']) :
    nextWord st = .ok (before, { st with rest := c :: after }) := by
  unfold nextWord
  dsimp only
  rw [hrest, splitFirst_eq (by simpa using hc) (by simpa using hb)]

theorem verb_text_chars (verb : Verb) : verb.text ≠ [] ∧ ∀ x ∈ verb.text, x ∉ ['{', '}', ' ', ','] := by
  cases verb <;> decide

theorem setMatchesWhen_text (t : CritType) (verb : Verb)
    (h : t.inclusive = true ∨ verb = .is ∨ verb = .isNot) : setMatchesWhen t verb.text = .ok verb := by
  have e : ∀ a b : Verb, (a.text = b.text) ↔ a = b := by
    intro a b; cases a <;> cases b <;> simp [Verb.text] <;> decide
  unfold setMatchesWhen
  simp only [setMatchesWhen.go, e]
  cases verb <;> simp_all [Verb.exclusiveOk]

theorem findCriterion_eq {cs : List Criterion} {i : Nat} {c : Criterion} (hc : cs[i]? = some c)
    (hne : c.name ≠ []) (hfirst : ∀ j c', j < i → cs[j]? = some c' → c'.pathName ≠ c.name) :
    findCriterion cs c.name = some i := by
  unfold findCriterion
  rw [List.findIdx?_eq_some_iff_getElem]
  obtain ⟨hlt, hget⟩ := List.getElem?_eq_some_iff.mp hc
  refine ⟨hlt, ?_, ?_⟩
  · simp [hget, Criterion.pathName, hne]
  · intro j hj
    have := hfirst j (cs[j]'(by omega)) hj (List.getElem?_eq_getElem (by omega))
    simpa using this

/-- Parsing the printed form of a criterion rule, from just after its name. -/
theorem parseCriterionRule_printed {cs : List Criterion} {i : Nat} {verb : Verb} {v : BitVec 32}
    {c : Criterion} {l : Str} (hc : cs[i]? = some c)
    (hfirst : ∀ j c', j < i → cs[j]? = some c' → c'.pathName ≠ c.name)
    (hname : c.name ≠ []) (hverb : c.type.inclusive = true ∨ verb = .is ∨ verb = .isNot)
    (hchars : ∀ x ∈ l, x ≠ '{' ∧ x ≠ '}' ∧ x ≠ ' ' ∧ x ≠ ',')
    (hback : c.type.numerical l = some v) (st : PState) (htype : st.type = c.name)
    (d : Char) (tail : Str) (hd : d = ',' ∨ d = '}')
    (hrest : st.rest = verb.text ++ ' ' :: l ++ d :: tail) :
    parseCriterionRule cs st = .ok (.crit i verb v, { st with rest := d :: tail }) := by
  unfold parseCriterionRule
  rw [htype, findCriterion_eq hc hname hfirst]
  simp only [hc]
  obtain ⟨hv1, hv2⟩ := verb_text_chars verb
  have e1 : consumeSpaces st.rest = verb.text ++ ' ' :: (l ++ d :: tail) := by
    rw [hrest]
    cases hvt : verb.text with
    | nil => exact absurd hvt hv1
    | cons x xs =>
      have : x ≠ ' ' := by
        have := hv2 x (by rw [hvt]; simp)
        simp at this; exact this.2.2.1
      simp only [List.cons_append, List.append_assoc]
      rw [consumeSpaces_cons this]
  rw [nextWord_eq e1 (by simp) hv2]
  dsimp only
  have hl : ∀ x ∈ l, x ∉ ['{', '}', ' ', ','] := by
    intro x hx; simpa using hchars x hx
  have e2 : consumeSpaces (' ' :: (l ++ d :: tail)) = l ++ d :: tail := by
    cases l with
    | nil => simp only [List.nil_append]; exact consumeSpaces_space (by rcases hd with rfl | rfl <;> decide) _
    | cons x xs =>
      have : x ≠ ' ' := (hchars x (by simp)).2.2.1
      simp only [List.cons_append]
      exact consumeSpaces_space this _
  rw [nextWord_eq (st := { st with rest := ' ' :: (l ++ d :: tail) }) e2
    (by rcases hd with rfl | rfl <;> simp) hl]
  dsimp only
  rw [setMatchesWhen_text _ _ hverb]
  simp only [hback, htype]

theorem compoundType_parse (a : Bool) : parseCompoundType (compoundType a) = .ok a := by
  cases a <;> rfl

theorem compoundType_chars (a : Bool) : compoundType a ≠ [] ∧
    ∀ x ∈ compoundType a, x ≠ '{' ∧ x ≠ '}' ∧ x ≠ ' ' := by
  cases a <;> decide

/-- Parsing the printed children of a compound rule, up to and including the closing brace. -/
theorem parseLoop_printed (cs : List Criterion) (fuel : Nat) : ∀ (rs acc : List Rule) (d : Nat)
    (first : Bool) (tail : Str) (st : PState),
    (∀ r ∈ rs, Printable cs r) →
    st.depth = d + 1 →
    (if first then st.status = .beginCompound else st.status = .endCompound ∨ st.status = .criterion) →
    st.rest = Rule.dumpLoop cs first rs ++ '}' :: tail →
    st.rest.length < fuel →
    ∃ ty, parseLoop cs fuel true acc st =
      .ok (acc ++ rs, { rest := tail, depth := d, type := ty, status := .endCompound, root := st.root }) := by
  induction fuel using Nat.strongRecOn with
  | _ fuel ih =>
    intro rs acc d first tail st hpr hdepth hstat hrest hfuel
    cases rs with
    | nil =>
      -- closing brace
      cases fuel with
      | zero => omega
      | succ fuel =>
        have e : consumeSpaces st.rest = [] ++ '}' :: tail := by
          rw [hrest]; simp [Rule.dumpLoop]; exact consumeSpaces_cons (by decide) _
        have hmem : '}' ∈ st.status.delims := by
          cases first <;> simp at hstat
          · rcases hstat with h | h <;> rw [h] <;> decide
          · rw [hstat]; decide
        rw [parseLoop, iterate_delim e rfl hmem (by simp)]
        simp [hdepth]
    | cons r rs =>
      have hprr := hpr r (by simp)
      have hprs : ∀ x ∈ rs, Printable cs x := fun x hx => hpr x (by simp [hx])
      -- after the element: the rest of the children, not first
      -- core: the element itself, from status begin/continue
      have core : ∀ (fuel' : Nat) (st0 : PState), fuel' ≤ fuel →
          st0.depth = d + 1 → (st0.status = .beginCompound ∨ st0.status = .continue_) →
          (consumeSpaces st0.rest = Rule.dump cs r ++ (Rule.dumpLoop cs false rs ++ '}' :: tail)) →
          (Rule.dump cs r ++ (Rule.dumpLoop cs false rs ++ '}' :: tail)).length < fuel' →
          ∃ ty, parseLoop cs fuel' true acc st0 =
            .ok (acc ++ r :: rs, { rest := tail, depth := d, type := ty, status := .endCompound, root := st0.root }) := by
        intro fuel' st0 hle hd0 hs0 hc0 hl0
        cases fuel' with
        | zero => omega
        | succ fuel' =>
          have hsub : ∀ x, x ∈ st0.status.delims → x = '{' ∨ x = '}' ∨ x = ' ' := by
            intro x hx
            rcases hs0 with h | h <;> rw [h] at hx <;> simp [PStatus.delims] at hx <;> grind
          have hopen : '{' ∈ st0.status.delims := by rcases hs0 with h | h <;> rw [h] <;> decide
          have hspace : ' ' ∈ st0.status.delims := by rcases hs0 with h | h <;> rw [h] <;> decide
          cases hprr with
          | crit i verb v c l hc hfirst hname hverb hlit hchars hback =>
            have hdump : Rule.dump cs (.crit i verb v) = c.name ++ ' ' :: (verb.text ++ ' ' :: l) := by
              simp [Rule.dump, hc, hlit]
            rw [hdump] at hc0 hl0
            have e1 : consumeSpaces st0.rest = c.name ++ ' ' ::
                (verb.text ++ ' ' :: l ++ (Rule.dumpLoop cs false rs ++ '}' :: tail)) := by
              rw [hc0]; simp
            rw [parseLoop, iterate_delim e1 rfl hspace (by
              intro x hx hx'
              have := hname.2 x hx
              rcases hsub x hx' with rfl | rfl | rfl <;> simp at this)]
            simp only [Char.reduceEq, if_false, if_true]
            -- next char after the value
            obtain ⟨dch, tl, htl, hdch⟩ : ∃ (dch : Char) (tl : Str),
                Rule.dumpLoop cs false rs ++ '}' :: tail = dch :: tl ∧ (dch = ',' ∨ dch = '}') := by
              cases rs with
              | nil => exact ⟨'}', tail, by simp [Rule.dumpLoop], .inr rfl⟩
              | cons r' rs' => exact ⟨',', _, by simp [Rule.dumpLoop, s]; rfl, .inl rfl⟩
            rw [parseCriterionRule_printed hc hfirst hname.1 hverb hchars hback _ rfl dch tl hdch
              (by simp [htl])]
            simp only []
            obtain ⟨ty, hty⟩ := ih fuel' (by omega) rs (acc ++ [.crit i verb v]) d false tail
              { st0 with rest := dch :: tl, status := .criterion, type := c.name } hprs hd0
              (by simp) (by simp [htl]) (by
                rw [← htl]
                simp only [List.length_append, List.length_cons] at hl0 ⊢
                omega)
            exact ⟨ty, by rw [hty]; simp⟩
          | compound a ch hch =>
            have hdump : Rule.dump cs (.compound a ch) =
                compoundType a ++ '{' :: (Rule.dumpLoop cs true ch ++ ['}']) := by
              simp [Rule.dump]
            rw [hdump] at hc0 hl0
            have e1 : consumeSpaces st0.rest = compoundType a ++ '{' ::
                (Rule.dumpLoop cs true ch ++ '}' :: (Rule.dumpLoop cs false rs ++ '}' :: tail)) := by
              rw [hc0]; simp
            rw [parseLoop, iterate_delim e1 rfl hopen (by
              intro x hx hx'
              have := (compoundType_chars a).2 x hx
              rcases hsub x hx' with rfl | rfl | rfl <;> simp at this)]
            simp only [if_true, compoundType_parse]
            simp only [List.length_append, List.length_cons, List.length_nil] at hl0
            obtain ⟨ty1, h1⟩ := ih fuel' (by omega) ch [] (d + 1) true
              (Rule.dumpLoop cs false rs ++ '}' :: tail)
              { st0 with
                rest := Rule.dumpLoop cs true ch ++ '}' :: (Rule.dumpLoop cs false rs ++ '}' :: tail)
                status := .beginCompound, type := compoundType a, depth := st0.depth + 1 }
              hch (by simp [hd0]) (by simp) rfl (by
                simp only [List.length_append, List.length_cons]; omega)
            rw [h1]
            simp only [List.nil_append]
            obtain ⟨ty2, h2⟩ := ih fuel' (by omega) rs (acc ++ [.compound a ch]) d false tail
              { rest := Rule.dumpLoop cs false rs ++ '}' :: tail, depth := d + 1, type := ty1,
                status := .endCompound, root := st0.root } hprs rfl (by simp) rfl (by
                simp only [List.length_append, List.length_cons]; omega)
            exact ⟨ty2, by rw [h2]; simp⟩
      have hhead : ∀ rest', ∃ x xs, Rule.dump cs r ++ rest' = x :: xs ∧ x ≠ ' ' := by
        intro rest'
        cases hprr with
        | crit i verb v c l hc hfirst hname hverb hlit hchars hback =>
          cases hn : c.name with
          | nil => exact absurd hn hname.1
          | cons x xs =>
            exact ⟨x, xs ++ _, by simp [Rule.dump, hc, hn]; rfl, (hname.2 x (by rw [hn]; simp)).2.2⟩
        | compound a ch hch =>
          cases a
          · exact ⟨'A', _, by simp [Rule.dump, compoundType, s]; rfl, by decide⟩
          · exact ⟨'A', _, by simp [Rule.dump, compoundType, s]; rfl, by decide⟩
      obtain ⟨x, xs, hx, hxs⟩ := hhead (Rule.dumpLoop cs false rs ++ '}' :: tail)
      cases first with
      | true =>
        simp only [if_true] at hstat
        have hr : st.rest = Rule.dump cs r ++ (Rule.dumpLoop cs false rs ++ '}' :: tail) := by
          rw [hrest]; simp [Rule.dumpLoop]
        refine core fuel st (Nat.le_refl _) hdepth (.inl hstat) ?_ (by rw [← hr]; exact hfuel)
        rw [hr, hx, consumeSpaces_cons hxs]
      | false =>
        simp only [Bool.false_eq_true, if_false] at hstat
        have hr : st.rest = ',' :: ' ' :: (Rule.dump cs r ++ (Rule.dumpLoop cs false rs ++ '}' :: tail)) := by
          rw [hrest]; simp [Rule.dumpLoop, s]
        cases fuel with
        | zero => omega
        | succ fuel =>
          have e : consumeSpaces st.rest = [] ++ ',' :: ' ' ::
              (Rule.dump cs r ++ (Rule.dumpLoop cs false rs ++ '}' :: tail)) := by
            rw [hr]; exact consumeSpaces_cons (by decide) _
          have hmem : ',' ∈ st.status.delims := by
            rcases hstat with h | h <;> rw [h] <;> decide
          rw [parseLoop, iterate_delim e rfl hmem (by simp)]
          simp only [Char.reduceEq, if_false]
          refine core fuel
            { st with rest := ' ' :: (Rule.dump cs r ++ (Rule.dumpLoop cs false rs ++ '}' :: tail)),
                      status := .continue_ } (by omega) hdepth (.inr rfl) ?_ ?_
          · dsimp only; rw [hx, consumeSpaces_space hxs]
          · rw [hr] at hfuel; simp only [List.length_cons] at hfuel; omega

end PF
