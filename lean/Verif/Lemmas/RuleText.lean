import Verif.Spec.RuleText
import Verif.Lemmas.RuleParser

/-! Reading texts of the language of rules. -/

namespace PF
open Spec

theorem consumeSpaces_append {a t : Str} {c : Char} (ha : Spaces a) (hc : c ≠ ' ') : consumeSpaces (a ++ c :: t) = c :: t := by
  unfold consumeSpaces
  rw [splitFirst_eq (by simp [hc]) (fun x hx => by simp [ha x hx])]

theorem parseCriterionRule_text {cs : List Criterion} {name verb value a b : Str} {r : Rule} (hv : RuleWord value)
    (hm : CritMeans cs name verb value r) (hn : name ≠ []) (ha : Spaces a) (hb : Spaces b) (hb0 : b ≠ []) (st : PState)
    (htype : st.type = name) (d : Char) (tail : Str) (hd : d ∈ ['{', '}', ' ', ','])
    (hrest : st.rest = a ++ verb ++ b ++ value ++ d :: tail) :
    parseCriterionRule cs st = .ok (r, { st with rest := d :: tail }) := by
  obtain ⟨i, w, v, c, hc, rfl, hfirst, rfl, hverb, hback⟩ := hm
  unfold parseCriterionRule
  rw [htype, findCriterion_eq hc hn hfirst]
  simp only [hc]
  obtain ⟨hv1, hv2⟩ := verb_text_chars w
  obtain ⟨x, xs, hx⟩ : ∃ x xs, w.text = x :: xs := by
    cases h : w.text with
    | nil => exact absurd h hv1
    | cons x xs => exact ⟨x, xs, rfl⟩
  have hx' : x ≠ ' ' := by
    have := hv2 x (by rw [hx]; simp)
    simp at this; exact this.2.2.1
  obtain ⟨b', rfl⟩ : ∃ b', b = ' ' :: b' := by
    cases b with
    | nil => exact absurd rfl hb0
    | cons y ys => exact ⟨ys, by rw [hb y (by simp)]⟩
  have e1 : consumeSpaces st.rest = w.text ++ ' ' :: (b' ++ value ++ d :: tail) := by
    rw [hrest, hx]
    simp only [List.cons_append, List.append_assoc]
    rw [consumeSpaces_append ha hx']
  rw [nextWord_eq e1 (by simp) hv2]
  dsimp only
  have hl : ∀ x ∈ value, x ∉ ['{', '}', ' ', ','] := by
    intro x hx; simpa using hv.2 x hx
  have e2 : consumeSpaces (' ' :: (b' ++ value ++ d :: tail)) = value ++ d :: tail := by
    obtain ⟨y, ys, hy⟩ : ∃ y ys, value = y :: ys := by
      cases h : value with
      | nil => exact absurd h hv.1
      | cons y ys => exact ⟨y, ys, rfl⟩
    have hy' : y ≠ ' ' := (hv.2 y (by rw [hy]; simp)).2.2.1
    rw [hy]
    have := consumeSpaces_append (a := ' ' :: b') (c := y) (t := ys ++ d :: tail) hb hy'
    simpa using this
  rw [nextWord_eq (st := { st with rest := ' ' :: (b' ++ value ++ d :: tail) }) e2 hd hl]
  dsimp only
  rw [setMatchesWhen_text _ _ hverb]
  simp only [hback, htype]

/-- The first character of a rule is not a space. -/
theorem RuleText.head {cs : List Criterion} {r : Rule} {t : Str} (h : RuleText cs r t) : ∃ x xs, t = x :: xs ∧ x ≠ ' ' := by
  cases h with
  | @crit name verb value a b r hn hv hm ha ha0 hb hb0 =>
    cases hn' : name with
    | nil => exact absurd hn' hn.1
    | cons x xs => exact ⟨x, _, rfl, (hn.2 x (by rw [hn']; simp)).2.2.1⟩
  | @compound all rs body h =>
    cases all
    · exact ⟨'A', _, rfl, by decide⟩
    · exact ⟨'A', _, rfl, by decide⟩

/-- Reading rules, up to and including the closing brace. -/
theorem parseLoop_text (cs : List Criterion) (fuel : Nat) : ∀ (rs acc : List Rule) (d : Nat) (tail body : Str) (st : PState),
    RulesText cs rs body → st.depth = d + 1 → (st.status = .beginCompound ∨ st.status = .continue_ ∧ rs ≠ []) →
    st.rest = body ++ '}' :: tail → st.rest.length < fuel →
    ∃ ty, parseLoop cs fuel true acc st =
      .ok (acc ++ rs, { rest := tail, depth := d, type := ty, status := .endCompound, root := st.root }) := by
  induction fuel using Nat.strongRecOn with
  | _ fuel ih =>
    intro rs acc d tail body st hbody hdepth hstat hrest hfuel
    have key : ∀ (r : Rule) (rs : List Rule) (a t after : Str), Spaces a → RuleText cs r t → rs = rs →
        (st.status = .beginCompound ∨ st.status = .continue_) → st.rest = a ++ t ++ after → (∀ x xs, after = x :: xs → x ∈ ['}', ' ', ',']) →
        after ≠ [] → ∃ fuel' st', fuel' < fuel ∧ parseLoop cs fuel true acc st = parseLoop cs fuel' true (acc ++ [r]) st' ∧
          st'.depth = d + 1 ∧ st'.root = st.root ∧ (st'.status = .endCompound ∨ st'.status = .criterion) ∧ st'.rest = after ∧
          after.length < fuel' := by
      intro r rs a t after ha ht _ hs hr haft hne
      obtain ⟨x, xs, hx, hxs⟩ := RuleText.head ht
      have hcs : consumeSpaces st.rest = t ++ after := by
        rw [hr, hx, List.append_assoc, List.cons_append, consumeSpaces_append ha hxs]
      obtain ⟨y, ys, rfl⟩ : ∃ y ys, after = y :: ys := by
        cases after with
        | nil => exact absurd rfl hne
        | cons y ys => exact ⟨y, ys, rfl⟩
      have hy := haft y ys rfl
      have hsub : ∀ x, x ∈ st.status.delims → x = '{' ∨ x = '}' ∨ x = ' ' := by
        intro x hx
        rcases hs with h | h <;> rw [h] at hx <;> simp [PStatus.delims] at hx <;> grind
      have hopen : '{' ∈ st.status.delims := by rcases hs with h | h <;> rw [h] <;> decide
      have hspace : ' ' ∈ st.status.delims := by rcases hs with h | h <;> rw [h] <;> decide
      rw [hr] at hfuel
      cases fuel with
      | zero => omega
      | succ fuel =>
        cases ht with
        | @crit name verb value a1 b1 r hn hv hm ha1 ha10 hb1 hb10 =>
          obtain ⟨a2, rfl⟩ : ∃ a2, a1 = ' ' :: a2 := by
            cases a1 with
            | nil => exact absurd rfl ha10
            | cons z zs => exact ⟨zs, by rw [ha1 z (by simp)]⟩
          have e1 : consumeSpaces st.rest = name ++ ' ' :: (a2 ++ verb ++ b1 ++ value ++ y :: ys) := by
            rw [hcs]; simp
          refine ⟨fuel, { st with rest := y :: ys, status := .criterion, type := name }, by omega, ?_, hdepth, rfl, .inr rfl, rfl, ?_⟩
          · rw [parseLoop, iterate_delim e1 rfl hspace (by
              intro x hx hx'
              have := hn.2 x hx
              rcases hsub x hx' with rfl | rfl | rfl <;> simp at this)]
            simp only [Char.reduceEq, if_false, if_true]
            rw [parseCriterionRule_text hv hm hn.1 (fun z hz => ha1 z (by simp [hz])) hb1 hb10 _ rfl y ys (by simp only [List.mem_cons] at hy ⊢; exact .inr hy) rfl]
          · simp only [List.length_append, List.length_cons] at hfuel ⊢; omega
        | @compound all ch body1 hch =>
          have e1 : consumeSpaces st.rest = compoundType all ++ '{' :: (body1 ++ '}' :: y :: ys) := by
            rw [hcs]; simp
          simp only [List.length_append, List.length_cons, List.length_nil] at hfuel
          obtain ⟨ty1, h1⟩ := ih fuel (by omega) ch [] (d + 1) (y :: ys) body1
            { st with rest := body1 ++ '}' :: y :: ys, status := .beginCompound, type := compoundType all, depth := st.depth + 1 }
            hch (by simp [hdepth]) (.inl rfl) rfl (by simp only [List.length_append, List.length_cons]; omega)
          refine ⟨fuel, { rest := y :: ys, depth := d + 1, type := ty1, status := .endCompound, root := st.root }, by omega, ?_, rfl, rfl,
            .inl rfl, rfl, ?_⟩
          · rw [parseLoop, iterate_delim e1 rfl hopen (by
              intro x hx hx'
              have := (compoundType_chars all).2 x hx
              rcases hsub x hx' with rfl | rfl | rfl <;> simp at this)]
            simp only [if_true, compoundType_parse, h1, List.nil_append]
          · simp only [List.length_cons] at hfuel ⊢; omega
    have hstat' : st.status = .beginCompound ∨ st.status = .continue_ := hstat.imp_right And.left
    cases hbody with
    | @none a ha =>
      have hs : st.status = .beginCompound := by simpa using hstat
      cases fuel with
      | zero => omega
      | succ fuel =>
        have e : consumeSpaces st.rest = [] ++ '}' :: tail := by
          rw [hrest]; exact consumeSpaces_append ha (by decide)
        rw [parseLoop, iterate_delim e rfl (by rw [hs]; decide) (by simp)]
        simp [hdepth]
    | @last r a t b ha ht hb =>
      obtain ⟨fuel', st', hlt, he, hd', hroot, hs', hr', hf'⟩ := key r [] a t (b ++ '}' :: tail) ha ht rfl hstat' (by rw [hrest]; simp) (by
        intro x xs h
        cases b with
        | nil => simp at h; simp [← h.1]
        | cons z zs => simp at h; simp [← h.1, hb z (by simp)]) (by simp)
      rw [he]
      cases fuel' with
      | zero => omega
      | succ fuel' =>
        have e : consumeSpaces st'.rest = [] ++ '}' :: tail := by
          rw [hr']; exact consumeSpaces_append hb (by decide)
        rw [parseLoop, iterate_delim e rfl (by rcases hs' with h | h <;> rw [h] <;> decide) (by simp)]
        simp [hd', hroot]
    | @more r r' rs a t b rest ha ht hb hmore =>
      obtain ⟨fuel', st', hlt, he, hd', hroot, hs', hr', hf'⟩ := key r (r' :: rs) a t (b ++ ',' :: (rest ++ '}' :: tail)) ha ht rfl hstat'
        (by rw [hrest]; simp) (by
        intro x xs h
        cases b with
        | nil => simp at h; simp [← h.1]
        | cons z zs => simp at h; simp [← h.1, hb z (by simp)]) (by simp)
      rw [he]
      cases fuel' with
      | zero => omega
      | succ fuel' =>
        have e : consumeSpaces st'.rest = [] ++ ',' :: (rest ++ '}' :: tail) := by
          rw [hr']; exact consumeSpaces_append hb (by decide)
        rw [parseLoop, iterate_delim e rfl (by rcases hs' with h | h <;> rw [h] <;> decide) (by simp)]
        simp only [Char.reduceEq, if_false]
        obtain ⟨ty, h2⟩ := ih fuel' (by omega) (r' :: rs) (acc ++ [r]) d tail rest
          { st' with rest := rest ++ '}' :: tail, status := .continue_ } hmore hd' (.inr ⟨rfl, by simp⟩) rfl (by
            simp only [List.length_append, List.length_cons] at hf' ⊢; omega)
        exact ⟨ty, by rw [h2]; simp [hroot]⟩

/-- Every text of a rule in braces, with spaces before it or not, is accepted, and read as this rule. -/
theorem parseRule_text {cs : List Criterion} {all : Bool} {rs : List Rule} {a t : Str} (ha : Spaces a)
    (h : RuleText cs (.compound all rs) t) : parseRule cs (a ++ t) = .ok (.compound all rs) := by
  cases h with
  | crit _ _ hm => cases hm
  | @compound _ _ body hbody =>
    unfold parseRule
    have e1 : consumeSpaces (a ++ (compoundType all ++ '{' :: (body ++ ['}']))) = compoundType all ++ '{' :: (body ++ ['}']) := by
      cases all
      · exact consumeSpaces_append (c := 'A') ha (by decide)
      · exact consumeSpaces_append (c := 'A') ha (by decide)
    generalize hn : (a ++ (compoundType all ++ '{' :: (body ++ ['}']))).length = n
    have hlen : n = a.length + ((compoundType all).length + (body.length + 2)) := by
      rw [← hn]; simp
    rw [parseLoop, iterate_delim (st := ⟨_, _, _, _, _⟩) e1 rfl (by simp [PStatus.delims]) (by
      intro y hy hy'
      have := (compoundType_chars all).2 y hy
      simp [PStatus.delims] at hy'; subst hy'; simp at this)]
    simp only [if_true, compoundType_parse]
    obtain ⟨ty, h1⟩ := parseLoop_text cs n rs [] 0 [] body
      { rest := body ++ ['}'], depth := 0 + 1, type := compoundType all, status := .beginCompound, root := none } hbody rfl (.inl rfl) rfl (by
        have : 0 < (compoundType all).length := by cases all <;> decide
        simp only [List.length_append, List.length_cons, List.length_nil]; omega)
    rw [h1]
    simp only [Bool.false_eq_true, if_false, List.nil_append]
    cases n with
    | zero => omega
    | succ n =>
      rw [parseLoop]
      simp [iterate, consumeSpaces, splitFirst]

end PF
