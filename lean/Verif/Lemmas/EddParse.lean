import Verif.Lemmas.Edd

/-! Reading descriptions; the texts of rules; ways down the tree. -/

namespace PF
open Spec

/-! ## The tree of the lines -/

/-- The loop on lines that say something. -/
def eddPushAll (prev : Nat) (st : EddStack) : List (Nat × EddElem) → Except EddErr EddStack
  | [] => .ok st
  | (rank, e) :: l =>
    match eddPush rank e prev st with
    | .error e => .error e
    | .ok st => eddPushAll rank st l

theorem eddLoop_iff : ∀ (lines : List Str) (prev : Nat) (st st' : EddStack), eddLoop prev st lines = .ok st' ↔
    ∃ L, eddSignificant lines = .ok L ∧ eddPushAll prev st L = .ok st'
  | [], prev, st, st' => by simp [eddLoop, eddSignificant, eddPushAll]
  | line :: lines, prev, st, st' => by
    rw [eddLoop, eddSignificant]
    cases h : eddLine line with
    | error e => simp
    | ok o =>
      cases o with
      | none =>
        simp only
        rw [eddLoop_iff lines prev st st']
        cases h2 : eddSignificant lines <;> simp
      | some x =>
        obtain ⟨rank, e⟩ := x
        simp only
        cases hp : eddPush rank e prev st with
        | error er =>
          cases h2 : eddSignificant lines with
          | error _ => simp
          | ok L => simp [eddPushAll, hp]
        | ok st1 =>
          simp only
          rw [eddLoop_iff lines rank st1 st']
          cases h2 : eddSignificant lines with
          | error _ => simp
          | ok L => simp [eddPushAll, hp]

theorem eddCloseN_add : ∀ (a b : Nat) (st : EddStack), eddCloseN (a + b) st = eddCloseN b (eddCloseN a st)
  | 0, b, st => by simp [eddCloseN]
  | a + 1, b, st => by rw [Nat.add_right_comm, eddCloseN, eddCloseN, eddCloseN_add a b]

theorem eddLine_rank {line : Str} {x : Nat × EddElem} (h : eddLine line = .ok (some x)) : 1 ≤ x.1 := by
  unfold eddLine at h
  dsimp only at h
  split at h
  · simp at h
  · split at h
    · simp at h
    · split at h
      · simp at h
      · simp at h
      · simp only [Except.ok.injEq, Option.some.injEq] at h; subst h; simp

theorem eddSignificant_rank : ∀ {lines : List Str} {L : List (Nat × EddElem)}, eddSignificant lines = .ok L → ∀ x ∈ L, 1 ≤ x.1
  | [], L, h => by simp only [eddSignificant, Except.ok.injEq] at h; subst h; simp
  | line :: lines, L, h => by
    rw [eddSignificant] at h
    split at h
    · simp at h
    · simp at h
    · next h1 h2 => simp only [Except.ok.injEq] at h; subst h; exact eddSignificant_rank h2
    · next x l h1 h2 =>
      simp only [Except.ok.injEq] at h; subst h
      intro y hy
      rcases List.mem_cons.1 hy with rfl | hy
      · exact eddLine_rank h1
      · exact eddSignificant_rank h2 y hy

/-- The lines that have been put in the open elements. -/
def eddFlat : EddStack → List (Nat × EddElem)
  | [] => []
  | (e, k) :: st => eddFlat st ++ (st.length, e) :: eddPreorderAll (st.length + 1) k

theorem EddElem.permits_eq (e f : EddElem) : e.permits f = eddMayBeIn f e := by
  cases f <;> cases e <;> rfl

/-- Every open element is permitted where it is, and so is everything in it. -/
def EddStackOk : EddStack → Prop
  | [] => True
  | [(e, k)] => EddPermittedAll e k
  | (e, k) :: (e', k') :: st => EddPermittedAll e k ∧ eddMayBeIn e e' = true ∧ EddStackOk ((e', k') :: st)

theorem eddPreorderAll_append (r : Nat) : ∀ a b : List EddNode, eddPreorderAll r (a ++ b) = eddPreorderAll r a ++ eddPreorderAll r b
  | [], b => by simp [eddPreorderAll]
  | k :: a, b => by simp [eddPreorderAll, eddPreorderAll_append r a b]

theorem Spec.EddPermittedAll.append {e : EddElem} : ∀ {a b : List EddNode}, EddPermittedAll e a → EddPermittedAll e b → EddPermittedAll e (a ++ b)
  | [], _, _, hb => hb
  | k :: a, b, ha, hb => by
    rw [EddPermittedAll] at ha
    rw [List.cons_append, EddPermittedAll]
    exact ⟨ha.1, ha.2.1, EddPermittedAll.append ha.2.2 hb⟩

theorem eddClose_props {st : EddStack} (hl : 2 ≤ st.length) (ho : EddStackOk st) :
    (eddClose st).length + 1 = st.length ∧ eddFlat (eddClose st) = eddFlat st ∧ EddStackOk (eddClose st) := by
  match st, hl, ho with
  | (e, k) :: (e', k') :: st, _, ho =>
    obtain ⟨h1, h2, h3⟩ := ho
    refine ⟨by simp [eddClose], ?_, ?_⟩
    · simp [eddClose, eddFlat, eddPreorderAll_append, eddPreorderAll, eddPreorder]
    · have hnew : EddPermittedAll e' k' → EddPermittedAll e' (k' ++ [.mk e k]) := by
        intro h
        exact h.append ⟨h2, by rw [EddPermitted]; exact h1, trivial⟩
      cases st with
      | nil => exact hnew h3
      | cons x st => exact ⟨hnew h3.1, h3.2⟩

theorem eddCloseN_props : ∀ (n : Nat) {st : EddStack}, n + 1 ≤ st.length → EddStackOk st →
    (eddCloseN n st).length + n = st.length ∧ eddFlat (eddCloseN n st) = eddFlat st ∧ EddStackOk (eddCloseN n st)
  | 0, st, _, ho => ⟨rfl, rfl, ho⟩
  | n + 1, st, hl, ho => by
    obtain ⟨h1, h2, h3⟩ := eddClose_props (by omega) ho
    obtain ⟨g1, g2, g3⟩ := eddCloseN_props n (st := eddClose st) (by omega) h3
    rw [eddCloseN]
    exact ⟨by omega, by rw [g2, h2], g3⟩

theorem eddPushAll_props : ∀ (L : List (Nat × EddElem)) (prev : Nat) (st st' : EddStack), (∀ x ∈ L, 1 ≤ x.1) → st.length = prev + 1 →
    EddStackOk st → eddPushAll prev st L = .ok st' → eddFlat st' = eddFlat st ++ L ∧ EddStackOk st' ∧ 1 ≤ st'.length
  | [], prev, st, st', _, hl, ho, h => by
    simp only [eddPushAll, Except.ok.injEq] at h; subst h; exact ⟨by simp, ho, by omega⟩
  | (rank, e) :: L, prev, st, st', hr, hl, ho, h => by
    rw [eddPushAll] at h
    have hrank := hr _ (List.mem_cons_self ..)
    simp only at hrank
    cases hp : eddPush rank e prev st with
    | error er => rw [hp] at h; simp at h
    | ok st1 =>
      rw [hp] at h
      simp only at h
      unfold eddPush at hp
      split at hp
      · simp at hp
      next hle =>
      obtain ⟨g1, g2, g3⟩ := eddCloseN_props (st.length - rank) (by omega) ho
      split at hp
      next p k s hs =>
        split at hp
        next hperm =>
          rw [EddElem.permits_eq] at hperm
          simp only [Except.ok.injEq] at hp
          subst hp
          rw [hs] at g1 g2 g3
          simp only [List.length_cons] at g1
          obtain ⟨f1, f2, f3⟩ := eddPushAll_props L rank _ st' (fun x hx => hr x (List.mem_cons_of_mem _ hx)) (by
            simp only [List.length_cons]; omega) (by rw [EddStackOk]; exact ⟨by rw [EddPermittedAll]; trivial, hperm, g3⟩) h
          refine ⟨?_, f2, f3⟩
          rw [f1, eddFlat, g2]
          have : s.length + 1 = rank := by omega
          simp [eddPreorderAll, this]
        next => simp at hp
      next => simp at hp

mutual
/-- Reading the lines of an element adds it to the element it is below. -/
theorem eddPushAll_node : ∀ (n : EddNode) (r prev : Nat) (st0 s : EddStack) (p : EddElem) (k : List EddNode) (rest : List (Nat × EddElem)),
    EddPermitted n → eddMayBeIn n.el p = true → st0.length = prev + 1 → r ≤ prev + 1 → eddCloseN (st0.length - r) st0 = (p, k) :: s →
    s.length + 1 = r → ∃ st1 prev1, eddPushAll prev st0 (eddPreorder r n ++ rest) = eddPushAll prev1 st1 rest ∧ st1.length = prev1 + 1 ∧
      r ≤ prev1 + 1 ∧ eddCloseN (st1.length - r) st1 = (p, k ++ [n]) :: s
  | .mk e kids, r, prev, st0, s, p, k, rest, hperm, hp, hl, hr, hc, hs => by
    rw [EddPermitted] at hperm
    have h1 : eddPush r e prev st0 = .ok ((e, []) :: (p, k) :: s) := by
      unfold eddPush
      rw [if_neg (by omega), hc]
      simp only [EddNode.el] at hp
      rw [← EddElem.permits_eq] at hp
      simp [hp]
    obtain ⟨st1, prev1, g1, g2, g3, g4⟩ := eddPushAll_list kids (r + 1) r ((e, []) :: (p, k) :: s) ((p, k) :: s) e [] rest hperm
      (by simp [hs]) (by omega) (by simp [eddCloseN, hs]) (by simp [hs])
    refine ⟨st1, prev1, ?_, g2, by omega, ?_⟩
    · rw [eddPreorder, List.cons_append, eddPushAll, h1]
      exact g1
    · have : st1.length - r = (st1.length - (r + 1)) + 1 := by omega
      rw [this, eddCloseN_add, g4]
      simp [eddCloseN, eddClose]
theorem eddPushAll_list : ∀ (ks : List EddNode) (r prev : Nat) (st0 s : EddStack) (p : EddElem) (k : List EddNode)
    (rest : List (Nat × EddElem)), EddPermittedAll p ks → st0.length = prev + 1 → r ≤ prev + 1 →
    eddCloseN (st0.length - r) st0 = (p, k) :: s → s.length + 1 = r →
    ∃ st1 prev1, eddPushAll prev st0 (eddPreorderAll r ks ++ rest) = eddPushAll prev1 st1 rest ∧ st1.length = prev1 + 1 ∧
      r ≤ prev1 + 1 ∧ eddCloseN (st1.length - r) st1 = (p, k ++ ks) :: s
  | [], r, prev, st0, s, p, k, rest, _, hl, hr, hc, hs => ⟨st0, prev, by simp [eddPreorderAll], hl, hr, by simpa using hc⟩
  | n :: ks, r, prev, st0, s, p, k, rest, hperm, hl, hr, hc, hs => by
    rw [EddPermittedAll] at hperm
    obtain ⟨st1, prev1, g1, g2, g3, g4⟩ := eddPushAll_node n r prev st0 s p k (eddPreorderAll r ks ++ rest) hperm.2.1 hperm.1 hl hr hc hs
    obtain ⟨st2, prev2, f1, f2, f3, f4⟩ := eddPushAll_list ks r prev1 st1 s p (k ++ [n]) rest hperm.2.2 g2 g3 g4 hs
    refine ⟨st2, prev2, ?_, f2, f3, by simpa using f4⟩
    rw [eddPreorderAll, List.append_assoc, g1, f1]
end

/-- A description is accepted, and is the tree, exactly when its lines are those of the tree. -/
theorem eddParse_iff (lines : List Str) (tree : EddNode) : eddParse lines = .ok tree ↔
    tree.el = .root ∧ EddPermitted tree ∧ eddSignificant lines = .ok (eddPreorderAll 1 tree.kids) := by
  unfold eddParse
  constructor
  · intro h
    cases hl : eddLoop 0 [(.root, [])] lines with
    | error e => rw [hl] at h; simp at h
    | ok st =>
      rw [hl] at h
      obtain ⟨L, h1, h2⟩ := (eddLoop_iff ..).1 hl
      obtain ⟨g1, g2, g3⟩ := eddPushAll_props L 0 [(.root, [])] st (eddSignificant_rank h1) rfl (by rw [EddStackOk, EddPermittedAll]; trivial) h2
      obtain ⟨f1, f2, f3⟩ := eddCloseN_props (st.length - 1) (by omega) g2
      rw [g1] at f2
      simp only at h
      split at h
      next e k s hs =>
        rw [hs] at f1 f2 f3
        have : s = [] := by
          simp only [List.length_cons] at f1
          exact List.length_eq_zero_iff.1 (by omega)
        subst this
        simp only [Except.ok.injEq] at h
        subst h
        simp [eddFlat, eddPreorderAll] at f2
        obtain ⟨rfl, rfl⟩ := f2
        exact ⟨rfl, by rw [EddPermitted]; exact f3, h1⟩
      next => simp at h
  · obtain ⟨e, kids⟩ := tree
    rintro ⟨h1, h2, h3⟩
    simp only [EddNode.el] at h1
    subst h1
    rw [EddPermitted] at h2
    obtain ⟨st1, prev1, g1, g2, g3, g4⟩ := eddPushAll_list kids 1 0 [(.root, [])] [] .root [] [] h2 rfl (by omega) rfl rfl
    rw [List.append_nil, eddPushAll] at g1
    have : eddLoop 0 [(.root, [])] lines = .ok st1 := (eddLoop_iff ..).2 ⟨_, h3, g1⟩
    rw [this]
    simp [g4]

/-! ## The texts of rules -/

mutual
theorem eddRuleText_means (cs : List Criterion) : ∀ (n : EddNode) (r : Rule) (pre : Str), EddMeans cs n r → Spaces pre →
    n.el.isRule = true ∧ ∃ t, eddRuleText pre n = some (pre ++ t) ∧ RuleText cs r t
  | .mk (.rule c v e) k, r, pre, h, hp => by
    rw [EddMeans] at h
    obtain ⟨name, verb, value, a, b, hn, hv, ha, ha0, hb, hb0, he, hm⟩ := h
    exact ⟨rfl, _, by rw [eddRuleText], by rw [he]; exact .crit hn hv hm ha ha0 hb hb0⟩
  | .mk (.operator n) k, r, pre, h, hp => by
    rw [EddMeans] at h
    obtain ⟨rs, hk, hr⟩ := h
    have hp' : Spaces (pre ++ s "    ") := by
      intro x hx
      rcases List.mem_append.1 hx with hx | hx
      · exact hp x hx
      · simp [s] at hx; exact hx
    obtain ⟨ts, h1, h2⟩ := eddRuleTexts_means cs k rs (pre ++ s "    ") hk hp'
    have h3 := h2 (s " ") (pre ++ s " ") (by intro x hx; simp [s] at hx; exact hx) (by
      intro x hx
      rcases List.mem_append.1 hx with hx | hx
      · exact hp x hx
      · simp [s] at hx; exact hx)
    refine ⟨rfl, ?_⟩
    rcases hr with ⟨rfl, rfl⟩ | ⟨rfl, rfl⟩
    · refine ⟨_, ?_, .compound h3⟩
      rw [eddRuleText, h1]
      simp [eddOperator, s, compoundType]
    · refine ⟨_, ?_, .compound h3⟩
      rw [eddRuleText, h1]
      simp [eddOperator, s, compoundType]
  | .mk .root _, _, _, h, _ => by simp [EddMeans] at h
  | .mk (.domain _ _) _, _, _, h, _ => by simp [EddMeans] at h
  | .mk (.domainGroup _ _) _, _, _, h, _ => by simp [EddMeans] at h
  | .mk (.conf _) _, _, _, h, _ => by simp [EddMeans] at h
  | .mk (.confGroup _) _, _, _, h, _ => by simp [EddMeans] at h
  | .mk (.path _ _) _, _, _, h, _ => by simp [EddMeans] at h
  | .mk (.component _) _, _, _, h, _ => by simp [EddMeans] at h
theorem eddRuleTexts_means (cs : List Criterion) : ∀ (ks : List EddNode) (rs : List Rule) (pre : Str), EddMeansAll cs ks rs → Spaces pre →
    ∃ ts, eddRuleTexts pre ks = some ts ∧
      ∀ lead trail, Spaces lead → Spaces trail → RulesText cs rs (lead ++ pyJoin (s " , ") ts ++ trail)
  | [], rs, pre, h, hp => by
    rw [EddMeansAll] at h
    subst h
    refine ⟨[], by rw [eddRuleTexts], fun lead trail hl ht => ?_⟩
    refine .none ?_
    intro x hx
    simp only [pyJoin, List.append_nil, List.mem_append] at hx
    exact hx.elim (hl x) (ht x)
  | k :: ks, rs, pre, h, hp => by
    rw [EddMeansAll] at h
    obtain ⟨r, rs', rfl, hk, hks⟩ := h
    obtain ⟨hrule, t, h1, h2⟩ := eddRuleText_means cs k r pre hk hp
    obtain ⟨ts, h3, h4⟩ := eddRuleTexts_means cs ks rs' pre hks hp
    refine ⟨(pre ++ t) :: ts, by rw [eddRuleTexts, if_pos hrule, h1, h3], fun lead trail hl ht => ?_⟩
    have hlead : Spaces (lead ++ pre) := by
      intro x hx; exact (List.mem_append.1 hx).elim (hl x) (hp x)
    have hsp : Spaces (s " ") := by intro x hx; simp [s] at hx; exact hx
    cases ks with
    | nil =>
      rw [EddMeansAll] at hks
      subst hks
      rw [eddRuleTexts] at h3
      simp only [Option.some.injEq] at h3
      subst h3
      have := RulesText.last hlead h2 ht
      simpa [pyJoin] using this
    | cons k2 ks2 =>
      have hks0 := hks
      rw [EddMeansAll] at hks
      obtain ⟨r2, rs2, rfl, hk2, _⟩ := hks
      obtain ⟨t2, ts2, rfl⟩ : ∃ t2 ts2, ts = t2 :: ts2 := by
        obtain ⟨hr2, t2, q1, _⟩ := eddRuleText_means cs k2 r2 pre hk2 hp
        rw [eddRuleTexts, if_pos hr2, q1] at h3
        cases q : eddRuleTexts pre ks2 with
        | none => rw [q] at h3; simp at h3
        | some ts2 => rw [q] at h3; simp at h3; exact ⟨_, _, h3.symm⟩
      have := RulesText.more hlead h2 hsp (h4 (s " ") trail hsp ht)
      rw [pyJoin]
      · simpa [s] using this
      · simp
end

theorem Spec.EddMeansAll.isRule {cs : List Criterion} : ∀ {ks : List EddNode} {rs : List Rule}, EddMeansAll cs ks rs → ∀ k ∈ ks, k.el.isRule = true
  | [], _, _ => by simp
  | k :: ks, rs, h => by
    rw [EddMeansAll] at h
    obtain ⟨r, rs', rfl, hk, hks⟩ := h
    intro x hx
    rcases List.mem_cons.1 hx with rfl | hx
    · exact (eddRuleText_means cs x r [] hk (by intro x hx; simp at hx)).1
    · exact EddMeansAll.isRule hks x hx

/-- The text of the rule of a configuration is a text of a rule that holds when all of them do. -/
theorem eddRuleString_means {cs : List Criterion} {ks : List EddNode} {rs : List Rule} (h : EddMeansAll cs ks rs) :
    ∃ t all qs, eddRuleString ks = some t ∧ RuleText cs (.compound all qs) t ∧
      ∀ cs', Sat cs' (.compound all qs) ↔ ∀ r ∈ rs, Sat cs' r := by
  have hnil : Spaces ([] : Str) := by intro x hx; simp at hx
  have hsat : ∀ (cs' : List Criterion) (rs : List Rule), Sat cs' (.compound true rs) ↔ ∀ r ∈ rs, Sat cs' r := by
    intro cs' rs
    constructor
    · intro h; cases h; assumption
    · exact .all rs
  have hrules : eddRules ks = ks := eddRules_of_all h.isRule
  have hgen : EddMeans cs (.mk (.operator (s "ALL")) ks) (.compound true rs) := by
    rw [EddMeans]; exact ⟨rs, h, .inl ⟨rfl, rfl⟩⟩
  unfold eddRuleString
  rw [hrules]
  split
  · next n k hk =>
    rw [EddMeansAll] at h
    obtain ⟨r, rs', rfl, hm, hrest⟩ := h
    rw [EddMeansAll] at hrest
    subst hrest
    obtain ⟨_, t, h1, h2⟩ := eddRuleText_means cs _ r [] hm hnil
    rw [EddMeans] at hm
    obtain ⟨qs, _, ⟨_, rfl⟩ | ⟨_, rfl⟩⟩ := hm
    · exact ⟨t, true, qs, by simpa using h1, h2, by simp⟩
    · exact ⟨t, false, qs, by simpa using h1, h2, by simp⟩
  · obtain ⟨_, t, h1, h2⟩ := eddRuleText_means cs _ _ [] hgen hnil
    exact ⟨t, true, rs, by simpa using h1, h2, fun cs' => hsat cs' rs⟩

/-! ## Ways down the tree -/

/-- A way down from elements that follow `pre`. -/
def EddFrom (pre ks : List EddNode) (ch : EddChain) : Prop :=
  ∃ mid n post rest, ch = (pre ++ mid, n) :: rest ∧ ks = mid ++ n :: post ∧ (rest = [] ∨ EddBelow n.kids rest)

theorem EddFrom_nil {ks : List EddNode} {ch : EddChain} : EddFrom [] ks ch ↔ EddBelow ks ch := by
  constructor
  · rintro ⟨mid, n, post, rest, rfl, rfl, rfl | h⟩
    · exact .here ..
    · exact .deeper _ _ _ h
  · intro h
    cases h with
    | here pre n post => exact ⟨pre, n, post, [], rfl, rfl, .inl rfl⟩
    | @deeper pre n post ch h => exact ⟨pre, n, post, ch, rfl, rfl, .inr h⟩

theorem EddFrom_cons {pre ks : List EddNode} {k : EddNode} {ch : EddChain} : EddFrom pre (k :: ks) ch ↔
    (∃ rest, ch = (pre, k) :: rest ∧ (rest = [] ∨ EddBelow k.kids rest)) ∨ EddFrom (pre ++ [k]) ks ch := by
  constructor
  · rintro ⟨mid, n, post, rest, rfl, h1, h2⟩
    cases mid with
    | nil =>
      simp only [List.nil_append, List.cons.injEq] at h1
      obtain ⟨rfl, rfl⟩ := h1
      exact .inl ⟨rest, by simp, h2⟩
    | cons m mid =>
      simp only [List.cons_append, List.cons.injEq] at h1
      obtain ⟨rfl, rfl⟩ := h1
      exact .inr ⟨mid, n, post, rest, by simp, rfl, h2⟩
  · rintro (⟨rest, rfl, h⟩ | ⟨mid, n, post, rest, rfl, rfl, h⟩)
    · exact ⟨[], k, ks, rest, by simp, rfl, h⟩
    · exact ⟨k :: mid, n, post, rest, by simp, rfl, h⟩

mutual
theorem eddConfChain_iff : ∀ (n : EddNode) (pre : List EddNode) (x : EddChain × (List EddNode × EddNode)), x ∈ eddConfChain pre n ↔
    (∃ rest, x.1 ++ [x.2] = (pre, n) :: rest ∧ (rest = [] ∨ EddBelow n.kids rest)) ∧
      (∀ g ∈ x.1, g.2.el.isConfGroup = true) ∧ x.2.2.el.isConf = true
  | .mk e k, pre, (gs, c) => by
    have hleaf : e.isConfGroup = false → ((∃ rest, gs ++ [c] = (pre, EddNode.mk e k) :: rest ∧ (rest = [] ∨ EddBelow k rest)) ∧
        (∀ g ∈ gs, g.2.el.isConfGroup = true) ∧ c.2.el.isConf = true ↔ gs = [] ∧ c = (pre, .mk e k) ∧ e.isConf = true) := by
      intro he
      constructor
      · rintro ⟨⟨rest, h1, h2⟩, h3, h4⟩
        cases gs with
        | nil =>
          simp only [List.nil_append, List.cons.injEq] at h1
          obtain ⟨rfl, _⟩ := h1
          exact ⟨rfl, rfl, h4⟩
        | cons g gs =>
          simp only [List.cons_append, List.cons.injEq] at h1
          have := h3 g (List.mem_cons_self ..)
          rw [h1.1] at this
          simp [he] at this
      · rintro ⟨rfl, rfl, h⟩
        exact ⟨⟨[], rfl, .inl rfl⟩, by simp, h⟩
    cases e
    case confGroup m =>
      simp only [eddConfChain, List.mem_map, Prod.mk.injEq, EddNode.kids_mk]
      constructor
      · rintro ⟨⟨gs', c'⟩, hx, h1, h2⟩
        simp only at h1 h2
        subst h1 h2
        obtain ⟨h1, h2, h3⟩ := (eddConfChains_iff k [] (gs', c')).1 hx
        refine ⟨⟨gs' ++ [c'], rfl, .inr (EddFrom_nil.1 h1)⟩, ?_, h3⟩
        intro g hg
        rcases List.mem_cons.1 hg with rfl | hg
        · rfl
        · exact h2 g hg
      · rintro ⟨⟨rest, h1, h2⟩, h3, h4⟩
        cases gs with
        | nil =>
          simp only [List.nil_append, List.cons.injEq] at h1
          rw [h1.1] at h4
          simp at h4
        | cons g gs =>
          simp only [List.cons_append, List.cons.injEq] at h1
          obtain ⟨rfl, rfl⟩ := h1
          have h2' : EddBelow k (gs ++ [c]) := by
            rcases h2 with h2 | h2
            · simp at h2
            · exact h2
          exact ⟨(gs, c), (eddConfChains_iff k [] (gs, c)).2 ⟨EddFrom_nil.2 h2', fun g hg => h3 g (List.mem_cons_of_mem _ hg), h4⟩, rfl, rfl⟩
    all_goals
      simp only [EddNode.kids_mk]
      rw [hleaf rfl]
      simp [eddConfChain, EddElem.isConf]
theorem eddConfChains_iff : ∀ (ks pre : List EddNode) (x : EddChain × (List EddNode × EddNode)), x ∈ eddConfChains pre ks ↔
    EddFrom pre ks (x.1 ++ [x.2]) ∧ (∀ g ∈ x.1, g.2.el.isConfGroup = true) ∧ x.2.2.el.isConf = true
  | [], pre, x => by
    simp only [eddConfChains, List.not_mem_nil, false_iff]
    rintro ⟨⟨mid, n, post, rest, _, h, _⟩, _⟩
    simp at h
  | k :: ks, pre, x => by
    rw [eddConfChains, List.mem_append, eddConfChain_iff k pre x, eddConfChains_iff ks (pre ++ [k]) x, EddFrom_cons]
    grind
end

mutual
theorem eddDomChain_iff : ∀ (n : EddNode) (pre : List EddNode) (x : EddChain × (List EddNode × EddNode)), x ∈ eddDomChain pre n ↔
    (∃ rest, x.1 ++ [x.2] = (pre, n) :: rest ∧ (rest = [] ∨ EddBelow n.kids rest)) ∧
      (∀ g ∈ x.1, g.2.el.isDomainGroup = true) ∧ x.2.2.el.isDomain = true
  | .mk e k, pre, (gs, c) => by
    have hleaf : e.isDomainGroup = false → ((∃ rest, gs ++ [c] = (pre, EddNode.mk e k) :: rest ∧ (rest = [] ∨ EddBelow k rest)) ∧
        (∀ g ∈ gs, g.2.el.isDomainGroup = true) ∧ c.2.el.isDomain = true ↔ gs = [] ∧ c = (pre, .mk e k) ∧ e.isDomain = true) := by
      intro he
      constructor
      · rintro ⟨⟨rest, h1, h2⟩, h3, h4⟩
        cases gs with
        | nil =>
          simp only [List.nil_append, List.cons.injEq] at h1
          obtain ⟨rfl, _⟩ := h1
          exact ⟨rfl, rfl, h4⟩
        | cons g gs =>
          simp only [List.cons_append, List.cons.injEq] at h1
          have := h3 g (List.mem_cons_self ..)
          rw [h1.1] at this
          simp [he] at this
      · rintro ⟨rfl, rfl, h⟩
        exact ⟨⟨[], rfl, .inl rfl⟩, by simp, h⟩
    cases e
    case domainGroup m aw =>
      simp only [eddDomChain, List.mem_map, Prod.mk.injEq, EddNode.kids_mk]
      constructor
      · rintro ⟨⟨gs', c'⟩, hx, h1, h2⟩
        simp only at h1 h2
        subst h1 h2
        obtain ⟨h1, h2, h3⟩ := (eddDomChains_iff k [] (gs', c')).1 hx
        refine ⟨⟨gs' ++ [c'], rfl, .inr (EddFrom_nil.1 h1)⟩, ?_, h3⟩
        intro g hg
        rcases List.mem_cons.1 hg with rfl | hg
        · rfl
        · exact h2 g hg
      · rintro ⟨⟨rest, h1, h2⟩, h3, h4⟩
        cases gs with
        | nil =>
          simp only [List.nil_append, List.cons.injEq] at h1
          rw [h1.1] at h4
          simp [EddElem.isDomain] at h4
        | cons g gs =>
          simp only [List.cons_append, List.cons.injEq] at h1
          obtain ⟨rfl, rfl⟩ := h1
          have h2' : EddBelow k (gs ++ [c]) := by
            rcases h2 with h2 | h2
            · simp at h2
            · exact h2
          exact ⟨(gs, c), (eddDomChains_iff k [] (gs, c)).2 ⟨EddFrom_nil.2 h2', fun g hg => h3 g (List.mem_cons_of_mem _ hg), h4⟩, rfl, rfl⟩
    all_goals
      simp only [EddNode.kids_mk]
      rw [hleaf rfl]
      simp [eddDomChain, EddElem.isDomain]
theorem eddDomChains_iff : ∀ (ks pre : List EddNode) (x : EddChain × (List EddNode × EddNode)), x ∈ eddDomChains pre ks ↔
    EddFrom pre ks (x.1 ++ [x.2]) ∧ (∀ g ∈ x.1, g.2.el.isDomainGroup = true) ∧ x.2.2.el.isDomain = true
  | [], pre, x => by
    simp only [eddDomChains, List.not_mem_nil, false_iff]
    rintro ⟨⟨mid, n, post, rest, _, h, _⟩, _⟩
    simp at h
  | k :: ks, pre, x => by
    rw [eddDomChains, List.mem_append, eddDomChain_iff k pre x, eddDomChains_iff ks (pre ++ [k]) x, EddFrom_cons]
    grind
end

theorem Spec.EddBelow.ne_nil {ks : List EddNode} {ch : EddChain} (h : EddBelow ks ch) : ch ≠ [] := by
  rintro rfl
  generalize hc : ([] : EddChain) = c at h
  cases h <;> simp at hc

theorem EddBelow_split : ∀ (a : EddChain) {ks : List EddNode} {x : List EddNode × EddNode} {b : EddChain}, b ≠ [] →
    (EddBelow ks (a ++ x :: b) ↔ EddBelow ks (a ++ [x]) ∧ EddBelow x.2.kids b)
  | [], ks, x, b, hb => by
    simp only [List.nil_append]
    constructor
    · intro h
      cases h with
      | here => exact absurd rfl hb
      | deeper _ _ _ h => exact ⟨.here .., h⟩
    · rintro ⟨h1, h2⟩
      cases h1 with
      | here => exact .deeper _ _ _ h2
      | deeper _ _ _ h => exact absurd rfl h.ne_nil
  | y :: a, ks, x, b, hb => by
    simp only [List.cons_append]
    constructor
    · intro h
      cases h' : a ++ x :: b with
      | nil => simp at h'
      | cons z zs =>
        rw [h'] at h
        cases h with
        | deeper _ _ _ h =>
          rw [← h'] at h
          obtain ⟨h1, h2⟩ := (EddBelow_split a hb).1 h
          exact ⟨.deeper _ _ _ h1, h2⟩
    · rintro ⟨h1, h2⟩
      cases h' : a ++ [x] with
      | nil => simp at h'
      | cons z zs =>
        rw [h'] at h1
        cases h1 with
        | deeper _ _ _ h =>
          rw [← h'] at h
          exact .deeper _ _ _ ((EddBelow_split a hb).2 ⟨h, h2⟩)

theorem EddDomainAt_iff {tree : EddNode} {gs : EddChain} {d : List EddNode × EddNode} :
    EddDomainAt tree gs d ↔ (gs, d) ∈ eddDomChains [] tree.kids := by
  rw [eddDomChains_iff, EddFrom_nil]
  exact ⟨fun h => ⟨h.below, h.domainGroups, h.domain⟩, fun h => ⟨h.1, h.2.1, h.2.2⟩⟩

theorem EddConfAt_iff {tree : EddNode} {gs cs : EddChain} {d c : List EddNode × EddNode} :
    EddConfAt tree gs d cs c ↔ (gs, d) ∈ eddDomChains [] tree.kids ∧ (cs, c) ∈ eddConfChains [] d.2.kids := by
  rw [eddDomChains_iff, eddConfChains_iff, EddFrom_nil, EddFrom_nil]
  constructor
  · intro h
    obtain ⟨h1, h2⟩ := (EddBelow_split gs (by simp)).1 h.below
    exact ⟨⟨h1, h.domainGroups, h.domain⟩, h2, h.confGroups, h.conf⟩
  · rintro ⟨⟨h1, h2, h3⟩, h4, h5, h6⟩
    exact ⟨(EddBelow_split gs (by simp)).2 ⟨h1, h4⟩, h2, h3, h5, h6⟩

end PF
