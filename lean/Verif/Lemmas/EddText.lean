import Verif.Spec.EddText
import Verif.Lemmas.EddParse

/-!
# Lemmas: written descriptions are read back
-/

namespace PF
open Spec

theorem head?_append_ne {a : Str} (b : Str) (h : a ≠ []) : (a ++ b).head? = a.head? := by
  cases a with
  | nil => exact absurd rfl h
  | cons => rfl

theorem getLast?_append_ne (a : Str) {b : Str} (h : b ≠ []) : (a ++ b).getLast? = b.getLast? := by
  rw [List.getLast?_append]
  cases hb : b.getLast? with
  | none => exact absurd (List.getLast?_eq_none_iff.1 hb) h
  | some c => rfl

theorem dropWhile_of_head {p : Char → Bool} {t : Str} (h : ∀ c, t.head? = some c → p c = false) : t.dropWhile p = t := by
  cases t with
  | nil => rfl
  | cons c t => simp [List.dropWhile, h c rfl]

theorem pyStrip_trimmed {t : Str} (h : EddTrimmed t) : pyStrip t = t := by
  unfold pyStrip
  rw [dropWhile_of_head fun c hc => h c (.inl hc), dropWhile_of_head fun c hc => h c (.inr (by simpa using hc)), List.reverse_reverse]

theorem pyStrip_space (t : Str) : pyStrip (' ' :: t) = pyStrip t := by
  simp [pyStrip, List.dropWhile, pySpace]

theorem pyStrip_spaceAfter (t : Str) : pyStrip (t ++ [' ']) = pyStrip t := by
  unfold pyStrip
  by_cases h : t.dropWhile pySpace = []
  · rw [List.dropWhile_append, h]; simp [List.dropWhile, pySpace]
  · rw [List.dropWhile_append]
    simp [h, pySpace]

theorem pyStrip_spacesAfter (t : Str) : ∀ n, pyStrip (t ++ List.replicate n ' ') = pyStrip t
  | 0 => by simp
  | n + 1 => by
    rw [List.replicate_succ', ← List.append_assoc, pyStrip_spaceAfter, pyStrip_spacesAfter t n]

theorem EddTrimmed_of_all {t : Str} (h : ∀ c ∈ t, pySpace c = false) : EddTrimmed t := by
  rintro c (h' | h')
  · exact h c (List.mem_of_head? h')
  · exact h c (List.mem_of_getLast? h')

theorem EddTrimmed_append {a b : Str} (ha : ∀ c, a.head? = some c → pySpace c = false) (hn : a ≠ []) (hb : EddTrimmed b) (hm : b ≠ []) :
    EddTrimmed (a ++ b) := by
  rintro c (h | h)
  · rw [head?_append_ne _ hn] at h; exact ha c h
  · rw [getLast?_append_ne _ hm] at h; exact hb c (.inr h)

theorem pySplit1_append {d : Char} : ∀ {a : Str} (b : Str), d ∉ a → pySplit1 d (a ++ d :: b) = (a, some b)
  | [], b, _ => by simp [pySplit1]
  | c :: a, b, h => by
    have h1 : c ≠ d := by rintro rfl; simp at h
    have h2 : d ∉ a := by intro h'; simp [h'] at h
    simp [pySplit1, h1, pySplit1_append b h2]

theorem pySplit1_none {d : Char} : ∀ {a : Str}, d ∉ a → pySplit1 d a = (a, none)
  | [], _ => by simp [pySplit1]
  | c :: a, h => by
    have h1 : c ≠ d := by rintro rfl; simp at h
    have h2 : d ∉ a := by intro h'; simp [h'] at h
    simp [pySplit1, h1, pySplit1_none h2]

/-- The name after a tag. -/
theorem eddTaggedName_tag {tag n : Str} (ht : ∀ c ∈ tag, pySpace c = false ∧ c ≠ ':') (hn : tag ≠ []) (h : EddTrimmed n) :
    eddTaggedName (tag ++ s ": " ++ n) = n := by
  have hc : ':' ∉ tag := fun h => (ht _ h).2 rfl
  unfold eddTaggedName
  have hhead : ∀ c, tag.head? = some c → pySpace c = false := fun c h => (ht c (List.mem_of_head? h)).1
  cases n with
  | nil =>
    have : tag ++ s ": " ++ [] = (tag ++ [':']) ++ [' '] := by simp [s]
    rw [this, pyStrip_spaceAfter, pyStrip_trimmed (EddTrimmed_append hhead hn (EddTrimmed_of_all (by simp [pySpace])) (by simp)),
      pySplit1_append [] hc]
    rfl
  | cons c n =>
    have e : tag ++ s ": " ++ (c :: n) = tag ++ ':' :: (' ' :: (c :: n)) := by simp [s]
    have ht' : EddTrimmed (tag ++ s ": " ++ (c :: n)) := by
      refine EddTrimmed_append ?_ (by simp [hn]) h (by simp)
      intro c h
      rw [head?_append_ne _ hn] at h; exact hhead c h
    rw [pyStrip_trimmed ht', e, pySplit1_append _ hc]
    simp only [pyStrip_space, pyStrip_trimmed h]

theorem eddTagged_tag (tag n : Str) : eddTagged tag (tag ++ s ": " ++ n) = true := by
  simp [eddTagged, s]

theorem eddDomainOptions_tag {tag n : Str} (ht : ∀ c ∈ tag, pySpace c = false ∧ c ≠ ':') (hn : tag ≠ []) (a : Bool)
    (hnn : n ≠ []) (h : ∀ c ∈ n, pySpace c = false) : eddDomainOptions (tag ++ s ": " ++ (n ++ (if a then s " sequenceAware" else []))) = (n, a) := by
  have hs : ' ' ∉ n := fun hh => by have := h _ hh; simp [pySpace] at this
  cases a with
  | false =>
    have := eddTaggedName_tag ht hn (EddTrimmed_of_all h)
    simp only [Bool.false_eq_true, if_false, List.append_nil]
    simp only [eddDomainOptions, this, pySplit1_none hs, pyStrip_trimmed (EddTrimmed_of_all h)]
  | true =>
    have h1 : EddTrimmed (n ++ s " sequenceAware") :=  by
      refine fun c hc => ?_
      rcases hc with hc | hc
      · rw [head?_append_ne _ hnn] at hc; exact h c (List.mem_of_head? hc)
      · rw [getLast?_append_ne _ (by simp [s])] at hc
        have : (s " sequenceAware").getLast? = some 'e' := by decide
        rw [this] at hc; injection hc with hc; subst hc; decide
    have := eddTaggedName_tag ht hn h1
    simp only [if_true]
    simp only [eddDomainOptions, this]
    have e : n ++ s " sequenceAware" = n ++ ' ' :: s "sequenceAware" := by simp [s]
    rw [e, pySplit1_append _ hs]
    simp only [pyStrip_trimmed (EddTrimmed_of_all h)]
    simp; decide

theorem EddWord.char {t : Str} (h : EddWord t) : ∀ c ∈ t, eddWordChar c = true := by
  intro c hc
  rcases h.2 c hc with h | h | h <;> simp [eddWordChar, h]

theorem takeWhile_word {w : Str} {d : Char} {t : Str} {p : Char → Bool} (h : ∀ c ∈ w, p c = true) (hd : p d = false) :
    (w ++ d :: t).takeWhile p = w ∧ (w ++ d :: t).dropWhile p = d :: t := by
  constructor
  · rw [List.takeWhile_append_of_pos h]; simp [hd]
  · rw [List.dropWhile_append_of_pos h]; simp [hd]

theorem eddTaggedName_spaces (t : Str) (n : Nat) : eddTaggedName (t ++ List.replicate n ' ') = eddTaggedName t := by
  unfold eddTaggedName; rw [pyStrip_spacesAfter]

theorem eddDomainOptions_spaces (t : Str) (n : Nat) : eddDomainOptions (t ++ List.replicate n ' ') = eddDomainOptions t := by
  unfold eddDomainOptions; rw [eddTaggedName_spaces]

theorem eddPathOptions_spaces (t : Str) (n : Nat) : eddPathOptions (t ++ List.replicate n ' ') = eddPathOptions t := by
  unfold eddPathOptions; rw [pyStrip_spacesAfter]

theorem eddRuleOptions_spaces (t : Str) (n : Nat) : eddRuleOptions (t ++ List.replicate n ' ') = eddRuleOptions t := by
  unfold eddRuleOptions; rw [pyStrip_spacesAfter]

/-- A tag is not the start of the line of a path. -/
theorem eddTagged_path {tag n v : Str} (ht : ∀ c ∈ tag, c ≠ ' ') (hc : ':' ∉ n) : eddTagged tag (n ++ s " = " ++ v) = false := by
  unfold eddTagged
  by_cases hp : tag <+: n ++ s " = " ++ v
  · have hl : tag.length ≤ n.length := by
      rcases Nat.lt_or_ge n.length tag.length with hlt | hge
      · exfalso
        have e : n ++ s " = " ++ v = n ++ ' ' :: '=' :: ' ' :: v := by simp [s]
        have h1 : (n ++ ' ' :: '=' :: ' ' :: v)[n.length]? = some ' ' := by simp
        obtain ⟨r, hr⟩ := hp
        rw [← e, ← hr, List.getElem?_append_left hlt] at h1
        exact ht _ (List.mem_of_getElem? h1) rfl
      · exact hge
    have e : (n ++ s " = " ++ v).drop tag.length = n.drop tag.length ++ ' ' :: '=' :: ' ' :: v := by
      simp [s, List.drop_append_of_le_length hl]
    have hd : ':' ∉ n.drop tag.length := fun h => hc (List.mem_of_mem_drop h)
    rw [e]
    generalize n.drop tag.length = m at hd
    have : ((m ++ ' ' :: '=' :: ' ' :: v).dropWhile (· == ' ')).head? ≠ some ':' := by
      induction m with
      | nil => simp
      | cons c m ih =>
        by_cases h : c = ' '
        · subst h; simpa using ih (by intro h; simp [h] at hd)
        · have : c ≠ ':' := by rintro rfl; simp at hd
          simp [h, this]
    simp [this]
  · have : tag.isPrefixOf (n ++ s " = " ++ v) = false := by
      rw [Bool.eq_false_iff]; intro h'; exact hp (List.isPrefixOf_iff_prefix.1 h')
    rw [this]; rfl

theorem eddTagged_colon {tag t : Str} (h : ':' ∉ t) : eddTagged tag t = false := by
  rw [Bool.eq_false_iff]
  intro h'
  unfold eddTagged at h'
  simp only [Bool.and_eq_true, beq_iff_eq] at h'
  exact h (List.mem_of_mem_drop ((List.dropWhile_suffix _).subset (List.mem_of_head? h'.2)))

theorem prefix_word {k c t : Str} (hk : ' ' ∉ k) (h : k <+: c ++ ' ' :: t) : k <+: c := by
  rcases Nat.lt_or_ge c.length k.length with hlt | hge
  · exfalso
    have h1 : (c ++ ' ' :: t)[c.length]? = some ' ' := by simp
    obtain ⟨r, hr⟩ := h
    rw [← hr, List.getElem?_append_left hlt] at h1
    exact hk (List.mem_of_getElem? h1)
  · exact List.prefix_of_prefix_length_le h (List.prefix_append _ _) hge

theorem eddWordChar_space {c : Char} (h : eddWordChar c = true) : pySpace c = false ∧ c ≠ ' ' ∧ c ≠ ':' ∧ c ≠ '=' ∧ c ≠ '#' := by
  refine ⟨?_, ?_, ?_, ?_, ?_⟩
  · rw [Bool.eq_false_iff]
    intro h'
    simp only [pySpace, Bool.or_eq_true, beq_iff_eq, Bool.and_eq_true, decide_eq_true_eq] at h'
    simp only [eddWordChar, Char.isAlphanum, Char.isAlpha, Char.isUpper, Char.isLower, Char.isDigit, Bool.or_eq_true, beq_iff_eq,
      Bool.and_eq_true, decide_eq_true_eq] at h
    have e : c.toNat = c.val.toNat := rfl
    rw [e] at h'
    have hsp : ∀ k : Char, c = k → c.val.toNat = k.val.toNat := by rintro k rfl; rfl
    have a1 : ' '.val.toNat = 32 := rfl
    have a2 : '_'.val.toNat = 95 := rfl
    have a3 : '.'.val.toNat = 46 := rfl
    have u1 : ∀ a b : UInt32, a ≤ b → a.toNat ≤ b.toNat := fun a b h => UInt32.le_iff_toNat_le.1 h
    have key : c.val.toNat ≤ 32 := by
      rcases h' with (h' | h') | h'
      · have := hsp _ h'; omega
      · omega
      · omega
    rcases h with (((h | h) | h) | h) | h
    · have := u1 _ _ h.1
      have : (65 : Nat) ≤ c.val.toNat := this
      omega
    · have := u1 _ _ h.1
      have : (97 : Nat) ≤ c.val.toNat := this
      omega
    · have := u1 _ _ h.1
      have : (48 : Nat) ≤ c.val.toNat := this
      omega
    · have := hsp _ h; omega
    · have := hsp _ h; omega
  all_goals rintro rfl; revert h; decide

theorem eddElement_write {e : EddElem} (h : EddWritable e) (m : Nat) :
    eddElement (eddWrite e ++ List.replicate m ' ') = .ok (some e) := by
  have hrep : ∀ c ∈ List.replicate m ' ', c = ' ' := fun c hc => List.eq_of_mem_replicate hc
  cases e with
  | root => exact absurd h (by simp [EddWritable])
  | domainGroup n a =>
    have e : eddWrite (.domainGroup n a) = s "domainGroup" ++ s ": " ++ (n ++ (if a then s " sequenceAware" else [])) := by
      simp [eddWrite, s]
    have h1 := eddDomainOptions_tag (tag := s "domainGroup") (by decide) (by decide) a h.1 h.2
    rw [e]
    unfold eddElement
    rw [eddDomainOptions_spaces, h1, List.append_assoc (s "domainGroup" ++ s ": "), eddTagged_tag]
    simp [s]
  | domain n a =>
    have e : eddWrite (.domain n a) = s "domain" ++ s ": " ++ (n ++ (if a then s " sequenceAware" else [])) := by
      simp [eddWrite, s]
    have h1 := eddDomainOptions_tag (tag := s "domain") (by decide) (by decide) a h.1 h.2
    rw [e]
    unfold eddElement
    rw [eddDomainOptions_spaces, h1, List.append_assoc (s "domain" ++ s ": "), eddTagged_tag]
    simp [s, eddTagged]
  | confGroup n =>
    have h1 := eddTaggedName_tag (tag := s "confGroup") (by decide) (by decide) h.1
    have h2 := h.2
    have e : eddWrite (.confGroup n) = s "confGroup" ++ s ": " ++ n := by simp [eddWrite, s]
    rw [e]
    unfold eddElement
    rw [eddTaggedName_spaces, h1, List.append_assoc (s "confGroup" ++ s ": "), eddTagged_tag]
    simp [s, eddTagged, h2]
  | conf n =>
    have h1 := eddTaggedName_tag (tag := s "conf") (by decide) (by decide) h.1
    have h2 := h.2
    have e : eddWrite (.conf n) = s "conf" ++ s ": " ++ n := by simp [eddWrite, s]
    rw [e]
    unfold eddElement
    rw [eddTaggedName_spaces, h1, List.append_assoc (s "conf" ++ s ": "), eddTagged_tag]
    simp [s, eddTagged, h2]
  | component n =>
    have h1 := eddTaggedName_tag (tag := s "component") (by decide) (by decide) h.1
    have h2 := h.2
    have e : eddWrite (.component n) = s "component" ++ s ": " ++ n := by simp [eddWrite, s]
    rw [e]
    unfold eddElement
    rw [eddTaggedName_spaces, h1, List.append_assoc (s "component" ++ s ": "), eddTagged_tag]
    simp [s, eddTagged, h2, eddRuleMatch, eddWordChar]
  | operator n =>
    rcases h with rfl | rfl
    · unfold eddElement
      rw [pyStrip_spacesAfter]
      have : ¬ '=' ∈ List.replicate m ' ' := fun h => absurd (hrep _ h) (by decide)
      simp [s, eddWrite, eddTagged]
      decide
    · unfold eddElement
      rw [pyStrip_spacesAfter]
      have : ¬ '=' ∈ List.replicate m ' ' := fun h => absurd (hrep _ h) (by decide)
      simp [s, eddWrite, eddTagged]
      decide
  | path n v =>
    obtain ⟨hn, h1, h2, h3, h4, h5⟩ := h
    have e : eddWrite (.path n v) = n ++ s " = " ++ v := rfl
    rw [e]
    unfold eddElement
    rw [eddPathOptions_spaces]
    have t1 := eddTagged_path (tag := s "supDomain") (v := v ++ List.replicate m ' ') (by decide) h5
    have t2 := eddTagged_path (tag := s "domainGroup") (v := v ++ List.replicate m ' ') (by decide) h5
    have t3 := eddTagged_path (tag := s "domain") (v := v ++ List.replicate m ' ') (by decide) h5
    have ea : n ++ s " = " ++ v ++ List.replicate m ' ' = n ++ s " = " ++ (v ++ List.replicate m ' ') := by simp
    rw [ea, t1, t2, t3]
    have hh : (n ++ s " = " ++ (v ++ List.replicate m ' ')).head? ≠ some '#' := by
      rw [List.append_assoc, head?_append_ne _ hn]; exact h3
    have ht : (n ++ s " = " ++ (v ++ List.replicate m ' ')).tail.contains '=' = true := by
      cases n with
      | nil => exact absurd rfl hn
      | cons c n => simp [s]
    have ho : eddPathOptions (n ++ s " = " ++ v) = (n, v) := by
      unfold eddPathOptions
      have hs : ' ' ∉ ([] : Str) := by simp
      have h4' : '=' ∉ n ++ [' '] := by simp [h4]
      cases v with
      | nil =>
        have e1 : n ++ s " = " ++ [] = (n ++ [' ', '=']) ++ [' '] := by simp [s]
        have e2 : n ++ [' ', '='] = (n ++ [' ']) ++ '=' :: [] := by simp
        rw [e1, pyStrip_spaceAfter, pyStrip_trimmed, e2, pySplit1_append _ h4']
        · simp only [pyStrip_spaceAfter, pyStrip_trimmed h1]; rfl
        · refine fun c hc => ?_
          rcases hc with hc | hc
          · rw [head?_append_ne _ hn] at hc; exact h1 c (.inl hc)
          · rw [getLast?_append_ne _ (by simp)] at hc; simp at hc; subst hc; rfl
      | cons x v =>
        have e2 : n ++ s " = " ++ (x :: v) = (n ++ [' ']) ++ '=' :: (' ' :: (x :: v)) := by simp [s]
        rw [pyStrip_trimmed, e2, pySplit1_append _ h4']
        · simp only [pyStrip_spaceAfter, pyStrip_space, pyStrip_trimmed h1, pyStrip_trimmed h2]
        · refine fun c hc => ?_
          rcases hc with hc | hc
          · rw [List.append_assoc, head?_append_ne _ hn] at hc; exact h1 c (.inl hc)
          · rw [getLast?_append_ne _ (by simp)] at hc; exact h2 c (.inr hc)
    rw [ho]
    simp only [hh, ht, if_false, if_true, Bool.false_or, Bool.false_eq_true]
  | rule c v e =>
    obtain ⟨hc, he, hv, ha, hl⟩ := h
    have e0 : eddWrite (.rule c v e) = c ++ ' ' :: (v ++ ' ' :: e) := by simp [eddWrite, s]
    have e1 : c ++ ' ' :: (v ++ ' ' :: e) ++ List.replicate m ' ' = c ++ ' ' :: (v ++ ' ' :: (e ++ List.replicate m ' ')) := by simp
    rw [e0]
    unfold eddElement
    rw [eddRuleOptions_spaces, e1]
    have wc := EddWord.char hc
    have we := EddWord.char he
    have wv : ∀ x ∈ v, eddWordChar x = true := by rcases hv with rfl | rfl | rfl | rfl <;> decide
    have hvn : v ≠ [] := by rcases hv with rfl | rfl | rfl | rfl <;> decide
    have hcol : ':' ∉ c ++ ' ' :: (v ++ ' ' :: (e ++ List.replicate m ' ')) := by
      simp only [List.mem_append, List.mem_cons, not_or]
      exact ⟨fun h => (eddWordChar_space (wc _ h)).2.2.1 rfl, by decide, fun h => (eddWordChar_space (wv _ h)).2.2.1 rfl, by decide,
        fun h => (eddWordChar_space (we _ h)).2.2.1 rfl, fun h => absurd (hrep _ h) (by decide)⟩
    have heq : '=' ∉ c ++ ' ' :: (v ++ ' ' :: (e ++ List.replicate m ' ')) := by
      simp only [List.mem_append, List.mem_cons, not_or]
      exact ⟨fun h => (eddWordChar_space (wc _ h)).2.2.2.1 rfl, by decide, fun h => (eddWordChar_space (wv _ h)).2.2.2.1 rfl, by decide,
        fun h => (eddWordChar_space (we _ h)).2.2.2.1 rfl, fun h => absurd (hrep _ h) (by decide)⟩
    have hh : (c ++ ' ' :: (v ++ ' ' :: (e ++ List.replicate m ' '))).head? ≠ some '#' := by
      rw [head?_append_ne _ hc.1]
      exact fun h => (eddWordChar_space (wc _ (List.mem_of_head? h))).2.2.2.2 rfl
    have hta : (c ++ ' ' :: (v ++ ' ' :: (e ++ List.replicate m ' '))).tail.contains '=' = false := by
      rw [Bool.eq_false_iff]
      intro h
      exact heq (List.mem_of_mem_tail (List.contains_iff_mem.1 h))
    have hany : (s "ANY").isPrefixOf (c ++ ' ' :: (v ++ ' ' :: (e ++ List.replicate m ' '))) = false := by
      rw [Bool.eq_false_iff]; intro h'; exact ha (prefix_word (by decide) (List.isPrefixOf_iff_prefix.1 h'))
    have hall : (s "ALL").isPrefixOf (c ++ ' ' :: (v ++ ' ' :: (e ++ List.replicate m ' '))) = false := by
      rw [Bool.eq_false_iff]; intro h'; exact hl (prefix_word (by decide) (List.isPrefixOf_iff_prefix.1 h'))
    have sp : eddWordChar ' ' = false := by decide
    have hm : eddRuleMatch (c ++ ' ' :: (v ++ ' ' :: (e ++ List.replicate m ' '))) = true := by
      unfold eddRuleMatch
      have k1 := takeWhile_word (t := v ++ ' ' :: (e ++ List.replicate m ' ')) wc sp
      have dv : (v ++ ' ' :: (e ++ List.replicate m ' ')).dropWhile (· == ' ') = v ++ ' ' :: (e ++ List.replicate m ' ') := by
        apply dropWhile_of_head
        intro x hx
        rw [head?_append_ne _ hvn] at hx
        simpa using (eddWordChar_space (wv _ (List.mem_of_head? hx))).2.1
      have de : (e ++ List.replicate m ' ').dropWhile (· == ' ') = e ++ List.replicate m ' ' := by
        apply dropWhile_of_head
        intro x hx
        rw [head?_append_ne _ he.1] at hx
        simpa using (eddWordChar_space (we _ (List.mem_of_head? hx))).2.1
      have te : (e ++ List.replicate m ' ').takeWhile eddWordChar = e := by
        rw [List.takeWhile_append_of_pos we]
        cases m <;> simp [List.replicate_succ, sp]
      rw [k1.1, k1.2]
      have d1 : (' ' :: (v ++ ' ' :: (e ++ List.replicate m ' '))).dropWhile (· == ' ') = v ++ ' ' :: (e ++ List.replicate m ' ') := by
        rw [List.dropWhile_cons]; simpa using dv
      simp only [d1]
      have m : ∃ w ∈ [s "Is", s "IsNot", s "Includes", s "Excludes"], w = v := by
        rcases hv with rfl | rfl | rfl | rfl <;> simp
      obtain ⟨w, hw, rfl⟩ := m
      simp only [Bool.and_eq_true, List.any_eq_true]
      refine ⟨⟨by simpa using hc.1, by simp⟩, w, hw, ⟨?_, ?_⟩, ?_⟩
      · exact List.isPrefixOf_iff_prefix.2 (List.prefix_append _ _)
      · simp
      · simp only [List.drop_left, List.dropWhile_cons, beq_self_eq_true, if_true, de, te]
        simpa using he.1
    have ho : eddRuleOptions (c ++ ' ' :: (v ++ ' ' :: e)) = (c, v, e) := by
      have s1 : ' ' ∉ c := fun h => (eddWordChar_space (wc _ h)).2.1 rfl
      have s2 : ' ' ∉ v := fun h => (eddWordChar_space (wv _ h)).2.1 rfl
      have tc : EddTrimmed c := EddTrimmed_of_all fun x h => (eddWordChar_space (wc _ h)).1
      have tv : EddTrimmed v := EddTrimmed_of_all fun x h => (eddWordChar_space (wv _ h)).1
      have te : EddTrimmed e := EddTrimmed_of_all fun x h => (eddWordChar_space (we _ h)).1
      unfold eddRuleOptions
      rw [pyStrip_trimmed, pySplit1_append _ s1]
      · simp only [pySplit1_append _ s2, pyStrip_trimmed tc, pyStrip_trimmed tv, pyStrip_trimmed te]
      · rintro x (h | h)
        · rw [head?_append_ne _ hc.1] at h; exact tc x (.inl h)
        · have : c ++ ' ' :: (v ++ ' ' :: e) = (c ++ ' ' :: (v ++ [' '])) ++ e := by simp
          rw [this, getLast?_append_ne _ he.1] at h; exact te x (.inr h)
    simp only [eddTagged_colon hcol, hh, hta, hany, hall, hm, ho, if_false, if_true, Bool.false_or, Bool.false_eq_true]

theorem eddWrite_head {e : EddElem} (h : EddWritable e) : ∃ c t, eddWrite e = c :: t ∧ c ≠ '\t' ∧ c ≠ ' ' := by
  cases e with
  | root => exact absurd h (by simp [EddWritable])
  | operator n => rcases h with rfl | rfl <;> exact ⟨_, _, rfl, by decide, by decide⟩
  | rule c v e =>
    cases c with
    | nil => exact absurd rfl h.1.1
    | cons x c =>
      refine ⟨x, _, rfl, ?_, (eddWordChar_space (EddWord.char h.1 x (by simp))).2.1⟩
      rintro rfl
      have := (eddWordChar_space (EddWord.char h.1 _ (by simp : '\t' ∈ '\t' :: c))).1
      revert this; decide
  | path n v =>
    cases n with
    | nil => exact absurd rfl h.1
    | cons x n =>
      have := h.2.1 x (.inl rfl)
      refine ⟨x, _, rfl, ?_, ?_⟩ <;> rintro rfl <;> revert this <;> decide
  | _ => refine ⟨_, _, rfl, ?_, ?_⟩ <;> decide

theorem eddLine_write {e : EddElem} (h : EddWritable e) (n m : Nat) :
    eddLine (List.replicate n '\t' ++ (eddWrite e ++ List.replicate m ' ')) = .ok (some (n + 1, e)) := by
  have hw := eddElement_write h m
  obtain ⟨c, t, he, h1, h2⟩ := eddWrite_head h
  rw [he, List.cons_append] at hw ⊢
  have k := takeWhile_word (w := List.replicate n '\t') (d := c) (t := t ++ List.replicate m ' ') (p := fun c => c == '\t' || c == ' ')
    (by intro x hx; simp [List.eq_of_mem_replicate hx]) (by simp [h1, h2])
  unfold eddLine
  simp only [k.1, k.2]
  rw [if_neg (by simp), if_neg (by simp [List.mem_replicate]), hw]
  simp

theorem eddSignificant_written : ∀ (L : List (Nat × EddElem)), (∀ x ∈ L, 1 ≤ x.1 ∧ EddWritable x.2) →
    eddSignificant (L.map fun x => List.replicate (x.1 - 1) '\t' ++ eddWrite x.2) = .ok L
  | [], _ => rfl
  | x :: L, h => by
    have h1 := h x (by simp)
    have h2 := eddSignificant_written L fun y hy => h y (by simp [hy])
    have e : x.1 - 1 + 1 = x.1 := by omega
    have h3 := eddLine_write h1.2 (x.1 - 1) 0
    rw [List.replicate_zero, List.append_nil] at h3
    simp only [List.map_cons, eddSignificant, h3, h2, e]

mutual
theorem eddPreorder_rank : ∀ (n : EddNode) (r : Nat), ∀ x ∈ eddPreorder r n, r ≤ x.1
  | .mk e kids, r => by
    intro x hx
    simp only [eddPreorder, List.mem_cons] at hx
    rcases hx with rfl | hx
    · exact Nat.le_refl _
    · have := eddPreorderAll_rank kids (r + 1) x hx; omega
theorem eddPreorderAll_rank : ∀ (ks : List EddNode) (r : Nat), ∀ x ∈ eddPreorderAll r ks, r ≤ x.1
  | [], r => by simp [eddPreorderAll]
  | k :: ks, r => by
    intro x hx
    simp only [eddPreorderAll, List.mem_append] at hx
    rcases hx with hx | hx
    · exact eddPreorder_rank k r x hx
    · exact eddPreorderAll_rank ks r x hx
end

theorem eddLine_ignored {line : Str} (h : EddIgnored line) : eddLine line = .ok none := by
  rcases h with h | ⟨n, t, rfl⟩
  · have : line.dropWhile (fun c => c == '\t' || c == ' ') = [] := by
      have := List.dropWhile_append_of_pos (p := fun c => c == '\t' || c == ' ') (l₁ := line) (l₂ := [])
        (by intro c hc; rcases h c hc with rfl | rfl <;> rfl)
      simpa using this
    unfold eddLine
    simp only [this, if_true]
  · have k := takeWhile_word (w := List.replicate n '\t') (d := '#') (t := t) (p := fun c => c == '\t' || c == ' ')
      (by intro x hx; simp [List.eq_of_mem_replicate hx]) (by decide)
    unfold eddLine
    simp only [k.1, k.2]
    rw [if_neg (by simp), if_neg (by simp [List.mem_replicate])]
    simp [eddElement]

theorem eddLoop_ignored {line : Str} (h : EddIgnored line) (b : List Str) : ∀ (a : List Str) (prev : Nat) (st : EddStack),
    eddLoop prev st (a ++ line :: b) = eddLoop prev st (a ++ b)
  | [], prev, st => by simp [eddLoop, eddLine_ignored h]
  | l :: a, prev, st => by
    simp only [List.cons_append, eddLoop]
    split
    · rfl
    · exact eddLoop_ignored h b a prev st
    · split
      · rfl
      · exact eddLoop_ignored h b a _ _

theorem eddLoop_congr {l l' : Str} (h : eddLine l = eddLine l') (b : List Str) : ∀ (a : List Str) (prev : Nat) (st : EddStack),
    eddLoop prev st (a ++ l :: b) = eddLoop prev st (a ++ l' :: b)
  | [], prev, st => by simp [eddLoop, h]
  | x :: a, prev, st => by
    simp only [List.cons_append, eddLoop]
    split
    · rfl
    · exact eddLoop_congr h b a prev st
    · split
      · rfl
      · exact eddLoop_congr h b a _ _

end PF
