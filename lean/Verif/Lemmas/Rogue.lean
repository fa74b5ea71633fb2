import Verif.Model.Handle
import Verif.Lemmas.Tree

/-! # The list of rogue elements -/

namespace PF

/-- The element and all those below it match. -/
def Clean (ok : Pos → Bool) (p : Pos) (e : Elem) : Prop :=
  ∀ r f, e.at? r = some f → ok (p ++ r) = true

theorem aggregateAll_count (ok : Pos → Bool) (p : Pos) (cs : List Elem) (i : Nat) :
    (Elem.aggregateAll ok p i cs).1 ≤ cs.length ∧
    ((Elem.aggregateAll ok p i cs).1 = cs.length ↔
      ∀ (j : Nat) (c : Elem), cs[j]? = some c → (c.aggregate ok (p ++ [i + j])).1 = true) := by
  induction cs generalizing i with
  | nil => simp [Elem.aggregateAll]
  | cons c cs ih =>
    obtain ⟨h1, h2⟩ := ih (i + 1)
    simp only [Elem.aggregateAll, List.length_cons]
    have hb : (c.aggregate ok (p ++ [i])).1.toNat ≤ 1 := by cases (c.aggregate ok (p ++ [i])).1 <;> simp
    refine ⟨by omega, ?_⟩
    constructor
    · intro h
      have h3 : (c.aggregate ok (p ++ [i])).1 = true := by
        cases hx : (c.aggregate ok (p ++ [i])).1 with
        | true => rfl
        | false => rw [hx] at h; simp at h; omega
      rw [h3] at h
      have h4 := h2.1 (by simp at h; omega)
      intro j d hd
      cases j with
      | zero => simp at hd; subst hd; exact h3
      | succ j =>
        simp at hd
        have := h4 j d hd
        rwa [show i + 1 + j = i + (j + 1) by omega] at this
    · intro h
      have h3 := h 0 c (by simp)
      rw [Nat.add_zero] at h3
      have h4 := h2.2 (by
        intro j d hd
        have := h (j + 1) d (by simpa using hd)
        rwa [show i + (j + 1) = i + 1 + j by omega] at this)
      rw [h3, h4]
      simp; omega

theorem aggregateAll_mem (ok : Pos → Bool) (p : Pos) (cs : List Elem) (i : Nat) (q : Pos) :
    q ∈ (Elem.aggregateAll ok p i cs).2 ↔
      ∃ (j : Nat) (c : Elem), cs[j]? = some c ∧ q ∈ (c.aggregate ok (p ++ [i + j])).2 := by
  induction cs generalizing i with
  | nil => simp [Elem.aggregateAll]
  | cons c cs ih =>
    simp only [Elem.aggregateAll, List.mem_append, ih (i + 1)]
    constructor
    · rintro (h | ⟨j, d, hd, h⟩)
      · exact ⟨0, c, by simp, by simpa using h⟩
      · exact ⟨j + 1, d, by simpa using hd, by rwa [show i + (j + 1) = i + 1 + j by omega]⟩
    · rintro ⟨j, d, hd, h⟩
      cases j with
      | zero => simp at hd; subst hd; exact .inl (by simpa using h)
      | succ j => exact .inr ⟨j, d, by simpa using hd, by rwa [show i + (j + 1) = i + 1 + j by omega] at h⟩

theorem Elem.child_sizeOf {n : Str} {k : EKind} {sy : Option Nat} {cs : List Elem} {j : Nat} {c : Elem}
    (h : cs[j]? = some c) : sizeOf c < sizeOf (Elem.mk n k sy cs) := by
  have := List.sizeOf_lt_of_mem (List.mem_of_getElem? h)
  simp only [Elem.mk.sizeOf_spec]
  omega

theorem aggregate_true (ok : Pos → Bool) (p : Pos) (e : Elem) : (e.aggregate ok p).1 = true ↔ Clean ok p e := by
  cases e with | mk n k sy cs =>
  simp only [Elem.aggregate]
  split
  · rename_i h
    simp only [Bool.false_eq_true, false_iff]
    intro hc
    have := hc [] _ rfl
    simp only [List.append_nil] at this
    simp [this] at h
  · rename_i h
    simp only [Bool.not_eq_eq_eq_not, Bool.not_true, Bool.not_eq_false] at h
    have key : (Elem.aggregateAll ok p 0 cs).1 = cs.length ↔ Clean ok p (.mk n k sy cs) := by
      rw [(aggregateAll_count ok p cs 0).2]
      constructor
      · intro hall r f hf
        cases r with
        | nil => simpa using h
        | cons j r =>
          rw [Elem.at?_cons] at hf
          cases hc : cs[j]? with
          | none => simp [Elem.children, hc] at hf
          | some c =>
            simp only [Elem.children, hc, Option.bind_some] at hf
            have := hall j c hc
            rw [Nat.zero_add] at this
            have := (aggregate_true ok (p ++ [j]) c).1 this r f hf
            simpa using this
      · intro hcl j c hc
        rw [Nat.zero_add]
        refine (aggregate_true ok (p ++ [j]) c).2 ?_
        intro r f hf
        have := hcl (j :: r) f (by rw [Elem.at?_cons]; simp [Elem.children, hc, hf])
        simpa using this
    split
    · rename_i h2; simp [key.1 h2]
    · rename_i h2; simp [mt key.2 h2]
termination_by sizeOf e
decreasing_by
  all_goals exact Elem.child_sizeOf hc

/-- The elements listed below `e`: clean, and below no clean one. -/
theorem aggregate_mem (ok : Pos → Bool) (p : Pos) (e : Elem) (q : Pos) :
    q ∈ (e.aggregate ok p).2 ↔
      ∃ r f, q = p ++ r ∧ e.at? r = some f ∧ Clean ok q f ∧
        ∀ r' g, r' <+: r → r' ≠ r → e.at? r' = some g → ok (p ++ r') = true ∧ ¬ Clean ok (p ++ r') g := by
  cases e with | mk n k sy cs =>
  simp only [Elem.aggregate]
  split
  · rename_i h
    simp only [List.not_mem_nil, false_iff]
    rintro ⟨r, f, rfl, hf, hcl, hmin⟩
    by_cases hr : r = []
    · subst hr
      have := hcl [] f (by cases f; rfl)
      simp only [List.append_nil] at this
      simp [this] at h
    · have := (hmin [] _ (List.nil_prefix) (Ne.symm hr) rfl).1
      simp only [List.append_nil] at this
      simp [this] at h
  · rename_i h
    simp only [Bool.not_eq_eq_eq_not, Bool.not_true, Bool.not_eq_false] at h
    have hself := aggregate_true ok p (.mk n k sy cs)
    simp only [Elem.aggregate, h, Bool.not_true, Bool.false_eq_true, ↓reduceIte] at hself
    split
    · rename_i h2
      rw [if_pos h2] at hself
      have hcl := hself.1 rfl
      simp only [List.mem_singleton]
      constructor
      · rintro rfl
        refine ⟨[], _, by simp, rfl, hcl, ?_⟩
        intro r' g h1 h3 _
        exact absurd (List.prefix_nil.1 h1) h3
      · rintro ⟨r, f, rfl, hf, _, hmin⟩
        by_cases hr : r = []
        · subst hr; simp
        · exact absurd (by simpa using hcl) (hmin [] _ (List.nil_prefix) (Ne.symm hr) rfl).2
    · rename_i h2
      rw [if_neg h2] at hself
      have hncl : ¬ Clean ok p (.mk n k sy cs) := fun hc => absurd (hself.2 hc) (by simp)
      rw [aggregateAll_mem]
      constructor
      · rintro ⟨j, c, hc, hq⟩
        rw [Nat.zero_add] at hq
        obtain ⟨r, f, rfl, hf, hcl, hmin⟩ := (aggregate_mem ok (p ++ [j]) c q).1 hq
        refine ⟨j :: r, f, by simp, by rw [Elem.at?_cons]; simp [Elem.children, hc, hf], hcl, ?_⟩
        intro r' g h1 h3 hg
        cases r' with
        | nil =>
          simp only [List.append_nil]
          have hg' : g = .mk n k sy cs := by simp only [Elem.at?, Option.some.injEq] at hg; exact hg.symm
          rw [hg']
          exact ⟨h, hncl⟩
        | cons x r' =>
          obtain ⟨rfl, h1'⟩ := List.cons_prefix_cons.1 h1
          rw [Elem.at?_cons] at hg
          simp only [Elem.children, hc, Option.bind_some] at hg
          have := hmin r' g h1' (fun hx => h3 (by rw [hx])) hg
          simpa using this
      · rintro ⟨r, f, rfl, hf, hcl, hmin⟩
        cases r with
        | nil =>
          simp only [Elem.at?, Option.some.injEq] at hf
          subst hf
          simp only [List.append_nil] at hcl
          exact absurd hcl hncl
        | cons j r =>
          rw [Elem.at?_cons] at hf
          cases hc : cs[j]? with
          | none => simp [Elem.children, hc] at hf
          | some c =>
            simp only [Elem.children, hc, Option.bind_some] at hf
            refine ⟨j, c, hc, ?_⟩
            rw [Nat.zero_add]
            refine (aggregate_mem ok (p ++ [j]) c _).2 ⟨r, f, by simp, hf, hcl, ?_⟩
            intro r' g h1 h3 hg
            have := hmin (j :: r') g (List.cons_prefix_cons.2 ⟨rfl, h1⟩) (by simpa using h3)
              (by rw [Elem.at?_cons]; simp [Elem.children, hc, hg])
            simpa using this
termination_by sizeOf e
decreasing_by
  all_goals exact Elem.child_sizeOf hc

/-- Every element is listed once. -/
theorem aggregate_nodup (ok : Pos → Bool) (p : Pos) (e : Elem) : (e.aggregate ok p).2.Nodup := by
  cases e with | mk n k sy cs =>
  simp only [Elem.aggregate]
  split
  · simp
  · split
    · simp
    · have key : ∀ (l : List Elem) (i : Nat), (∀ (j : Nat) (c : Elem), l[j]? = some c → (c.aggregate ok (p ++ [i + j])).2.Nodup) →
          (Elem.aggregateAll ok p i l).2.Nodup := by
        intro l
        induction l with
        | nil => intro i _; simp [Elem.aggregateAll]
        | cons c l ih =>
          intro i hl
          simp only [Elem.aggregateAll]
          rw [List.nodup_append]
          refine ⟨by simpa using hl 0 c (by simp), ih (i + 1) ?_, ?_⟩
          · intro j d hd
            have := hl (j + 1) d (by simpa using hd)
            rwa [show i + (j + 1) = i + 1 + j by omega] at this
          · intro a ha b hb hab
            subst hab
            obtain ⟨r, _, rfl, _⟩ := (aggregate_mem ok (p ++ [i]) c _).1 ha
            obtain ⟨j, d, _, hb⟩ := (aggregateAll_mem ok p l (i + 1) _).1 hb
            obtain ⟨r', _, h2, _⟩ := (aggregate_mem ok (p ++ [i + 1 + j]) d _).1 hb
            simp only [List.append_assoc, List.singleton_append, List.append_cancel_left_eq, List.cons.injEq] at h2
            omega
      apply key
      intro j c hc
      rw [Nat.zero_add]
      exact aggregate_nodup ok (p ++ [j]) c
termination_by sizeOf e
decreasing_by
  all_goals exact Elem.child_sizeOf hc

theorem noneAt_iff (att : Attached) (p : Pos) : att.noneAt p = true ↔ ∀ a ∈ att, a.1 ≠ p := by
  unfold Attached.noneAt
  simp

theorem mem_domainsAt {att : Attached} {p : Pos} {i : Nat} : i ∈ att.domainsAt p ↔ (p, i) ∈ att := by
  unfold Attached.domainsAt
  simp only [List.mem_map, List.mem_filter, decide_eq_true_eq]
  constructor
  · rintro ⟨⟨q, j⟩, ⟨h, rfl⟩, rfl⟩
    exact h
  · intro h
    exact ⟨(p, i), ⟨h, rfl⟩, rfl⟩

theorem mem_belonging {att : Attached} {p : Pos} {i : Nat} : i ∈ att.belonging p ↔ ∃ q, q <+: p ∧ (q, i) ∈ att := by
  unfold Attached.belonging
  simp only [List.mem_flatMap, List.mem_reverse, List.mem_range, mem_domainsAt]
  constructor
  · rintro ⟨n, _, h⟩
    exact ⟨_, List.take_prefix n p, h⟩
  · rintro ⟨q, hq, h⟩
    refine ⟨q.length, ?_, ?_⟩
    · have := hq.length_le
      omega
    · rwa [← List.prefix_iff_eq_take.1 hq]

theorem belongingCount_zero (att : Attached) (p : Pos) : att.belongingCount p = 0 ↔ ∀ a ∈ att, ¬ a.1 <+: p := by
  unfold Attached.belongingCount
  rw [List.length_eq_zero_iff, List.eq_nil_iff_forall_not_mem]
  constructor
  · rintro h ⟨q, i⟩ ha hq
    exact h i (mem_belonging.2 ⟨q, hq, ha⟩)
  · intro h i hi
    obtain ⟨q, hq, ha⟩ := mem_belonging.1 hi
    exact h _ ha hq

/-- `isRogue`, for associations of elements that exist. -/
theorem isRogue_iff {root e : Elem} {att : Attached} (hatt : ∀ a ∈ att, ∃ f, root.at? a.1 = some f) {p : Pos}
    (he : root.at? p = some e) : root.isRogue att p = true ↔ ∀ a ∈ att, ¬ a.1 <+: p ∧ ¬ p <+: a.1 := by
  unfold Elem.isRogue
  rw [he]
  simp only [Bool.and_eq_true, decide_eq_true_eq, belongingCount_zero]
  have hcl : Clean att.noneAt p e ↔ ∀ a ∈ att, ¬ p <+: a.1 := by
    constructor
    · rintro h a ha ⟨r, hr⟩
      obtain ⟨f, hf⟩ := hatt a ha
      rw [← hr, Elem.at?_append, he, Option.bind_some] at hf
      exact (noneAt_iff att _).1 (h r f hf) a ha hr.symm
    · intro h r f _
      refine (noneAt_iff att _).2 (fun a ha hx => h a ha ⟨r, hx.symm⟩)
  constructor
  · rintro ⟨h1, h2⟩ a ha
    refine ⟨h1 a ha, ?_⟩
    have hm : p ∈ (e.aggregate att.noneAt p).2 := by rw [h2]; simp
    obtain ⟨r, f, h3, h4, h5, _⟩ := (aggregate_mem att.noneAt p e p).1 hm
    have hr : r = [] := by simpa using h3
    subst hr
    have : f = e := by cases e; simp only [Elem.at?, Option.some.injEq] at h4; exact h4.symm
    subst this
    exact hcl.1 h5 a ha
  · intro h
    refine ⟨fun a ha => (h a ha).1, ?_⟩
    have hc := hcl.2 (fun a ha => (h a ha).2)
    have ht := (aggregate_true att.noneAt p e).2 hc
    cases e with | mk n k sy cs =>
    simp only [Elem.aggregate] at ht ⊢
    split
    · rename_i hx; rw [if_pos hx] at ht; simp at ht
    · rename_i hx
      rw [if_neg hx] at ht
      split
      · rfl
      · rename_i hy; rw [if_neg hy] at ht; simp at ht

end PF
