import Verif.Lemmas.AttachedNodup
import Verif.Lemmas.Rogue
import Verif.Lemmas.DomainApply
import Verif.Spec.Listing

/-! # Lemmas on the listings -/

namespace PF
open Spec

theorem linesText_eq (ts : List Str) : linesText ts = Lines ts := by
  induction ts with
  | nil => rfl
  | cons t ts ih =>
    simp only [linesText, List.flatMap_cons, Lines] at ih ⊢
    rw [ih]
    rfl

theorem joinCommas_eq (ts : List Str) : joinTexts (s ", ") ts = Commas ts := by
  induction ts with
  | nil => rfl
  | cons t ts ih =>
    cases ts with
    | nil => rfl
    | cons u ts => rw [joinTexts, ih, Commas]

theorem mapAll_some {α β : Type} {f : α → Option β} {g : α → β} {l : List α} (h : ∀ a ∈ l, f a = some (g a)) :
    mapAll f l = some (l.map g) := by
  induction l with
  | nil => rfl
  | cons a l ih => simp [mapAll, h a (by simp), ih (fun x hx => h x (by simp [hx]))]

theorem Lines_append (a b : List Str) : Lines (a ++ b) = Lines a ++ Lines b := by
  induction a with
  | nil => rfl
  | cons t a ih => simp [Lines, ih]

/-! ## Positions -/

theorem all_empty_iff {ds : List Char} {t : Str} {ps : List Str} (h : Pieces ds t ps) :
    (∀ w ∈ ps, w = []) ↔ ∀ c ∈ t, c ∈ ds := by
  induction h with
  | last w hw =>
    simp only [List.mem_singleton, forall_eq]
    constructor
    · rintro rfl; simp
    · intro h
      cases w with
      | nil => rfl
      | cons c w => exact absurd (h c (by simp)) (hw c (by simp))
  | cut w d rest ps hw hd _ ih =>
    simp only [List.mem_cons, forall_eq_or_imp, ih, List.mem_append]
    constructor
    · rintro ⟨rfl, h⟩ c (hc | rfl | hc)
      · simp at hc
      · exact hd
      · exact h c hc
    · intro h
      refine ⟨?_, fun c hc => h c (.inr (.inr hc))⟩
      cases w with
      | nil => rfl
      | cons c w => exact absurd (h c (by simp)) (hw c (by simp))


theorem Elem.path_some {root f : Elem} {p : Pos} (h : root.at? p = some f) : root.path p = some (pathOf root p) := by
  unfold pathOf
  rw [Elem.path_eq h]
  rfl

theorem qualifiedPath_some {root f : Elem} {p : Pos} (h : root.at? p = some f) :
    root.qualifiedPath p = some (ElementLine root p) := by
  unfold Elem.qualifiedPath ElementLine kindOf
  rw [Elem.path_some h, h]
  rfl

theorem locateOrRoot_iff {root : Elem} {path : Str} {p : Pos} :
    root.locateOrRoot path = some p ↔ Designates root path p := by
  unfold Elem.locateOrRoot Designates Elem.locate
  by_cases hh : path.head? ≠ some '/'
  · rw [if_pos hh, if_pos hh]
    simp only [reduceCtorEq, false_or, false_iff]
    rintro ⟨h1, h2, _⟩
    cases path with
    | nil => exact h1 rfl
    | cons c w => exact hh (by rw [h2 c (by simp)]; rfl)
  · rw [if_neg hh, if_neg hh]
    have hne : path ≠ [] := by rintro rfl; simp at hh
    obtain ⟨ps, hps⟩ := pieces_exists ['/'] path
    have htok := tokenize_true_of_pieces hps
    rw [htok]
    have hall : ps.filter (· ≠ []) = [] ↔ ∀ c ∈ path, c = '/' := by
      rw [List.filter_eq_nil_iff]
      have := all_empty_iff hps
      simp only [ne_eq, decide_not, Bool.not_eq_eq_eq_not, Bool.not_true, decide_eq_false_iff_not, not_not]
      rw [this]
      simp
    cases ht : ps.filter (· ≠ []) with
    | nil =>
      simp only [Option.some.injEq, reduceCtorEq, false_or]
      exact ⟨fun h => ⟨hne, hall.1 ht, h.symm⟩, fun h => h.2.2.symm⟩
    | cons n ns =>
      simp only
      constructor
      · exact .inl
      · rintro (h | ⟨_, h, _⟩)
        · exact h
        · rw [hall.2 h] at ht; simp at ht

theorem prefix_singleton_append {p : Pos} {i : Nat} {q : Pos} : p ++ [i] <+: q ↔ ∃ r, q = p ++ i :: r := by
  constructor
  · rintro ⟨r, rfl⟩; exact ⟨r, by simp⟩
  · rintro ⟨r, rfl⟩; exact ⟨r, by simp⟩

theorem pos_lt_append {p a b : Pos} : p ++ a < p ++ b ↔ a < b := by
  induction p with
  | nil => rfl
  | cons i p ih =>
    simp only [List.cons_append, List.cons_lt_cons_iff, Nat.lt_irrefl, false_or, true_and]
    exact ih

mutual
/-- The positions at and below an element, in the order of the document. -/
def Elem.inTree : Pos → Elem → List Pos
  | p, .mk _ _ _ cs => p :: Elem.inTreeAll p 0 cs
/-- The positions at and below the elements of a list. -/
def Elem.inTreeAll : Pos → Nat → List Elem → List Pos
  | _, _, [] => []
  | p, i, c :: cs => Elem.inTree (p ++ [i]) c ++ Elem.inTreeAll p (i + 1) cs
end

mutual
theorem Elem.mem_inTree (e : Elem) (p q : Pos) : q ∈ e.inTree p ↔ ∃ r f, q = p ++ r ∧ e.at? r = some f := by
  cases e with | mk n k sy cs =>
  rw [Elem.inTree, List.mem_cons, Elem.mem_inTreeAll cs p 0 q]
  constructor
  · rintro (rfl | ⟨j, r, c, f, h1, rfl, h2⟩)
    · exact ⟨[], _, by simp, rfl⟩
    · exact ⟨j :: r, f, by simp, by rw [Elem.at?_cons]; simp only [Elem.children, h1, Option.bind_some, h2]⟩
  · rintro ⟨r, f, rfl, h⟩
    cases r with
    | nil => exact .inl (by simp)
    | cons j r =>
      rw [Elem.at?_cons] at h
      simp only [Elem.children] at h
      obtain ⟨c, hc, h⟩ := Option.bind_eq_some_iff.1 h
      exact .inr ⟨j, r, c, f, hc, by simp, h⟩
theorem Elem.mem_inTreeAll (cs : List Elem) (p : Pos) (i : Nat) (q : Pos) :
    q ∈ Elem.inTreeAll p i cs ↔ ∃ j r c f, cs[j]? = some c ∧ q = p ++ (i + j) :: r ∧ c.at? r = some f := by
  cases cs with
  | nil => simp [Elem.inTreeAll]
  | cons c cs =>
    rw [Elem.inTreeAll, List.mem_append, Elem.mem_inTree c (p ++ [i]) q, Elem.mem_inTreeAll cs p (i + 1) q]
    constructor
    · rintro (⟨r, f, rfl, h⟩ | ⟨j, r, c', f, h1, rfl, h2⟩)
      · exact ⟨0, r, c, f, rfl, by simp, h⟩
      · exact ⟨j + 1, r, c', f, by simpa using h1, by rw [Nat.add_assoc, Nat.add_comm 1], h2⟩
    · rintro ⟨j, r, c', f, h1, rfl, h2⟩
      cases j with
      | zero =>
        simp only [List.getElem?_cons_zero, Option.some.injEq] at h1
        subst h1
        exact .inl ⟨r, f, by simp, h2⟩
      | succ j => exact .inr ⟨j, r, c', f, by simpa using h1, by rw [Nat.add_assoc, Nat.add_comm 1], h2⟩
end

theorem pos_lt_below (p : Pos) (i : Nat) (r : Pos) : p < p ++ i :: r := by
  have := (pos_lt_append (p := p) (a := []) (b := i :: r)).2 (by simp)
  simpa using this

mutual
theorem Elem.inTree_ordered (e : Elem) (p : Pos) : DocumentOrder (e.inTree p) := by
  cases e with | mk n k sy cs =>
  rw [Elem.inTree]
  refine List.pairwise_cons.2 ⟨?_, Elem.inTreeAll_ordered cs p 0⟩
  intro q hq
  obtain ⟨j, r, _, _, _, rfl, _⟩ := (Elem.mem_inTreeAll cs p 0 q).1 hq
  exact pos_lt_below _ _ _
theorem Elem.inTreeAll_ordered (cs : List Elem) (p : Pos) (i : Nat) : DocumentOrder (Elem.inTreeAll p i cs) := by
  cases cs with
  | nil => exact List.Pairwise.nil
  | cons c cs =>
    rw [Elem.inTreeAll]
    refine List.pairwise_append.2 ⟨Elem.inTree_ordered c _, Elem.inTreeAll_ordered cs p (i + 1), ?_⟩
    intro a ha b hb
    obtain ⟨r, _, rfl, _⟩ := (Elem.mem_inTree c _ a).1 ha
    obtain ⟨j, r', _, _, _, rfl, _⟩ := (Elem.mem_inTreeAll cs p (i + 1) b).1 hb
    rw [List.append_assoc, pos_lt_append, List.singleton_append, List.cons_lt_cons_iff]
    left; omega
end

theorem Elem.inTree_iff {root e : Elem} {p : Pos} (h : root.at? p = some e) (q : Pos) :
    q ∈ e.inTree p ↔ p <+: q ∧ ∃ f, root.at? q = some f := by
  rw [Elem.mem_inTree]
  constructor
  · rintro ⟨r, f, rfl, hf⟩
    exact ⟨⟨r, rfl⟩, f, by rw [Elem.at?_append, h]; exact hf⟩
  · rintro ⟨⟨r, rfl⟩, f, hf⟩
    rw [Elem.at?_append, h] at hf
    exact ⟨r, f, rfl, hf⟩

/-! ## The listing of the structure -/

/-- The element at a position has no children. -/
def Elem.leafAt (root : Elem) (q : Pos) : Bool := (root.at? q).all (·.children.isEmpty)

mutual
theorem Elem.listed_leaves (root e : Elem) (p : Pos) (l : Nat) (h : root.at? p = some e) :
    e.listed true l p = (e.inTree p).filter root.leafAt := by
  cases e with | mk n k sy cs =>
  have h2 := Elem.listedAll_leaves root (.mk n k sy cs) p (l + 1) 0 cs h (by simp [Elem.children])
  rw [Elem.listed, Elem.inTree, List.filter_cons, h2]
  simp only [Elem.leafAt, h, Option.all_some, Elem.children, Bool.not_true, Bool.false_or, Bool.true_or, if_true]
  cases cs <;> simp
theorem Elem.listedAll_leaves (root e : Elem) (p : Pos) (l i : Nat) (cs : List Elem) (h : root.at? p = some e)
    (hc : ∀ j, e.children[i + j]? = cs[j]?) :
    Elem.listedAll true l p i cs = (Elem.inTreeAll p i cs).filter root.leafAt := by
  cases cs with
  | nil => rfl
  | cons c cs =>
    have h0 : root.at? (p ++ [i]) = some c := by
      have := hc 0
      simp only [Nat.add_zero, List.getElem?_cons_zero] at this
      rw [Elem.at?_append, h, Option.bind_some, Elem.at?_cons, this]
      cases c; rfl
    have h1 := Elem.listed_leaves root c (p ++ [i]) l h0
    have h2 := Elem.listedAll_leaves root e p l (i + 1) cs h (by
      intro j
      have := hc (j + 1)
      rwa [List.getElem?_cons_succ, Nat.add_comm j 1, ← Nat.add_assoc] at this)
    rw [Elem.listedAll, Elem.inTreeAll, List.filter_append, h1, h2]
end

theorem Elem.listedAll_flat (p : Pos) (l i : Nat) (cs : List Elem) (hl : l ≠ 0) :
    Elem.listedAll false l p i cs = (List.range' i cs.length).map (fun j => p ++ [j]) := by
  induction cs generalizing i with
  | nil => rfl
  | cons c cs ih =>
    rw [Elem.listedAll, ih, List.length_cons, List.range'_succ, List.map_cons]
    cases c with | mk n k sy cs =>
    simp [Elem.listed, hl]

theorem Elem.listed_flat (e : Elem) (p : Pos) :
    e.listed false 0 p = p :: (List.range e.children.length).map (fun j => p ++ [j]) := by
  cases e with | mk n k sy cs =>
  rw [Elem.listed, Elem.listedAll_flat _ _ _ _ (by simp), ← List.range_eq_range']
  simp [Elem.children]

/-! ## The dump of an element -/

/-- The path of a parameter, when it designates an element, leads to the parameter. -/
theorem accessWalk_of_find {e f : Elem} {ns : List Str} {p : Pos} (h : e.findDescendant ns = some p)
    (hf : e.at? p = some f) (hpar : f.kind.isParameter = true)
    (hno : ∀ q g, q <+: p → q ≠ p → e.at? q = some g → g.kind.isParameter = false) :
    e.accessWalk ns = some (p, []) := by
  induction ns generalizing e p with
  | nil =>
    simp only [Elem.findDescendant, Option.some.injEq] at h
    subst h
    simp only [Elem.at?, Option.some.injEq] at hf
    subst hf
    unfold Elem.accessWalk
    rw [if_pos hpar]
  | cons n ns ih =>
    unfold Elem.findDescendant at h
    split at h
    · simp at h
    · rename_i i hi
      split at h
      · simp at h
      · rename_i c hc
        obtain ⟨q, hq, rfl⟩ := Option.map_eq_some_iff.1 h
        have he : e.kind.isParameter = false := hno [] e (by simp) (by simp) (by cases e; rfl)
        rw [Elem.at?_cons, hc, Option.bind_some] at hf
        have := ih hq hf (by
          intro r g hr hne hg
          exact hno (i :: r) g (by simpa using hr) (by simpa using hne) (by rw [Elem.at?_cons, hc]; exact hg))
        unfold Elem.accessWalk
        rw [if_neg (by simp [he]), hi]
        simp only [hc, this, Option.map_some]

theorem Elem.WF.access_of_locate {root f : Elem} (wf : root.WF) {path : Str} {p : Pos} (h : root.locate path = some p)
    (hf : root.at? p = some f) (hpar : f.kind.isParameter = true) : root.accessTarget path = some (p, []) := by
  unfold Elem.locate at h
  unfold Elem.accessTarget
  split at h
  · simp at h
  · rename_i hh
    rw [if_neg hh]
    cases ht : tokenize ['/'] true path with
    | nil => simp [ht] at h
    | cons n ns =>
      simp only [ht] at h ⊢
      split at h
      · simp at h
      · rename_i hn
        rw [if_neg hn]
        refine accessWalk_of_find h hf hpar ?_
        intro q g hq hne hg
        cases hk : g.kind.isParameter with
        | false => rfl
        | true => exact absurd (wf.param_leaf hg hk hf hq) hne

theorem dumpLine_eq (depth : Nat) (kind name value : Str) :
    dumpLine depth kind name value = DumpLine depth kind name value ++ s "\n" := by
  unfold dumpLine DumpLine
  rw [Nat.mul_comm 4 depth]
  by_cases h1 : name = [] <;> by_cases h2 : value = [] <;> simp [h1, h2]

/-- The value in the dump of the element at a position. -/
def Elem.valueAt (root : Elem) (ctx : Ctx) (b : Board) (q : Pos) : Out Str :=
  match root.at? q with
  | none => .abort
  | some f => root.logValue ctx b q f.kind

/-- The line in the dump of the element at a position. -/
def Elem.dumpLineAt (root : Elem) (ctx : Ctx) (b : Board) (level : Nat) (q : Pos) : Str :=
  match root.at? q with
  | none => []
  | some f => DumpLine (q.length - level) f.kind.text f.name
      (match root.valueAt ctx b q with | .ok v => v | _ => [])

mutual
theorem Elem.dump_iff (root : Elem) (ctx : Ctx) (b : Board) (e : Elem) (level depth : Nat) (p : Pos) (t : Str)
    (h : root.at? p = some e) (hp : p.length = level + depth) :
    Elem.dump root ctx b depth p e = .ok t ↔
      (∀ q ∈ e.inTree p, ∃ v, root.valueAt ctx b q = .ok v) ∧
      t = Lines ((e.inTree p).map (root.dumpLineAt ctx b level)) := by
  cases e with | mk n k sy cs =>
  have h2 := fun u => Elem.dumpAll_iff root ctx b (.mk n k sy cs) level (depth + 1) p 0 cs u h (by simp [Elem.children])
    (by omega)
  rw [Elem.dump, Elem.inTree]
  simp only [List.mem_cons, forall_eq_or_imp, List.map_cons, Lines]
  have hv : root.valueAt ctx b p = root.logValue ctx b p k := by
    unfold Elem.valueAt; rw [h]; rfl
  have hline : ∀ v, root.logValue ctx b p k = .ok v →
      root.dumpLineAt ctx b level p = DumpLine depth k.text n v := by
    intro v hv'
    unfold Elem.dumpLineAt
    rw [h]
    simp only [hv, hv', Elem.kind, Elem.name]
    congr 1
    omega
  rw [hv]
  cases hl : root.logValue ctx b p k with
  | err => simp [Out.bind]
  | abort => simp [Out.bind]
  | ok v =>
    rw [hline v hl]
    simp only [Out.bind, Out.ok.injEq, exists_eq', true_and]
    cases hd : Elem.dumpAll root ctx b (depth + 1) p 0 cs with
    | err =>
      simp only [reduceCtorEq, false_iff, not_and]
      intro hq
      exact absurd ((h2 _).2 ⟨hq, rfl⟩) (by simp [hd])
    | abort =>
      simp only [reduceCtorEq, false_iff, not_and]
      intro hq
      exact absurd ((h2 _).2 ⟨hq, rfl⟩) (by simp [hd])
    | ok u =>
      obtain ⟨hq, hu⟩ := (h2 u).1 hd
      simp only [Out.ok.injEq]
      rw [dumpLine_eq, hu]
      exact ⟨fun h => ⟨hq, h.symm⟩, fun h => h.2.symm⟩
theorem Elem.dumpAll_iff (root : Elem) (ctx : Ctx) (b : Board) (e : Elem) (level depth : Nat) (p : Pos) (i : Nat)
    (cs : List Elem) (t : Str) (h : root.at? p = some e) (hc : ∀ j, e.children[i + j]? = cs[j]?)
    (hp : p.length + 1 = level + depth) :
    Elem.dumpAll root ctx b depth p i cs = .ok t ↔
      (∀ q ∈ Elem.inTreeAll p i cs, ∃ v, root.valueAt ctx b q = .ok v) ∧
      t = Lines ((Elem.inTreeAll p i cs).map (root.dumpLineAt ctx b level)) := by
  cases cs with
  | nil => simp [Elem.dumpAll, Elem.inTreeAll, Lines, eq_comm]
  | cons c cs =>
    have h0 : root.at? (p ++ [i]) = some c := by
      have := hc 0
      simp only [Nat.add_zero, List.getElem?_cons_zero] at this
      rw [Elem.at?_append, h, Option.bind_some, Elem.at?_cons, this]
      cases c; rfl
    have h1 := fun u => Elem.dump_iff root ctx b c level depth (p ++ [i]) u h0 (by simp; omega)
    have h2 := fun u => Elem.dumpAll_iff root ctx b e level depth p (i + 1) cs u h (by
      intro j
      have := hc (j + 1)
      rwa [List.getElem?_cons_succ, Nat.add_comm j 1, ← Nat.add_assoc] at this) hp
    rw [Elem.dumpAll, Elem.inTreeAll]
    simp only [List.mem_append, List.map_append, Lines_append]
    cases ha : Elem.dump root ctx b depth (p ++ [i]) c with
    | err =>
      simp only [Out.bind, reduceCtorEq, false_iff, not_and]
      intro hq
      exact absurd ((h1 _).2 ⟨fun q hm => hq q (.inl hm), rfl⟩) (by simp [ha])
    | abort =>
      simp only [Out.bind, reduceCtorEq, false_iff, not_and]
      intro hq
      exact absurd ((h1 _).2 ⟨fun q hm => hq q (.inl hm), rfl⟩) (by simp [ha])
    | ok u =>
      obtain ⟨ha1, ha2⟩ := (h1 u).1 ha
      cases hd : Elem.dumpAll root ctx b depth p (i + 1) cs with
      | err =>
        simp only [Out.bind, reduceCtorEq, false_iff, not_and]
        intro hq
        exact absurd ((h2 _).2 ⟨fun q hm => hq q (.inr hm), rfl⟩) (by simp [hd])
      | abort =>
        simp only [Out.bind, reduceCtorEq, false_iff, not_and]
        intro hq
        exact absurd ((h2 _).2 ⟨fun q hm => hq q (.inr hm), rfl⟩) (by simp [hd])
      | ok w =>
        obtain ⟨hb1, hb2⟩ := (h2 w).1 hd
        simp only [Out.bind, Out.ok.injEq, ha2, hb2]
        exact ⟨fun h => ⟨fun q hm => hm.elim (ha1 q) (hb1 q), h.symm⟩, fun h => h.2.symm⟩
end

end PF
