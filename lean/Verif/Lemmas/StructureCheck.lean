import Verif.Lemmas.StructureWF

/-!
# Checking the conditions on documents by computation

Only used for the examples.
-/

namespace PF

open Spec

mutual
/-- The element and all those in it. -/
def SXml.nodes : SXml → List SXml
  | .mk tag attrs cs => .mk tag attrs cs :: SXml.nodesAll cs
/-- The elements and all those in them. -/
def SXml.nodesAll : List SXml → List SXml
  | [] => []
  | x :: xs => x.nodes ++ SXml.nodesAll xs
end

mutual
theorem everywhere_of_nodes {P : SXml → Prop} : ∀ {x : SXml}, (∀ y ∈ x.nodes, P y) → Everywhere P x
  | .mk tag attrs cs, h => by
    simp only [SXml.nodes, List.mem_cons, forall_eq_or_imp] at h
    exact .mk h.1 (everywhere_of_nodesAll h.2)
theorem everywhere_of_nodesAll {P : SXml → Prop} : ∀ {xs : List SXml}, (∀ y ∈ SXml.nodesAll xs, P y) →
    ∀ c ∈ xs, Everywhere P c
  | [], _, c, hc => by simp at hc
  | x :: xs, h, c, hc => by
    simp only [SXml.nodesAll, List.mem_append] at h
    exact (List.mem_cons.1 hc).elim (fun e => e ▸ everywhere_of_nodes (fun y hy => h y (.inl hy)))
      (fun hc => everywhere_of_nodesAll (fun y hy => h y (.inr hy)) c hc)
end

theorem everywhere_check {P : SXml → Prop} {check : SXml → Bool} (hP : ∀ y, check y = true → P y) {x : SXml}
    (h : x.nodes.all check = true) : Everywhere P x :=
  everywhere_of_nodes (fun y hy => hP y (List.all_eq_true.1 h y hy))

/-- The number of an attribute. -/
def numB (x : SXml) (name : String) : Option Int :=
  match x.num (s name) true 70 0 with
  | .ok n => some n
  | _ => none

theorem numB_ok {x : SXml} {name : String} {n : Int} (h : numB x name = some n) :
    NumAttr x (s name) 0 n := by
  unfold numB at h
  split at h
  · rename_i m hm
    cases h
    exact (SXml.num_ok hm).1
  · cases h

/-- Checks `SizesDeclared`. -/
def sizesB (x : SXml) : Bool :=
  (x.tag != s "EnumParameter" || (numB x "Size").any (fun n => [8, 16, 32].contains n)) &&
  (x.tag != s "FixedPointParameter" || ((numB x "Size").any (fun n => [8, 16, 32].contains n) &&
    (numB x "Integral").any (fun i => (numB x "Fractional").any (fun f => i + f + 1 < 4294967296)))) &&
  (x.tag != s "BitParameterBlock" || ((numB x "Size").any (fun n => [8, 16, 32, 64].contains n) &&
    x.children.all (fun c => c.tag == s "BitParameter"))) &&
  (x.tag != s "BitParameter" || (numB x "Pos").any (fun n => n ≤ 63))

theorem sizesB_ok (x : SXml) (h : sizesB x = true) : SizesDeclared x := by
  unfold sizesB at h
  simp only [Bool.and_eq_true, Bool.or_eq_true, bne_iff_ne, ne_eq, Option.any_eq_true,
    List.contains_iff_mem, List.all_eq_true, beq_iff_eq, decide_eq_true_eq] at h
  obtain ⟨⟨⟨h1, h2⟩, h3⟩, h4⟩ := h
  refine ⟨fun ht => ?_, fun ht => ?_, fun ht => ?_, fun ht => ?_, fun ht => ?_⟩
  · rcases h1 with h1 | ⟨n, hn, hm⟩
    · exact absurd ht h1
    · exact ⟨n, hm, numB_ok hn⟩
  · rcases h2 with h2 | ⟨⟨n, hn, hm⟩, -⟩
    · exact absurd ht h2
    · exact ⟨n, hm, numB_ok hn⟩
  · rcases h3 with h3 | ⟨⟨n, hn, hm⟩, h5⟩
    · exact absurd ht h3
    · exact ⟨⟨n, hm, numB_ok hn⟩, h5⟩
  · rcases h4 with h4 | ⟨n, hn, hm⟩
    · exact absurd ht h4
    · exact ⟨n, hm, numB_ok hn⟩
  · rcases h2 with h2 | ⟨-, i, hi, f, hf, hlt⟩
    · exact absurd ht h2
    · intro i' f' hi' hf'
      rw [NumAttr.unique hi' (numB_ok hi), NumAttr.unique hf' (numB_ok hf)]
      omega

/-- Checks that two bit parameters do not overlap. -/
def apartB (a b : SXml) : Bool :=
  (numB a "Pos").any fun p => (numB a "Size").any fun m => (numB b "Pos").any fun q =>
    (numB b "Size").any fun n => p + m ≤ q || q + n ≤ p

/-- Checks that no two in the list overlap. -/
def apartAllB : List SXml → Bool
  | [] => true
  | x :: xs => xs.all (apartB x) && apartAllB xs

theorem apartAllB_ok : ∀ xs : List SXml, apartAllB xs = true → xs.Pairwise (fun a b => ∀ p q m n,
    NumAttr a (s "Pos") 0 p → NumAttr a (s "Size") 0 m → NumAttr b (s "Pos") 0 q →
    NumAttr b (s "Size") 0 n → p + m ≤ q ∨ q + n ≤ p)
  | [], _ => .nil
  | x :: xs, h => by
    simp only [apartAllB, Bool.and_eq_true, List.all_eq_true] at h
    refine .cons (fun y hy p q m n h1 h2 h3 h4 => ?_) (apartAllB_ok xs h.2)
    have := h.1 y hy
    simp only [apartB, Option.any_eq_true, Bool.or_eq_true, decide_eq_true_eq] at this
    obtain ⟨p', hp, m', hm, q', hq, n', hn, hr⟩ := this
    rw [NumAttr.unique h1 (numB_ok hp), NumAttr.unique h2 (numB_ok hm), NumAttr.unique h3 (numB_ok hq),
      NumAttr.unique h4 (numB_ok hn)]
    exact hr

/-- Checks `FieldsDeclaredDisjoint`. -/
def fieldsB (x : SXml) : Bool := x.tag != s "BitParameterBlock" || apartAllB x.children

theorem fieldsB_ok (x : SXml) (h : fieldsB x = true) : FieldsDeclaredDisjoint x := by
  intro ht
  simp only [fieldsB, Bool.or_eq_true, bne_iff_ne, ne_eq] at h
  rcases h with h | h
  · exact absurd ht h
  · exact apartAllB_ok _ h

/-- Looks a type up. -/
def typeB (lib : List SXml) (n : Str) : Option SXml := lib.find? (fun t => typeName t == n)

theorem typeB_ok {lib : List SXml} {n : Str} {t : SXml} (h : typeB lib n = some t) : TypeNamed lib n t := by
  unfold typeB at h
  rw [List.find?_eq_some_iff_append] at h
  obtain ⟨h1, as, bs, h2, h3⟩ := h
  refine ⟨as, bs, h2, by simpa using h1, fun u hu => ?_⟩
  have := h3 u hu
  simpa using this

/-- The types that a type extends. -/
def chainB (lib : List SXml) : Nat → SXml → Option (List SXml)
  | 0, _ => none
  | fuel + 1, t =>
    match t.attr (s "Extends") with
    | none => some [t]
    | some e =>
      match typeB lib e with
      | none => none
      | some u => (chainB lib fuel u).map (t :: ·)

theorem chainB_ok {lib : List SXml} : ∀ {fuel : Nat} {t : SXml} {ts : List SXml},
    chainB lib fuel t = some ts → Chain lib t ts
  | 0, _, _, h => by simp [chainB] at h
  | fuel + 1, t, ts, h => by
    simp only [chainB] at h
    split at h
    · rename_i he; cases h; exact .last he
    · rename_i e he
      split at h
      · cases h
      · rename_i u hu
        simp only [Option.map_eq_some_iff] at h
        obtain ⟨us, hus, rfl⟩ := h
        exact .more he (typeB_ok hu) (chainB_ok hus)

/-- Checks `NamesDeclared`. -/
def namesB (lib : List SXml) (x : SXml) : Bool :=
  (!declTags.contains x.tag || (x.nameAttr != [] && !x.nameAttr.contains '/')) &&
  (![s "ParameterBlock", s "BitParameterBlock", s "InstanceDefinition"].contains x.tag ||
    decide (x.children.map SXml.nameAttr).Nodup) &&
  (x.tag != s "Component" || (typeB lib ((x.attr (s "Type")).getD [])).any (fun t =>
    (chainB lib (lib.length + 1) t).any (fun ts =>
      decide ((x.children ++ ts.flatMap SXml.children).map SXml.nameAttr).Nodup)))

theorem namesB_ok (lib : List SXml) (x : SXml) (h : namesB lib x = true) : NamesDeclared lib x := by
  unfold namesB at h
  simp only [Bool.and_eq_true, Bool.or_eq_true, bne_iff_ne, ne_eq, Bool.not_eq_true', Option.any_eq_true,
    decide_eq_true_eq] at h
  obtain ⟨⟨h1, h2⟩, h3⟩ := h
  refine ⟨fun ht => ?_, fun ht => ?_, fun ht t ts htn hch => ?_⟩
  · rcases h1 with h1 | ⟨h4, h5⟩
    · rw [← Bool.not_eq_true, List.contains_iff_mem] at h1; exact absurd ht h1
    · rw [← Bool.not_eq_true, List.contains_iff_mem] at h5; exact ⟨h4, h5⟩
  · rcases h2 with h2 | h2
    · rw [← Bool.not_eq_true, List.contains_iff_mem] at h2; exact absurd ht h2
    · exact h2
  · rcases h3 with h3 | ⟨t', ht', ts', hts', hnd⟩
    · exact absurd ht h3
    · rw [TypeNamed.unique htn (typeB_ok ht')] at hch
      rw [Chain.unique hch (chainB_ok hts')]
      exact hnd

mutual
/-- Compares elements. -/
def Elem.eqB : Elem → Elem → Bool
  | .mk n k sy cs, .mk n' k' sy' cs' =>
    decide (n = n') && decide (k = k') && decide (sy = sy') && Elem.eqAllB cs cs'
/-- Compares lists of elements. -/
def Elem.eqAllB : List Elem → List Elem → Bool
  | [], [] => true
  | c :: cs, c' :: cs' => c.eqB c' && Elem.eqAllB cs cs'
  | _, _ => false
end

mutual
theorem Elem.eqB_ok : ∀ (e e' : Elem), e.eqB e' = true → e = e'
  | .mk n k sy cs, .mk n' k' sy' cs', h => by
    simp only [Elem.eqB, Bool.and_eq_true, decide_eq_true_eq] at h
    rw [h.1.1.1, h.1.1.2, h.1.2, Elem.eqAllB_ok cs cs' h.2]
theorem Elem.eqAllB_ok : ∀ (cs cs' : List Elem), Elem.eqAllB cs cs' = true → cs = cs'
  | [], [], _ => rfl
  | c :: cs, c' :: cs', h => by
    simp only [Elem.eqAllB, Bool.and_eq_true] at h
    rw [Elem.eqB_ok c c' h.1, Elem.eqAllB_ok cs cs' h.2]
  | [], _ :: _, h => by simp [Elem.eqAllB] at h
  | _ :: _, [], h => by simp [Elem.eqAllB] at h
end

/-- Compares the result of loading a system. -/
def loadsB (r : Run Elem) (e : Elem) : Bool :=
  match r with
  | some (.ok e') => e'.eqB e
  | _ => false

theorem loadsB_ok {r : Run Elem} {e : Elem} (h : loadsB r e = true) : r = some (.ok e) := by
  unfold loadsB at h
  split at h
  · rw [Elem.eqB_ok _ _ h]
  · cases h

/-- The loading ends with an error. -/
def refusedB {α : Type} (r : Run α) : Bool :=
  match r with
  | some .err => true
  | _ => false

theorem refusedB_ok {α : Type} {r : Run α} (h : refusedB r = true) : r = some .err := by
  unfold refusedB at h
  split at h
  · rfl
  · cases h

end PF
