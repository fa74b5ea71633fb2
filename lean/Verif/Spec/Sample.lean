import Verif.Spec.Tree

/-! # A sample structure, used to show that the hypotheses of the theorems can be met -/

namespace PF.Sample
open PF

/-- A 16-bit signed integer between -100 and 100. -/
def int16 : ScalarType := .int ⟨true, 2, -100, 100⟩
/-- Bits 1 to 3 of a one-byte block. -/
def fieldA : BitType := ⟨1, 1, 3, 7#64⟩
/-- Bits 4 and 5 of the block. -/
def fieldB : BitType := ⟨1, 4, 2, 3#64⟩

/-- The bit parameter block. -/
def block : Elem := .mk (s "flags") (.bitBlock 1) none
  [.mk (s "a") (.bit fieldA) none [], .mk (s "b") (.bit fieldB) none []]

/-- A component with all kinds of parameters. -/
def component : Elem := .mk (s "comp") (.group (s "Component")) none
  [.mk (s "vol") (.scalar int16) (some 1) [], block,
   .mk (s "label") (.string 3) (some 3) [], .mk (s "gains") (.array ⟨.bool, 2⟩) none []]

/-- System class, one subsystem with the component and one parameter. -/
def root : Elem := .mk (s "Sys") (.group (s "SystemClass")) none
  [.mk (s "sub") (.group (s "Subsystem")) none [component, .mk (s "on") (.scalar .bool) (some 2) []]]

theorem block_wf : block.WF := by
  refine .bitBlock (by decide) ?_
  intro c hc
  simp only [List.mem_cons, List.not_mem_nil, or_false] at hc
  rcases hc with rfl | rfl
  · exact ⟨_, _, _, rfl, ⟨by decide, by decide, by decide, by decide⟩, rfl⟩
  · exact ⟨_, _, _, rfl, ⟨by decide, by decide, by decide, by decide⟩, rfl⟩

theorem component_wf : component.WF := by
  refine .group ?_ ?_
  · intro c hc
    simp only [List.mem_cons, List.not_mem_nil, or_false] at hc
    rcases hc with rfl | rfl | rfl | rfl
    · exact .scalar (.inr (.inl rfl))
    · exact block_wf
    · exact .string
    · exact .array (.inl rfl)
  · intro c hc t
    simp only [List.mem_cons, List.not_mem_nil, or_false] at hc
    rcases hc with rfl | rfl | rfl | rfl <;> simp [Elem.kind, block]

theorem wf : root.WF := by
  refine .group ?_ ?_
  · intro c hc
    simp only [List.mem_cons, List.not_mem_nil, or_false] at hc
    subst hc
    refine .group ?_ ?_
    · intro c hc
      simp only [List.mem_cons, List.not_mem_nil, or_false] at hc
      rcases hc with rfl | rfl
      · exact component_wf
      · exact .scalar (.inl rfl)
    · intro c hc t
      simp only [List.mem_cons, List.not_mem_nil, or_false] at hc
      rcases hc with rfl | rfl <;> simp [Elem.kind, component]
  · intro c hc t
    simp only [List.mem_cons, List.not_mem_nil, or_false] at hc
    subst hc; simp [Elem.kind]

/-- All positions of the structure. -/
def positions : List Pos := [[], [0], [0, 0], [0, 0, 0], [0, 0, 1], [0, 0, 1, 0], [0, 0, 1, 1], [0, 0, 2], [0, 0, 3], [0, 1]]

theorem mem_positions {p : Pos} {e : Elem} (h : root.at? p = some e) : p ∈ positions := by
  have leaf : ∀ (n : Str) (k : EKind) (sy : Option Nat) (q : Pos) (e : Elem), (Elem.mk n k sy []).at? q = some e → q = [] := by
    intro n k sy q e h
    cases q with
    | nil => rfl
    | cons i q => simp [Elem.at?] at h
  match p with
  | [] => decide
  | 0 :: [] => decide
  | (n + 1) :: _ => simp [root, Elem.at?] at h
  | 0 :: 1 :: q =>
    have := leaf _ _ _ q e h
    subst this; decide
  | 0 :: (n + 2) :: q => simp [root, Elem.at?] at h
  | 0 :: 0 :: [] => decide
  | 0 :: 0 :: 0 :: q => have := leaf _ _ _ q e h; subst this; decide
  | 0 :: 0 :: 1 :: [] => decide
  | 0 :: 0 :: 1 :: 0 :: q => have := leaf _ _ _ q e h; subst this; decide
  | 0 :: 0 :: 1 :: 1 :: q => have := leaf _ _ _ q e h; subst this; decide
  | 0 :: 0 :: 1 :: (n + 2) :: q => simp [root, component, block, Elem.at?] at h
  | 0 :: 0 :: 2 :: q => have := leaf _ _ _ q e h; subst this; decide
  | 0 :: 0 :: 3 :: q => have := leaf _ _ _ q e h; subst this; decide
  | 0 :: 0 :: (n + 4) :: q => simp [root, component, Elem.at?] at h

theorem fieldsDisjoint : root.FieldsDisjoint := by
  rintro p i j t u hne ⟨e, he, ht⟩ ⟨f, hf, hu⟩
  have h1 := mem_positions he
  have h2 := mem_positions hf
  have key : ∀ q ∈ positions, ∀ g t, root.at? q = some g → g.kind = .bit t →
      (q = [0, 0, 1, 0] ∧ t = fieldA) ∨ (q = [0, 0, 1, 1] ∧ t = fieldB) := by
    intro q hq g t hg ht
    simp only [positions, List.mem_cons, List.not_mem_nil, or_false] at hq
    rcases hq with rfl | rfl | rfl | rfl | rfl | rfl | rfl | rfl | rfl | rfl <;>
      simp [root, component, block, Elem.at?] at hg <;> subst hg <;> simp [Elem.kind] at ht
    · exact .inl ⟨rfl, ht.symm⟩
    · exact .inr ⟨rfl, ht.symm⟩
  rcases key _ h1 e t he ht with ⟨a1, rfl⟩ | ⟨a1, rfl⟩ <;> rcases key _ h2 f u hf hu with ⟨a2, rfl⟩ | ⟨a2, rfl⟩
  · exact absurd (by simpa using List.append_inj_right' (a1.trans a2.symm) rfl) hne
  · decide
  · decide
  · exact absurd (by simpa using List.append_inj_right' (a1.trans a2.symm) rfl) hne

theorem goodNames : root.GoodNames := by
  have leaf : ∀ (n : Str) (k : EKind) (sy : Option Nat), n ≠ [] → '/' ∉ n → (Elem.mk n k sy []).GoodNames := by
    intro n k sy h1 h2
    refine .mk ?_ ?_ (by simp) (by simp)
    · simp [Elem.pathName, Elem.name, h1]
    · simp [Elem.pathName, Elem.name, h1, h2]
  refine .mk (by decide) (by decide) (by decide) ?_
  intro c hc
  simp only [List.mem_cons, List.not_mem_nil, or_false] at hc
  subst hc
  refine .mk (by decide) (by decide) (by decide) ?_
  intro c hc
  simp only [List.mem_cons, List.not_mem_nil, or_false] at hc
  rcases hc with rfl | rfl
  · refine .mk (by decide) (by decide) (by decide) ?_
    intro c hc
    simp only [List.mem_cons, List.not_mem_nil, or_false] at hc
    rcases hc with rfl | rfl | rfl | rfl
    · exact leaf _ _ _ (by decide) (by decide)
    · refine .mk (by decide) (by decide) (by decide) ?_
      intro c hc
      simp only [List.mem_cons, List.not_mem_nil, or_false] at hc
      rcases hc with rfl | rfl
      · exact leaf _ _ _ (by decide) (by decide)
      · exact leaf _ _ _ (by decide) (by decide)
    · exact leaf _ _ _ (by decide) (by decide)
    · exact leaf _ _ _ (by decide) (by decide)
  · exact leaf _ _ _ (by decide) (by decide)

theorem syncersNotNested : root.SyncersNotNested := by
  intro p q e f h1 h2 hq hs
  have := mem_positions h2
  simp only [positions, List.mem_cons, List.not_mem_nil, or_false] at this
  have h3 := mem_positions h1
  simp only [positions, List.mem_cons, List.not_mem_nil, or_false] at h3
  rcases h3 with rfl | rfl | rfl | rfl | rfl | rfl | rfl | rfl | rfl | rfl <;>
    simp [root, component, block, Elem.at?] at h1 <;> subst h1 <;> simp [Elem.syncer] at hs <;>
    simp [hq] at this

end PF.Sample
