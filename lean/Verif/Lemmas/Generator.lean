import Verif.Spec.Generator
import Verif.Lemmas.CApi
import Verif.Lemmas.Tokenizer

/-! # The domain generator: lemmas -/

namespace PF
open Spec

theorem Gen.bind_eq_ok {α β : Type} {x : Gen α} {f : α → Gen β} {b : β} : x.bind f = .ok b ↔ ∃ a, x = .ok a ∧ f a = .ok b := by
  cases x <;> simp [Gen.bind]

theorem inputLines_ne_nil (t : Str) : inputLines t ≠ [] := by
  cases t with
  | nil => simp [inputLines]
  | cons c t =>
    simp only [inputLines]
    split
    · simp
    · split <;> simp

theorem inputLines_line {l : Str} (hl : '\n' ∉ l) (rest : Str) : inputLines (l ++ '\n' :: rest) = l :: inputLines rest := by
  induction l with
  | nil => simp [inputLines]
  | cons c l ih =>
    simp only [List.mem_cons, not_or] at hl
    have hc : c ≠ '\n' := fun h => hl.1 h.symm
    simp only [List.cons_append, inputLines, if_neg hc, ih hl.2]

theorem nl_not_mem_joinWith {ws : List Str} (h : ∀ w ∈ ws, '\n' ∉ w) : '\n' ∉ joinWith '\x00' ws := by
  induction ws with
  | nil => simp [joinWith]
  | cons w ws ih =>
    cases ws with
    | nil => simpa [joinWith] using h
    | cons v vs =>
      simp only [joinWith, List.mem_append, List.mem_cons, not_or]
      exact ⟨h w (by simp), by decide, ih fun x hx => h x (by simp [hx])⟩

theorem joinWith_nul_ne_nil {ws : List Str} (h : ws ≠ []) (h' : ws ≠ [[]]) : joinWith '\x00' ws ≠ [] := by
  match ws with
  | [] => exact absurd rfl h
  | [w] => simpa [joinWith] using h'
  | w :: v :: vs => simp [joinWith]

theorem inputLines_script {cmds : List (List Str)} (h : ∀ c ∈ cmds, ScriptCommand c) :
    inputLines (scriptText cmds) = cmds.map (joinWith '\x00') ++ [[]] := by
  induction cmds with
  | nil => rfl
  | cons c cmds ih =>
    have h0 := h c (by simp)
    simp only [scriptText, List.flatMap_cons, List.append_assoc, List.cons_append, List.nil_append, List.map_cons]
    rw [inputLines_line (nl_not_mem_joinWith fun w hw => (h0.2.2 w hw).2)]
    exact congrArg _ (ih fun c' hc => h c' (by simp [hc]))

theorem tokenize_command {c : List Str} (h : ScriptCommand c) : tokenize ['\x00'] false (joinWith '\x00' c) = c :=
  tokenize_false_of_pieces
    (pieces_join _ _ (by simp) c h.1 fun w hw x hx hn => (h.2.2 w hw).1 (by simp at hn; exact hn ▸ hx))
    (joinWith_nul_ne_nil h.1 h.2.1)

/-- The commands run one after the other. -/
def GenWorld.commands (g : GenWorld) (st : GenState) : List (List Str) → Gen GenState
  | [] => .ok st
  | c :: cs => (g.command st c).bind fun st' => g.commands st' cs

theorem parse_script (g : GenWorld) {cmds : List (List Str)} (h : ∀ c ∈ cmds, ScriptCommand c) (st : GenState) :
    g.parse st (inputLines (scriptText cmds)) = g.commands st cmds := by
  rw [inputLines_script h]
  induction cmds generalizing st with
  | nil =>
    cases st <;> rfl
  | cons c cmds ih =>
    simp only [List.map_cons, List.cons_append, GenWorld.parse, GenWorld.commands, tokenize_command (h c (by simp))]
    congr 1
    funext st'
    exact ih (fun c' hc => h c' (by simp [hc])) st'

/-! ## Criteria -/

theorem generatorNumber_eq {incl : Bool} {i : Nat} (h : if incl then i < 32 else i < 2 ^ 31) :
    generatorNumber incl i = some (numberAt incl i) := by
  unfold generatorNumber
  cases incl with
  | false => simp only [Bool.false_eq_true, if_false] at h ⊢; rw [if_pos h]; rfl
  | true =>
    simp only [if_true] at h ⊢
    rw [if_pos h, ← bitVal_eq_numberAt h]
    rfl

theorem addGenerated_spec (t : CritType) (pre ws : List Str) (hg : GoodValues t.inclusive pre)
    (hl : t.inclusive = false → pre.length ≤ 2 ^ 31) (hv : HasValues t pre) :
    ((GoodValues t.inclusive (pre ++ ws) ∧ (t.inclusive = false → (pre ++ ws).length ≤ 2 ^ 31)) →
      ∃ t', t.addGenerated pre.length ws = .ok t' ∧ t'.inclusive = t.inclusive ∧ HasValues t' (pre ++ ws)) ∧
    (∀ t', t.addGenerated pre.length ws = .ok t' →
      GoodValues t.inclusive (pre ++ ws) ∧ (t.inclusive = false → (pre ++ ws).length ≤ 2 ^ 31)) := by
  induction ws generalizing t pre with
  | nil =>
    simp only [List.append_nil]
    exact ⟨fun _ => ⟨t, rfl, rfl, hv⟩, fun _ _ => ⟨hg, hl⟩⟩
  | cons w ws ih =>
    obtain ⟨s1, s2⟩ := addValue_step hg hv w
    have hsplit : pre ++ w :: ws = (pre ++ [w]) ++ ws := by simp
    have hlen : (pre ++ [w]).length = pre.length + 1 := by simp
    have hpre : t.inclusive = true → pre.length ≤ 31 := fun hi => by
      have := hg.2; rw [hi, if_pos rfl] at this; exact this.1
    by_cases hw : GoodValues t.inclusive (pre ++ [w]) ∧ (t.inclusive = false → (pre ++ [w]).length ≤ 2 ^ 31)
    · obtain ⟨v, t1, h1, h2, h3, h4⟩ := s1 hw.1
      have hnum : generatorNumber t.inclusive pre.length = some v := by
        rw [valueNumber_eq] at h1
        split at h1
        · cases h1
        · cases h1
          refine generatorNumber_eq ?_
          cases hi : t.inclusive with
          | true => have := hpre hi; simp; omega
          | false => have := hw.2 hi; simp only [List.length_append, List.length_singleton] at this; simp; omega
      simp only [CritType.addGenerated, hnum, h2]
      have := ih t1 (pre ++ [w]) (h3 ▸ hw.1) (h3 ▸ hw.2) h4
      rw [hlen, h3] at this
      rw [hsplit]
      exact this
    · constructor
      · rintro ⟨k1, k2⟩
        rw [hsplit] at k1 k2
        refine absurd ⟨goodValues_prefix k1, fun hi => ?_⟩ hw
        have := k2 hi
        simp only [List.length_append] at this ⊢
        omega
      · intro t' h
        exfalso
        simp only [CritType.addGenerated] at h
        cases hnum : generatorNumber t.inclusive pre.length with
        | none => simp [hnum] at h
        | some v =>
          simp only [hnum] at h
          by_cases hgw : GoodValues t.inclusive (pre ++ [w])
          · have hi : t.inclusive = false := by
              cases hi : t.inclusive with
              | false => rfl
              | true => exact absurd ⟨hgw, by simp [hi]⟩ hw
            have : ¬ pre.length < 2 ^ 31 := fun hlt => hw ⟨hgw, fun _ => by rw [hlen]; omega⟩
            unfold generatorNumber at hnum
            rw [hi] at hnum
            simp only [Bool.false_eq_true, if_false, if_neg this] at hnum
            cases hnum
          · rcases s2 hgw with hn | ⟨v', hn, hr⟩
            · rw [valueNumber_eq] at hn
              split at hn
              · rename_i h31
                have : pre.length = 31 := by have := hpre h31.1; omega
                rw [this, generatorNumber, h31.1] at hnum
                simp only [if_true] at hnum
                obtain rfl : v = 1#32 <<< 31 := by simpa using hnum.symm
                cases hadd : t.addValuePair (1#32 <<< 31) w with
                | added t2 =>
                  have hb : t.addValuePair (1#32 <<< 31) w = .ub := by
                    unfold CritType.addValuePair
                    rw [h31.1, if_neg (by decide), if_pos (by decide)]
                  rw [hb] at hadd
                  cases hadd
                | rejected => rw [hadd] at h; simp at h
                | ub => rw [hadd] at h; simp at h
              · cases hn
            · have : v' = v := by
                rw [valueNumber_eq] at hn
                split at hn
                · cases hn
                · rename_i h31
                  cases hn
                  rw [generatorNumber_eq] at hnum
                  · simpa using hnum
                  · cases hi : t.inclusive with
                    | true => have := hpre hi; simp; omega
                    | false =>
                      simp only [Bool.false_eq_true, if_false]
                      apply Classical.byContradiction
                      intro hge
                      unfold generatorNumber at hnum
                      rw [hi] at hnum
                      simp only [Bool.false_eq_true, if_false, if_neg hge] at hnum
                      cases hnum
              subst this
              rw [hr] at h
              simp at h

theorem addCriteria_command (cs : List Criterion) (d : GenCriterion) :
    (Acceptable d → ∃ c, IsDeclared d c ∧
      addCriteria cs ((if d.inclusive then s "inclusive" else s "exclusive") :: d.name :: d.values) = .ok (cs ++ [c])) ∧
    (∀ r, addCriteria cs ((if d.inclusive then s "inclusive" else s "exclusive") :: d.name :: d.values) = .ok r →
      Acceptable d) := by
  have hk : ((if d.inclusive then s "inclusive" else s "exclusive") == s "inclusive") = d.inclusive := by
    cases d.inclusive <;> decide
  have h0 : GoodValues d.inclusive [] := by
    refine ⟨List.nodup_nil, ?_⟩
    cases d.inclusive <;> simp
  obtain ⟨h1, h2⟩ := addGenerated_spec (CritType.new d.inclusive) [] d.values h0 (by simp) (hasValues_new _)
  simp only [List.nil_append, List.length_nil, show (CritType.new d.inclusive).inclusive = d.inclusive from rfl] at h1 h2
  cases hv : d.values with
  | nil => exact ⟨fun h => absurd hv h.1, fun r h => by simp [addCriteria] at h⟩
  | cons w ws =>
    simp only [addCriteria, hk]
    rw [← hv]
    constructor
    · intro ha
      obtain ⟨t, h3, h4, h5⟩ := h1 ha.2
      exact ⟨⟨d.name, t, 0#32, 0#32⟩, ⟨rfl, h4, h5, rfl, rfl⟩, by rw [h3]; rfl⟩
    · intro r hr
      obtain ⟨t, h3, -⟩ := Gen.bind_eq_ok.1 hr
      exact ⟨by simp [hv], h2 t h3⟩

end PF
