import Verif.Spec.Text

/-! Helper lemmas about the tokenizer. -/

namespace PF
open Spec

/-- Result of the loop from an arbitrary state, closed as the end of `split` does. -/
def tokRun (ds : List Char) (merge : Bool) (st : TokState) (t : Str) : List Str :=
  let st := t.foldl (tokStep ds merge) st
  if st.leftover then st.result ++ [st.token] else st.result

theorem tokRun_cons (ds m st c t) : tokRun ds m st (c :: t) = tokRun ds m (tokStep ds m st c) t := rfl

theorem tokRun_word (ds m) (w t : Str) (hw : ∀ c ∈ w, c ∉ ds) (st : TokState) :
    tokRun ds m st (w ++ t) =
      tokRun ds m { result := st.result, token := st.token ++ w,
                    leftover := if w = [] then st.leftover else true } t := by
  induction w generalizing st with
  | nil => simp
  | cons c w ih =>
    have hc : c ∉ ds := hw c (by simp)
    rw [List.cons_append, tokRun_cons, ih (fun x hx => hw x (by simp [hx]))]
    simp only [tokStep, hc, if_false]
    simp

theorem tokRun_false_pieces (ds : List Char) (t : Str) (ps : List Str) (h : Pieces ds t ps)
    (st : TokState) (hl : st.leftover = true) :
    tokRun ds false st t = st.result ++ (match ps with
      | [] => [st.token]
      | p :: ps => (st.token ++ p) :: ps) := by
  induction h generalizing st with
  | last w hw =>
    have := tokRun_word ds false w [] hw st
    rw [List.append_nil] at this
    rw [this]
    simp [tokRun, hl]
  | cut w d rest ps hw hd h ih =>
    rw [tokRun_word ds false w _ hw st, tokRun_cons]
    rw [ih _ (by simp [tokStep, hd])]
    cases h <;> simp [tokStep, hd]

theorem tokRun_true_pieces (ds : List Char) (t : Str) (ps : List Str) (h : Pieces ds t ps)
    (st : TokState) (hl : st.leftover = true ↔ st.token ≠ []) :
    tokRun ds true st t = st.result ++ (match ps with
      | [] => []
      | p :: ps => ((st.token ++ p) :: ps).filter (· ≠ [])) := by
  induction h generalizing st with
  | last w hw =>
    have := tokRun_word ds true w [] hw st
    rw [List.append_nil] at this
    rw [this]
    rcases st with ⟨r, tk, l⟩
    cases l <;> cases w <;> cases tk <;> simp_all [tokRun]
  | cut w d rest ps hw hd h ih =>
    rw [tokRun_word ds true w _ hw st, tokRun_cons]
    rcases st with ⟨r, tk, l⟩
    by_cases hz : tk ++ w = []
    · obtain ⟨rfl, rfl⟩ := List.append_eq_nil_iff.mp hz
      rw [ih _ (by simp [tokStep, hd])]
      cases h <;> simp [tokStep, hd]
    · rw [ih _ (by simp [tokStep, hd, hz])]
      cases h <;> simp [tokStep, hd, hz]

theorem pieces_exists (ds : List Char) (t : Str) : ∃ ps, Pieces ds t ps := by
  induction t with
  | nil => exact ⟨[[]], .last [] (by simp)⟩
  | cons c t ih =>
    obtain ⟨ps, h⟩ := ih
    by_cases hc : c ∈ ds
    · exact ⟨[] :: ps, by simpa using Pieces.cut [] c t ps (by simp) hc h⟩
    · cases h with
      | last w hw =>
        exact ⟨[c :: t], .last _ (by simp; exact ⟨hc, hw⟩)⟩
      | cut w d rest ps hw hd h =>
        refine ⟨(c :: w) :: ps, ?_⟩
        have := Pieces.cut (c :: w) d rest ps (by simp; exact ⟨hc, hw⟩) hd h
        simpa using this

theorem pieces_ne_nil {ds t ps} (h : Pieces ds t ps) : ps ≠ [] := by cases h <;> simp

theorem pieces_free {ds t ps} (h : Pieces ds t ps) : ∀ p ∈ ps, ∀ c ∈ p, c ∉ ds := by
  induction h with
  | last w hw => simpa using hw
  | cut w d rest ps hw hd h ih => simpa using ⟨hw, ih⟩

theorem pieces_join (ds : List Char) (d : Char) (hd : d ∈ ds) (ws : List Str) (hne : ws ≠ [])
    (hw : ∀ w ∈ ws, ∀ c ∈ w, c ∉ ds) : Pieces ds (joinWith d ws) ws := by
  induction ws with
  | nil => exact absurd rfl hne
  | cons w ws ih =>
    cases ws with
    | nil => exact .last w (hw w (by simp))
    | cons v vs =>
      exact .cut w d _ _ (hw w (by simp)) hd (ih (by simp) (fun x hx => hw x (by simp [hx])))

theorem tokenize_true_of_pieces {ds t ps} (h : Pieces ds t ps) :
    tokenize ds true t = ps.filter (· ≠ []) := by
  have := tokRun_true_pieces ds t ps h { result := [], token := [], leftover := false } (by simp)
  cases h <;> simpa [tokenize, tokRun] using this

theorem tokenize_false_of_pieces {ds t ps} (h : Pieces ds t ps) (ht : t ≠ []) :
    tokenize ds false t = ps := by
  have key : tokenize ds false t = tokRun ds false ⟨[], [], true⟩ t := by
    cases t with
    | nil => exact absurd rfl ht
    | cons c t => simp only [tokenize, tokRun, List.foldl_cons, tokStep]
  rw [key, tokRun_false_pieces ds t ps h _ rfl]
  cases h <;> simp

end PF
