import Verif.Lemmas.Tokenizer

/-!
# Properties of tokenising (C41)
-/

namespace PF
open Spec

/-- C41: the pieces of a text are unique, so `Pieces` specifies one answer. -/
theorem C41_pieces_unique (ds : List Char) (t : Str) (ps qs : List Str)
    (h1 : Pieces ds t ps) (h2 : Pieces ds t qs) : ps = qs := by
  by_cases ht : t = []
  · subst ht
    have aux : ∀ rs, Pieces ds ([] : Str) rs → rs = [[]] := by
      intro rs h
      generalize hx : ([] : Str) = x at h
      cases h with
      | last w hw => subst hx; rfl
      | cut w d rest ps => simp at hx
    rw [aux _ h1, aux _ h2]
  · rw [← tokenize_false_of_pieces h1 ht, ← tokenize_false_of_pieces h2 ht]

/-- C41: without merging, tokenising a non-empty text gives exactly its pieces; the empty text
gives no token. -/
theorem C41_split_keep (ds : List Char) (t : Str) :
    (t ≠ [] → Pieces ds t (tokenize ds false t)) ∧ tokenize ds false [] = [] := by
  refine ⟨fun ht => ?_, rfl⟩
  obtain ⟨ps, h⟩ := pieces_exists ds t
  rw [tokenize_false_of_pieces h ht]; exact h

/-- C41: with merging, tokenising gives the non-empty pieces, in order. -/
theorem C41_split_merge (ds : List Char) (t : Str) :
    ∃ ps, Pieces ds t ps ∧ tokenize ds true t = ps.filter (· ≠ []) := by
  obtain ⟨ps, h⟩ := pieces_exists ds t
  exact ⟨ps, h, tokenize_true_of_pieces h⟩

/-- C41: joining delimiter-free words and splitting gives the words back (non-empty words when
delimiters are merged). -/
theorem C41_join_split (ds : List Char) (d : Char) (hd : d ∈ ds) (ws : List Str)
    (hw : ∀ w ∈ ws, ∀ c ∈ w, c ∉ ds) :
    (joinWith d ws ≠ [] → tokenize ds false (joinWith d ws) = ws) ∧
    ((∀ w ∈ ws, w ≠ []) → tokenize ds true (joinWith d ws) = ws) := by
  constructor
  · intro hj
    exact tokenize_false_of_pieces (pieces_join ds d hd ws (by rintro rfl; simp [joinWith] at hj) hw) hj
  · intro hne
    cases ws with
    | nil => rfl
    | cons w ws =>
      rw [tokenize_true_of_pieces (pieces_join ds d hd _ (by simp) hw)]
      exact List.filter_eq_self.mpr (by simpa using hne)

example : tokenize ['|', ','] true (s "||a,bc|d,") = [s "a", s "bc", s "d"] := by decide
example : tokenize [','] false (s ",a,") = [[], s "a", []] := by decide
example : joinWith '|' [s "a", s "bc"] = s "a|bc" ∧ (∀ w ∈ [s "a", s "bc"], ∀ c ∈ w, c ∉ ['|']) := by
  decide

end PF
