import Verif.Model.Tokenizer

/-!
# Specification: cutting a text at delimiters

Independent of the tokenizer's loop.
-/

namespace PF.Spec

/-- `Pieces ds t ps`: `ps` are the pieces of `t` between consecutive delimiters of `ds`, in order
(`n` delimiters in the text give `n + 1` pieces, possibly empty). -/
inductive Pieces (ds : List Char) : Str → List Str → Prop
  | last (w : Str) (hw : ∀ c ∈ w, c ∉ ds) : Pieces ds w [w]
  | cut (w : Str) (d : Char) (rest : Str) (ps : List Str)
      (hw : ∀ c ∈ w, c ∉ ds) (hd : d ∈ ds) (h : Pieces ds rest ps) :
      Pieces ds (w ++ d :: rest) (w :: ps)

/-- Pieces written one after the other with a delimiter between them. -/
def joinWith (d : Char) : List Str → Str
  | [] => []
  | [w] => w
  | w :: ws => w ++ d :: joinWith d ws

end PF.Spec
