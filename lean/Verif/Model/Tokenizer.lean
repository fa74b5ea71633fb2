/-!
# Model of `utility/Tokenizer.cpp`

Texts are lists of characters (`Str`).  A C++ `std::string` is a sequence of bytes; one
`Char` of the model stands for one byte.
-/

namespace PF

/-- A text.  Models `std::string`. -/
abbrev Str := List Char

/-- Shorthand to write literal texts in the model and in examples. -/
def s (x : String) : Str := x.toList

/-- State of the loop of `Tokenizer::split` (utility/Tokenizer.cpp:44-46):
`result`, `token` and `leftover`. -/
structure TokState where
  result : List Str
  token : Str
  leftover : Bool
deriving Repr, DecidableEq

/-- One iteration of the loop of `Tokenizer::split` (utility/Tokenizer.cpp:48-70). -/
def tokStep (delims : List Char) (merge : Bool) (st : TokState) (c : Char) : TokState :=
  if c ∈ delims then
    if merge then
      if st.token = [] then { st with leftover := false }
      else { result := st.result ++ [st.token], token := [], leftover := false }
    else { result := st.result ++ [st.token], token := [], leftover := true }
  else { st with token := st.token ++ [c], leftover := true }

/-- `Tokenizer::split` (utility/Tokenizer.cpp:42-78). -/
def tokenize (delims : List Char) (merge : Bool) (input : Str) : List Str :=
  let st := input.foldl (tokStep delims merge) { result := [], token := [], leftover := false }
  if st.leftover then st.result ++ [st.token] else st.result

/-- `Tokenizer::defaultDelimiters` (utility/Tokenizer.cpp:35). -/
def defaultDelimiters : List Char :=
  [' ', '\n', '\r', '\t', Char.ofNat 11, Char.ofNat 12]

end PF
