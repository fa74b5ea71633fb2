import Verif.Model.Properties
import Verif.Model.Adaptation

/-!
# Model of the properties that an adaptation shows

`showProperties` of `CParameterAdaptation`, `CLinearParameterAdaptation` and `CLogarithmicParameterAdaptation`, called by
`TIntegerParameterType::showProperties` (IntegerParameterType.h:285-293).
-/

namespace PF

/-- `std::to_string(double)` for a finite number: `%f`, six decimals, rounded to nearest, ties to even
(LinearParameterAdaptation.cpp:51, 56).  Simplified: the numbers have no negative zero. -/
def ratFixed (q : Rat) : Str :=
  let n := roundEven (q.num.natAbs * 10 ^ 6) q.den
  (if q < 0 then ['-'] else []) ++ natText (n / 10 ^ 6) ++ '.' :: fracDigits 6 (n % 10 ^ 6)

/-- `std::to_string(double)` (LogarithmicParameterAdaptation.cpp:51, 54).  The only number shown that is not finite is the
default floor, minus infinity (LogarithmicParameterAdaptation.h:78). -/
def F64.fixed : F64 → Str
  | .fin q => ratFixed q
  | .notFinite => s "-inf"

/-- The lines of `showProperties` of an adaptation (ParameterAdaptation.cpp:51-64, LinearParameterAdaptation.cpp:45-58,
LogarithmicParameterAdaptation.cpp:46-56).  The type is the name given by the constructors
(LinearParameterAdaptation.cpp:36, LogarithmicParameterAdaptation.cpp:38). -/
def Adaptation.shownLines (a : Adaptation) : List Str :=
  [s " - Type: " ++ (if a.log.isSome then s "Logarithmic" else s "Linear"), s " - Offset: " ++ intText a.off,
    s " - SlopeNumerator: " ++ ratFixed a.num, s " - SlopeDenominator: " ++ ratFixed a.den] ++
  (match a.log with
   | none => []
   | some (base, floor) => [s " - LogarithmBase: " ++ base.fixed, s " - FloorValue: " ++ floor.fixed])

end PF
