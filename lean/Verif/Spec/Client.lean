import Verif.Model.Client
import Verif.Spec.Message

/-! # Specification of the client program -/

namespace PF.Spec

/-- The arguments are those of the program, without NUL as all arguments of programs, and not more than the protocol carries. -/
structure GoodCall (prog host port cmd : BText) (args : List BText) : Prop where
  noNul : ∀ t ∈ cmd :: args, NoNul t
  size : textsSize (cmd :: args) + 1 < 2 ^ 32

/-- What is shown of the answer of a command: the text of a command that succeeds is printed, that of one that fails is
the error; nothing is answered if the command stops the system. -/
def shown : Option (Bool × Str) → ClientEnd
  | some (true, t) => .printed (strBytes t)
  | some (false, t) => .failed (strBytes t)
  | none => .lost

/-- The answer can be carried: no NUL, less than 4 GiB. -/
def AnswerFits : Option (Bool × Str) → Prop
  | some (_, t) => NoNul (strBytes t) ∧ t.length + 5 < 2 ^ 32
  | none => True

/-- Commands given one after the other; after one that stops the system, nobody answers. -/
def inTurn {σ α β : Type} (run : σ → α → Option β × σ) : σ → List α → List (Option β) × Option σ
  | h, [] => ([], some h)
  | h, c :: cs =>
    match (run h c).1 with
    | none => ([none], none)
    | some a => (some a :: (inTurn run (run h c).2 cs).1, (inTurn run (run h c).2 cs).2)

/-- Commands given one after the other to the local command handler. -/
def runCommands (u : Unmodelled) (e : MEnv) : Host → List (BText × List BText) → List (Option (Bool × Str)) × Option Host :=
  inTurn fun h c => runCommand u e h (bytesStr (trim c.1)) (c.2.map bytesStr)

end PF.Spec
