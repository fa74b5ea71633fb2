import Verif.Spec.Command
import Verif.Spec.XmlDomains

/-! # Specification: what a read needs to be answered -/

namespace PF.Spec

/-- The string of at most `n` characters at `off` ends: one of its `n + 1` bytes is NUL. -/
def Ends (b : Board) (off n : Nat) : Prop := ∃ j, off ≤ j ∧ j ≤ off + n ∧ b[j]? = some 0#8

/-- Every string parameter ends, in the main blackboard and in the settings of every configuration: the settings of
an element are kept in a memory of their own, in which its first byte has the offset 0. -/
structure StringsEnd (root : Elem) (st : St) : Prop where
  main : ∀ p e n off, root.at? p = some e → e.kind = .string n → root.offset 0 p = some off → Ends st.mem.main off n
  settings : ∀ d ∈ st.domains, ∀ c ∈ d.configs, ∀ a ∈ c.areas, ∀ p e n base off, a.elem <+: p → root.at? p = some e →
    e.kind = .string n → root.offset 0 a.elem = some base → root.offset 0 p = some off → Ends a.board (off - base) n

/-- The kinds that hold a number of an enumeration of 32 bits. -/
def WideEnum : EKind → Prop
  | .scalar (.enum t) => 4 ≤ t.size
  | .array ⟨.enum t, _⟩ => 4 ≤ t.size
  | _ => False

/-- In the raw value space, in hexadecimal, no parameter is an enumeration of 32 bits. -/
def FormatFits (root : Elem) (ctx : Ctx) : Prop :=
  ctx.raw = true → ctx.hex = true → ∀ p e, root.at? p = some e → ¬ WideEnum e.kind

/-- The operations that a command can ask for and that the code does not survive: a rule whose text makes the parser fail
an assertion (see C07), bytes, which are written outside memory, and documents that have not the shape of the schema
(see C64). -/
def Fatal (cs : List Criterion) : MOp → Prop
  | .setApplicationRule _ _ text => (∀ r, parseRule cs text ≠ .ok r) ∧ ∀ e, parseRule cs text ≠ .err e
  | .setElementBytes _ args => ∃ a r, args = a :: r ∧ convertTo false 8 a ≠ none
  | .importDomains _ doc => ¬ ∀ x ∈ doc.children, DomainShape x
  | .importDomain _ _ doc => ¬ DomainShape doc
  | _ => False

/-- The command can be survived: it is not `setSequenceAwareness` with one argument, the operation that it asks for, if
any, is not one of the above, and it does not show an enumeration of 32 bits in hexadecimal. -/
structure Survivable (u : Unmodelled) (e : MEnv) (h : Host) (cmd : Str) (args : List Str) : Prop where
  aware : cmd ≠ s "setSequenceAwareness" ∨ 2 ≤ args.length
  ops : ∀ op, Means (u.docs h.files) cmd args op → ¬ Fatal h.mgr.st.criteria op
  format : (∃ v, Reads u.print cmd args v) ∨ (∃ f d, Exports cmd args f d) → FormatFits e.env.root h.mgr.ctx

/-- Every request of a session is survivable when it is handled. -/
def SurvivableSession (u : Unmodelled) (e : MEnv) : Host → List Request → Prop
  | _, [] => True
  | h, r :: rs => Survivable u e h (bytesStr r.command) (r.arguments.map bytesStr) ∧
    SurvivableSession u e (remoteCommand u e h r).2 rs

/-- The states of the manager after operations of which none writes the bytes of a program: only a handle does.  The
blackboard is full of zeros at the beginning. -/
inductive TextHistory (e : MEnv) (cs : List Criterion) : Mgr → Prop
  | start : TextHistory e cs (Mgr.initial e.env.root cs)
  | step {m : Mgr} {op : MOp} : TextHistory e cs m → op.Regular e.env.root → (op.step e m).1 ≠ .abort →
      (∀ p bytes, op ≠ .handleSetBytes p bytes) → TextHistory e cs (op.step e m).2

end PF.Spec
