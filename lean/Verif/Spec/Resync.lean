import Verif.Spec.CriteriaHistory
import Verif.Spec.Domain

/-! # Requests for a resynchronisation and what depends on them (C67, C68) -/

namespace PF.Spec

/-- None of the operations of the history stops the program, and the documents it imports are regular
(`MOp.Regular`). -/
def Runs (e : MEnv) : List MOp → Mgr → Prop
  | [], _ => True
  | op :: ops, m => op.Regular e.env.root ∧ (op.step e m).1 ≠ .abort ∧ Runs e ops (op.step e m).2

/-- The history contains a request of subsystem `i` since the last application. -/
def Waits (e : MEnv) (m : Mgr) (ops : List MOp) (i : Nat) : Prop :=
  ∃ pre post, ops = pre ++ MOp.askResync i :: post ∧ NoApplication e post (after e (pre ++ [.askResync i]) m)

/-- The operations that are only about what is sent to the hardware, and when. -/
def AboutHardware : MOp → Bool
  | .askResync _ => true
  | .sync => true
  | .setAutoSync _ => true
  | _ => false

/-- The same values everywhere, whatever was sent to the hardware: the main blackboard, the criteria, the
domains with their configurations and the settings in them, and the modes of the manager. -/
structure SameValues (m m' : Mgr) : Prop where
  main : m'.st.mem.main = m.st.mem.main
  criteria : m'.st.criteria = m.st.criteria
  domains : m'.st.domains = m.st.domains
  attached : m'.st.attached = m.st.attached
  nextId : m'.st.nextId = m.st.nextId
  tuning : m'.tuning = m.tuning
  raw : m'.raw = m.raw
  hex : m'.hex = m.hex

end PF.Spec
