import Verif.Model.DomainHistory
import Verif.Spec.Sample

/-! # A sample history of operations, used to show that the hypotheses of the theorems can be met -/

namespace PF

mutual
/-- Equality of rules, to compare concrete states. -/
def Rule.decEq : (a b : Rule) → Decidable (a = b)
  | .crit i v x, .crit j w y =>
    if h : i = j ∧ v = w ∧ x = y then isTrue (by rw [h.1, h.2.1, h.2.2]) else isFalse (by simpa using h)
  | .compound a rs, .compound b qs =>
    match Rule.decEqs rs qs with
    | isTrue h => if k : a = b then isTrue (by rw [h, k]) else isFalse (by simp [k])
    | isFalse h => isFalse (by simp [h])
  | .crit .., .compound .. => isFalse (by simp)
  | .compound .., .crit .. => isFalse (by simp)
/-- The same for lists. -/
def Rule.decEqs : (as bs : List Rule) → Decidable (as = bs)
  | [], [] => isTrue rfl
  | a :: as, b :: bs =>
    match Rule.decEq a b, Rule.decEqs as bs with
    | isTrue h, isTrue k => isTrue (by rw [h, k])
    | isFalse h, _ => isFalse (by simp [h])
    | _, isFalse h => isFalse (by simp [h])
  | [], _ :: _ => isFalse (by simp)
  | _ :: _, [] => isFalse (by simp)
end

instance : DecidableEq Rule := Rule.decEq
deriving instance DecidableEq for Config
deriving instance DecidableEq for Domain
deriving instance DecidableEq for St

end PF

namespace PF.Sample
open PF

/-- Two criteria: a set of devices (A = 1, B = 4) and a mode. -/
def criteria : List Criterion :=
  [⟨s "Device", { inclusive := true, map := [(s "A", 1#32), (s "B", 4#32)] }, 5#32, 0⟩,
   ⟨s "Mode", { inclusive := false, map := [(s "Idle", 0#32), (s "InCall", 3#32)] }, 3#32, 0⟩]

/-- The sample structure with a hardware that never fails. -/
def env : Env := ⟨root, fun _ _ _ => none, .none⟩

/-- Operations one after the other. -/
def run (e : Env) : List DomOp → St → St
  | [], st => st
  | op :: ops, st => run e ops (op.step e st).2

/-- Not an import of domains. -/
def plain : DomOp → Bool
  | .importDomains .. => false
  | .importDomain .. => false
  | _ => true

theorem plain_regular {root : Elem} {op : DomOp} (h : plain op = true) : op.Regular root := by
  cases op <;> first | exact trivial | simp [plain] at h

/-- None of the operations stops, and none is an import of domains. -/
def runs (e : Env) : List DomOp → St → Bool
  | [], _ => true
  | op :: ops, st => plain op && (op.step e st).1 != .abort && runs e ops (op.step e st).2

theorem run_reachable {e : Env} {cs : List Criterion} {ops : List DomOp} {st : St} (h : Reachable e cs st)
    (hr : runs e ops st = true) : Reachable e cs (run e ops st) := by
  induction ops generalizing st with
  | nil => exact h
  | cons op ops ih =>
    simp only [runs, Bool.and_eq_true, bne_iff_ne, ne_eq] at hr
    exact ih (h.step (plain_regular hr.1.1) hr.1.2) hr.2

/-- Values as text, in decimal. -/
def ctx : Ctx := ⟨false, false⟩

/-- Two domains, one of them sequence-aware, with two configurations each. -/
def ops : List DomOp :=
  [.createDomain (s "V"), .addElement (s "V") (s "/Sys/sub/comp/vol"),
   .createConfiguration (s "V") (s "Loud"), .setApplicationRule (s "V") (s "Loud") (s "All{Mode Is Idle}"),
   .setConfigurationParameter ctx false (s "V") (s "Loud") (s "/Sys/sub/comp/vol") (s "90"),
   .createConfiguration (s "V") (s "Calm"), .setApplicationRule (s "V") (s "Calm") (s "Any{Device Includes B}"),
   .setConfigurationParameter ctx false (s "V") (s "Calm") (s "/Sys/sub/comp/vol") (s "7"),
   .createDomain (s "Q"), .setSequenceAwareness (s "Q") true,
   .addElement (s "Q") (s "/Sys/sub/comp/flags"), .addElement (s "Q") (s "/Sys/sub/on"),
   .createConfiguration (s "Q") (s "On"), .setApplicationRule (s "Q") (s "On") (s "All{}"),
   .setConfigurationParameter ctx false (s "Q") (s "On") (s "/Sys/sub/on") (s "1"),
   .setConfigurationParameter ctx false (s "Q") (s "On") (s "/Sys/sub/comp/flags/b") (s "2"),
   .createConfiguration (s "Q") (s "Off")]

/-- The configurations of the first domain. -/
def loud : Config := ⟨1, s "Loud", some (.compound true [.crit 1 .is 0#32]), [⟨[0, 0, 0], [90, 0], true⟩]⟩
/-- The second one, whose rule is true. -/
def calm : Config := ⟨2, s "Calm", some (.compound false [.crit 0 .includes 4#32]), [⟨[0, 0, 0], [7, 0], true⟩]⟩
/-- The first domain. -/
def domV : Domain := ⟨0, s "V", false, [[0, 0, 0]], [loud, calm], none, [([0, 0, 0], [1])], [1]⟩
/-- The configurations of the second domain. -/
def on : Config := ⟨4, s "On", some (.compound true []), [⟨[0, 0, 1], [32], true⟩, ⟨[0, 1], [1], true⟩]⟩
/-- The second one, without a rule. -/
def off : Config := ⟨5, s "Off", none, [⟨[0, 0, 1], [32], true⟩, ⟨[0, 1], [1], true⟩]⟩
/-- The second domain. -/
def domQ : Domain := ⟨3, s "Q", true, [[0, 0, 1], [0, 1]], [on, off], none, [([0, 0, 1], []), ([0, 1], [2])], [2]⟩

/-- The state after these operations. -/
def st : St := ⟨⟨List.replicate 10 0, []⟩, criteria, [domV, domQ], [([0, 0, 0], 0), ([0, 0, 1], 3), ([0, 1], 3)], 6, []⟩

theorem st_eq : run env ops (St.initial root criteria) = st := by decide +kernel

theorem runs_ops : runs env ops (St.initial root criteria) = true := by decide +kernel

theorem reachable : Reachable env criteria st := st_eq ▸ run_reachable .start runs_ops

end PF.Sample
