import Verif.Model.Manager
import Verif.Spec.Domain
import Verif.Spec.SampleDomain

/-! # Specification vocabulary for the manager -/

namespace PF.Spec

/-- The element at `p` is in no domain: neither it nor one above it nor one below it is associated
with a domain. -/
def InNoDomain (st : St) (p : Pos) : Prop := ∀ d ∈ st.domains, ∀ q ∈ d.elems, Unrelated p q

/-- The operations that change domains, configurations, rules, settings of configurations, or
parameters for tuning. -/
def IsTuning : MOp → Prop
  | .setParameter .. => True
  | .setConfigurationParameter .. => True
  | .setElementBytes .. => True
  | .createDomain .. => True
  | .deleteDomain .. => True
  | .deleteAllDomains => True
  | .renameDomain .. => True
  | .setSequenceAwareness .. => True
  | .createConfiguration .. => True
  | .deleteConfiguration .. => True
  | .renameConfiguration .. => True
  | .saveConfiguration .. => True
  | .restoreConfiguration .. => True
  | .addElement .. => True
  | .removeElement .. => True
  | .split .. => True
  | .setElementSequence .. => True
  | .setApplicationRule .. => True
  | .clearApplicationRule .. => True
  | .setElementXml .. => True
  | .importDomains .. => True
  | .importDomain .. => True
  | _ => False

/-- What a parameter takes: an array a list of its length, any other parameter one value. -/
def RightForm (k : EKind) (v : HVal) : Prop :=
  match k, v with
  | .group _, _ => False
  | .bitBlock _, _ => False
  | .array _, .one _ => False
  | .array t, v => v.atoms.length = t.length
  | _, .one _ => True
  | _, _ => False

end PF.Spec

namespace PF.Sample
open PF

/-- The sample structure with tuning allowed. -/
def menv : MEnv := ⟨env, true, fun p => p.sum⟩

/-- Operations of the manager one after the other. -/
def mrun (e : MEnv) : List MOp → Mgr → Mgr
  | [], m => m
  | op :: ops, m => mrun e ops (op.step e m).2

/-- Not an import of domains. -/
def mplain : MOp → Bool
  | .importDomains .. => false
  | .importDomain .. => false
  | _ => true

theorem mplain_regular {root : Elem} {op : MOp} (h : mplain op = true) : op.Regular root := by
  cases op <;> first | exact trivial | simp [mplain] at h

/-- None of the operations stops, and none is an import of domains. -/
def mruns (e : MEnv) : List MOp → Mgr → Bool
  | [], _ => true
  | op :: ops, m => mplain op && (op.step e m).1 != .abort && mruns e ops (op.step e m).2

theorem mrun_reachable {e : MEnv} {cs : List Criterion} {ops : List MOp} {m : Mgr} (h : MReachable e cs m)
    (hr : mruns e ops m = true) : MReachable e cs (mrun e ops m) := by
  induction ops generalizing m with
  | nil => exact h
  | cons op ops ih =>
    simp only [mruns, Bool.and_eq_true, bne_iff_ne, ne_eq] at hr
    exact ih (h.step (mplain_regular hr.1.1) hr.1.2) hr.2

/-- The history of `Sample.ops`, by the manager, in tuning mode. -/
def mops : List MOp :=
  [.setTuningMode true, .createDomain (s "V"), .addElement (s "V") (s "/Sys/sub/comp/vol"),
   .createConfiguration (s "V") (s "Loud"), .setApplicationRule (s "V") (s "Loud") (s "All{Mode Is Idle}"),
   .setConfigurationParameter (s "V") (s "Loud") (s "/Sys/sub/comp/vol") (s "90"),
   .createConfiguration (s "V") (s "Calm"), .setApplicationRule (s "V") (s "Calm") (s "Any{Device Includes B}"),
   .setConfigurationParameter (s "V") (s "Calm") (s "/Sys/sub/comp/vol") (s "7"),
   .createDomain (s "Q"), .setSequenceAwareness (s "Q") true,
   .addElement (s "Q") (s "/Sys/sub/comp/flags"), .addElement (s "Q") (s "/Sys/sub/on"),
   .createConfiguration (s "Q") (s "On"), .setApplicationRule (s "Q") (s "On") (s "All{}"),
   .setConfigurationParameter (s "Q") (s "On") (s "/Sys/sub/on") (s "1"),
   .setConfigurationParameter (s "Q") (s "On") (s "/Sys/sub/comp/flags/b") (s "2"),
   .createConfiguration (s "Q") (s "Off")]

/-- The manager after them: tuning mode on, automatic synchronisation on. -/
def mgr : Mgr := ⟨st, true, true, false, false⟩

theorem mgr_eq : mrun menv mops (Mgr.initial root criteria) = mgr := by
  have h1 : (mrun menv mops (Mgr.initial root criteria)).st = st := by decide +kernel
  have h2 : (mrun menv mops (Mgr.initial root criteria)).tuning = true := by decide +kernel
  have h3 : (mrun menv mops (Mgr.initial root criteria)).autoSync = true := by decide +kernel
  have h4 : (mrun menv mops (Mgr.initial root criteria)).raw = false := by decide +kernel
  have h5 : (mrun menv mops (Mgr.initial root criteria)).hex = false := by decide +kernel
  cases hm : mrun menv mops (Mgr.initial root criteria) with
  | mk a b c d e => rw [hm] at h1 h2 h3 h4 h5; simp only at h1 h2 h3 h4 h5; rw [h1, h2, h3, h4, h5]; rfl

theorem mruns_ops : mruns menv mops (Mgr.initial root criteria) = true := by decide +kernel

theorem mreachable : MReachable menv criteria mgr := mgr_eq ▸ mrun_reachable .start mruns_ops

end PF.Sample
