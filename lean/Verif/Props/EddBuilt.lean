import Verif.Lemmas.EddRun
import Verif.Props.Generator

/-!
# C95: a description becomes the domains that it describes

The whole way: the lines of a description, the commands that are made of them, and what the framework holds when it has accepted these
commands.
-/

namespace PF
open Spec

section
variable {u : Unmodelled} {e : MEnv} {cs : List Criterion} {lines : List Str} {tree : EddNode} {cmds : List EddCmd} {h h' : Host}

/-- **C95.**  When the framework accepts all the commands of a description, in a state that operations reach, it then holds what the
description says, and nothing else is changed. -/
theorem C95_built (wf : e.env.root.WF) (fd : e.env.root.FieldsDisjoint) (hp : eddParse lines = .ok tree)
    (hc : eddCommands lines = .ok cmds) (hk : ∀ k ∈ cmds, ∀ w ∈ k, Kept w) (reach : Reachable e.env cs h.mgr.st)
    (hr : Ran u e h cmds h' 0) : DescriptionBuilt e.env h.mgr.ctx tree h.mgr.st h'.mgr.st := by
  obtain ⟨news, o, r, d1, d2, d3⟩ := run_description wf fd (eddCommands_res hp hc) rfl hr hk reach
  refine ⟨⟨news, d1, d2⟩, fun gs dom cs conf ha => ?_, fun gs dom cs conf ha => ?_, o.mem, o.criteria⟩
  · obtain ⟨hx, hy⟩ := EddConfAt_iff.1 ha
    obtain ⟨d, q1, q2⟩ := d3 _ hx (List.ne_nil_of_mem hy)
    obtain ⟨_, c, q3, q4⟩ := q2.confs _ hy
    exact ⟨d, c, q1, q3, q4.rule⟩
  · obtain ⟨hx, hy⟩ := EddConfAt_iff.1 ha
    obtain ⟨d, q1, q2⟩ := d3 _ hx (List.ne_nil_of_mem hy)
    obtain ⟨_, c, q3, q4⟩ := q2.confs _ hy
    refine ⟨d, q1, fun hw sync m hlen => ?_⟩
    obtain ⟨b0, b, r1, r2, r3, r4⟩ := q4.holds hw sync m hlen
    exact ⟨b0, b, r1, r2, r3, by rw [restored_eq hw sync h'.mgr.st m q1 q3]; exact r4⟩

theorem tuning_on {m m' : Mgr} (h : (MOp.setTuningMode true).step e m = (.ok (), m')) : m' = { m with tuning := true } := by
  simp only [MOp.step, Mgr.setTuningMode] at h
  split at h
  · simp at h
  · split at h
    · simp at h
    · simp only [Bool.not_true, Bool.false_eq_true, if_false, Prod.mk.injEq, true_and] at h
      exact h.symm

/-- **C95 (whole).**  When the generator has been given a description, ends with the status 0 and writes a document, that document is
the export of a state that holds what the description says, after the domains that the framework had started with. -/
theorem C95_generator (g : GenWorld) {ds : List GenCriterion} (hd : ∀ d ∈ ds, Acceptable d)
    (hw : ∀ d ∈ ds, Word d.name ∧ ∀ w ∈ d.values, Word w) (hp : eddParse lines = .ok tree) (hc : eddCommands lines = .ok cmds)
    (hk : ∀ k ∈ cmds, ∀ w ∈ k, Kept w ∧ Word w) {out : Str} (hrun : g.run (scriptText (script ds cmds)) = .ok ⟨0, some out⟩) :
    ∃ cs r h doc, Session g ds cmds cs r h 0 ∧ h.mgr.st.exportDomains r.env.env.root h.mgr.ctx true = .ok doc ∧
      out = g.u.print doc ∧
      (r.env.env.root.WF → r.env.env.root.FieldsDisjoint → MReachable r.env cs r.mgr →
        DescriptionBuilt r.env.env r.mgr.ctx tree r.mgr.st h.mgr.st) := by
  obtain ⟨cs, -, hg⟩ := C89_generates g hd hw
  have hforms : ∀ c ∈ cmds, ScriptCommand c ∧ Foreign c := by
    intro c hm
    refine ⟨?_, ?_⟩
    · have hw : ∀ w ∈ c, Word w := fun w hw => (hk c hm w hw).2
      obtain ⟨pre, post, hcut⟩ := List.append_of_mem hm
      obtain ⟨d, c', p, x, rfl | ⟨_, rfl | rfl | rfl | ⟨_, rfl | ⟨ps, rfl, _⟩ | ⟨rfl, _⟩⟩⟩⟩ := C92_order hp hc hcut <;>
        exact ⟨by simp, by simp, hw⟩
    · obtain ⟨pre, post, hcut⟩ := List.append_of_mem hm
      obtain ⟨d, c', p, x, rfl | ⟨_, rfl | rfl | rfl | ⟨_, rfl | ⟨ps, rfl, _⟩ | ⟨rfl, _⟩⟩⟩⟩ := C92_order hp hc hcut <;>
        exact ⟨by simp only [List.head?_cons]; decide, by simp only [List.head?_cons]; decide⟩
  obtain ⟨r, h, n, t, doc, h1, h2, h3, h4, h5⟩ := (hg cmds hforms 0 out).1 hrun
  · have hn : n = 0 := by
      split at h5 <;> omega
    subst hn
    refine ⟨cs, r, h, doc, h1, h3, h4, fun wf fd hm => ?_⟩
    obtain ⟨m, k1, k2⟩ := h1.tuning
    have hm1 := hm.step (op := .setTuningMode true) trivial (by rw [k1]; simp)
    rw [k1] at hm1
    have := C95_built wf fd hp hc (fun k hk' w hw => (hk k hk' w hw).1) hm1.reachable k2
    have e1 : m.ctx = r.mgr.ctx ∧ m.st = r.mgr.st := by
      rw [tuning_on k1]; exact ⟨rfl, rfl⟩
    rwa [e1.1, e1.2] at this

end

/-! ## A description that is run -/

attribute [local irreducible] runCommand

/-- All the commands are accepted. -/
def allAccepted (u : Unmodelled) (e : MEnv) : Host → List (List Str) → Bool
  | _, [] => true
  | _, [] :: _ => false
  | h, (cmd :: args) :: cmds =>
    match runCommand u e h cmd args with
    | (some (true, _), h') => allAccepted u e h' cmds
    | _ => false

theorem allAccepted_ran {u : Unmodelled} {e : MEnv} : ∀ {cmds : List (List Str)} {h : Host}, allAccepted u e h cmds = true →
    ∃ h', Ran u e h cmds h' 0
  | [], h, _ => ⟨h, .nil h⟩
  | [] :: _, _, ha => by simp [allAccepted] at ha
  | (cmd :: args) :: cmds, h, ha => by
    unfold allAccepted at ha
    split at ha
    · rename_i t h1 hr
      obtain ⟨h', h2⟩ := allAccepted_ran ha
      exact ⟨h', .done hr h2⟩
    · simp at ha

namespace SampleEddBuilt

/-- A check of `Kept` and `Word`. -/
def keptB (w : Str) : Bool :=
  w.all (fun c => c.toNat < 256) && (strBytes w).head?.all (fun b => !trimDelimiters.contains b) && (strBytes w).getLast?.all (fun b => !trimDelimiters.contains b) &&
    !w.contains '\x00' && !w.contains '\n'

theorem keptB_ok {w : Str} (h : keptB w = true) : Kept w ∧ Word w := by
  unfold keptB at h
  simp only [Bool.and_eq_true, List.all_eq_true, decide_eq_true_eq, Bool.not_eq_true', List.contains_eq_mem, decide_eq_false_iff_not] at h
  obtain ⟨⟨⟨⟨h1, h2⟩, h3⟩, h4⟩, h5⟩ := h
  refine ⟨⟨h1, fun b hb => ?_, fun b hb => ?_⟩, h4, h5⟩
  · rw [hb] at h2; rw [← isSpace_iff]; simpa using h2
  · rw [hb] at h3; rw [← isSpace_iff]; simpa using h3

def lines : List Str :=
  [s "domainGroup: Audio", s "\tDevice Includes B", s "\tdomain: Volume sequenceAware", s "\t\tconf: Call", s "\t\t\tMode Is InCall",
   s "\t\t\tcomponent: /Sys/sub", s "\t\t\t\tcomp/vol = 90", s "\t\t\t\ton = 1",
   s "\t\tconf: Other", s "\t\t\t/Sys/sub/comp/vol = 7", s "\t\t\t/Sys/sub/on = 0"]

def cmds : List EddCmd := match eddCommands lines with | .ok c => c | .error _ => []

def unmodelled : Unmodelled := (SampleGenerator.world "true").u

def host : Host := ⟨{ Sample.mgr with st := Sample.st }, fun _ => none⟩

/-- The hypotheses of C95 are met: this description is accepted, and so are its commands, after those of other domains. -/
example : (∃ tree, eddParse lines = .ok tree) ∧ eddCommands lines = .ok cmds ∧ cmds.length = 14 ∧ (∀ k ∈ cmds, ∀ w ∈ k, Kept w ∧ Word w) ∧
    Reachable Sample.menv.env Sample.criteria host.mgr.st ∧ ∃ h', Ran unmodelled Sample.menv host cmds h' 0 := by
  refine ⟨⟨_, rfl⟩, rfl, rfl, ?_, Sample.mreachable.reachable, allAccepted_ran ?_⟩
  · have : cmds.all (fun k => k.all keptB) = true := by decide +kernel
    intro k hk w hw
    exact keptB_ok (List.all_eq_true.1 (List.all_eq_true.1 this k hk) w hw)
  · decide +kernel

/-- A description for the sample generator. -/
def generated : List Str :=
  [s "domain: Out", s "\tconf: Loud", s "\t\tDevice Includes Speaker", s "\t\tMode Is Normal", s "\t\t/audio/amp/gain = 5",
   s "\tconf: Soft", s "\t\tcomponent: /audio/amp", s "\t\t\tgain = 1", s "domain: Empty"]

def generatedCmds : List EddCmd := match eddCommands generated with | .ok c => c | .error _ => []

/-- The hypotheses of `C95_generator` are met: the generator ends with the status 0 and writes the two domains. -/
example : eddCommands generated = .ok generatedCmds ∧
    SampleGenerator.ending "true" (script SampleGenerator.criteria generatedCmds) = some ⟨0, some (s "Out;Empty;")⟩ :=
  ⟨rfl, by decide +kernel⟩

end SampleEddBuilt

end PF
