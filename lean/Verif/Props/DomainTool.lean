import Verif.Spec.DomainTool
import Verif.Props.CriteriaFile
import Verif.Props.HostConfig
import Verif.Props.EddBuilt

/-!
# C98: the tool that generates domains

From the files that the tool is given to what it writes.
-/

namespace PF
open Spec

/-! ## What is written to the generator -/

theorem joinWords_eq (c : Char) : ∀ ws : List Str, joinWords c ws = joinWith c ws
  | [] => rfl
  | [_] => rfl
  | w :: v :: ws => by
    rw [joinWords, joinWords_eq c (v :: ws)]
    rfl

theorem toolText_eq : ∀ cmds : List (List Str), toolText cmds = scriptText cmds
  | [] => rfl
  | c :: cmds => by
    rw [toolText, toolText_eq cmds, joinWords_eq]
    simp [scriptText]

theorem importCommands_eq (a : ToolArgs) : importCommands a.initial a.domains = imports a := by
  unfold importCommands imports
  cases a.initial <;> rfl

/-- The criterion of a line. -/
def CriterionLine.declared (c : CriterionLine) : GenCriterion := ⟨c.inclusive, c.name, c.values⟩

theorem toolCommands_eq (cs : List CriterionLine) (im ed : List (List Str)) :
    toolCommands cs im ed = script (cs.map CriterionLine.declared) (im ++ ed) := by
  unfold toolCommands script
  simp only [List.map_map, List.append_assoc, List.cons_append, List.nil_append]
  congr 1

/-! ## The descriptions -/

theorem eddsCommands_some : ∀ {fs : List (List Str)} {cmds : List (List Str)}, eddsCommands fs = some cmds →
    ∃ css, Each (fun f c => eddCommands f = .ok c) fs css ∧ cmds = css.flatten
  | [], cmds, h => by
    simp only [eddsCommands, Option.some.injEq] at h
    exact ⟨[], .nil, by simp [← h]⟩
  | f :: fs, cmds, h => by
    unfold eddsCommands at h
    split at h
    · rename_i c hc
      obtain ⟨c', h1, rfl⟩ := Option.map_eq_some_iff.1 h
      obtain ⟨css, h2, rfl⟩ := eddsCommands_some h1
      exact ⟨c :: css, .cons hc h2, by simp⟩
    · simp at h

theorem eddsCommands_each : ∀ {fs : List (List Str)} {css : List (List (List Str))}, Each (fun f c => eddCommands f = .ok c) fs css →
    eddsCommands fs = some css.flatten ∧ eddsStatus fs = none
  | _, _, .nil => ⟨rfl, rfl⟩
  | _, _, .cons h hs => by
    obtain ⟨h1, h2⟩ := eddsCommands_each hs
    unfold eddsCommands eddsStatus
    rw [h]
    simp [h1, h2]

/-- What a description that is translated is read as. -/
theorem eddCommands_tree {f : List Str} {cmds : List EddCmd} (h : eddCommands f = .ok cmds) : ∃ tree, eddParse f = .ok tree := by
  unfold eddCommands at h
  split at h
  · simp at h
  · rename_i tree ht
    exact ⟨tree, ht⟩

section
variable {u : Unmodelled} {e : MEnv} {cs : List Criterion}

theorem each_append {α β : Type} {P : α → β → Prop} {as as' : List α} {bs bs' : List β} (h : Each P as bs) (h' : Each P as' bs') :
    Each P (as ++ as') (bs ++ bs') := by
  induction h with
  | nil => exact h'
  | cons h1 _ ih => exact .cons h1 ih

theorem run_descriptions (wf : e.env.root.WF) (fd : e.env.root.FieldsDisjoint) : ∀ {fs : List (List Str)}
    {css : List (List (List Str))} {h h' : Host}, Each (fun f c => eddCommands f = .ok c) fs css →
    (∀ c ∈ css, ∀ k ∈ c, ∀ w ∈ k, Kept w) → Reachable e.env cs h.mgr.st → Ran u e h css.flatten h' 0 →
    ∃ trees news, Each (fun f t => eddParse f = .ok t) fs trees ∧ OnlyDomains h h' ∧ Reachable e.env cs h'.mgr.st ∧
      h'.mgr.st.domains = h.mgr.st.domains ++ news ∧
      Each (DomainBuilt e.env.root) (trees.flatMap fun tree => eddDomChains [] tree.kids) news ∧
      ∀ tree ∈ trees, ∀ x ∈ eddDomChains [] tree.kids, eddConfChains [] x.2.2.kids ≠ [] →
        ∃ d, h'.mgr.st.findDomain (eddFullName (x.1 ++ [x.2])) = some d ∧ DomB e.env h.mgr.ctx h.mgr.st.criteria x d
  | _, _, h, h', .nil, _, reach, hr => by
    cases hr
    exact ⟨[], [], .nil, .refl h, reach, by simp, .nil, by simp⟩
  | _, _, h, h', .cons (b := c) (bs := css) hf hfs, hk, reach, hr => by
    obtain ⟨tree, ht⟩ := eddCommands_tree hf
    rw [List.flatten_cons] at hr
    obtain ⟨h1, hr1, hr2⟩ := ran_append hr
    obtain ⟨news1, o1, r1, d1, e1, f1⟩ := run_description wf fd (eddCommands_res ht hf) rfl hr1 (hk c (by simp)) reach
    obtain ⟨trees, news2, t2, o2, r2, d2, e2, f2⟩ := run_descriptions wf fd hfs (fun c hc => hk c (by simp [hc])) r1 hr2
    refine ⟨tree :: trees, news1 ++ news2, .cons ht t2, o1.trans o2, r2, by rw [d2, d1]; simp, ?_, ?_⟩
    · rw [List.flatMap_cons]
      exact each_append e1 e2
    · intro tr htr x hx hne
      rcases List.mem_cons.1 htr with rfl | htr
      · obtain ⟨d, q1, q2⟩ := f1 x hx hne
        exact ⟨d, findDomain_more d2 q1, q2⟩
      · have := f2 tr htr x hx hne
        rwa [o1.ctx, o1.criteria] at this

/-- C98: when the framework accepts all the commands of some descriptions, it holds what they say. -/
theorem C98_built (wf : e.env.root.WF) (fd : e.env.root.FieldsDisjoint) {fs : List (List Str)} {css : List (List (List Str))}
    {h h' : Host} (hf : Each (fun f c => eddCommands f = .ok c) fs css) (hk : ∀ c ∈ css, ∀ k ∈ c, ∀ w ∈ k, Kept w)
    (reach : Reachable e.env cs h.mgr.st) (hr : Ran u e h css.flatten h' 0) :
    ∃ trees, Each (fun f t => eddParse f = .ok t) fs trees ∧ DescriptionsBuilt e.env h.mgr.ctx trees h.mgr.st h'.mgr.st := by
  obtain ⟨trees, news, t, o, r, d1, d2, d3⟩ := run_descriptions wf fd hf hk reach hr
  refine ⟨trees, t, ⟨news, d1, d2⟩, fun tree htr gs dom cs conf ha => ?_, fun tree htr gs dom cs conf ha => ?_, o.mem, o.criteria⟩
  · obtain ⟨hx, hy⟩ := EddConfAt_iff.1 ha
    obtain ⟨d, q1, q2⟩ := d3 tree htr _ hx (List.ne_nil_of_mem hy)
    obtain ⟨_, c, q3, q4⟩ := q2.confs _ hy
    exact ⟨d, c, q1, q3, q4.rule⟩
  · obtain ⟨hx, hy⟩ := EddConfAt_iff.1 ha
    obtain ⟨d, q1, q2⟩ := d3 tree htr _ hx (List.ne_nil_of_mem hy)
    obtain ⟨_, c, q3, q4⟩ := q2.confs _ hy
    refine ⟨d, q1, fun hw sync m hlen => ?_⟩
    obtain ⟨b0, b, r1, r2, r3, r4⟩ := q4.holds hw sync m hlen
    exact ⟨b0, b, r1, r2, r3, by rw [restored_eq hw sync h'.mgr.st m q1 q3]; exact r4⟩

end

/-! ## The words of criteria -/

theorem nul_splitInto {t : Str} {ws : List Str} (h : SplitInto t ws) (hn : '\x00' ∉ t) : ∀ w ∈ ws, Word w := by
  have white : White '\n' := Or.inr (by decide)
  induction h with
  | last h1 =>
    intro w hw
    obtain rfl := List.mem_singleton.1 hw
    exact ⟨hn, fun h => h1 _ h white⟩
  | more h1 _ _ _ _ ih =>
    intro w hw
    simp only [List.mem_append, not_or] at hn
    rcases List.mem_cons.1 hw with rfl | hw
    · exact ⟨hn.1.1, fun h => h1 _ h white⟩
    · exact ih hn.2 w hw

theorem lineDeclares_word {t : Str} {d : GenCriterion} (h : LineDeclares t d) (hn : '\x00' ∉ t) :
    Word d.name ∧ ∀ w ∈ d.values, Word w := by
  obtain ⟨rest, ⟨sp1, sp2, sp3, rfl, -, -, -, -, h1, -⟩, h2, -⟩ := h
  simp only [List.mem_append, List.mem_cons, not_or] at hn
  exact ⟨⟨hn.1.1.1.2, fun h => h1 _ h (Or.inr (by decide))⟩, nul_splitInto h2 hn.2⟩

theorem each_right {α β : Type} {P : α → β → Prop} {as : List α} {bs : List β} (h : Each P as bs) : ∀ b ∈ bs, ∃ a ∈ as, P a b := by
  induction h with
  | nil => simp
  | cons h1 _ ih =>
    intro b hb
    rcases List.mem_cons.1 hb with rfl | hb
    · exact ⟨_, by simp, h1⟩
    · obtain ⟨a, ha, h⟩ := ih b hb
      exact ⟨a, by simp [ha], h⟩

theorem each_map {α β γ : Type} {P : α → γ → Prop} {f : β → γ} {as : List α} {bs : List β} (h : Each (fun a b => P a (f b)) as bs) :
    Each P as (bs.map f) := by
  induction h with
  | nil => exact .nil
  | cons h1 _ ih => exact .cons h1 ih

theorem each_lines {ts : List Str} {ds : List GenCriterion} (h : Each LineDeclares ts ds) :
    ∃ cs : List CriterionLine, parseCriteria ts = some cs ∧ cs.map CriterionLine.declared = ds := by
  refine ⟨ds.map fun d => ⟨d.inclusive, d.name, d.values⟩, (C96_file ..).2 (each_map h), ?_⟩
  rw [List.map_map]
  conv => rhs; rw [← List.map_id ds]
  rfl

/-- What the commands of a description are. -/
theorem eddCommands_forms {f : List Str} {cmds : List EddCmd} (hc : eddCommands f = .ok cmds) (hw : ∀ k ∈ cmds, ∀ w ∈ k, Word w) :
    ∀ c ∈ cmds, ScriptCommand c ∧ Foreign c := by
  obtain ⟨tree, hp⟩ := eddCommands_tree hc
  intro c hm
  refine ⟨?_, ?_⟩
  · have hw : ∀ w ∈ c, Word w := fun w hw' => hw c hm w hw'
    obtain ⟨pre, post, hcut⟩ := List.append_of_mem hm
    obtain ⟨d, c', p, x, rfl | ⟨_, rfl | rfl | rfl | ⟨_, rfl | ⟨ps, rfl, _⟩ | ⟨rfl, _⟩⟩⟩⟩ := C92_order hp hc hcut <;>
      exact ⟨by simp, by simp, hw⟩
  · obtain ⟨pre, post, hcut⟩ := List.append_of_mem hm
    obtain ⟨d, c', p, x, rfl | ⟨_, rfl | rfl | rfl | ⟨_, rfl | ⟨ps, rfl, _⟩ | ⟨rfl, _⟩⟩⟩⟩ := C92_order hp hc hcut <;>
      exact ⟨by simp only [List.head?_cons]; decide, by simp only [List.head?_cons]; decide⟩

theorem imports_forms {a : ToolArgs} (h : PlainArgs a) : ∀ c ∈ imports a, ScriptCommand c ∧ Foreign c := by
  have aux : ∀ (k f : Str), Word k → k ≠ s "createSelectionCriterion" → k ≠ s "start" → Word f → ScriptCommand [k, f] ∧ Foreign [k, f] := by
    intro k f h1 h2 h3 h4
    refine ⟨⟨by simp, by simp, by simp [h1, h4]⟩, ?_⟩
    unfold Foreign
    simp [h2, h3]
  intro c hc
  simp only [imports, List.mem_append, List.mem_map, Option.mem_toList] at hc
  rcases hc with ⟨f, hf, rfl⟩ | ⟨f, hf, rfl⟩
  · exact aux _ f (by unfold Word; decide) (by decide) (by decide) (h.imports.1 f hf)
  · exact aux _ f (by unfold Word; decide) (by decide) (by decide) (h.imports.2 f hf)

/-! ## The tool -/

section
variable {g : GenWorld} {a : ToolArgs}

/-- **C98 (commands).**  The tool runs the generator exactly when each line of the file of criteria declares a criterion and each
description is translated; it gives it the criteria, the start, the imports and the commands of the descriptions, in this order. -/
theorem C98_runs (r : Gen GenEnd) : domainTool g a = .generated r ↔ ∃ ds css, Each LineDeclares a.criteria ds ∧
    Each (fun f c => eddCommands f = .ok c) a.edds css ∧
    r = (g.hosted a).run (scriptText (script ds (imports a ++ css.flatten))) := by
  unfold domainTool
  constructor
  · intro h
    split at h
    · simp at h
    · rename_i cs hcs
      split at h
      · simp at h
      · split at h
        · simp at h
        · rename_i cmds hcmds
          obtain ⟨css, h1, rfl⟩ := eddsCommands_some hcmds
          refine ⟨cs.map CriterionLine.declared, css, each_map ((C96_file ..).1 hcs), h1, ?_⟩
          rw [toolText_eq, toolCommands_eq, importCommands_eq] at h
          exact (ToolEnd.generated.inj h).symm
  · rintro ⟨ds, css, h1, h2, rfl⟩
    obtain ⟨cs, h3, rfl⟩ := each_lines h1
    obtain ⟨h4, h5⟩ := eddsCommands_each h2
    rw [h3, h5, h4]
    simp only
    rw [toolText_eq, toolCommands_eq, importCommands_eq]

/-- C98: a file of criteria with a bad line ends the tool; the generator is not run. -/
theorem C98_bad_criteria {t : Str} (ht : t ∈ a.criteria) (h : ∀ d, ¬ LineDeclares t d) : domainTool g a = .raised := by
  unfold domainTool
  rw [(C96_refused _).2 ⟨t, ht, h⟩]

theorem eddsStatus_some : ∀ {fs : List (List Str)} {n : Nat}, eddsStatus fs = some n → n = 1 ∨ n = 2
  | [], _, h => by simp [eddsStatus] at h
  | f :: fs, n, h => by
    unfold eddsStatus at h
    split at h
    · exact eddsStatus_some h
    · exact eddsStatus_some h
    · left; simpa using h.symm
    · right; simpa using h.symm

theorem eddsStatus_none : ∀ {fs : List (List Str)}, eddsStatus fs = none → ∀ f ∈ fs, ∀ e, eddCommands f = .error e → e = .keyError
  | [], _ => by simp
  | g :: fs, h => by
    unfold eddsStatus at h
    intro f hf e he
    split at h
    · rename_i hg
      rcases List.mem_cons.1 hf with rfl | hf
      · rw [hg] at he; simp at he
      · exact eddsStatus_none h f hf e he
    · rename_i hg
      rcases List.mem_cons.1 hf with rfl | hf
      · rw [hg] at he; simpa using he.symm
      · exact eddsStatus_none h f hf e he
    · simp at h
    · simp at h

/-- C98: with a description that is refused the generator is not run: the tool ends with the status 1 or 2. -/
theorem C98_bad_description {ds : List GenCriterion} (hc : Each LineDeclares a.criteria ds) {f : List Str} (hf : f ∈ a.edds)
    {err : EddErr} (h : eddCommands f = .error err) (hk : err ≠ .keyError) :
    domainTool g a = .exited 1 ∨ domainTool g a = .exited 2 := by
  unfold domainTool
  obtain ⟨cs, h3, -⟩ := each_lines hc
  rw [h3]
  cases hs : eddsStatus a.edds with
  | none => exact absurd (eddsStatus_none hs f hf err h) hk
  | some n => rcases eddsStatus_some hs with rfl | rfl <;> simp

/-- C98: with a description that cannot be translated the tool does not end as the generator does. -/
theorem C98_untranslated {f : List Str} (hf : f ∈ a.edds) {err : EddErr} (h : eddCommands f = .error err) (r : Gen GenEnd) :
    domainTool g a ≠ .generated r := by
  intro hr
  obtain ⟨-, css, -, h1, -⟩ := (C98_runs r).1 hr
  clear hr
  generalize a.edds = fs at hf h1
  induction h1 with
  | nil => simp at hf
  | cons hc _ ih =>
    rcases List.mem_cons.1 hf with rfl | hf
    · rw [h] at hc; simp at hc
    · exact ih hf

/-- **C98 (whole, partial).**  When the generator ends with the status 0 and writes a document, from a structure that meets the
hypotheses of C58, then: the framework was started with the declared criteria and without domains; all the documents were imported; and
what is written is the export of a state that holds what the descriptions say.  Missing: see C58. -/
theorem C98_whole_partial (hp : PlainArgs a) {out : Str} (h : domainTool g a = .generated (.ok ⟨0, some out⟩))
    (hdoc : ∀ l u sys ys, First (fun c => c.tag = s "StructureDescriptionFileLocation") a.config.children l →
      (g.hosted a).world.disk.uri a.temp (a.dir ++ s "/" ++ pathAttr l) = some u →
      IsDoc (g.hosted a).world.disk g.validate (s "SystemClass") u sys →
      Inlined (g.hosted a).world.disk g.validate u sys.children ys →
      ∀ c ∈ ys, (∃ lib defx, Layout c lib defx) ∧ Everywhere SizesDeclared c ∧ Everywhere FieldsDeclaredDisjoint c) :
    ∃ ds cs r, Each LineDeclares a.criteria ds ∧ AreDeclared ds cs ∧
      startFramework (g.hosted a).world ⟨false, false, g.validate, true⟩ a.temp g.fuel cs = .ok r ∧ r.mgr.st.domains = [] ∧
      ∃ (h1 h2 : Host) (doc : Xml) (trees : List EddNode), Ran g.u r.env ⟨{ r.mgr with tuning := true }, g.files⟩ (imports a) h1 0 ∧
        Each (fun f t => eddParse f = .ok t) a.edds trees ∧
        h2.mgr.st.exportDomains r.env.env.root h2.mgr.ctx true = .ok doc ∧ out = g.u.print doc ∧
        (RegularScript g.u r.env ⟨{ r.mgr with tuning := true }, g.files⟩ (imports a) →
          DescriptionsBuilt r.env.env h1.mgr.ctx trees h1.mgr.st h2.mgr.st) := by
  obtain ⟨ds, css, hds, hcss, hrun⟩ := (C98_runs _).1 h
  have hw : ∀ d ∈ ds, Word d.name ∧ ∀ w ∈ d.values, Word w := fun d hd => by
    obtain ⟨t, ht, hl⟩ := each_right hds d hd
    exact lineDeclares_word hl (hp.criteria t ht)
  have hkw : ∀ c ∈ css, ∀ k ∈ c, ∀ w ∈ k, Kept w ∧ Word w := fun c hc => by
    obtain ⟨f, hf, hfc⟩ := each_right hcss c hc
    exact hp.edds f hf c hfc
  have hforms : ∀ c ∈ imports a ++ css.flatten, ScriptCommand c ∧ Foreign c := by
    intro c hc
    rcases List.mem_append.1 hc with hc | hc
    · exact imports_forms hp c hc
    · obtain ⟨cmds, hm, hc⟩ := List.mem_flatten.1 hc
      obtain ⟨f, hf, hfc⟩ := each_right hcss cmds hm
      exact eddCommands_forms hfc (fun k hk w hw => (hkw cmds hm k hk w hw).2) c hc
  have hacc : ∀ d ∈ ds, Acceptable d := fun d hd => Classical.byContradiction fun hn =>
    C89_criteria (g.hosted a) hw hd hn (fun c hc => (hforms c hc).1) 0 out hrun.symm
  obtain ⟨cs, hcs, hg⟩ := C89_generates (g.hosted a) hacc hw
  obtain ⟨r, h2, n, t, doc, s1, -, s3, s4, s5⟩ := (hg _ hforms 0 out).1 hrun.symm
  have hn : n = 0 := by split at s5 <;> omega
  subst hn
  have hstart : startFramework (g.hosted a).world ⟨false, false, g.validate, true⟩ a.temp g.fuel cs = .ok r := s1.starts
  have hdocof : (g.hosted a).world.disk.doc a.temp = hostConfig none (some a.dir) a.config := if_pos rfl
  obtain ⟨host, hh⟩ : ∃ host, hostConfig none (some a.dir) a.config = some host := by
    obtain ⟨cfg, _, _, hS⟩ := C82_starts.1 ⟨_, hstart⟩
    exact ⟨cfg, hdocof.symm.trans hS.config.1⟩
  obtain ⟨m, k1, k2⟩ := s1.tuning
  obtain rfl := (Prod.mk.inj ((C97_tuning hh (hdocof.trans hh) hstart).symm.trans k1)).2
  obtain ⟨-, hdom, -, plugins, hv, -, l, u, sys, ys, f, e1, e2, e3, e4, e5⟩ := C97_started hh (hdocof.trans hh) hstart
  obtain ⟨wf, hm⟩ := C97_reachable_partial hh (hdocof.trans hh) hstart
    (fun l u sys ys e1 e2 e3 e4 c hc => ⟨(hdoc l u sys ys e1 e2 e3 e4 c hc).1, (hdoc l u sys ys e1 e2 e3 e4 c hc).2.1⟩)
  have fd := C58_fields_partial (plugins := plugins) (x := withChildren sys ys) (fun n keys cr hpl => by
    have := hv _ _ hpl; cases this)
    (fun c hc => (hdoc l u sys ys e1 e2 e3 e4 c hc).1) (fun c hc => (hdoc l u sys ys e1 e2 e3 e4 c hc).2.2) e5
  obtain ⟨h1, hr1, hr2⟩ := ran_append k2
  have hm1 := hm.step (op := .setTuningMode true) trivial (by rw [k1]; simp)
  rw [k1] at hm1
  have htrees : ∃ trees, Each (fun f t => eddParse f = .ok t) a.edds trees := by
    clear hr2 hforms hkw h hrun hg s1 k2
    generalize a.edds = fs at hcss
    induction hcss with
    | nil => exact ⟨[], .nil⟩
    | cons hf _ ih =>
      obtain ⟨ts, ih⟩ := ih
      obtain ⟨tr, ht⟩ := eddCommands_tree hf
      exact ⟨tr :: ts, .cons ht ih⟩
  obtain ⟨trees, htr⟩ := htrees
  refine ⟨ds, cs, r, hds, hcs, hstart, hdom, h1, h2, doc, trees, hr1, htr, s3, s4, fun hreg => ?_⟩
  have hm2 := ran_reachable hr1 hm1 hreg
  obtain ⟨trees', htr', hb⟩ := C98_built wf fd hcss (fun c hc k hk w hw => (hkw c hc k hk w hw).1) hm2.reachable hr2
  have : trees = trees' := by
    clear hb
    generalize a.edds = fs at htr htr'
    induction htr generalizing trees' with
    | nil => cases htr'; rfl
    | cons h _ ih =>
      cases htr' with
      | cons h' ht' =>
        rw [h] at h'
        cases h'
        rw [ih _ ht']
  rwa [this]

/-- **C98 (descriptions only, partial).**  Without documents to import, the domains that are written are exactly those that the
descriptions describe, in their order. -/
theorem C98_described_partial (hp : PlainArgs a) (hi : a.initial = none ∧ a.domains = []) {out : Str}
    (h : domainTool g a = .generated (.ok ⟨0, some out⟩))
    (hdoc : ∀ l u sys ys, First (fun c => c.tag = s "StructureDescriptionFileLocation") a.config.children l →
      (g.hosted a).world.disk.uri a.temp (a.dir ++ s "/" ++ pathAttr l) = some u →
      IsDoc (g.hosted a).world.disk g.validate (s "SystemClass") u sys →
      Inlined (g.hosted a).world.disk g.validate u sys.children ys →
      ∀ c ∈ ys, (∃ lib defx, Layout c lib defx) ∧ Everywhere SizesDeclared c ∧ Everywhere FieldsDeclaredDisjoint c) :
    ∃ (root : Elem) (st : St) (ctx : Ctx) (doc : Xml) (trees : List EddNode),
      Each (fun f t => eddParse f = .ok t) a.edds trees ∧ st.exportDomains root ctx true = .ok doc ∧ out = g.u.print doc ∧
      Each (DomainBuilt root) (trees.flatMap fun tree => eddDomChains [] tree.kids) st.domains := by
  obtain ⟨ds, cs, r, -, -, -, hdom, h1, h2, doc, trees, hr, ht, hx, ho, hb⟩ := C98_whole_partial hp h hdoc
  have him : imports a = [] := by simp [imports, hi.1, hi.2]
  rw [him] at hr hb
  cases hr
  obtain ⟨news, q1, q2⟩ := (hb trivial).domains
  have q1 : h2.mgr.st.domains = r.mgr.st.domains ++ news := q1
  rw [hdom, List.nil_append] at q1
  exact ⟨r.env.env.root, h2.mgr.st, h2.mgr.ctx, doc, trees, ht, hx, ho, q1 ▸ q2⟩

end

/-! ## The tool on the sample files -/

namespace SampleTool

/-- The sample generator, on a disk with the files of the host. -/
def world : GenWorld := { SampleGenerator.world "true" with world := SampleHost.world SampleHost.configuration }

def args : ToolArgs :=
  { criteria := [s "InclusiveCriterion Device : Speaker  Headset", s "ExclusiveCriterion\tMode : Normal Call"]
    config := SampleHost.configuration
    initial := none
    domains := []
    edds := [SampleEddBuilt.generated, [s "domain: Late", s "\tconf: Only", s "\t\tMode IsNot Call", s "\t\t/audio/mic/level = 9"]]
    dir := s "etc"
    temp := s "main.xml" }

/-- The end of the generator, if it is run and ends. -/
def ending (a : ToolArgs) : Option GenEnd :=
  match domainTool world a with
  | .generated (.ok r) => some r
  | _ => none

theorem ends : ending args = some ⟨0, some (s "Out;Empty;Late;")⟩ := by decide +kernel

theorem runs : domainTool world args = .generated (.ok ⟨0, some (s "Out;Empty;Late;")⟩) := by
  have h := ends
  unfold ending at h
  split at h
  · rename_i r hr
    rw [hr, Option.some.inj h]
  · simp at h

theorem plain : PlainArgs args := by
  refine ⟨by decide, ⟨by simp [args], by simp [args]⟩, ?_⟩
  have h : args.edds.all (fun f => match eddCommands f with
    | .ok cmds => cmds.all fun k => k.all SampleEddBuilt.keptB
    | .error _ => true) = true := by decide +kernel
  intro f hf cmds hc k hk w hw
  have := List.all_eq_true.1 h f hf
  rw [hc] at this
  exact SampleEddBuilt.keptB_ok (List.all_eq_true.1 (List.all_eq_true.1 this k hk) w hw)

/-- The hypothesis on the structure is met. -/
theorem structure_ok {l : SXml} {u : Str} {sys : SXml} {ys : List SXml}
    (h1 : First (fun c => c.tag = s "StructureDescriptionFileLocation") args.config.children l)
    (h2 : (world.hosted args).world.disk.uri args.temp (args.dir ++ s "/" ++ pathAttr l) = some u)
    (h3 : IsDoc (world.hosted args).world.disk world.validate (s "SystemClass") u sys)
    (h4 : Inlined (world.hosted args).world.disk world.validate u sys.children ys) :
    ∀ c ∈ ys, (∃ lib defx, Layout c lib defx) ∧ Everywhere SizesDeclared c ∧ Everywhere FieldsDeclaredDisjoint c := by
  have hl : pathAttr l = s "system.xml" := by
    obtain ⟨pre, post, e, ht, -⟩ := h1
    have hm : l ∈ args.config.children := by rw [e]; simp
    simp only [args, SampleHost.configuration, SampleDoc.xml, SXml.children, List.mem_cons, List.not_mem_nil, or_false] at hm
    rcases hm with rfl | rfl | rfl
    · exact absurd ht (by decide)
    · rfl
    · exact absurd ht (by decide)
  rw [hl] at h2
  obtain rfl : s "etc/system.xml" = u := Option.some.inj h2
  obtain rfl : SampleFiles.system = sys := by
    have : (world.hosted args).world.disk.doc (s "etc/system.xml") = some SampleFiles.system := rfl
    exact Option.some.inj (this.symm.trans h3.1)
  have hys : ys = [SampleFiles.amp, SampleFiles.mic] := by
    have hi : Inlined (world.hosted args).world.disk world.validate (s "etc/system.xml")
      [SampleDoc.xml "SubsystemInclude" [("Path", "amp.xml")], SampleFiles.mic] ys := h4
    cases hi with
    | keep hk _ => exact absurd rfl hk
    | file _ hu hd hrest =>
      have : (world.hosted args).world.disk.doc (s "amp.xml") = some SampleFiles.amp := rfl
      obtain rfl := Option.some.inj hu
      obtain rfl := Option.some.inj (this.symm.trans hd.1)
      cases hrest with
      | keep _ hnil => cases hnil; rfl
      | file hk => exact absurd hk (by decide)
  subst hys
  intro c hc
  obtain ⟨q1, q2⟩ := SampleFiles.sizes c hc
  refine ⟨q1, q2, ?_⟩
  simp only [List.mem_cons, List.not_mem_nil, or_false] at hc
  rcases hc with rfl | rfl
  · exact everywhere_check fieldsB_ok (by decide +kernel)
  · exact everywhere_check fieldsB_ok (by decide +kernel)

/-- So that the three domains of the two descriptions are written, in their order. -/
example : ∃ (root : Elem) (st : St) (ctx : Ctx) (doc : Xml) (trees : List EddNode),
    Each (fun f t => eddParse f = .ok t) args.edds trees ∧ st.exportDomains root ctx true = .ok doc ∧
    s "Out;Empty;Late;" = world.u.print doc ∧
    Each (DomainBuilt root) (trees.flatMap fun tree => eddDomChains [] tree.kids) st.domains :=
  C98_described_partial plain ⟨rfl, rfl⟩ runs fun _ _ _ _ => structure_ok

/-- A bad line, a bad description and one with an undefined parameter. -/
example : ending { args with criteria := [s "Mode : Normal"] } = none ∧
    (∃ n, domainTool world { args with edds := [[s "domain Out"]] } = .exited n ∧ n = 2) :=
  ⟨by decide +kernel, ⟨_, rfl, rfl⟩⟩

end SampleTool

end PF
