import Verif.Lemmas.EddParse

/-! Where the commands for a description come from. -/

namespace PF
open Spec

theorem cut_append {α : Type} {a b pre post : List α} {c : α} (h : a ++ b = pre ++ c :: post) :
    (∃ post', a = pre ++ c :: post') ∨ ∃ pre', pre = a ++ pre' ∧ b = pre' ++ c :: post := by
  rcases List.append_eq_append_iff.1 h with ⟨x, h1, h2⟩ | ⟨x, h1, h2⟩
  · exact .inr ⟨x, h1, h2⟩
  · cases x with
    | nil => exact .inr ⟨[], by simp [h1], by simp [h2]⟩
    | cons y ys =>
      simp only [List.cons_append, List.cons.injEq] at h2
      exact .inl ⟨ys, by rw [h1, h2.1]⟩

theorem eddAppend_some {α : Type} {a b : Option (List α)} {r : List α} (h : eddAppend a b = some r) :
    ∃ x y, a = some x ∧ b = some y ∧ r = x ++ y := by
  cases a with
  | none => simp [eddAppend] at h
  | some x =>
    cases b with
    | none => simp [eddAppend] at h
    | some y => simp only [eddAppend, Option.some.injEq] at h; exact ⟨x, y, rfl, rfl, h.symm⟩

theorem eddSeq_cut {α : Type} : ∀ {l : List (Option (List α))} {r pre post : List α} {c : α}, eddSeq l = some r → r = pre ++ c :: post →
    ∃ y pre' post', some y ∈ l ∧ y = pre' ++ c :: post' ∧ ∀ z ∈ pre', z ∈ pre
  | [], r, pre, post, c, h, hr => by
    simp only [eddSeq, Option.some.injEq] at h
    subst h
    simp at hr
  | o :: l, r, pre, post, c, h, hr => by
    rw [eddSeq] at h
    obtain ⟨x, y, rfl, hy, rfl⟩ := eddAppend_some h
    rcases cut_append hr with ⟨post', h1⟩ | ⟨pre', h1, h2⟩
    · exact ⟨x, pre, post', by simp, h1, fun _ h => h⟩
    · obtain ⟨w, pre2, post2, g1, g2, g3⟩ := eddSeq_cut hy h2
      exact ⟨w, pre2, post2, List.mem_cons_of_mem _ g1, g2, fun z hz => by rw [h1]; exact List.mem_append_right _ (g3 z hz)⟩

theorem EddDomsRes.mem {domains : List (Str × Bool)} {rules scope : List EddNode} {xs : List (EddChain × (List EddNode × EddNode))}
    {o : Option (List EddCmd)} (h : EddDomsRes domains rules scope xs o) : ∀ cmds, o = some cmds → ∀ x ∈ xs, ∃ head l, EddHead x.2.2 head ∧
      eddDomRes head domains rules scope x = some l ∧ ∀ c ∈ l, c ∈ cmds := by
  induction h with
  | nil => simp
  | @cons x xs head r hh _ ih =>
    intro cmds he y hy
    obtain ⟨a, b, h1, h2, rfl⟩ := eddAppend_some he
    rcases List.mem_cons.1 hy with rfl | hy
    · exact ⟨head, a, hh, h1, fun c hc => List.mem_append_left _ hc⟩
    · obtain ⟨head', l, g1, g2, g3⟩ := ih b h2 y hy
      exact ⟨head', l, g1, g2, fun c hc => List.mem_append_right _ (g3 c hc)⟩

theorem EddDomsRes.cut {domains : List (Str × Bool)} {rules scope : List EddNode} {xs : List (EddChain × (List EddNode × EddNode))}
    {o : Option (List EddCmd)} (h : EddDomsRes domains rules scope xs o) : ∀ cmds pre c post, o = some cmds → cmds = pre ++ c :: post →
      ∃ x ∈ xs, ∃ head l pre' post', EddHead x.2.2 head ∧ eddDomRes head domains rules scope x = some l ∧ l = pre' ++ c :: post' ∧
        ∀ z ∈ pre', z ∈ pre := by
  induction h with
  | nil =>
    intro cmds pre c post he hc
    simp only [Option.some.injEq] at he
    subst he
    simp at hc
  | @cons x xs head r hh _ ih =>
    intro cmds pre c post he hc
    obtain ⟨a, b, h1, h2, rfl⟩ := eddAppend_some he
    rcases cut_append hc with ⟨post', h3⟩ | ⟨pre', h3, h4⟩
    · exact ⟨x, List.mem_cons_self .., head, a, pre, post', hh, h1, h3, fun _ h => h⟩
    · obtain ⟨y, hy, head', l, pre2, post2, g1, g2, g3, g4⟩ := ih b pre' c post h2 h4
      exact ⟨y, List.mem_cons_of_mem _ hy, head', l, pre2, post2, g1, g2, g3, fun z hz => by
        rw [h3]; exact List.mem_append_right _ (g4 z hz)⟩

/-- What the commands are, given the tree. -/
theorem eddCommands_res {lines : List Str} {tree : EddNode} {cmds : List EddCmd} (hp : eddParse lines = .ok tree)
    (hc : eddCommands lines = .ok cmds) : EddDomsRes [] [] [] (eddDomChains [] tree.kids) (some cmds) := by
  unfold eddCommands at hc
  rw [hp] at hc
  simp only at hc
  obtain ⟨e, kids⟩ := tree
  have he : e = .root := ((eddParse_iff ..).1 hp).1
  subst he
  simp only [eddPropagate, EddNode.kids_mk] at hc
  split at hc
  · simp at hc
  next hu =>
    have := eddTranslateAll_propagate kids [] [] .empty rfl (by simp [EddCtx.empty]) rfl rfl hu
    split at hc
    · simp at hc
    next r hr =>
      simp only [Except.ok.injEq] at hc
      subst hc
      rw [hr] at this
      exact this

theorem eddSettings_names (c : EddNode) : ((eddPathOrder c.kids).map (pyJoin (s "/"))).Perm ((eddSettings c).map (·.1)) := by
  have := (eddPathOrder_perm c.kids).map (pyJoin (s "/"))
  have e : (eddSettings c).map (·.1) = ((eddPathLines c.kids).map (·.1)).map (pyJoin (s "/")) := by
    simp only [eddSettings, List.map_map, Function.comp_def]
    congr 1
    funext l
    exact (pyJoin_eq '/' l.1).symm
  rw [e]; exact this

theorem eddFullName_eq (ch : EddChain) : pyJoin (s ".") (ch.map fun y => y.2.el.name) = eddFullName ch := pyJoin_eq '.' _

/-- The commands for a domain, in terms of the description. -/
theorem eddDomRes_eq {head : List Str} {gs : EddChain} {d : List EddNode × EddNode} {l : List EddCmd}
    (h : eddDomRes head [] [] [] (gs, d) = some l) : ∃ confs,
      l = ([[s "createDomain", eddFullName (gs ++ [d])]] ++
        (if eddAware (gs ++ [d]) then [[s "setSequenceAwareness", eddFullName (gs ++ [d]), s "true"]] else []) ++
        head.map fun p => [s "addElement", eddFullName (gs ++ [d]), p]) ++ confs ∧
      eddSeq ((eddConfChains [] d.2.kids).map fun y => eddBlock (eddFullName (gs ++ [d])) (eddAware (gs ++ [d]))
        ((y.1 ++ [y.2]).map fun z => z.2.el.name) (eddRulesAlong [] (gs ++ d :: (y.1 ++ [y.2]))) [] y.2.2.kids) = some confs := by
  unfold eddDomRes at h
  have e1 : ((gs ++ [d]).map fun y => (y.2.el.name, y.2.el.aware)).map (·.1) =
      (gs ++ [d]).map fun y => y.2.el.name := by simp [Function.comp_def]
  have e2 : ((gs ++ [d]).map fun y => (y.2.el.name, y.2.el.aware)).any (·.2) = eddAware (gs ++ [d]) := by
    simp [eddAware, List.any_map, Function.comp_def]
  simp only [List.nil_append] at h
  simp only [e1, e2, eddFullName_eq] at h
  obtain ⟨x, y, hx, hy, rfl⟩ := eddAppend_some h
  simp only [Option.some.injEq] at hx
  exact ⟨y, by rw [hx], hy⟩

theorem eddBlock_eq {d : Str} {aw : Bool} {ch : EddChain} {rules : List EddNode} {c : EddNode} {l : List EddCmd}
    (h : eddBlock d aw (ch.map fun z => z.2.el.name) rules [] c.kids = some l) : ∃ t, eddRuleString rules = some t ∧
      l = [[s "createConfiguration", d, eddFullName ch], [s "setRule", d, eddFullName ch, t]] ++
        (if aw then [[s "setElementSequence", d, eddFullName ch] ++ (eddPathOrder c.kids).map (pyJoin (s "/"))] else []) ++
        (eddSettings c).map fun l => [s "setConfigurationParameter", d, eddFullName ch, l.1, l.2] := by
  unfold eddBlock at h
  cases hr : eddRuleString rules with
  | none => rw [hr] at h; simp at h
  | some t =>
    rw [hr] at h
    simp only [Option.some.injEq, eddFullName_eq, List.nil_append] at h
    refine ⟨t, rfl, ?_⟩
    rw [← h]
    congr 1
    simp only [eddSettings, List.map_map]
    apply List.map_congr_left
    intro l _
    simp only [Function.comp_apply, List.cons.injEq, and_true, true_and]
    exact pyJoin_eq '/' l.1

/-- What there is for each domain and configuration. -/
theorem eddCommands_complete {lines : List Str} {tree : EddNode} {cmds : List EddCmd} (hp : eddParse lines = .ok tree)
    (hc : eddCommands lines = .ok cmds) {gs : EddChain} {d : List EddNode × EddNode} (hd : EddDomainAt tree gs d) :
    [s "createDomain", eddFullName (gs ++ [d])] ∈ cmds ∧
    (eddAware (gs ++ [d]) = true → [s "setSequenceAwareness", eddFullName (gs ++ [d]), s "true"] ∈ cmds) ∧
    ∃ head, EddHead d.2 head ∧ (∀ p ∈ head, [s "addElement", eddFullName (gs ++ [d]), p] ∈ cmds) ∧
    ∀ cs c, EddConfAt tree gs d cs c → (∃ t, eddRuleString (eddRulesAlong [] (gs ++ d :: (cs ++ [c]))) = some t ∧
        [s "setRule", eddFullName (gs ++ [d]), eddFullName (cs ++ [c]), t] ∈ cmds) ∧
      [s "createConfiguration", eddFullName (gs ++ [d]), eddFullName (cs ++ [c])] ∈ cmds ∧
      (eddAware (gs ++ [d]) = true →
        [s "setElementSequence", eddFullName (gs ++ [d]), eddFullName (cs ++ [c])] ++ (eddPathOrder c.2.kids).map (pyJoin (s "/")) ∈ cmds) ∧
      ∀ l ∈ eddSettings c.2, [s "setConfigurationParameter", eddFullName (gs ++ [d]), eddFullName (cs ++ [c]), l.1, l.2] ∈ cmds := by
  obtain ⟨head, l, h1, h2, h3⟩ := (eddCommands_res hp hc).mem cmds rfl _ (EddDomainAt_iff.1 hd)
  obtain ⟨confs, rfl, h4⟩ := eddDomRes_eq h2
  refine ⟨h3 _ (by simp), fun ha => h3 _ (by simp [ha]), head, h1, fun p hp => h3 _ (by
    refine List.mem_append_left _ (List.mem_append_right _ (List.mem_map.2 ⟨p, hp, rfl⟩))), fun cs c hcf => ?_⟩
  obtain ⟨g1, g2⟩ := eddSeq_mem h4
  have hmem := List.mem_map_of_mem (f := fun y : EddChain × (List EddNode × EddNode) => eddBlock (eddFullName (gs ++ [d])) (eddAware (gs ++ [d]))
    ((y.1 ++ [y.2]).map fun z => z.2.el.name) (eddRulesAlong [] (gs ++ d :: (y.1 ++ [y.2]))) [] y.2.2.kids) (EddConfAt_iff.1 hcf).2
  obtain ⟨blk, hblk⟩ := g1 _ hmem
  have hin : ∀ x ∈ blk, x ∈ cmds := fun x hx => h3 _ (List.mem_append_right _ ((g2 x).2 ⟨blk, by rw [← hblk]; exact hmem, hx⟩))
  obtain ⟨t, ht, rfl⟩ := eddBlock_eq hblk
  refine ⟨⟨t, ht, hin _ (by simp)⟩, hin _ (by simp), fun ha => hin _ (by simp [ha]), fun l hl => hin _ ?_⟩
  exact List.mem_append_right _ (List.mem_map.2 ⟨l, hl, rfl⟩)

/-- Where a command comes from, and what precedes it. -/
theorem eddCommands_cut {lines : List Str} {tree : EddNode} {cmds pre post : List EddCmd} {cmd : EddCmd} (hp : eddParse lines = .ok tree)
    (hc : eddCommands lines = .ok cmds) (hcut : cmds = pre ++ cmd :: post) : ∃ gs d, EddDomainAt tree gs d ∧
      (cmd = [s "createDomain", eddFullName (gs ++ [d])] ∨ [s "createDomain", eddFullName (gs ++ [d])] ∈ pre ∧
        (eddAware (gs ++ [d]) = true ∧ cmd = [s "setSequenceAwareness", eddFullName (gs ++ [d]), s "true"] ∨
        (∃ p cs c, EddConfAt tree gs d cs c ∧ p ∈ (eddSettings c.2).map (·.1) ∧ cmd = [s "addElement", eddFullName (gs ++ [d]), p]) ∨
        ∃ cs c, EddConfAt tree gs d cs c ∧
          (cmd = [s "createConfiguration", eddFullName (gs ++ [d]), eddFullName (cs ++ [c])] ∨
          [s "createConfiguration", eddFullName (gs ++ [d]), eddFullName (cs ++ [c])] ∈ pre ∧
            ((∃ t, eddRuleString (eddRulesAlong [] (gs ++ d :: (cs ++ [c]))) = some t ∧
              cmd = [s "setRule", eddFullName (gs ++ [d]), eddFullName (cs ++ [c]), t]) ∨
            eddAware (gs ++ [d]) = true ∧ cmd = [s "setElementSequence", eddFullName (gs ++ [d]), eddFullName (cs ++ [c])] ++
              (eddPathOrder c.2.kids).map (pyJoin (s "/")) ∧
                (∀ l ∈ eddSettings c.2, [s "addElement", eddFullName (gs ++ [d]), l.1] ∈ pre) ∨
            ∃ l ∈ eddSettings c.2, cmd = [s "setConfigurationParameter", eddFullName (gs ++ [d]), eddFullName (cs ++ [c]), l.1, l.2] ∧
              [s "addElement", eddFullName (gs ++ [d]), l.1] ∈ pre)))) := by
  obtain ⟨⟨gs, d⟩, hx, head, l, pre', post', h1, h2, h3, h4⟩ := (eddCommands_res hp hc).cut cmds pre cmd post rfl hcut
  have hd := EddDomainAt_iff.2 hx
  refine ⟨gs, d, hd, ?_⟩
  obtain ⟨confs, rfl, hconfs⟩ := eddDomRes_eq h2
  rw [List.append_assoc, List.append_assoc] at h3
  rcases cut_append h3 with ⟨q, h5⟩ | ⟨pre1, rfl, h5⟩
  · left
    cases pre' with
    | nil => simp at h5; exact h5.1.symm
    | cons a b => simp at h5
  right
  refine ⟨h4 _ (by simp), ?_⟩
  rcases cut_append h5 with ⟨q, h6⟩ | ⟨pre2, rfl, h6⟩
  · left
    split at h6
    next ha =>
      cases pre1 with
      | nil => simp at h6; exact ⟨ha, h6.1.symm⟩
      | cons a b => simp at h6
    next => simp at h6
  right
  rcases cut_append h6 with ⟨q, h7⟩ | ⟨pre3, rfl, h7⟩
  · left
    have : cmd ∈ head.map fun p => [s "addElement", eddFullName (gs ++ [d]), p] := by rw [h7]; simp
    obtain ⟨p, hp', rfl⟩ := List.mem_map.1 this
    cases hcc : eddConfChains [] d.2.kids with
    | nil =>
      have := h1.1 hcc
      subst this
      simp at hp'
    | cons x xs =>
      have hx' : x ∈ eddConfChains [] d.2.kids := by rw [hcc]; simp
      refine ⟨p, x.1, x.2, EddConfAt_iff.2 ⟨hx, hx'⟩, ?_, rfl⟩
      exact (eddSettings_names x.2.2).mem_iff.1 ((h1.2 x hx').mem_iff.1 hp')
  right
  obtain ⟨blk, pre4, post4, g1, g2, g3⟩ := eddSeq_cut hconfs h7
  obtain ⟨⟨cs, c⟩, hy, hblk⟩ := List.mem_map.1 g1
  have hadd : ∀ l ∈ eddSettings c.2, [s "addElement", eddFullName (gs ++ [d]), l.1] ∈ pre := by
    intro l hl
    apply h4
    have : l.1 ∈ head := ((h1.2 (cs, c) hy).trans (eddSettings_names c.2)).mem_iff.2 (List.mem_map.2 ⟨l, hl, rfl⟩)
    refine List.mem_append_right _ (List.mem_append_right _ (List.mem_append_left _ (List.mem_map.2 ⟨_, this, rfl⟩)))
  have hpre : ∀ z ∈ pre4, z ∈ pre := fun z hz => h4 z (List.mem_append_right _ (List.mem_append_right _ (List.mem_append_right _ (g3 z hz))))
  refine ⟨cs, c, EddConfAt_iff.2 ⟨hx, hy⟩, ?_⟩
  obtain ⟨t, ht, rfl⟩ := eddBlock_eq hblk
  rw [List.append_assoc] at g2
  cases pre4 with
  | nil => simp at g2; exact .inl g2.1.symm
  | cons a pre4 =>
    simp only [List.cons_append, List.cons.injEq] at g2
    obtain ⟨rfl, g2⟩ := g2
    right
    refine ⟨hpre _ (by simp), ?_⟩
    cases pre4 with
    | nil => simp at g2; exact .inl ⟨t, ht, g2.1.symm⟩
    | cons a pre4 =>
      right
      simp only [List.cons_append, List.cons.injEq, List.nil_append] at g2
      rcases cut_append g2.2 with ⟨q, h8⟩ | ⟨pre5, rfl, h8⟩
      · left
        split at h8
        next ha =>
          cases pre4 with
          | nil =>
            simp only [List.nil_append, List.cons.injEq] at h8
            exact ⟨ha, h8.1.symm, hadd⟩
          | cons a b => simp at h8
        next => simp at h8
      · right
        have : cmd ∈ (eddSettings c.2).map fun l => [s "setConfigurationParameter", eddFullName (gs ++ [d]), eddFullName (cs ++ [c]), l.1, l.2] := by
          rw [h8]; simp
        obtain ⟨l, hl, rfl⟩ := List.mem_map.1 this
        exact ⟨l, hl, rfl, hadd l hl⟩

end PF
