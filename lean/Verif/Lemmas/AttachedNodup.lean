import Verif.Lemmas.DomainStep

/-! # An element is attached to a domain at most once -/

namespace PF

theorem Domain.mapConfigs_sameId {d d' : Domain} {f : Config → Option Config} (h : d.mapConfigs f = some d') :
    d'.id = d.id := by
  unfold Domain.mapConfigs at h
  cases hm : mapAll f d.configs with
  | none => simp [hm] at h
  | some cs => simp only [hm, Option.map_some, Option.some.injEq] at h; rw [← h]

theorem Domain.doRemove_att {d d' : Domain} {att att' : Attached} {p : Pos} {rc : Bool}
    (h : d.doRemove att p rc = some (d', att')) : att'.Sublist att ∧ d'.id = d.id := by
  unfold Domain.doRemove at h
  split at h
  · simp at h
  · split at h
    · simp at h
    · simp only [Option.some.injEq, Prod.mk.injEq] at h
      obtain ⟨h1, h2⟩ := h
      refine ⟨h2 ▸ List.filter_sublist, ?_⟩
      rw [← h1]
      split <;> rfl

theorem Domain.removeLoop_att {qs : List Pos} {d d' : Domain} {att att' : Attached}
    (h : d.removeLoop qs att = some (d', att')) : att'.Sublist att ∧ d'.id = d.id := by
  induction qs generalizing d att with
  | nil =>
    simp only [Domain.removeLoop, Option.some.injEq, Prod.mk.injEq] at h
    rw [← h.1, ← h.2]
    exact ⟨List.Sublist.refl _, rfl⟩
  | cons q qs ih =>
    simp only [Domain.removeLoop] at h
    split at h
    · simp at h
    · rename_i d1 att1 h1
      have a := Domain.doRemove_att h1
      have b := ih h
      exact ⟨b.1.trans a.1, b.2.trans a.2⟩

theorem Domain.mergeLoop_id {root : Elem} {p : Pos} {qs : List Pos} {d d' : Domain}
    (h : d.mergeLoop root p qs = some d') : d'.id = d.id := by
  induction qs generalizing d with
  | nil => simp only [Domain.mergeLoop, Option.some.injEq] at h; rw [h]
  | cons q qs ih =>
    simp only [Domain.mergeLoop] at h
    split at h
    · simp at h
    · rename_i d1 h1
      exact (ih h).trans (Domain.mapConfigs_sameId h1)

theorem Domain.validateNew_id {root : Elem} {p : Pos} {main : Option Board} {d d' : Domain}
    (h : d.validateNew root p main = some d') : d'.id = d.id := by
  cases main with
  | none => simp only [Domain.validateNew, Option.some.injEq] at h; rw [h]
  | some b => exact Domain.mapConfigs_sameId h

theorem Domain.doAdd_att {root : Elem} {d d' : Domain} {att att' : Attached} {p : Pos} {main : Option Board}
    (h : d.doAdd root att p main = some (d', att')) : att'.Sublist (att ++ [(p, d.id)]) ∧ d'.id = d.id := by
  unfold Domain.doAdd at h
  dsimp only at h
  split at h
  · simp at h
  · split at h
    · simp at h
    · rename_i d2 h2
      split at h
      · simp at h
      · rename_i d3 h3
        split at h
        · simp at h
        · rename_i d4 att4 h4
          simp only [Option.some.injEq, Prod.mk.injEq] at h
          obtain ⟨rfl, rfl⟩ := h
          have a := Domain.removeLoop_att h4
          have b := Domain.validateNew_id h2
          exact ⟨a.1, a.2.trans ((Domain.mergeLoop_id h3).trans b)⟩

theorem nodup_add {att : Attached} (h : att.Nodup) {x : Pos × Nat} (hx : x ∉ att) : (att ++ [x]).Nodup := by
  rw [List.nodup_append]
  refine ⟨h, by simp, ?_⟩
  intro a ha b hb
  simp only [List.mem_singleton] at hb
  subst hb
  exact fun he => hx (he ▸ ha)

theorem Domain.addElem_att {root : Elem} {d d' : Domain} {att att' : Attached} {p : Pos} {main : Option Board}
    (h : d.addElem root att p main = .ok (d', att')) (nd : att.Nodup) : att'.Nodup ∧ d'.id = d.id := by
  unfold Domain.addElem at h
  split at h
  · simp at h
  · split at h
    · simp at h
    · rename_i hb
      split at h
      · simp at h
      · rename_i r hr
        simp only [Out.ok.injEq] at h
        subst h
        have a := Domain.doAdd_att hr
        refine ⟨a.1.nodup (nodup_add nd ?_), a.2⟩
        intro hx
        apply hb
        unfold Attached.belongsTo
        rw [List.any_eq_true]
        exact ⟨_, hx, by simp⟩

theorem Domain.removeElem_att {d d' : Domain} {att att' : Attached} {p : Pos}
    (h : d.removeElem att p = .ok (d', att')) (nd : att.Nodup) : att'.Nodup := by
  unfold Domain.removeElem at h
  split at h
  · simp at h
  · split at h
    · simp at h
    · rename_i r hr
      simp only [Out.ok.injEq] at h
      subst h
      exact (Domain.doRemove_att hr).1.nodup nd

theorem Domain.split_att {root : Elem} (wf : root.WF) {d d' : Domain} (hg : d.Good root) {att att' : Attached} {p : Pos}
    (hatt : ∀ q, (q, d.id) ∈ att ↔ q ∈ d.elems)
    (h : d.split root att p = .ok (d', att')) (nd : att.Nodup) : att'.Nodup := by
  have hp : p ∈ d.elems := by
    apply Classical.byContradiction
    intro hp; simp [Domain.split, hp] at h
  have hne : root.childPositions p ≠ [] := by
    intro hne; simp [Domain.split, hp, hne] at h
  obtain ⟨d1, h1, h2, h3, h4, g, h5, h6⟩ := Domain.split_good wf hg (att := att) hp hne
  rw [h1] at h
  simp only [Out.ok.injEq, Prod.mk.injEq] at h
  rw [← h.2]
  apply List.filter_sublist.nodup
  rw [List.nodup_append]
  refine ⟨nd, ?_, ?_⟩
  · have hn : (root.childPositions p).Nodup := by
      have := h2.nodup
      rw [h3] at this
      rw [List.filter_append, List.nodup_append] at this
      have h7 := this.2.1
      rwa [List.filter_eq_self.2] at h7
      intro q hq
      obtain ⟨i, e, rfl, _⟩ := Elem.mem_childPositions hq
      simp
    rw [List.nodup_iff_pairwise_ne] at hn ⊢
    rw [List.pairwise_map]
    exact hn.imp (fun hab => by simp [hab])
  · intro a ha b hb
    obtain ⟨q, hq, rfl⟩ := List.mem_map.1 hb
    intro he
    subst he
    have hqe := (hatt q).1 ha
    obtain ⟨i, e, rfl, _⟩ := Elem.mem_childPositions hq
    have := hg.antichain p hp _ hqe (List.prefix_append _ _)
    simp at this

theorem elemsFromXml_att {root : Elem} {xs : List Xml} {d d' : Domain} {att att' : Attached}
    (h : elemsFromXml root xs d att = .ok (d', att')) (nd : att.Nodup) : att'.Nodup := by
  induction xs generalizing d att with
  | nil => simp only [elemsFromXml, Out.ok.injEq, Prod.mk.injEq] at h; rw [← h.2]; exact nd
  | cons x xs ih =>
    simp only [elemsFromXml] at h
    split at h
    · simp at h
    · rename_i p hp
      cases ha : d.addElem root att p none with
      | err => simp [ha, Out.bind] at h
      | abort => simp [ha, Out.bind] at h
      | ok r =>
        simp only [ha, Out.bind] at h
        exact ih h (Domain.addElem_att (d' := r.1) (att' := r.2) ha nd).1

theorem Domain.fromXml_att {root : Elem} {rd : Reader} {cs : List Criterion} {ws : Bool} {n : Nat} {att : Attached}
    {aware : Bool} {x : Xml} {r : Domain × Attached × Nat}
    (h : Domain.fromXml root rd cs ws n att aware x = .ok r) (nd : att.Nodup) : r.2.1.Nodup := by
  unfold Domain.fromXml at h
  split at h
  · rename_i confs els _ _
    cases h1 : configsFromXml cs (n + 1) confs.children with
    | err => simp [h1, Out.bind] at h
    | abort => simp [h1, Out.bind] at h
    | ok configs =>
      simp only [h1, Out.bind] at h
      cases h2 : elemsFromXml root els.children { Domain.new n x.nameAttr with seqAware := aware, configs := configs } att with
      | err => simp [h2] at h
      | abort => simp [h2] at h
      | ok q =>
        simp only [h2] at h
        cases h3 : q.1.parseSettings root rd ws x with
        | err => simp [h3] at h
        | abort => simp [h3] at h
        | ok d =>
          simp only [h3] at h
          split at h
          · simp at h
          · simp only [Out.ok.injEq] at h
            rw [← h]
            exact elemsFromXml_att (d' := q.1) h2 nd
  · simp at h

theorem domainsFromXml_att {root : Elem} {rd : Reader} {cs : List Criterion} {ws : Bool} {xs : List Xml} {n : Nat}
    {att : Attached} {r : List Domain × Attached × Nat}
    (h : domainsFromXml root rd cs ws xs n att = .ok r) (nd : att.Nodup) : r.2.1.Nodup := by
  induction xs generalizing n att r with
  | nil => simp only [domainsFromXml, Out.ok.injEq] at h; rw [← h]; exact nd
  | cons x xs ih =>
    simp only [domainsFromXml] at h
    split at h
    · split at h
      · simp at h
      · rename_i aware _
        cases h1 : Domain.fromXml root rd cs ws n att aware x with
        | err => simp [h1, Out.bind] at h
        | abort => simp [h1, Out.bind] at h
        | ok q =>
          simp only [h1, Out.bind] at h
          cases h2 : domainsFromXml root rd cs ws xs q.2.2 q.2.1 with
          | err => simp [h2] at h
          | abort => simp [h2] at h
          | ok q' =>
            simp only [h2, Out.ok.injEq] at h
            rw [← h]
            have b := ih h2 (Domain.fromXml_att h1 nd)
            exact b
    · split at h <;> simp at h

theorem St.onDomain_att {st : St} {name : Str} {f : Domain → Out (Domain × Attached)} (nd : st.attached.Nodup)
    (hf : ∀ d d' att', st.findDomain name = some d → f d = .ok (d', att') → att'.Nodup) :
    (st.onDomain name f).2.attached.Nodup := by
  unfold St.onDomain
  split
  · exact nd
  · rename_i d hd
    split
    · rename_i d' att' h
      exact hf d d' att' hd h
    · exact nd
    · exact nd

theorem St.onDomain_same {st : St} {name : Str} {f : Domain → Out Domain} (nd : st.attached.Nodup) :
    (st.onDomain name fun d => (f d).bind fun d' => .ok (d', st.attached)).2.attached.Nodup := by
  refine St.onDomain_att nd ?_
  intro d d' att' _ hf
  cases hx : f d with
  | err => simp [hx, Out.bind] at hf
  | abort => simp [hx, Out.bind] at hf
  | ok x =>
    simp only [hx, Out.bind, Out.ok.injEq, Prod.mk.injEq] at hf
    rw [← hf.2]; exact nd

theorem St.onConfig_same {st : St} {dom name : Str} {f : Config → Out Unit × Config} (nd : st.attached.Nodup) :
    (st.onConfig dom name f).2.attached.Nodup := by
  unfold St.onConfig
  split
  · exact nd
  · split <;> exact nd

/-- One operation keeps the attachments without repetition. -/
theorem St.Inv.step_nodup {env : Env} (wf : env.root.WF) {st : St} (h : st.Inv env.root) (nd : st.attached.Nodup)
    (op : DomOp) : (op.step env st).2.attached.Nodup := by
  cases op with
  | createDomain name =>
    simp only [DomOp.step, St.createDomain]
    split <;> exact nd
  | deleteDomain name =>
    simp only [DomOp.step, St.deleteDomain]
    split
    · exact nd
    · exact List.filter_sublist.nodup nd
  | deleteAllDomains => exact List.filter_sublist.nodup nd
  | renameDomain name new =>
    simp only [DomOp.step, St.renameDomain]
    split
    · exact nd
    · split <;> exact nd
  | setSequenceAwareness name aware =>
    refine St.onDomain_att nd ?_
    intro d d' att' _ hf
    simp only [Out.ok.injEq, Prod.mk.injEq] at hf
    rw [← hf.2]; exact nd
  | createConfiguration dom name =>
    simp only [DomOp.step, St.createConfiguration]
    split
    · exact nd
    · split <;> exact nd
  | deleteConfiguration dom name => exact St.onDomain_same (f := fun d => d.deleteConfig name) nd
  | renameConfiguration dom name new => exact St.onDomain_same (f := fun d => d.renameConfig name new) nd
  | saveConfiguration dom name => exact St.onDomain_same (f := fun d => d.saveConfig env.root st.mem.main name) nd
  | restoreConfiguration a dom name =>
    simp only [DomOp.step, St.restoreConfiguration]
    split
    · exact nd
    · split <;> exact nd
  | addElement dom path =>
    simp only [DomOp.step, St.atPath]
    split
    · exact nd
    · exact St.onDomain_att nd (fun d d' att' _ hf => (Domain.addElem_att hf nd).1)
  | removeElement dom path =>
    simp only [DomOp.step, St.atPath]
    split
    · exact nd
    · exact St.onDomain_att nd (fun d d' att' _ hf => Domain.removeElem_att hf nd)
  | split dom path =>
    simp only [DomOp.step, St.atPath]
    split
    · exact nd
    · rename_i p _
      unfold St.split
      split
      · exact nd
      · rename_i d hd
        have hdm := (St.findDomain_mem hd).1
        split
        · rename_i d' att hs
          exact Domain.split_att wf (h.good d hdm) (fun q => h.elems_of hdm q) hs nd
        · exact nd
        · exact nd
  | setElementSequence dom name paths => exact St.onConfig_same nd
  | setApplicationRule dom name text => exact St.onConfig_same nd
  | clearApplicationRule dom name => exact St.onConfig_same nd
  | setConfigurationParameter ctx a dom conf path text =>
    simp only [DomOp.step, St.setConfigParam]
    repeat' split
    all_goals exact nd
  | setParameter ctx a path text => exact nd
  | setElementBytes a path bytes =>
    simp only [DomOp.step, St.atPath]
    split <;> exact nd
  | handleSet p v => exact nd
  | handleBytes a p bytes =>
    simp only [DomOp.step]
    split <;> exact nd
  | setElementXml ctx a path doc =>
    simp only [DomOp.step, St.atPath]
    split <;> exact nd
  | handleXml ctx a p doc =>
    simp only [DomOp.step]
    split <;> exact nd
  | importDomains ws doc =>
    have hc : st.deleteAllDomains.2.attached.Nodup := List.filter_sublist.nodup nd
    simp only [DomOp.step, St.importDomains]
    split
    · exact hc
    · split
      · exact hc
      · split
        · exact hc
        · exact hc
        · rename_i ds att n hx
          split
          · exact hc
          · exact domainsFromXml_att hx hc
  | importDomain ow ws doc =>
    simp only [DomOp.step, St.importDomain]
    split
    · exact nd
    · split
      · exact nd
      · split
        · exact nd
        · exact nd
        · rename_i d att n hx
          have hn : att.Nodup := Domain.fromXml_att hx nd
          split
          · exact hn
          · split
            · exact nd
            · exact List.filter_sublist.nodup hn
  | sync => exact nd
  | setCriterion i v =>
    simp only [DomOp.step, St.setCriterion]
    exact nd
  | askResync i =>
    simp only [DomOp.step, St.askResync]
    exact nd
  | apply force =>
    simp only [DomOp.step, St.apply]
    repeat' split
    all_goals exact nd

theorem Reachable.nodup {env : Env} (wf : env.root.WF) {cs : List Criterion} {st : St} (h : Reachable env cs st) :
    st.attached.Nodup := by
  induction h with
  | init hl => simp [St.initial]
  | step hr _ _ ih => exact (hr.inv wf).step_nodup wf ih _

end PF
