import Verif.Lemmas.XmlImport

/-! # Every operation keeps the invariants of the state -/

namespace PF
open Spec

theorem Elem.setXml_length {root : Elem} (wf : root.WF) (rd : Reader) (ctx : Ctx) (b : Board) (p : Pos) (x : XElem) :
    (root.setXml rd ctx b p x).2.length = b.length := by
  unfold Elem.setXml
  split
  · rename_i e off he ho
    split
    · rfl
    · exact (Elem.importXml_frame (rd := rd) (hex := ctx.hex) e (off := off) (x := x) (raw := ctx.raw) (b := b)
        (fun q f o h => Elem.param_bits wf he h)).1
  · rfl

theorem Env.setMainXml_main (env : Env) (ctx : Ctx) (autoSync : Bool) (p : Pos) (x : XElem) (m : Mem) :
    (env.setMainXml ctx autoSync p x m).2.main = (env.root.setXml env.rd ctx m.main p x).2 := by
  unfold Env.setMainXml
  split
  · rename_i h; rw [h]
  · rename_i h; rw [h]
  · rename_i h
    rw [h]
    split <;> rfl

theorem Env.setMainXml_length (env : Env) (wf : env.root.WF) (ctx : Ctx) (autoSync : Bool) (p : Pos) (x : XElem) (m : Mem) :
    (env.setMainXml ctx autoSync p x m).2.main.length = m.main.length := by
  rw [Env.setMainXml_main, Elem.setXml_length wf]

theorem Env.setMainXml_off (env : Env) (ctx : Ctx) (p : Pos) (x : XElem) (m : Mem) :
    (env.setMainXml ctx false p x m).2.log = m.log := by
  unfold Env.setMainXml
  split
  · rfl
  · rfl
  · rfl

theorem St.importDomains_mem (root : Elem) (rd : Reader) (withSettings : Bool) (doc : Xml) (st : St) :
    (st.importDomains root rd withSettings doc).2.mem = st.mem := by
  unfold St.importDomains
  dsimp only
  split
  · rfl
  · split
    · rfl
    · split
      · rfl
      · rfl
      · split <;> rfl

theorem St.importDomain_mem (root : Elem) (rd : Reader) (overwrite withSettings : Bool) (doc : Xml) (st : St) :
    (st.importDomain root rd overwrite withSettings doc).2.mem = st.mem := by
  unfold St.importDomain
  split
  · rfl
  · split
    · rfl
    · split
      · rfl
      · rfl
      · split
        · rfl
        · split <;> rfl

theorem St.Inv.step {env : Env} (wf : env.root.WF) {st : St} (h : st.Inv env.root) (op : DomOp)
    (hr : op.Regular env.root) :
    (op.step env st).2.Inv env.root := by
  cases op with
  | createDomain name => exact h.createDomain name
  | deleteDomain name => exact h.deleteDomain name
  | deleteAllDomains => exact h.deleteAllDomains
  | renameDomain name new => exact h.renameDomain name new
  | setSequenceAwareness name aware => exact h.setSequenceAwareness name aware
  | createConfiguration dom name => exact h.createConfiguration wf dom name
  | deleteConfiguration dom name => exact h.deleteConfiguration dom name
  | renameConfiguration dom name new => exact h.renameConfiguration dom name new
  | saveConfiguration dom name => exact h.saveConfiguration wf dom name
  | restoreConfiguration autoSync dom name => exact h.restoreConfiguration wf env.hw autoSync dom name
  | addElement dom path =>
    simp only [DomOp.step, St.atPath]
    split
    · exact h
    · rename_i p hp
      obtain ⟨e, he⟩ := Elem.locate_at hp
      exact h.addElement wf dom he
  | removeElement dom path =>
    simp only [DomOp.step, St.atPath]
    split
    · exact h
    · exact h.removeElement dom _
  | split dom path =>
    simp only [DomOp.step, St.atPath]
    split
    · exact h
    · exact h.split wf dom _
  | setElementSequence dom name paths => exact h.setElementSequence dom name paths
  | setApplicationRule dom name text => exact h.setApplicationRule dom name text
  | clearApplicationRule dom name => exact h.clearApplicationRule dom name
  | setConfigurationParameter ctx autoSync dom conf path text => exact h.setConfigParam wf ctx autoSync dom conf path text
  | setParameter ctx autoSync path text => exact h.withMain (by rw [Env.setMain_length env wf, h.main])
  | setElementBytes autoSync path bytes =>
    simp only [DomOp.step, St.atPath]
    split
    · exact h
    · exact h.withMain (by rw [Env.setMainBytes_length, h.main])
  | handleSet p v => exact h.withMain (by rw [Env.setMainVal_length env wf, h.main])
  | handleBytes autoSync p bytes =>
    simp only [DomOp.step]
    split
    · exact h
    · exact h.withMain (by rw [Env.setMainBytes_length, h.main])
  | setElementXml ctx autoSync path doc =>
    simp only [DomOp.step, St.atPath]
    split
    · exact h
    · exact h.withMain (by rw [Env.setMainXml_length env wf, h.main])
  | handleXml ctx autoSync p doc =>
    simp only [DomOp.step]
    split
    · exact h
    · exact h.withMain (by rw [Env.setMainXml_length env wf, h.main])
  | importDomains withSettings doc => exact h.importDomains wf env.rd withSettings doc
  | importDomain overwrite withSettings doc => exact h.importDomain wf env.rd overwrite withSettings hr.2.1
  | sync => exact h.withMain h.main
  | setCriterion i v => exact h.setCriterion i v
  | askResync i => exact ⟨h.main, h.good, h.ids, h.fresh, h.att, h.rules⟩
  | apply force => exact h.apply wf env.hw force

theorem Reachable.inv {env : Env} (wf : env.root.WF) {cs : List Criterion} {st : St} (h : Reachable env cs st) :
    st.Inv env.root := by
  induction h with
  | init hl => exact (St.Inv.initial _ _).withMain hl
  | step _ hr _ ih => exact ih.step wf _ hr

end PF
