import Verif.Lemmas.ConfigParam
import Verif.Spec.SampleDomain

/-!
# Properties of the settings held by configurations: save and restore (C21), split (C22), merge (C23),
element sequences (C25), new configurations (C27), edition (C28)

What a configuration holds is observed by restoring it (`Spec.restored`): every statement ranges over
all memories `m` from which the restoration can start.
-/

namespace PF
open Spec

/-! ## C21: save, then restore -/

/-- C21: after `saveConfiguration`, whatever the memory has become, `restoreConfiguration` gives every
element of the domain what it had at the time of the save, and leaves the other bits alone. -/
theorem C21_save_then_restore {env : Env} (wf : env.root.WF) (fd : env.root.FieldsDisjoint) {cs : List Criterion}
    {st : St} (h : Reachable env cs st) (dom name : Str) (hs : (st.saveConfiguration env.root dom name).1 = .ok ())
    (hw : Hardware) (autoSync : Bool) (m : Mem) (hm : m.main.length = env.root.footprint) :
    ∃ d b, st.findDomain dom = some d ∧
      restored env.root hw autoSync (st.saveConfiguration env.root dom name).2 m dom name = some b ∧
      b.length = m.main.length ∧
      (∀ p ∈ d.elems, ∀ i, env.root.Owns p i → b.bit i = st.mem.main.bit i) ∧
      (∀ i, (∀ p ∈ d.elems, ¬ env.root.Owns p i) → b.bit i = m.main.bit i) := by
  have inv := h.inv wf
  have inv' := inv.saveConfiguration wf dom name
  unfold St.saveConfiguration St.onDomain at hs inv' ⊢
  cases hd : st.findDomain dom with
  | none => simp [hd] at hs
  | some d =>
    simp only [hd] at hs inv' ⊢
    have hdm := (St.findDomain_mem hd).1
    cases hc : d.findConfig name with
    | none => simp [Domain.saveConfig, hc, Out.bind] at hs
    | some c =>
      obtain ⟨c', h1, _, h3, _, h5⟩ := Domain.saveConfig_spec wf (inv.good d hdm) inv.main hc
      simp only [h1, Out.bind] at hs inv' ⊢
      have hd' := inv.findDomain_set hd (d' := d.setConfig c') rfl rfl
      have hc' := Domain.findConfig_set (inv.good d hdm).ids hc (c' := c') h3.1 h3.2.1
      obtain ⟨b, g1, g2, g3, g4⟩ := inv'.restored wf fd hw autoSync hm hd' hc'
      refine ⟨d, b, rfl, g1, by omega, ?_, g3⟩
      intro p hp i hi
      obtain ⟨a', ha', hv⟩ := h5 p hp
      rw [g4 p hp a' ha' i hi, hv i hi]

/-- The operations that change settings or criteria but no domain. -/
def OnlyMain : DomOp → Prop
  | .setParameter .. => True
  | .setElementBytes .. => True
  | .handleSet .. => True
  | .handleBytes .. => True
  | .sync => True
  | .setCriterion .. => True
  | _ => False

/-- A series of such operations. -/
inductive Tuned (env : Env) : St → St → Prop
  | refl (st : St) : Tuned env st st
  | step {st st1 : St} (op : DomOp) (hop : OnlyMain op) (h : Tuned env st st1) : Tuned env st (op.step env st1).2

/-- C21: in particular after any series of sets in the main blackboard, by text, by value or by bytes. -/
theorem C21_save_tune_restore {env : Env} (wf : env.root.WF) (fd : env.root.FieldsDisjoint) {cs : List Criterion}
    {st st' : St} (h : Reachable env cs st) (dom name : Str) (hs : (st.saveConfiguration env.root dom name).1 = .ok ())
    (ht : Tuned env (st.saveConfiguration env.root dom name).2 st') (autoSync : Bool) :
    ∃ d errs, st.findDomain dom = some d ∧
      (st'.restoreConfiguration env.root env.hw autoSync dom name).1 = .ok errs ∧
      (∀ p ∈ d.elems, ∀ i, env.root.Owns p i →
        (st'.restoreConfiguration env.root env.hw autoSync dom name).2.mem.main.bit i = st.mem.main.bit i) ∧
      (∀ i, (∀ p ∈ d.elems, ¬ env.root.Owns p i) →
        (st'.restoreConfiguration env.root env.hw autoSync dom name).2.mem.main.bit i = st'.mem.main.bit i) := by
  have key : st'.domains = (st.saveConfiguration env.root dom name).2.domains ∧ st'.mem.main.length = env.root.footprint := by
    generalize hst1 : (st.saveConfiguration env.root dom name).2 = st1 at ht
    have inv1 : st1.Inv env.root := by rw [← hst1]; exact (h.inv wf).saveConfiguration wf dom name
    clear hst1 hs
    induction ht with
    | refl => exact ⟨rfl, inv1.main⟩
    | step op hop _ ih =>
      obtain ⟨h1, h2⟩ := ih
      cases op <;> try exact absurd hop (fun x => x)
      · exact ⟨h1, by simp only [DomOp.step]; rw [Env.setMain_length env wf]; exact h2⟩
      · simp only [DomOp.step, St.atPath]
        split
        · exact ⟨h1, h2⟩
        · exact ⟨h1, by dsimp only; rw [Env.setMainBytes_length env]; exact h2⟩
      · exact ⟨h1, by simp only [DomOp.step]; rw [Env.setMainVal_length env wf]; exact h2⟩
      · simp only [DomOp.step]
        split
        · exact ⟨h1, h2⟩
        · exact ⟨h1, by dsimp only; rw [Env.setMainBytes_length env]; exact h2⟩
      · exact ⟨h1, h2⟩
      · exact ⟨h1, h2⟩
  obtain ⟨d, b, h1, h2, h3, h4, h5⟩ := C21_save_then_restore wf fd h dom name hs env.hw autoSync st'.mem key.2
  have hr : restored env.root env.hw autoSync st' st'.mem dom name = some b := by
    rw [← h2]
    exact restored_none (by unfold St.findDomain; rw [key.1])
  unfold restored at hr
  have he : ({ st' with mem := st'.mem } : St) = st' := rfl
  rw [he] at hr
  cases hx : st'.restoreConfiguration env.root env.hw autoSync dom name with
  | mk o s2 =>
    rw [hx] at hr
    cases o with
    | ok errs =>
      simp only [Option.some.injEq] at hr
      subst hr
      exact ⟨d, errs, h1, rfl, h4, h5⟩
    | err => simp at hr
    | abort => simp at hr

/-- The sample: the volume (bytes 0 and 1) is saved at -3, then set to 5, then restored. -/
example :
    let st0 := Sample.run Sample.env [.setParameter Sample.ctx false (s "/Sys/sub/comp/vol") (s "-3")] Sample.st
    st0.mem.main = [253, 255, 0, 0, 0, 0, 0, 0, 0, 0] ∧
    (st0.saveConfiguration Sample.root (s "V") (s "Loud")).1 = .ok () ∧
    restored Sample.root Sample.env.hw true (st0.saveConfiguration Sample.root (s "V") (s "Loud")).2
      ⟨[5, 0, 9, 9, 9, 9, 9, 9, 9, 9], []⟩ (s "V") (s "Loud") = some [253, 255, 9, 9, 9, 9, 9, 9, 9, 9] := by
  decide +kernel

/-! ## C22: split -/

/-- C22: after a split of the element at `p`, restoring any configuration of the domain gives every bit
the value it had when restored before, except the bits of the element that none of its children
owns. -/
theorem C22_split_keeps_settings {env : Env} (wf : env.root.WF) (fd : env.root.FieldsDisjoint) {cs : List Criterion}
    {st : St} (h : Reachable env cs st) {dom : Str} {d : Domain} (hd : st.findDomain dom = some d) {p : Pos}
    (hp : p ∈ d.elems) (hch : env.root.childPositions p ≠ []) (hw : Hardware) (autoSync : Bool) (name : Str) (m : Mem)
    (hm : m.main.length = env.root.footprint) (b : Board)
    (hb : restored env.root hw autoSync st m dom name = some b) :
    (st.split env.root dom p).1 = .ok () ∧
    ∃ b', restored env.root hw autoSync (st.split env.root dom p).2 m dom name = some b' ∧ b'.length = b.length ∧
      ∀ i, (env.root.Owns p i → ∃ q ∈ env.root.childPositions p, env.root.Owns q i) → b'.bit i = b.bit i := by
  have inv := h.inv wf
  have hdm := (St.findDomain_mem hd).1
  obtain ⟨d', h1, h2, h3, h4, g, h5, h6⟩ := Domain.split_good wf (inv.good d hdm) (att := st.attached) hp hch
  obtain ⟨d0, c, hd0, hc⟩ := restored_found hb
  rw [hd] at hd0
  simp only [Option.some.injEq] at hd0
  subst hd0
  have hcm := (Domain.findConfig_mem hc).1
  have inv' := inv.split wf dom p
  have e1 : st.split env.root dom p = (.ok (), { st.setDomain d' with attached :=
      (st.attached ++ (env.root.childPositions p).map (fun q => (q, d.id))).filter (· ≠ (p, d.id)) }) := by
    simp only [St.split, hd, h1]
  rw [e1] at inv' ⊢
  refine ⟨rfl, ?_⟩
  have hd' : St.findDomain { st.setDomain d' with attached :=
      (st.attached ++ (env.root.childPositions p).map (fun q => (q, d.id))).filter (· ≠ (p, d.id)) } dom = some d' :=
    inv.findDomain_set hd (d' := d') h4.id h4.name
  have hc' : d'.findConfig name = some (g c) := by
    rw [Domain.findConfig_map h5 (fun x hx => (h6 x hx).1), hc]; rfl
  obtain ⟨b0, k1, k2, k3, k4⟩ := inv.restored wf fd hw autoSync hm hd hc
  rw [hb] at k1
  simp only [Option.some.injEq] at k1
  subst k1
  obtain ⟨b', l1, l2, l3, l4⟩ := inv'.restored wf fd hw autoSync hm hd' hc'
  refine ⟨b', l1, by omega, ?_⟩
  intro i hi
  obtain ⟨_, s2, a, ha, s3⟩ := h6 c hcm
  by_cases hpi : env.root.Owns p i
  · obtain ⟨q, hq, hqi⟩ := hi hpi
    obtain ⟨bq, hbq, hv⟩ := s3 q hq
    have hqe : q ∈ d'.elems := by
      rw [h3, List.mem_filter]
      obtain ⟨j, _, rfl, _⟩ := Elem.mem_childPositions hq
      exact ⟨List.mem_append_right _ hq, by simp⟩
    rw [l4 q hqe bq hbq i hqi, hv i hqi, k4 p hp a ha i hpi]
  · by_cases hex : ∃ r ∈ d.elems, env.root.Owns r i
    · obtain ⟨r, hr, hri⟩ := hex
      have hrp : r ≠ p := fun e => hpi (e ▸ hri)
      have hrc : r ∉ env.root.childPositions p := by
        intro hx
        obtain ⟨j, _, rfl, _⟩ := Elem.mem_childPositions hx
        exact hpi (Owns.up wf (List.prefix_append _ _) hri)
      have hre : r ∈ d'.elems := by
        rw [h3, List.mem_filter]
        exact ⟨List.mem_append_left _ hr, by simp [hrp]⟩
      obtain ⟨ar, har, _⟩ := ((inv.good d hdm).ok c hcm).area hr
      rw [l4 r hre ar (by rw [s2 r hrp hrc]; exact har) i hri, k4 r hr ar har i hri]
    · rw [k3 i (fun r hr hri => hex ⟨r, hr, hri⟩)]
      refine l3 i fun r hr hri => ?_
      rw [h3, List.mem_filter, List.mem_append] at hr
      rcases hr.1 with hr | hr
      · exact hex ⟨r, hr, hri⟩
      · obtain ⟨j, _, rfl, _⟩ := Elem.mem_childPositions hr
        exact hpi (Owns.up wf (List.prefix_append _ _) hri)

/-- C22 (`_partial`: for elements other than bit parameter blocks, see `C22_block_gap_lost`): after the
split of a component, subsystem or parameter block, restoring any configuration produces the same
main blackboard as before. -/
theorem C22_split_same_board_partial {env : Env} (wf : env.root.WF) (fd : env.root.FieldsDisjoint) {cs : List Criterion}
    {st : St} (h : Reachable env cs st) {dom : Str} {d : Domain} (hd : st.findDomain dom = some d) {p : Pos} {e : Elem}
    {k : Str} (hp : p ∈ d.elems) (he : env.root.at? p = some e) (hk : e.kind = .group k)
    (hch : env.root.childPositions p ≠ []) (hw : Hardware) (autoSync : Bool) (name : Str) (m : Mem)
    (hm : m.main.length = env.root.footprint) (b : Board)
    (hb : restored env.root hw autoSync st m dom name = some b) :
    restored env.root hw autoSync (st.split env.root dom p).2 m dom name = some b := by
  obtain ⟨_, b', h1, h2, h3⟩ := C22_split_keeps_settings wf fd h hd hp hch hw autoSync name m hm b hb
  rw [h1]
  congr 1
  exact Board.ext_bits h2 fun i => h3 i fun ho => Elem.group_covered wf he hk ho

/-- C22: the other domains are not affected. -/
theorem C22_other_domains {env : Env} (wf : env.root.WF) {cs : List Criterion} {st : St} (h : Reachable env cs st)
    (dom dom' : Str) (hne : dom' ≠ dom) (p : Pos) (hw : Hardware) (autoSync : Bool) (name : Str) (m : Mem) :
    restored env.root hw autoSync (st.split env.root dom p).2 m dom' name = restored env.root hw autoSync st m dom' name := by
  have inv := h.inv wf
  unfold St.split
  cases hd : st.findDomain dom with
  | none => rfl
  | some d =>
    have hdm := (St.findDomain_mem hd).1
    dsimp only
    by_cases hp : p ∈ d.elems
    · by_cases hch : env.root.childPositions p = []
      · simp [Domain.split, hp, hch]
      · obtain ⟨d', h1, _, _, h4, _⟩ := Domain.split_good wf (inv.good d hdm) (att := st.attached) hp hch
        rw [h1]
        exact restored_none (inv.findDomain_set_ne hd (d' := d') h4.id h4.name hne)
    · simp [Domain.split, hp]

/-- A bit parameter block with bits that belong to no bit parameter: raw bytes put 255 in the block
(bits 0, 6 and 7 belong to no parameter) and the configuration is saved; before the split its restoration gives
255 back, after it 62. -/
theorem C22_block_gap_lost :
    let st0 := Sample.run Sample.env [.setElementBytes false (s "/Sys/sub/comp/flags") [255#8],
      .saveConfiguration (s "Q") (s "Off")] Sample.st
    let m : Mem := ⟨List.replicate 10 0, []⟩
    restored Sample.root Sample.env.hw false st0 m (s "Q") (s "Off") = some [0, 0, 255, 0, 0, 0, 0, 0, 0, 0] ∧
    (st0.split Sample.root (s "Q") [0, 0, 1]).1 = .ok () ∧
    restored Sample.root Sample.env.hw false (st0.split Sample.root (s "Q") [0, 0, 1]).2 m (s "Q") (s "Off") =
      some [0, 0, 62, 0, 0, 0, 0, 0, 0, 0] := by
  decide +kernel

/-- The sample: a component with four children, split. -/
example :
    let st0 := Sample.run Sample.env [.createDomain (s "C"), .addElement (s "C") (s "/Sys/sub/comp"),
      .setElementBytes false (s "/Sys/sub/comp") [1, 2, 3, 4, 5, 6, 0, 8, 9], .createConfiguration (s "C") (s "X")] Sample.st
    let m : Mem := ⟨List.replicate 10 77, []⟩
    st0.domains.map Domain.elems = [[[0, 0, 0]], [[0, 0, 1], [0, 1]], [[0, 0]]] ∧
    restored Sample.root Sample.env.hw false st0 m (s "C") (s "X") = some [1, 2, 3, 4, 5, 6, 0, 8, 9, 77] ∧
    (st0.split Sample.root (s "C") [0, 0]).2.domains.map Domain.elems =
      [[[0, 0, 0]], [[0, 0, 1], [0, 1]], [[0, 0, 0], [0, 0, 1], [0, 0, 2], [0, 0, 3]]] ∧
    restored Sample.root Sample.env.hw false (st0.split Sample.root (s "C") [0, 0]).2 m (s "C") (s "X") =
      some [1, 2, 3, 4, 5, 6, 0, 8, 9, 77] := by decide +kernel

/-! ## C23: an enclosing element absorbs its parts -/

/-- C23: when an element is added to a domain, the elements of the domain below it are absorbed, and
every configuration keeps the settings of all the elements it had; the bits of the new element that
were in no element of the domain get the values of the main blackboard. -/
theorem C23_absorb_keeps_settings {env : Env} (wf : env.root.WF) (fd : env.root.FieldsDisjoint) {cs : List Criterion}
    {st : St} (h : Reachable env cs st) {dom : Str} {d : Domain} (hd : st.findDomain dom = some d) {p : Pos} {e : Elem}
    (hpe : env.root.at? p = some e) (hok : (st.addElement env.root dom p).1 = .ok ()) :
    (∃ d', (st.addElement env.root dom p).2.findDomain dom = some d' ∧
      ∀ q, q ∈ d'.elems ↔ q = p ∨ (q ∈ d.elems ∧ ¬ p <+: q)) ∧
    ∀ (hw : Hardware) (autoSync : Bool) (name : Str) (m : Mem) (b : Board), m.main.length = env.root.footprint →
      restored env.root hw autoSync st m dom name = some b →
      ∃ b', restored env.root hw autoSync (st.addElement env.root dom p).2 m dom name = some b' ∧ b'.length = b.length ∧
        (∀ q ∈ d.elems, ∀ i, env.root.Owns q i → b'.bit i = b.bit i) ∧
        (∀ i, (∀ q ∈ d.elems, ¬ env.root.Owns q i) → env.root.Owns p i → b'.bit i = st.mem.main.bit i) ∧
        (∀ i, (∀ q ∈ d.elems, ¬ env.root.Owns q i) → ¬ env.root.Owns p i → b'.bit i = m.main.bit i) := by
  have inv := h.inv wf
  have hdm := (St.findDomain_mem hd).1
  have inv' := inv.addElement wf dom hpe
  have good := inv.good d hdm
  have hnot : p ∉ d.elems := by
    intro hx; simp [St.addElement, St.onDomain, hd, Domain.addElem, hx] at hok
  have hnb : ¬ st.attached.belongsTo p d.id = true := by
    intro hx; simp [St.addElement, St.onDomain, hd, Domain.addElem, hnot, hx] at hok
  have hanc : ∀ q ∈ d.elems, ¬ q <+: p := fun q hq hqp => hnb ((inv.belongs hdm p).2 ⟨q, hq, hqp⟩)
  obtain ⟨d', att', h1, h2, h3, h4, h5, g, h6, h7⟩ := Domain.addElem_good wf good (att := st.attached) hnot hanc hpe inv.main
  have e1 : st.addElement env.root dom p = (.ok (), { st.setDomain d' with attached := att' }) := by
    simp only [St.addElement, St.onDomain, hd, Domain.addElem, hnot, hnb, ↓reduceIte, h1]
    rfl
  rw [e1] at inv' ⊢
  have hd' : St.findDomain { st.setDomain d' with attached := att' } dom = some d' :=
    inv.findDomain_set hd (d' := d') h4.id h4.name
  have hel : ∀ q, q ∈ d'.elems ↔ q = p ∨ (q ∈ d.elems ∧ ¬ p <+: q) := by
    intro q
    rw [h3]
    simp only [List.mem_append, List.mem_filter, List.mem_cons, List.not_mem_nil, or_false, decide_eq_true_eq,
      Pos.isDescendantOf_iff, not_and, ne_eq, Decidable.not_not]
    constructor
    · rintro (⟨hq, hx⟩ | rfl)
      · right
        exact ⟨hq, fun hpq => hnot (hx hpq ▸ hq)⟩
      · exact .inl rfl
    · rintro (rfl | ⟨hq, hx⟩)
      · exact .inr rfl
      · exact .inl ⟨hq, fun hpq => absurd hpq hx⟩
  refine ⟨⟨d', hd', hel⟩, ?_⟩
  intro hw autoSync name m b hm hb
  obtain ⟨d0, c, hd0, hc⟩ := restored_found hb
  rw [hd] at hd0
  simp only [Option.some.injEq] at hd0
  subst hd0
  have hcm := (Domain.findConfig_mem hc).1
  have hc' : d'.findConfig name = some (g c) := by
    rw [Domain.findConfig_map h6 (fun x hx => (h7 x hx).1), hc]; rfl
  obtain ⟨b0, k1, k2, k3, k4⟩ := inv.restored wf fd hw autoSync hm hd hc
  rw [hb] at k1
  simp only [Option.some.injEq] at k1
  subst k1
  obtain ⟨b', l1, l2, l3, l4⟩ := inv'.restored wf fd hw autoSync hm hd' hc'
  obtain ⟨_, s2, a, ha, s3, s4⟩ := h7 c hcm
  have hpm : p ∈ d'.elems := (hel p).2 (.inl rfl)
  refine ⟨b', l1, by omega, ?_, ?_, ?_⟩
  · intro q hq i hi
    obtain ⟨aq, haq, _⟩ := (good.ok c hcm).area hq
    have hqp : q ≠ p := fun e => hnot (e ▸ hq)
    by_cases hdesc : Pos.isDescendantOf q p
    · obtain ⟨bq, hbq, hv⟩ := s4 fd q hq hdesc i hi
      have hpi := Owns.up wf ((Pos.isDescendantOf_iff q p).1 hdesc).1 hi
      rw [l4 p hpm a ha i hpi, hv, k4 q hq bq hbq i hi]
    · have hqe : q ∈ d'.elems := (hel q).2 (.inr ⟨hq, fun hx => hdesc ((Pos.isDescendantOf_iff q p).2 ⟨hx, hqp⟩)⟩)
      rw [l4 q hqe aq (by rw [s2 q hqp hdesc]; exact haq) i hi, k4 q hq aq haq i hi]
  · intro i hno hpi
    rw [l4 p hpm a ha i hpi, s3 i hpi (fun q hq _ => hno q hq)]
  · intro i hno hpi
    refine l3 i fun q hq hqi => ?_
    rcases (hel q).1 hq with rfl | ⟨hq, _⟩
    · exact hpi hqi
    · exact hno q hq hqi

/-- The sample: the component is added to the domain of one of its blocks; the configuration `Off`
keeps 32 in the block, and takes the rest of the component from the main blackboard. -/
example :
    let st0 := Sample.run Sample.env [.setElementBytes false (s "/Sys/sub/comp") [1, 2, 3, 4, 5, 6, 0, 8, 9]] Sample.st
    let m : Mem := ⟨List.replicate 10 77, []⟩
    (st0.addElement Sample.root (s "Q") [0, 0]).1 = .ok () ∧
    (st0.addElement Sample.root (s "Q") [0, 0]).2.domains.map Domain.elems = [[[0, 0, 0]], [[0, 1], [0, 0]]] ∧
    restored Sample.root Sample.env.hw false st0 m (s "Q") (s "Off") = some [77, 77, 32, 77, 77, 77, 77, 77, 77, 1] ∧
    restored Sample.root Sample.env.hw false (st0.addElement Sample.root (s "Q") [0, 0]).2 m (s "Q") (s "Off") =
      some [1, 2, 32, 4, 5, 6, 0, 8, 9, 1] := by decide +kernel

/-! ## C25: element sequences -/

/-- The text of a sequence: an empty line, then one path per line. -/
def seqLines (l : List Str) : Str := '\n' :: (l.map (· ++ ['\n'])).flatten

/-- C25 (`_partial`: the claim that a refused sequence leaves the order unchanged is false, see
`C25_refused_but_reordered`): after a successful `setElementSequence` the elements listed come first in the order given, then
the others in the order they had. -/
theorem C25_sequence_order_partial {env : Env} (wf : env.root.WF) (gn : env.root.GoodNames) (hn : env.root.name ≠ [])
    {cs : List Criterion} {st : St} (h : Reachable env cs st) (dom name : Str) (paths : List Str)
    (hs : (st.setElementSequence env.root dom name paths).1 = .ok ()) :
    ∃ old, st.getElementSequence env.root dom name = some (seqLines old) ∧ old.Nodup ∧ paths.Nodup ∧ (∀ t ∈ paths, t ∈ old) ∧
      (st.setElementSequence env.root dom name paths).2.getElementSequence env.root dom name =
        some (seqLines (paths ++ old.filter (fun t => t ∉ paths))) := by
  have inv := h.inv wf
  unfold St.setElementSequence St.onConfig at hs ⊢
  cases hd : st.findDomain dom with
  | none => simp [hd] at hs
  | some d =>
    simp only [hd] at hs ⊢
    have hdm := (St.findDomain_mem hd).1
    cases hc : d.findConfig name with
    | none => simp [hc] at hs
    | some c =>
      simp only [hc] at hs ⊢
      have good := inv.good d hdm
      have hcm := (Domain.findConfig_mem hc).1
      have ok := good.ok c hcm
      obtain ⟨moved, m1, m2, m3, m4⟩ := (sequenceLoop_spec (root := env.root) (paths := paths) (seen := []) (front := [])
        (back := c.areas) (by simpa using ok.nodup) rfl).2.1 hs
      -- the path of an area
      have hpath : ∀ a ∈ c.areas, ∃ t, env.root.path a.elem = some t ∧ env.root.locate t = some a.elem := by
        intro a ha
        obtain ⟨e, he, _⟩ := ok.sized a ha
        exact C31_path_round_trip env.root gn hn he
      have hinj : ∀ a ∈ c.areas, ∀ b ∈ c.areas, env.root.path a.elem = env.root.path b.elem → a = b := by
        intro a ha b hb hab
        obtain ⟨t, h1, h2⟩ := hpath a ha
        obtain ⟨u, h3, h4⟩ := hpath b hb
        rw [h1, h3] at hab
        simp only [Option.some.injEq] at hab
        subst hab
        rw [h2] at h4
        simp only [Option.some.injEq] at h4
        have e1 := ok.area_iff.2 ⟨ha, rfl⟩
        rw [h4] at e1
        have e2 := ok.area_iff.2 ⟨hb, rfl⟩
        rw [e1] at e2
        exact Option.some.inj e2
      have hcn : c.areas.Nodup := nodup_of_map ok.nodup
      let f : Area → Str := fun a => (env.root.path a.elem).getD []
      have hf : ∀ a ∈ c.areas, env.root.path a.elem = some (f a) := by
        intro a ha
        obtain ⟨t, h1, _⟩ := hpath a ha
        simp only [f, h1, Option.getD_some]
      have hfinj : ∀ a ∈ c.areas, ∀ b ∈ c.areas, f a = f b → a = b := by
        intro a ha b hb hab
        exact hinj a ha b hb (by rw [hf a ha, hf b hb, hab])
      have hmv : moved.map f = paths := by
        have : (moved.map f).map some = paths.map some := by
          rw [← m2, List.map_map]
          exact List.map_congr_left fun a ha => (hf a (m4 a ha)).symm
        exact map_some_inj this
      have hnodup : ∀ l : List Area, l.Nodup → (∀ a ∈ l, a ∈ c.areas) → (l.map f).Nodup := by
        intro l hl hsub
        induction l with
        | nil => simp
        | cons a l ih =>
          rw [List.nodup_cons] at hl
          rw [List.map_cons, List.nodup_cons]
          refine ⟨?_, ih hl.2 fun b hb => hsub b (by simp [hb])⟩
          intro hx
          obtain ⟨b, hb, hfb⟩ := List.mem_map.1 hx
          have := hfinj b (hsub b (by simp [hb])) a (hsub a (by simp)) hfb
          exact hl.1 (this ▸ hb)
      refine ⟨c.areas.map f, ?_, hnodup _ hcn fun _ h => h, ?_, ?_, ?_⟩
      · unfold St.getElementSequence
        rw [hd]
        simp only [hc, Option.map_some, Config.sequenceText, seqLines, List.map_map]
        rfl
      · rw [← hmv]; exact hnodup moved m3 m4
      · intro t ht
        rw [← hmv] at ht
        obtain ⟨a, ha, rfl⟩ := List.mem_map.1 ht
        exact List.mem_map.2 ⟨a, m4 a ha, rfl⟩
      · unfold St.getElementSequence
        have hfd := inv.findDomain_set hd (d' := d.setConfig (c.setSequence env.root paths).2) rfl rfl
        rw [hfd]
        dsimp only
        rw [Domain.findConfig_set good.ids hc (c' := (c.setSequence env.root paths).2) rfl rfl]
        simp only [Option.map_some, Config.sequenceText, seqLines, Config.setSequence, m1, List.nil_append]
        congr 2
        have hflt : (c.areas.filter (fun a => a ∉ moved)).map f = (c.areas.map f).filter (fun t => t ∉ paths) := by
          rw [List.filter_map]
          congr 1
          apply List.filter_congr
          intro a ha
          simp only [Function.comp, decide_eq_decide]
          rw [← hmv]
          refine not_congr ⟨fun hx => List.mem_map.2 ⟨a, hx, rfl⟩, fun hx => ?_⟩
          · obtain ⟨b, hb, hfb⟩ := List.mem_map.1 hx
            exact hfinj b (m4 b hb) a ha hfb ▸ hb
        rw [← hflt, ← hmv, ← List.map_append, List.map_map]
        rfl

/-- C25: a sequence, accepted or refused, loses, duplicates and changes no setting of any configuration. -/
theorem C25_nothing_lost {env : Env} (wf : env.root.WF) (fd : env.root.FieldsDisjoint) {cs : List Criterion} {st : St}
    (h : Reachable env cs st) (dom name : Str) (paths : List Str) (hw : Hardware) (autoSync : Bool) (m : Mem)
    (hm : m.main.length = env.root.footprint) (dom' name' : Str) (b : Board)
    (hb : restored env.root hw autoSync st m dom' name' = some b) :
    restored env.root hw autoSync (st.setElementSequence env.root dom name paths).2 m dom' name' = some b := by
  have inv := h.inv wf
  have inv' := inv.setElementSequence dom name paths
  rw [← hb]
  unfold St.setElementSequence St.onConfig at inv' ⊢
  cases hd : st.findDomain dom with
  | none => rfl
  | some d =>
    simp only [hd] at inv' ⊢
    have hdm := (St.findDomain_mem hd).1
    cases hc : d.findConfig name with
    | none => rfl
    | some c =>
      simp only [hc] at inv' ⊢
      have good := inv.good d hdm
      have hcm := (Domain.findConfig_mem hc).1
      have hperm : (c.setSequence env.root paths).2.areas.Perm c.areas := by
        have := (sequenceLoop_spec (root := env.root) (paths := paths) (seen := []) (front := []) (back := c.areas)
          (by simpa using (good.ok c hcm).nodup) rfl).1
        simpa [Config.setSequence] using this
      have hsame := ((good.ok c hcm).perm hperm).2
      by_cases hdd : dom' = dom
      · subst hdd
        obtain ⟨d0, c0, hd0, hc0⟩ := restored_found hb
        rw [hd] at hd0
        simp only [Option.some.injEq] at hd0
        subst hd0
        have hfd := inv.findDomain_set hd (d' := d.setConfig (c.setSequence env.root paths).2) rfl rfl
        by_cases hnn : name' = name
        · subst hnn
          rw [hc] at hc0
          simp only [Option.some.injEq] at hc0
          subst hc0
          refine inv.restored_same wf fd inv' hw hw autoSync autoSync hm hd hc hfd
            (Domain.findConfig_set good.ids hc (c' := (c.setSequence env.root paths).2) rfl rfl) (fun _ => Iff.rfl) ?_
          intro p hp a a' ha ha' i hi
          rw [hsame p, ha] at ha'
          simp only [Option.some.injEq] at ha'
          rw [ha']
        · have hfc : (d.setConfig (c.setSequence env.root paths).2).findConfig name' = d.findConfig name' :=
            find_set_ne (f := Config.id) (key := Config.pathName) hcm good.ids rfl rfl (by
              rw [(Domain.findConfig_mem hc).2]; exact fun e => hnn e.symm)
          refine inv.restored_same wf fd inv' hw hw autoSync autoSync hm hd hc0 hfd (hfc ▸ hc0) (fun _ => Iff.rfl) ?_
          intro p hp a a' ha ha' i hi
          rw [ha] at ha'
          simp only [Option.some.injEq] at ha'
          rw [ha']
      · exact restored_none (inv.findDomain_set_ne hd (d' := d.setConfig (c.setSequence env.root paths).2) rfl rfl hdd)

example : Sample.root.GoodNames ∧ Sample.root.name ≠ [] ∧
    Sample.st.getElementSequence Sample.root (s "Q") (s "On") = some (s "\n/Sys/sub/comp/flags\n/Sys/sub/on\n") ∧
    (Sample.st.setElementSequence Sample.root (s "Q") (s "On") [s "/Sys/sub/on"]).1 = .ok () ∧
    (Sample.st.setElementSequence Sample.root (s "Q") (s "On") [s "/Sys/sub/on"]).2.getElementSequence Sample.root (s "Q") (s "On") =
      some (s "\n/Sys/sub/on\n/Sys/sub/comp/flags\n") := ⟨Sample.goodNames, by decide, by decide +kernel⟩

/-- C25: a refused sequence can change the order: the second path is unknown, the first one is moved to
the front. -/
theorem C25_refused_but_reordered :
    (Sample.st.setElementSequence Sample.root (s "Q") (s "On") [s "/Sys/sub/on", s "/Sys/none"]).1 = .err ∧
    (Sample.st.setElementSequence Sample.root (s "Q") (s "On") [s "/Sys/sub/on", s "/Sys/none"]).2.getElementSequence
      Sample.root (s "Q") (s "On") = some (s "\n/Sys/sub/on\n/Sys/sub/comp/flags\n") := by decide +kernel

/-! ## C27: new configurations -/

/-- C27: the first configuration of a domain holds what the main blackboard holds when it is made. -/
theorem C27_first_configuration {env : Env} (wf : env.root.WF) (fd : env.root.FieldsDisjoint) {cs : List Criterion}
    {st : St} (h : Reachable env cs st) {dom : Str} (name : Str) {d : Domain} (hd : st.findDomain dom = some d)
    (hfirst : d.configs = []) (hne : name ≠ [])
    (hw : Hardware) (autoSync : Bool) (m : Mem) (hm : m.main.length = env.root.footprint) :
    (st.createConfiguration env.root dom name).1 = .ok () ∧
    ∃ b, restored env.root hw autoSync (st.createConfiguration env.root dom name).2 m dom name = some b ∧
      (∀ p ∈ d.elems, ∀ i, env.root.Owns p i → b.bit i = st.mem.main.bit i) ∧
      (∀ i, (∀ p ∈ d.elems, ¬ env.root.Owns p i) → b.bit i = m.main.bit i) := by
  have inv := h.inv wf
  have hdm := (St.findDomain_mem hd).1
  have good := inv.good d hdm
  have inv' := inv.createConfiguration wf dom name
  have hnone : d.findConfig name = none := by simp [Domain.findConfig, hfirst]
  obtain ⟨c, h1, _, h3, h4, _, _, _, h8⟩ := Domain.createConfig_spec wf good inv.main (id := st.nextId) (by simp [hfirst]) hnone
  have e1 : st.createConfiguration env.root dom name = (.ok (), { st.setDomain { d with configs := d.configs ++ [c] } with
      nextId := st.nextId + 1 }) := by simp only [St.createConfiguration, hd, h1]
  rw [e1] at inv' ⊢
  have hd' : St.findDomain { st.setDomain { d with configs := d.configs ++ [c] } with nextId := st.nextId + 1 } dom =
      some { d with configs := d.configs ++ [c] } := inv.findDomain_set hd (d' := { d with configs := d.configs ++ [c] }) rfl rfl
  have hc' : Domain.findConfig { d with configs := d.configs ++ [c] } name = some c := by
    simp [Domain.findConfig, hfirst, Config.pathName, h4, hne]
  obtain ⟨b, g1, _, g3, g4⟩ := inv'.restored wf fd hw autoSync hm hd' hc'
  refine ⟨rfl, b, g1, ?_, g3⟩
  intro p hp i hi
  obtain ⟨a, ha, hv⟩ := h8 hfirst p hp
  rw [g4 p hp a ha i hi, hv i hi]

/-- C27: a later configuration holds what the first configuration of the domain holds. -/
theorem C27_next_configuration {env : Env} (wf : env.root.WF) (fd : env.root.FieldsDisjoint) {cs : List Criterion}
    {st : St} (h : Reachable env cs st) {dom : Str} (name : Str) {d : Domain} (hd : st.findDomain dom = some d)
    {first : Config} {others : List Config} (hfirst : d.configs = first :: others)
    (hok : (st.createConfiguration env.root dom name).1 = .ok ()) (hne : name ≠ [])
    (hw : Hardware) (autoSync : Bool) (m : Mem) (hm : m.main.length = env.root.footprint) :
    (restored env.root hw autoSync st m dom first.pathName).isSome ∧
    restored env.root hw autoSync (st.createConfiguration env.root dom name).2 m dom name =
      restored env.root hw autoSync st m dom first.pathName := by
  have inv := h.inv wf
  have hdm := (St.findDomain_mem hd).1
  have good := inv.good d hdm
  have inv' := inv.createConfiguration wf dom name
  have hnone : d.findConfig name = none := by
    cases hx : d.findConfig name with
    | none => rfl
    | some c => simp [St.createConfiguration, hd, Domain.createConfig, hx] at hok
  obtain ⟨c, h1, _, h3, h4, _, _, h7, _⟩ := Domain.createConfig_spec wf good inv.main (id := st.nextId) (by
    intro hx
    obtain ⟨c, hc, he⟩ := List.mem_map.1 hx
    have := (inv.fresh d hdm).2 c hc
    omega) hnone
  have e1 : st.createConfiguration env.root dom name = (.ok (), { st.setDomain { d with configs := d.configs ++ [c] } with
      nextId := st.nextId + 1 }) := by simp only [St.createConfiguration, hd, h1]
  rw [e1] at inv' ⊢
  have hd' : St.findDomain { st.setDomain { d with configs := d.configs ++ [c] } with nextId := st.nextId + 1 } dom =
      some { d with configs := d.configs ++ [c] } := inv.findDomain_set hd (d' := { d with configs := d.configs ++ [c] }) rfl rfl
  have hc' : Domain.findConfig { d with configs := d.configs ++ [c] } name = some c := by
    unfold Domain.findConfig at hnone ⊢
    rw [List.find?_append, hnone]
    simp [Config.pathName, h4, hne]
  have hcf : d.findConfig first.pathName = some first := by simp [Domain.findConfig, hfirst]
  refine ⟨?_, ?_⟩
  · obtain ⟨b, hb, _⟩ := inv.restored wf fd hw autoSync hm hd hcf
    rw [hb]; rfl
  · refine inv.restored_same wf fd inv' hw hw autoSync autoSync hm hd hcf hd' hc' (fun _ => Iff.rfl) ?_
    intro p hp a a' ha ha' i hi
    rw [h7 first others hfirst p, ha] at ha'
    simp only [Option.some.injEq] at ha'
    rw [ha']

example :
    let m : Mem := ⟨List.replicate 10 77, []⟩
    (Sample.st.createConfiguration Sample.root (s "V") (s "New")).1 = .ok () ∧
    restored Sample.root Sample.env.hw false (Sample.st.createConfiguration Sample.root (s "V") (s "New")).2 m (s "V") (s "New") =
      some [90, 0, 77, 77, 77, 77, 77, 77, 77, 77] := by decide +kernel

/-! ## C28: editing a configuration -/

/-- `conf` is the last applied configuration of the domain `dom`. -/
def IsLast (st : St) (dom conf : Str) : Prop :=
  ∃ d c, st.findDomain dom = some d ∧ d.findConfig conf = some c ∧ d.last = some c.id

/-- C28: the edition of a parameter of a configuration.  What the restoration of the configuration gives
changes exactly as the main blackboard would by the same set, whether it is accepted or not, and only
the bits of that parameter can change.  If the configuration is not the last applied one the outcome
is that of this set and the memory does not change; if it is, an accepted set is also done on the main
blackboard, with its outcome. -/
theorem C28_edits_configuration {env : Env} (wf : env.root.WF) (fd : env.root.FieldsDisjoint) {cs : List Criterion} {st : St}
    (h : Reachable env cs st) (ctx : Ctx) (autoSync : Bool) {dom conf path : Str} (text : Str) {p q : Pos} {d : Domain}
    (hp : env.root.locate path = some p) (hd : st.findDomain dom = some d) (hq : q ∈ d.elems) (hqp : q <+: p)
    (hw : Hardware) (auto : Bool) (m : Mem) (hm : m.main.length = env.root.footprint) (b : Board)
    (hb : restored env.root hw auto st m dom conf = some b) :
    restored env.root hw auto (st.setConfigParam env ctx autoSync dom conf path text).2 m dom conf =
      some (Elem.setText env.rd ctx env.root 0 b path text).2 ∧
    (∀ i, ¬ env.root.Owns p i → (Elem.setText env.rd ctx env.root 0 b path text).2.bit i = b.bit i) ∧
    (¬ IsLast st dom conf →
      (st.setConfigParam env ctx autoSync dom conf path text).1 = (Elem.setText env.rd ctx env.root 0 b path text).1 ∧
      (st.setConfigParam env ctx autoSync dom conf path text).2.mem = st.mem) ∧
    (IsLast st dom conf → (Elem.setText env.rd ctx env.root 0 b path text).1 = .ok () →
      (st.setConfigParam env ctx autoSync dom conf path text).1 = (env.setMain ctx autoSync path text st.mem).1 ∧
      (st.setConfigParam env ctx autoSync dom conf path text).2.mem = (env.setMain ctx autoSync path text st.mem).2) ∧
    (IsLast st dom conf → (Elem.setText env.rd ctx env.root 0 b path text).1 ≠ .ok () →
      (st.setConfigParam env ctx autoSync dom conf path text).1 = (Elem.setText env.rd ctx env.root 0 b path text).1 ∧
      (st.setConfigParam env ctx autoSync dom conf path text).2.mem = st.mem) ∧
    (∀ i, ¬ env.root.Owns p i →
      (st.setConfigParam env ctx autoSync dom conf path text).2.mem.main.bit i = st.mem.main.bit i) := by
  have inv := h.inv wf
  have inv' := inv.setConfigParam wf ctx autoSync dom conf path text
  obtain ⟨d0, c, hd0, hc⟩ := restored_found hb
  rw [hd] at hd0
  simp only [Option.some.injEq] at hd0
  subst hd0
  have hdm := (St.findDomain_mem hd).1
  have hcm := (Domain.findConfig_mem hc).1
  have good := inv.good d hdm
  obtain ⟨q', f, base, a, hqm, hqp', hf, hbase, ha, hae, hl, _, r, hr, heq⟩ :=
    inv.setConfigParam_eq ctx autoSync text hp hd hq hqp hc
  obtain ⟨b0, k1, k2, k3, k4⟩ := inv.restored wf fd hw auto hm hd hc
  rw [hb] at k1
  simp only [Option.some.injEq] at k1
  subst k1
  obtain ⟨s1, s2, s3, s4⟩ := setText_area wf env.rd ctx text hp hqp' hf hbase hae hl k2 (k4 q' hqm a ha)
  rw [← hr] at s1 s4
  have hlast : IsLast st dom conf ↔ d.last = some c.id := by
    constructor
    · rintro ⟨d1, c1, e1, e2, e3⟩
      rw [hd] at e1
      simp only [Option.some.injEq] at e1
      subst e1
      rw [hc] at e2
      simp only [Option.some.injEq] at e2
      subst e2
      exact e3
    · intro e; exact ⟨d, c, hd, hc, e⟩
  have hmem : (st.setConfigParam env ctx autoSync dom conf path text).2.mem =
      if r.1 = .ok () ∧ d.last = some c.id then (env.setMain ctx autoSync path text st.mem).2 else st.mem := by
    rw [heq]
    by_cases e1 : r.1 = .ok () <;> by_cases e2 : d.last = some c.id <;> simp [e1, e2, St.setDomain]
  have hdoms : (st.setConfigParam env ctx autoSync dom conf path text).2.findDomain dom =
      some (d.setConfig (c.putBoard q' a r.2)) := by
    have := inv.findDomain_set hd (d' := d.setConfig (c.putBoard q' a r.2)) rfl rfl
    rw [heq]
    by_cases e1 : r.1 = .ok () <;> by_cases e2 : d.last = some c.id <;> simp only [e1, e2, ↓reduceIte] <;> exact this
  have hc' : (d.setConfig (c.putBoard q' a r.2)).findConfig conf = some (c.putBoard q' a r.2) :=
    Domain.findConfig_set good.ids hc rfl rfl
  refine ⟨?_, s3, ?_, ?_, ?_, ?_⟩
  · obtain ⟨b', l1, l2, l3, l4⟩ := inv'.restored wf fd hw auto hm hdoms hc'
    rw [l1]
    congr 1
    refine Board.ext_bits (by omega) fun i => ?_
    have hsz : ({ a with board := r.2 } : Area).Sized env.root := by
      refine ⟨f, by rw [← hf, ← hae], ?_⟩
      rw [← hl, hr]
      exact setText_length wf env.rd ctx hf hbase a.board path text (by
        intro p' items ht
        rw [(wf.access_locate hp ht).1]; exact hqp')
    obtain ⟨_, u2, u3⟩ := (good.ok c hcm).set (p := q') hqm (a' := { a with board := r.2 }) hae hsz
    by_cases hqi : env.root.Owns q' i
    · rw [s4 i hqi]
      exact l4 q' hqm _ u2 i hqi
    · rw [s3 i (fun hpi => hqi (Owns.up wf hqp' hpi))]
      by_cases hex : ∃ x ∈ d.elems, env.root.Owns x i
      · obtain ⟨x, hx, hxi⟩ := hex
        have hxq : x ≠ q' := fun e => hqi (e ▸ hxi)
        obtain ⟨ax, hax, _⟩ := (good.ok c hcm).area hx
        rw [k4 x hx ax hax i hxi]
        exact l4 x hx ax (by rw [← hax]; exact u3 x hxq) i hxi
      · rw [k3 i (fun x hx hxi => hex ⟨x, hx, hxi⟩)]
        exact l3 i (fun x hx hxi => hex ⟨x, hx, hxi⟩)
  · intro hn
    rw [hlast] at hn
    refine ⟨?_, by rw [hmem, if_neg fun e => hn e.2]⟩
    rw [heq, ← s1]
    by_cases e1 : r.1 = .ok () <;> simp [e1, hn]
  · intro hn hok
    rw [hlast] at hn
    rw [← s1] at hok
    exact ⟨by rw [heq]; simp [hok, hn], by rw [hmem, if_pos ⟨hok, hn⟩]⟩
  · intro hn hok
    rw [← s1] at hok
    exact ⟨by rw [heq, ← s1]; simp [hok], by rw [hmem, if_neg fun e => hok e.1]⟩
  · intro i hi
    rw [hmem]
    split
    · exact setMain_frame wf ctx autoSync text hp st.mem i hi
    · rfl

/-- C28: a parameter that is not in an element of the domain, or an unknown domain or configuration, is
refused and changes nothing. -/
theorem C28_refused {env : Env} (wf : env.root.WF) {cs : List Criterion} {st : St} (h : Reachable env cs st) (ctx : Ctx)
    (autoSync : Bool) (dom conf path text : Str)
    (hno : ¬ ∃ p d c q, env.root.locate path = some p ∧ st.findDomain dom = some d ∧ d.findConfig conf = some c ∧
      q ∈ d.elems ∧ q <+: p) :
    st.setConfigParam env ctx autoSync dom conf path text = (.err, st) := by
  have _ := h.inv wf
  unfold St.setConfigParam
  cases hb : st.findBlackboard env.root dom conf path with
  | none => rfl
  | some r =>
    obtain ⟨d, c, q, l⟩ := r
    obtain ⟨p, h1, h2, h3, h4, h5, _⟩ := St.findBlackboard_spec hb
    exact absurd ⟨p, d, c, q, h1, h2, h3, h4, h5⟩ hno

/-- C28: no other configuration changes, in this domain or in another, and no application rule. -/
theorem C28_other_configurations {env : Env} (wf : env.root.WF) (fd : env.root.FieldsDisjoint) {cs : List Criterion} {st : St}
    (h : Reachable env cs st) (ctx : Ctx) (autoSync : Bool) (dom conf path text dom' conf' : Str) :
    (st.setConfigParam env ctx autoSync dom conf path text).2.getApplicationRule dom' conf' =
      st.getApplicationRule dom' conf' ∧
    ((dom', conf') ≠ (dom, conf) → ∀ (hw : Hardware) (auto : Bool) (m : Mem) (b : Board), m.main.length = env.root.footprint →
      restored env.root hw auto st m dom' conf' = some b →
      restored env.root hw auto (st.setConfigParam env ctx autoSync dom conf path text).2 m dom' conf' = some b) := by
  by_cases hno : ∃ p d c q, env.root.locate path = some p ∧ st.findDomain dom = some d ∧ d.findConfig conf = some c ∧
      q ∈ d.elems ∧ q <+: p
  case neg =>
    rw [C28_refused wf h ctx autoSync dom conf path text hno]
    exact ⟨rfl, fun _ _ _ _ _ _ h => h⟩
  case pos =>
    have inv := h.inv wf
    have inv' := inv.setConfigParam wf ctx autoSync dom conf path text
    obtain ⟨p, d, c, q, hp, hd, hc, hq, hqp⟩ := hno
    have good := inv.good d (St.findDomain_mem hd).1
    obtain ⟨q', f, base, a, hqm, hqp', hf, hbase, ha, hae, hl, _, r, hr, heq⟩ :=
      inv.setConfigParam_eq ctx autoSync text hp hd hq hqp hc
    have hdoms : ∃ st1, st1 = st.setDomain (d.setConfig (c.putBoard q' a r.2)) ∧
        (st.setConfigParam env ctx autoSync dom conf path text).2.domains = st1.domains ∧
        (st.setConfigParam env ctx autoSync dom conf path text).2.criteria = st.criteria := by
      refine ⟨_, rfl, ?_⟩
      rw [heq]
      by_cases e1 : r.1 = .ok () <;> by_cases e2 : d.last = some c.id <;> simp [e1, e2, St.setDomain]
    obtain ⟨st1, hst1, hdd, hcr⟩ := hdoms
    have hfind : ∀ x, (st.setConfigParam env ctx autoSync dom conf path text).2.findDomain x = st1.findDomain x := by
      intro x; unfold St.findDomain; rw [hdd]
    have hsame : st1.findDomain dom = some (d.setConfig (c.putBoard q' a r.2)) := by
      rw [hst1]; exact inv.findDomain_set hd (d' := d.setConfig (c.putBoard q' a r.2)) rfl rfl
    have hother : ∀ x, x ≠ dom → st1.findDomain x = st.findDomain x := by
      intro x hx; rw [hst1]; exact inv.findDomain_set_ne hd (d' := d.setConfig (c.putBoard q' a r.2)) rfl rfl hx
    refine ⟨?_, ?_⟩
    · unfold St.getApplicationRule
      rw [hfind, hcr]
      by_cases e : dom' = dom
      · rw [e, hsame, hd]
        dsimp only
        by_cases e' : conf' = conf
        · rw [e', Domain.findConfig_set good.ids hc (c' := c.putBoard q' a r.2) rfl rfl, hc]
          rfl
        · rw [Domain.findConfig_set_ne good.ids hc (c' := c.putBoard q' a r.2) rfl rfl e']
      · rw [hother _ e]
    · intro hne hw auto m b hm hb
      rw [← hb]
      by_cases e : dom' = dom
      · subst e
        have hcc : conf' ≠ conf := fun e => hne (by rw [e])
        obtain ⟨d0, c0, hd0, hc0⟩ := restored_found hb
        rw [hd] at hd0
        simp only [Option.some.injEq] at hd0
        subst hd0
        refine inv.restored_same wf fd inv' hw hw auto auto hm hd hc0 ((hfind _).trans hsame)
          ((Domain.findConfig_set_ne good.ids hc (c' := c.putBoard q' a r.2) rfl rfl hcc).trans hc0) (fun _ => Iff.rfl) ?_
        intro x _ a1 a2 h1 h2 i _
        rw [h1] at h2
        simp only [Option.some.injEq] at h2
        rw [h2]
      · exact restored_none ((hfind _).trans (hother _ e))

/-- C28: after an accepted set, `getConfigurationParameter` gives what the parameter reads, on the main
blackboard restored from the configuration for one that is not the last applied, and on the main
blackboard for the last applied one. -/
theorem C28_get_after_set {env : Env} (wf : env.root.WF) (fd : env.root.FieldsDisjoint) {cs : List Criterion} {st : St}
    (h : Reachable env cs st) (ctx : Ctx) (autoSync : Bool) {dom conf path : Str} (text : Str)
    (hok : (st.setConfigParam env ctx autoSync dom conf path text).1 = .ok ()) (ctx' : Ctx)
    (hw : Hardware) (auto : Bool) (m : Mem) (hm : m.main.length = env.root.footprint) (b : Board)
    (hb : restored env.root hw auto st m dom conf = some b) :
    (¬ IsLast st dom conf →
      (st.setConfigParam env ctx autoSync dom conf path text).2.getConfigParam env.root ctx' dom conf path =
        Elem.getText ctx' env.root 0 (Elem.setText env.rd ctx env.root 0 b path text).2 path) ∧
    (IsLast st dom conf →
      (st.setConfigParam env ctx autoSync dom conf path text).2.getConfigParam env.root ctx' dom conf path =
        (Elem.getText ctx' env.root 0 (Elem.setText env.rd ctx env.root 0 b path text).2 path).bind fun _ =>
          Elem.getText ctx' env.root 0 (Elem.setText env.rd ctx env.root 0 st.mem.main path text).2 path) := by
  by_cases hno : ∃ p d c q, env.root.locate path = some p ∧ st.findDomain dom = some d ∧ d.findConfig conf = some c ∧
      q ∈ d.elems ∧ q <+: p
  case neg =>
    rw [C28_refused wf h ctx autoSync dom conf path text hno] at hok
    simp at hok
  case pos =>
    have inv := h.inv wf
    have inv' := inv.setConfigParam wf ctx autoSync dom conf path text
    obtain ⟨p, d, c, q, hp, hd, hc, hq, hqp⟩ := hno
    obtain ⟨r1, _, n1, n2, n3, _⟩ := C28_edits_configuration wf fd h ctx autoSync text hp hd hq hqp hw auto m hm b hb
    have good := inv.good d (St.findDomain_mem hd).1
    obtain ⟨q', f, base, a, hqm, hqp', hf, hbase, ha, hae, hl, hfb, r, hr, heq⟩ :=
      inv.setConfigParam_eq ctx autoSync text hp hd hq hqp hc
    have hdoms : (st.setConfigParam env ctx autoSync dom conf path text).2.findDomain dom =
        some (d.setConfig (c.putBoard q' a r.2)) := by
      have := inv.findDomain_set hd (d' := d.setConfig (c.putBoard q' a r.2)) rfl rfl
      rw [heq]
      by_cases e1 : r.1 = .ok () <;> by_cases e2 : d.last = some c.id <;> simp only [e1, e2, ↓reduceIte] <;> exact this
    have hatt : (st.setConfigParam env ctx autoSync dom conf path text).2.attached = st.attached := by
      rw [heq]
      by_cases e1 : r.1 = .ok () <;> by_cases e2 : d.last = some c.id <;> simp [e1, e2, St.setDomain]
    have hc' : (d.setConfig (c.putBoard q' a r.2)).findConfig conf = some (c.putBoard q' a r.2) :=
      Domain.findConfig_set good.ids hc rfl rfl
    have hrok : r.1 = .ok () := by
      by_cases e1 : r.1 = .ok ()
      · exact e1
      · rw [heq] at hok
        simp only [e1, ↓reduceIte] at hok
    have hsz : ({ a with board := r.2 } : Area).Sized env.root := by
      refine ⟨f, by rw [← hf, ← hae], ?_⟩
      rw [← hl, hr]
      exact setText_length wf env.rd ctx hf hbase a.board path text (by
        intro p' items ht
        rw [(wf.access_locate hp ht).1]; exact hqp')
    obtain ⟨_, u2, _⟩ := (good.ok c (Domain.findConfig_mem hc).1).set (p := q') hqm (a' := { a with board := r.2 }) hae hsz
    obtain ⟨b', l1, l2, l3, l4⟩ := inv'.restored wf fd hw auto hm hdoms hc'
    rw [r1] at l1
    simp only [Option.some.injEq] at l1
    have hrl : r.2.length = f.areaSize := by
      obtain ⟨f', hf', hl'⟩ := hsz
      rw [show ({ a with board := r.2 } : Area).elem = q' from hae, hf] at hf'
      simp only [Option.some.injEq] at hf'
      rw [hf']; exact hl'
    have hget := getText_area wf ctx' hp hqp' hf hbase (a := { a with board := r.2 }) hae hrl
      (b := b') l2 (l4 q' hqm _ u2) (by
        intro e o mx he ho hk
        rw [hr] at hrok
        show StringTerminated r.2 _ _
        rw [hr]
        unfold Elem.setText at hrok ⊢
        cases ht : env.root.accessTarget path with
        | none => simp [ht] at hrok
        | some x =>
          obtain ⟨p', items⟩ := x
          obtain ⟨rfl, rfl⟩ := wf.access_locate hp ht
          simp only [ht, he, ho, hk] at hrok ⊢
          have hin := wf.area_inside hqp' hf he hbase ho
          refine setString_terminated hin.1 ?_ hrok
          have : e.areaSize = stringSize mx := by cases e with | mk n k sy cs => simp only [Elem.kind] at hk; subst hk; rfl
          omega)
    have hfb' : (st.setConfigParam env ctx autoSync dom conf path text).2.findBlackboard env.root dom conf path =
        some (d.setConfig (c.putBoard q' a r.2), c.putBoard q' a r.2, q', decide (d.last = some c.id)) := by
      unfold St.findBlackboard at hfb ⊢
      simp only [hp, hd, hdoms, hatt] at hfb ⊢
      have hid : (d.setConfig (c.putBoard q' a r.2)).id = d.id := rfl
      rw [hid]
      split at hfb
      · simp at hfb
      · rename_i hbel
        rw [if_neg hbel]
        unfold Domain.findBlackboard at hfb ⊢
        rw [hc] at hfb
        rw [hc']
        dsimp only at hfb ⊢
        have hel : (d.setConfig (c.putBoard q' a r.2)).elems = d.elems := rfl
        rw [hel]
        cases hx : d.elems.find? (fun x => decide (x <+: p)) with
        | none => simp [hx] at hfb
        | some y =>
          simp only [hx, Option.map_some, Option.some.injEq, Prod.mk.injEq] at hfb
          obtain ⟨_, _, rfl, _⟩ := hfb
          rfl
    have hlast : IsLast st dom conf ↔ d.last = some c.id := by
      constructor
      · rintro ⟨d1, c1, e1, e2, e3⟩
        rw [hd] at e1
        simp only [Option.some.injEq] at e1
        subst e1
        rw [hc] at e2
        simp only [Option.some.injEq] at e2
        subst e2
        exact e3
      · intro e; exact ⟨d, c, hd, hc, e⟩
    have u2' : (c.putBoard q' a r.2).area? q' = some { a with board := r.2 } := u2
    unfold St.getConfigParam
    simp only [hfb', u2', hbase, decide_eq_true_eq]
    rw [hget, ← l1]
    constructor
    · intro hn
      rw [hlast] at hn
      simp only [hn, ↓reduceIte]
      cases Elem.getText ctx' env.root 0 (Elem.setText env.rd ctx env.root 0 b path text).2 path <;> rfl
    · intro hn
      have hbok : (Elem.setText env.rd ctx env.root 0 b path text).1 = .ok () := by
        rcases Classical.em ((Elem.setText env.rd ctx env.root 0 b path text).1 = .ok ()) with e | e
        · exact e
        · rw [(n3 hn e).1] at hok
          exact absurd hok e
      rw [(n2 hn hbok).2, Env.setMain_board]
      rw [hlast] at hn
      simp only [hn, ↓reduceIte]

/-- The sample: the volume of `Loud` is edited while `Calm` is applied, and while `Loud` is. -/
example :
    let m : Mem := ⟨List.replicate 10 77, []⟩
    let st1 := (Sample.st.setConfigParam Sample.env Sample.ctx true (s "V") (s "Loud") (s "/Sys/sub/comp/vol") (s "-3")).2
    Sample.root.locate (s "/Sys/sub/comp/vol") = some [0, 0, 0] ∧
    (Sample.st.setConfigParam Sample.env Sample.ctx true (s "V") (s "Loud") (s "/Sys/sub/comp/vol") (s "-3")).1 = .ok () ∧
    restored Sample.root Sample.env.hw false Sample.st m (s "V") (s "Loud") = some [90, 0, 77, 77, 77, 77, 77, 77, 77, 77] ∧
    restored Sample.root Sample.env.hw false st1 m (s "V") (s "Loud") = some [253, 255, 77, 77, 77, 77, 77, 77, 77, 77] ∧
    st1.getConfigParam Sample.root Sample.ctx (s "V") (s "Loud") (s "/Sys/sub/comp/vol") = .ok (s "-3") ∧
    st1.mem = Sample.st.mem := by decide +kernel

/-- The same after the restoration of `Loud`, which makes it the last applied configuration. -/
example :
    let st0 := Sample.run Sample.env [.apply true] Sample.st
    let st1 := (st0.setConfigParam Sample.env Sample.ctx true (s "V") (s "Calm") (s "/Sys/sub/comp/vol") (s "-3")).2
    IsLast st0 (s "V") (s "Calm") ∧ st0.mem.main.take 2 = [7, 0] ∧
    st1.mem.main.take 2 = [253, 255] ∧ st1.mem.log = st0.mem.log ++ [⟨1, st1.mem.main⟩] := by
  refine ⟨⟨_, _, rfl, rfl, ?_⟩, ?_⟩ <;> decide +kernel

end PF
