import Verif.Lemmas.CApi
import Verif.Props.Start
import Verif.Props.CriteriaHistory
import Verif.Props.Handle

/-! # C75 to C77: the C API -/

namespace PF
open Spec

/-! ## C75: criteria -/

/-- The criteria after a start that succeeded. -/
theorem start_criteria {env : Env} (wf : env.root.WF) {failOnError : Bool} {settings : Settings} {back : BackSync}
    {cs : List Criterion} (hok : (St.start env failOnError settings back cs).1 = .ok ()) :
    (St.start env failOnError settings back cs).2.criteria = cs.map Criterion.resetModified := by
  obtain ⟨st1, main, mid, _, _, _, _, _, _, _, h8, h9, h10, _⟩ := St.start_mid wf hok
  obtain ⟨b, log, h11, _⟩ := h9.apply_eq wf env.hw true
  rw [h10, h11, h8]

theorem declaresAll_reset {ds : List PfwCriterion} {cs : List Criterion} (h : DeclaresAll ds cs) :
    DeclaresAll ds (cs.map Criterion.resetModified) := by
  refine ⟨by simp [h.1], fun i d c hd hc => ?_⟩
  simp only [List.getElem?_map, Option.map_eq_some_iff] at hc
  obtain ⟨c0, h0, rfl⟩ := hc
  obtain ⟨a1, a2, a3, a4⟩ := h.2 i d c0 hd h0
  exact ⟨a1, a2, a3, a4⟩

/-- C75: which declarations a start accepts.  It fails for others; for these it has the outcome of the start of
the manager with the declared criteria, and fails if there is no configuration or structure. -/
theorem C75_start_outcome (h : PfwHandler) (hp : h.pfw = none) (ds : List PfwCriterion) :
    (¬ WellDeclared ds → ∀ files, (pfwStart h files ds).1 = .err) ∧
    (WellDeclared ds → (pfwStart h none ds).1 = .err ∧ ∃ cs, DeclaresAll ds cs ∧
      ∀ f, (pfwStart h (some f) ds).1 = (Mgr.start f.env true f.settings f.back cs).1) := by
  obtain ⟨h1, h2⟩ := createCriteria_new ds
  constructor
  · intro hw files
    have := h2 hw
    rcases hc : createCriteria [] ds with ⟨o, cs⟩
    rw [hc] at this
    simp only at this
    subst this
    simp only [pfwStart, hp, hc]
    rfl
  · intro hw
    obtain ⟨cs, hc, hd⟩ := h1 hw
    refine ⟨by simp only [pfwStart, hp, hc]; rfl, cs, hd, fun f => ?_⟩
    simp only [pfwStart, hp, hc]
    rcases Mgr.start f.env true f.settings f.back cs with ⟨o, m⟩
    cases o <;> rfl

/-- C75: after a start that succeeded the criteria are the declared ones, in their order, with their values
numbered by their index (a bit for inclusive ones), in the state 0 and not modified. -/
theorem C75_criteria (h : PfwHandler) {f : PfwFiles} (wf : f.env.env.root.WF) {ds : List PfwCriterion} {h' : PfwHandler}
    (hs : pfwStart h (some f) ds = (.ok (), h')) :
    h.pfw = none ∧ WellDeclared ds ∧ ∃ m, h'.pfw = some (.started f.env m) ∧ DeclaresAll ds m.st.criteria ∧
      ∀ c ∈ m.st.criteria, c.hasBeenModified = false := by
  have hp : h.pfw = none := by
    cases hx : h.pfw with
    | none => rfl
    | some p => simp [pfwStart, hx, PfwHandler.failure] at hs
  have hw : WellDeclared ds := by
    apply Classical.byContradiction
    intro hw
    have := (C75_start_outcome h hp ds).1 hw (some f)
    rw [hs] at this
    simp at this
  refine ⟨hp, hw, ?_⟩
  obtain ⟨cs, hc, hd⟩ := (createCriteria_new ds).1 hw
  simp only [pfwStart, hp, hc] at hs
  rcases hm : Mgr.start f.env true f.settings f.back cs with ⟨o, m⟩
  rw [hm] at hs
  cases o with
  | err => simp [PfwHandler.failure] at hs
  | abort => simp at hs
  | ok u =>
    simp only [PfwHandler.success, Prod.mk.injEq, true_and] at hs
    refine ⟨m, by rw [← hs], ?_⟩
    have h1 : (St.start f.env.env true f.settings f.back cs).1 = .ok () := congrArg Prod.fst hm
    have h2 : m.st = (St.start f.env.env true f.settings f.back cs).2 := (congrArg (fun r => r.2.st) hm).symm
    have h3 := start_criteria wf h1
    rw [h2, h3]
    refine ⟨declaresAll_reset hd, fun c hc => ?_⟩
    obtain ⟨c0, _, rfl⟩ := List.mem_map.1 hc
    rfl

theorem PfwHandler.get_same (h : PfwHandler) (k : Nat) (ty : ATy) :
    (h.get k ty).2.pfw = h.pfw ∧ (h.get k ty).2.params = h.params := by
  unfold PfwHandler.get
  split
  · rename_i e m p _ _
    generalize e.env.root.getAs m.st.mem.main p ty = r
    cases r <;> exact ⟨rfl, rfl⟩
  · exact ⟨rfl, rfl⟩

theorem getInt_same (h : PfwHandler) (k : Nat) :
    (pfwGetIntParameter h k).2.pfw = h.pfw ∧ (pfwGetIntParameter h k).2.params = h.params := by
  have := h.get_same k .sint
  unfold pfwGetIntParameter
  generalize h.get k .sint = r at this ⊢
  obtain ⟨o, h'⟩ := r
  cases o with
  | ok a => cases a <;> exact this
  | err => exact this
  | abort => exact this

theorem getString_same (h : PfwHandler) (k : Nat) :
    (pfwGetStringParameter h k).2.pfw = h.pfw ∧ (pfwGetStringParameter h k).2.params = h.params := by
  have := h.get_same k .str
  unfold pfwGetStringParameter
  generalize h.get k .str = r at this ⊢
  obtain ⟨o, h'⟩ := r
  cases o with
  | ok a => cases a <;> exact this
  | err => exact this
  | abort => exact this

/-- One event on a started handler. -/
theorem started_step {h : PfwHandler} {e : MEnv} {m : Mgr} (hp : h.pfw = some (.started e m)) (ev : PfwEvent)
    (ho : (ev.step h).1 ≠ .abort) (hn : ∀ i v, ev ≠ .other (.setCriterion i v))
    (hd : (m.st.criteria.map Criterion.name).Nodup) :
    ∃ m', (ev.step h).2.pfw = some (.started e m') ∧ m'.st.criteria.length = m.st.criteria.length ∧
      ∀ (i : Nat) c, m.st.criteria[i]? = some c → ∃ c', m'.st.criteria[i]? = some c' ∧ c'.name = c.name ∧ c'.type = c.type ∧
        c'.state = (lastSetByName c.name [ev]).getD c.state := by
  have same : ∀ h' : PfwHandler, h'.pfw = h.pfw → (∀ n v, ev ≠ .setCriterion n v) →
      ∃ m', h'.pfw = some (.started e m') ∧ m'.st.criteria.length = m.st.criteria.length ∧
      ∀ (i : Nat) c, m.st.criteria[i]? = some c → ∃ c', m'.st.criteria[i]? = some c' ∧ c'.name = c.name ∧ c'.type = c.type ∧
        c'.state = (lastSetByName c.name [ev]).getD c.state := by
    intro h' hh hev
    refine ⟨m, by rw [hh, hp], rfl, fun i c hc => ⟨c, hc, rfl, rfl, ?_⟩⟩
    cases ev <;> first | rfl | exact absurd rfl (hev _ _)
  have mop : ∀ (op : MOp) (h' : PfwHandler), h'.pfw = some (.started e (op.step e m).2) → (∀ i v, op ≠ .setCriterion i v) →
      (∀ n v, ev ≠ .setCriterion n v) →
      ∃ m', h'.pfw = some (.started e m') ∧ m'.st.criteria.length = m.st.criteria.length ∧
      ∀ (i : Nat) c, m.st.criteria[i]? = some c → ∃ c', m'.st.criteria[i]? = some c' ∧ c'.name = c.name ∧ c'.type = c.type ∧
        c'.state = (lastSetByName c.name [ev]).getD c.state := by
    intro op h' hh hop hev
    obtain ⟨a1, a2⟩ := C65_state_last_set e [op] m
    refine ⟨_, hh, a1, fun i c hc => ?_⟩
    obtain ⟨c', b1, b2, b3, b4⟩ := a2 i c hc
    refine ⟨c', b1, b2, b3, ?_⟩
    rw [b4]
    have e1 : lastSet i [op] = none := by
      cases op <;> first | rfl | exact absurd rfl (hop _ _)
    have e2 : lastSetByName c.name [ev] = none := by
      cases ev <;> first | rfl | exact absurd rfl (hev _ _)
    rw [e1, e2]
  cases ev with
  | start files ds =>
    refine same _ ?_ (by simp)
    simp only [PfwEvent.step, pfwStart, hp, PfwHandler.failure]
  | getCriterion name =>
    refine same _ ?_ (by simp)
    simp only [PfwEvent.step, pfwGetCriterion, hp]
    split <;> simp [PfwHandler.failure, PfwHandler.success, hp]
  | bind path =>
    refine same _ ?_ (by simp)
    simp only [PfwEvent.step, pfwBindParameter, hp]
    repeat' split
    all_goals simp [PfwHandler.failure, PfwHandler.success, hp]
  | getInt k => exact same _ (getInt_same h k).1 (by simp)
  | getString k => exact same _ (getString_same h k).1 (by simp)
  | setCriterion name v =>
    simp only [PfwEvent.step, pfwSetCriterion, hp]
    cases hf : (Pfw.started e m).findCriterion name with
    | none =>
      refine ⟨m, by simp [PfwHandler.failure, hp], rfl, fun i c hc => ⟨c, hc, rfl, rfl, ?_⟩⟩
      have hne : ¬ name = c.name := by
        intro hne
        simp only [Pfw.findCriterion, Pfw.criteria, List.findIdx?_eq_none_iff] at hf
        have := hf c (List.mem_of_getElem? hc)
        simp [hne] at this
      simp [lastSetByName, hne]
    | some j =>
      simp only [PfwHandler.success, Pfw.setCriterion]
      obtain ⟨a1, a2⟩ := C65_state_last_set e [.setCriterion j v] m
      refine ⟨_, rfl, a1, fun i c hc => ?_⟩
      obtain ⟨c', b1, b2, b3, b4⟩ := a2 i c hc
      refine ⟨c', b1, b2, b3, ?_⟩
      rw [b4]
      simp only [Pfw.findCriterion, Pfw.criteria] at hf
      obtain ⟨hjl, hj, _⟩ := List.findIdx?_eq_some_iff_getElem.1 hf
      simp only [beq_iff_eq] at hj
      have hcl := (List.getElem?_eq_some_iff.1 hc).1
      have hce := (List.getElem?_eq_some_iff.1 hc).2
      have hij : j = i ↔ name = c.name := by
        constructor
        · rintro rfl; rw [← hj, hce]
        · intro hh
          refine (List.Nodup.getElem_inj_iff (hi := by simpa using hjl) (hj := by simpa using hcl) hd).1 ?_
          simp [hj, hce, hh]
      by_cases hh : name = c.name
      · simp [lastSet, lastSetByName, hh, hij.2 hh]
      · have : ¬ j = i := fun x => hh (hij.1 x)
        simp [lastSet, lastSetByName, hh, this]
  | apply =>
    refine mop .applyConfigurations _ ?_ (by simp) (by simp)
    simp only [PfwEvent.step, pfwApplyConfigurations, hp] at ho ⊢
    rcases hr : MOp.applyConfigurations.step e m with ⟨o, m'⟩
    rw [hr] at ho
    cases o with
    | abort => exact absurd rfl ho
    | ok u => rfl
    | err => rfl
  | setInt k v =>
    simp only [PfwEvent.step, pfwSetIntParameter, PfwHandler.set, hp] at ho ⊢
    cases hk : h.params[k]? with
    | none => simp [hk] at ho
    | some p =>
      refine mop (.handleSet p (.one (.sint v))) _ ?_ (by simp) (by simp)
      simp only [PfwHandler.forward]
      split <;> rfl
  | setString k w =>
    simp only [PfwEvent.step, pfwSetStringParameter, PfwHandler.set, hp] at ho ⊢
    cases hk : h.params[k]? with
    | none => simp [hk] at ho
    | some p =>
      refine mop (.handleSet p (.one (.str (cutText w)))) _ ?_ (by simp) (by simp)
      simp only [PfwHandler.forward]
      split <;> rfl
  | other op =>
    refine mop op _ ?_ (fun i v hop => hn i v (by rw [hop])) (by simp)
    simp only [PfwEvent.step, hp]

theorem lastSetByName_cons (n : Str) (ev : PfwEvent) (evs : List PfwEvent) (v : BitVec 32) :
    (lastSetByName n (ev :: evs)).getD v = (lastSetByName n evs).getD ((lastSetByName n [ev]).getD v) := by
  unfold lastSetByName
  simp only [List.reverse_cons, List.findSome?_append, List.reverse_nil, List.nil_append]
  cases List.findSome? _ evs.reverse <;> rfl

/-- Any number of events on a started handler. -/
theorem started_after {h : PfwHandler} {e : MEnv} {m : Mgr} (hp : h.pfw = some (.started e m)) (evs : List PfwEvent)
    (ho : PfwHandler.Runs h evs) (hn : NoOtherCriterion evs) (hd : (m.st.criteria.map Criterion.name).Nodup) :
    ∃ m', (PfwHandler.after h evs).pfw = some (.started e m') ∧ m'.st.criteria.length = m.st.criteria.length ∧
      ∀ (i : Nat) c, m.st.criteria[i]? = some c → ∃ c', m'.st.criteria[i]? = some c' ∧ c'.name = c.name ∧ c'.type = c.type ∧
        c'.state = (lastSetByName c.name evs).getD c.state := by
  induction evs generalizing h m with
  | nil => exact ⟨m, hp, rfl, fun i c hc => ⟨c, hc, rfl, rfl, rfl⟩⟩
  | cons ev evs ih =>
    obtain ⟨m1, a1, a2, a3⟩ := started_step hp ev ho.1 (fun i v hv => hn i v (by rw [hv]; simp)) hd
    have hnames : m1.st.criteria.map Criterion.name = m.st.criteria.map Criterion.name := by
      apply List.ext_getElem?
      intro i
      simp only [List.getElem?_map]
      cases hc : m.st.criteria[i]? with
      | none =>
        have : m1.st.criteria[i]? = none := by
          rw [List.getElem?_eq_none_iff] at hc ⊢
          omega
        rw [this]
      | some c =>
        obtain ⟨c', b1, b2, _⟩ := a3 i c hc
        rw [b1]
        simp [b2]
    obtain ⟨m2, b1, b2, b3⟩ := ih a1 ho.2 (fun i v hv => hn i v (by simp [hv])) (by rw [hnames]; exact hd)
    refine ⟨m2, b1, b2.trans a2, fun i c hc => ?_⟩
    obtain ⟨c1, c1a, c1b, c1c, c1d⟩ := a3 i c hc
    obtain ⟨c2, c2a, c2b, c2c, c2d⟩ := b3 i c1 c1a
    refine ⟨c2, c2a, c2b.trans c1b, c2c.trans c1c, ?_⟩
    rw [c2d, c1d, c1b, lastSetByName_cons c.name ev evs]

theorem declared_names {ds : List PfwCriterion} {cs : List Criterion} (h : DeclaresAll ds cs) :
    ds.map (·.name) = cs.map (fun c => some c.name) := by
  apply List.ext_getElem?
  intro i
  simp only [List.getElem?_map]
  cases hc : cs[i]? with
  | none =>
    have : ds[i]? = none := by
      rw [List.getElem?_eq_none_iff] at hc ⊢
      have := h.1
      omega
    rw [this]; rfl
  | some c =>
    have hl := (List.getElem?_eq_some_iff.1 hc).1
    obtain ⟨d, hd⟩ : ∃ d, ds[i]? = some d := ⟨_, List.getElem?_eq_getElem (by rw [← h.1]; exact hl)⟩
    rw [hd]
    simp [(h.2 i d c hd hc).name]

/-- C75: after a start that succeeded, whatever calls are made and whatever other clients do, a declared criterion has the value
last set for it by its name, 0 at first, whether the configurations were applied since or not; other names are
refused. -/
theorem C75_get_last_set (h : PfwHandler) {f : PfwFiles} (wf : f.env.env.root.WF) {ds : List PfwCriterion} {h' : PfwHandler}
    (hs : pfwStart h (some f) ds = (.ok (), h')) (evs : List PfwEvent) (hr : PfwHandler.Runs h' evs)
    (hn : NoOtherCriterion evs) (name : Str) :
    (some name ∈ ds.map (·.name) →
      (pfwGetCriterion (PfwHandler.after h' evs) name).1 = .ok ((lastSetByName name evs).getD 0#32) ∧
      ∀ v, (pfwSetCriterion (PfwHandler.after h' evs) name v).1 = .ok ()) ∧
    (some name ∉ ds.map (·.name) →
      (pfwGetCriterion (PfwHandler.after h' evs) name).1 = .err ∧
      ∀ v, (pfwSetCriterion (PfwHandler.after h' evs) name v).1 = .err ∧
        (pfwSetCriterion (PfwHandler.after h' evs) name v).2.pfw = (PfwHandler.after h' evs).pfw) := by
  obtain ⟨_, hw, m, hm, hd, _⟩ := C75_criteria h wf hs
  have hnm := declared_names hd
  have hnd : (m.st.criteria.map Criterion.name).Nodup := by
    have := hw.distinct
    rw [hnm] at this
    rw [List.nodup_iff_pairwise_ne] at this ⊢
    rw [List.pairwise_map] at this ⊢
    exact this.imp fun h hx => h (by rw [hx])
  obtain ⟨m', h1, h2, h3⟩ := started_after hm evs hr hn hnd
  have hnames : m'.st.criteria.map Criterion.name = m.st.criteria.map Criterion.name := by
    apply List.ext_getElem?
    intro i
    simp only [List.getElem?_map]
    cases hc : m.st.criteria[i]? with
    | none =>
      have : m'.st.criteria[i]? = none := by
        rw [List.getElem?_eq_none_iff] at hc ⊢
        omega
      rw [this]
    | some c =>
      obtain ⟨c', b1, b2, _⟩ := h3 i c hc
      rw [b1]
      simp [b2]
  have hmem : some name ∈ ds.map (·.name) ↔ name ∈ m'.st.criteria.map Criterion.name := by
    rw [hnm, hnames]
    simp
  rw [hmem]
  simp only [pfwGetCriterion, pfwSetCriterion, h1, Pfw.findCriterion, Pfw.criteria]
  constructor
  · intro hin
    cases hf : m'.st.criteria.findIdx? (fun c => c.name == name) with
    | none =>
      rw [List.findIdx?_eq_none_iff] at hf
      obtain ⟨c, hc, rfl⟩ := List.mem_map.1 hin
      have := hf c hc
      simp at this
    | some j =>
      obtain ⟨hjl, hj, _⟩ := List.findIdx?_eq_some_iff_getElem.1 hf
      simp only [beq_iff_eq] at hj
      simp only [Option.bind_some, List.getElem?_eq_getElem hjl]
      refine ⟨?_, fun v => rfl⟩
      simp only [PfwHandler.success, Out.ok.injEq]
      have hjl' : j < m.st.criteria.length := by omega
      obtain ⟨c', a1, a2, a3, a4⟩ := h3 j _ (List.getElem?_eq_getElem hjl')
      rw [List.getElem?_eq_getElem hjl, Option.some.injEq] at a1
      rw [a1, a4]
      have hst : (m.st.criteria[j]).state = 0#32 := by
        obtain ⟨d, hd'⟩ : ∃ d, ds[j]? = some d := ⟨_, List.getElem?_eq_getElem (by rw [← hd.1]; exact hjl')⟩
        exact (hd.2 j d _ hd' (List.getElem?_eq_getElem hjl')).state
      rw [hst, ← a2, ← a1, hj]
  · intro hin
    have hf : m'.st.criteria.findIdx? (fun c => c.name == name) = none := by
      rw [List.findIdx?_eq_none_iff]
      intro c hc
      simp only [beq_eq_false_iff_ne]
      rintro rfl
      exact hin (List.mem_map.2 ⟨c, hc, rfl⟩)
    simp only [hf, Option.bind_none]
    exact ⟨rfl, fun v => ⟨rfl, by simp [PfwHandler.failure, h1]⟩⟩

/-! ## C76: the order of the calls -/

/-- C76: before a start the other calls fail and have no effect. -/
theorem C76_before_start (h : PfwHandler) (hp : h.pfw = none) (name path : Str) (v : BitVec 32) :
    pfwSetCriterion h name v = (.err, { h with error := true }) ∧
    pfwGetCriterion h name = (.err, { h with error := true }) ∧
    pfwApplyConfigurations h = (.err, { h with error := true }) ∧
    pfwBindParameter h path = (.err, { h with error := true }) := by
  simp [pfwSetCriterion, pfwGetCriterion, pfwApplyConfigurations, pfwBindParameter, hp, PfwHandler.failure]

/-- C76: there is one start: any other, after one that succeeded or failed, fails and has no effect. -/
theorem C76_one_start (h : PfwHandler) (files : Option PfwFiles) (ds : List PfwCriterion)
    (ho : (pfwStart h files ds).1 ≠ .abort) (files' : Option PfwFiles) (ds' : List PfwCriterion) :
    pfwStart (pfwStart h files ds).2 files' ds' = (.err, { (pfwStart h files ds).2 with error := true }) := by
  have key : (pfwStart h files ds).2.pfw ≠ none := by
    revert ho
    unfold pfwStart
    repeat' split
    all_goals simp_all [PfwHandler.failure, PfwHandler.success]
  obtain ⟨p, hp⟩ := Option.ne_none_iff_exists'.1 key
  generalize (pfwStart h files ds).2 = h2 at hp ⊢
  simp only [pfwStart, hp, PfwHandler.failure]

/-- C76: there is an error exactly if the last call failed. -/
theorem C76_last_error (h : PfwHandler) (ev : PfwEvent) (hc : IsCall ev) (ho : (ev.step h).1 ≠ .abort) :
    (ev.step h).2.error = true ↔ (ev.step h).1 = .err := by
  have hget : ∀ k ty, ((h.get k ty).1 = .abort ∨ ((h.get k ty).2.error = true ↔ (h.get k ty).1 = .err)) := by
    intro k ty
    unfold PfwHandler.get
    split
    · rename_i e m p _ _
      generalize e.env.root.getAs m.st.mem.main p ty = r
      cases r <;> simp [PfwHandler.forward, PfwHandler.success, PfwHandler.failure]
    · exact .inl rfl
  have hset : ∀ k a, ((h.set k a).1 = .abort ∨ ((h.set k a).2.error = true ↔ (h.set k a).1 = .err)) := by
    intro k a
    unfold PfwHandler.set
    split
    · rename_i e m p _ _
      generalize (MOp.handleSet p (.one a)).step e m = r
      obtain ⟨o, m'⟩ := r
      cases o <;> simp [PfwHandler.forward, PfwHandler.success, PfwHandler.failure]
    · exact .inl rfl
  cases ev with
  | other op => exact absurd hc id
  | start files ds =>
    revert ho
    simp only [PfwEvent.step]
    unfold pfwStart
    repeat' split
    all_goals simp_all [PfwHandler.failure, PfwHandler.success]
  | setCriterion name v =>
    simp only [PfwEvent.step, pfwSetCriterion]
    repeat' split
    all_goals simp [PfwHandler.failure, PfwHandler.success]
  | getCriterion name =>
    simp only [PfwEvent.step, pfwGetCriterion]
    repeat' split
    all_goals simp [PfwHandler.failure, PfwHandler.success, Out.done]
  | apply =>
    revert ho
    simp only [PfwEvent.step, pfwApplyConfigurations]
    repeat' split
    all_goals simp [PfwHandler.failure, PfwHandler.success]
  | bind path =>
    revert ho
    simp only [PfwEvent.step, pfwBindParameter]
    repeat' split
    all_goals simp [PfwHandler.failure, PfwHandler.success, Out.done]
  | getInt k =>
    have := hget k .sint
    revert ho
    simp only [PfwEvent.step]
    unfold pfwGetIntParameter
    generalize h.get k .sint = r at this ⊢
    obtain ⟨o, h'⟩ := r
    cases o with
    | ok a => cases a <;> simp_all [Out.done]
    | err => simp_all [Out.done]
    | abort => simp [Out.done]
  | getString k =>
    have := hget k .str
    revert ho
    simp only [PfwEvent.step]
    unfold pfwGetStringParameter
    generalize h.get k .str = r at this ⊢
    obtain ⟨o, h'⟩ := r
    cases o with
    | ok a => cases a <;> simp_all [Out.done]
    | err => simp_all [Out.done]
    | abort => simp [Out.done]
  | setInt k v =>
    rcases hset k (.sint v) with hx | hx
    · exact absurd hx ho
    · exact hx
  | setString k w =>
    rcases hset k (.str (cutText w)) with hx | hx
    · exact absurd hx ho
    · exact hx

/-- What an event does to a started handler: nothing, or one operation of the manager. -/
theorem started_op {h : PfwHandler} {e : MEnv} {m : Mgr} (hp : h.pfw = some (.started e m)) (ev : PfwEvent)
    (hposs : Possible h ev) (ho : (ev.step h).1 ≠ .abort) :
    ((ev.step h).2.pfw = h.pfw ∨
      ∃ op : MOp, op.Regular e.env.root ∧ (op.step e m).1 ≠ .abort ∧ (ev.step h).2.pfw = some (.started e (op.step e m).2)) ∧
    ((ev.step h).2.params = h.params ∨
      ∃ p el, e.env.root.at? p = some el ∧ el.kind.isParameter = true ∧ (ev.step h).2.params = h.params ++ [p]) := by
  have hset : ∀ k a, (h.set k a).1 ≠ .abort →
      ((h.set k a).2.pfw = h.pfw ∨
      ∃ op : MOp, op.Regular e.env.root ∧ (op.step e m).1 ≠ .abort ∧ (h.set k a).2.pfw = some (.started e (op.step e m).2)) ∧
      (h.set k a).2.params = h.params := by
    intro k a
    unfold PfwHandler.set
    cases hk : h.params[k]? with
    | none => simp [hp]
    | some p =>
      simp only [hp]
      intro hno
      have h1 : ((MOp.handleSet p (.one a)).step e m).1 ≠ .abort := by
        intro hx
        rw [hx] at hno
        exact hno rfl
      refine ⟨.inr ⟨.handleSet p (.one a), trivial, h1, ?_⟩, ?_⟩
      · simp only [PfwHandler.forward]; split <;> rfl
      · simp only [PfwHandler.forward]; split <;> rfl
  cases ev with
  | start files ds =>
    simp [PfwEvent.step, pfwStart, hp, PfwHandler.failure]
  | setCriterion name v =>
    simp only [PfwEvent.step, pfwSetCriterion, hp]
    split
    · exact ⟨.inl (by simp [PfwHandler.failure, hp]), .inl rfl⟩
    · rename_i j _
      exact ⟨.inr ⟨.setCriterion j v, trivial, by simp [MOp.step, Mgr.run, DomOp.step, St.setCriterion], rfl⟩, .inl rfl⟩
  | getCriterion name =>
    simp only [PfwEvent.step, pfwGetCriterion, hp]
    split
    · exact ⟨.inl (by simp [PfwHandler.failure, hp]), .inl rfl⟩
    · exact ⟨.inl (by simp [PfwHandler.success, hp]), .inl rfl⟩
  | apply =>
    simp only [PfwEvent.step, pfwApplyConfigurations, hp] at ho ⊢
    rcases hr : MOp.applyConfigurations.step e m with ⟨o, m'⟩
    rw [hr] at ho
    have : (MOp.applyConfigurations.step e m).1 ≠ .abort := by
      rw [hr]; rintro rfl; exact ho rfl
    have h2 : (MOp.applyConfigurations.step e m).2 = m' := by rw [hr]
    cases o with
    | abort => exact absurd rfl ho
    | ok u => exact ⟨.inr ⟨.applyConfigurations, trivial, this, by rw [h2]; rfl⟩, .inl rfl⟩
    | err => exact ⟨.inr ⟨.applyConfigurations, trivial, this, by rw [h2]; rfl⟩, .inl rfl⟩
  | bind path =>
    simp only [PfwEvent.step, pfwBindParameter, hp]
    split
    · exact ⟨.inl (by simp [PfwHandler.failure, hp]), .inl rfl⟩
    · split
      · exact ⟨.inl (by simp [PfwHandler.failure, hp]), .inl rfl⟩
      · rename_i p _ _ el he
        split
        · rename_i hk
          exact ⟨.inl (by simp [PfwHandler.success]), .inr ⟨p, el, he, hk, rfl⟩⟩
        · exact ⟨.inl (by simp [PfwHandler.failure, hp]), .inl rfl⟩
  | getInt k => exact ⟨.inl (getInt_same h k).1, .inl (getInt_same h k).2⟩
  | getString k => exact ⟨.inl (getString_same h k).1, .inl (getString_same h k).2⟩
  | setInt k v => exact ⟨(hset k _ ho).1, .inl (hset k _ ho).2⟩
  | setString k w => exact ⟨(hset k _ ho).1, .inl (hset k _ ho).2⟩
  | other op =>
    simp only [PfwEvent.step, hp] at ho ⊢
    exact ⟨.inr ⟨op, hposs e m hp, ho, rfl⟩, .inl trivial⟩

/-- C76: whatever calls are made and whatever other clients do, the manager behind a started handler is in a state that a
history of operations on the manager leads to: what is proved of all histories holds of the C API.  The
handles are handles of parameters. -/
theorem C76_manager {h : PfwHandler} (hr : PfwReachable h) :
    (∀ e m, h.pfw = some (.started e m) → e.env.root.WF ∧ (∃ cs, MReachable e cs m) ∧
      ∀ p ∈ h.params, ∃ el, e.env.root.at? p = some el ∧ el.kind.isParameter = true) ∧
    ((∀ e m, h.pfw ≠ some (.started e m)) → h.params = []) := by
  induction hr with
  | create => exact ⟨by simp [pfwCreate], by simp [pfwCreate]⟩
  | @step h ev hr hposs ho ih =>
    cases hp : h.pfw with
    | some q =>
      cases q with
      | started e m =>
        obtain ⟨wf, ⟨cs, hm⟩, hpar⟩ := ih.1 e m hp
        obtain ⟨h1, h2⟩ := started_op hp ev hposs ho
        have hpar' : ∀ p ∈ (ev.step h).2.params, ∃ el, e.env.root.at? p = some el ∧ el.kind.isParameter = true := by
          intro p hmem
          rcases h2 with h2 | ⟨q, el, hq, hk, h2⟩
          · rw [h2] at hmem; exact hpar p hmem
          · rw [h2] at hmem
            rcases List.mem_append.1 hmem with hmem | hmem
            · exact hpar p hmem
            · simp only [List.mem_singleton] at hmem; subst hmem; exact ⟨el, hq, hk⟩
        rcases h1 with h1 | ⟨op, hreg, hno, h1⟩
        · rw [h1, hp]
          refine ⟨fun e' m' heq => ?_, fun hx => absurd rfl (hx e m)⟩
          simp only [Option.some.injEq, Pfw.started.injEq] at heq
          obtain ⟨rfl, rfl⟩ := heq
          exact ⟨wf, ⟨cs, hm⟩, hpar'⟩
        · rw [h1]
          refine ⟨fun e' m' heq => ?_, fun hx => absurd rfl (hx e _)⟩
          simp only [Option.some.injEq, Pfw.started.injEq] at heq
          obtain ⟨rfl, rfl⟩ := heq
          exact ⟨wf, ⟨cs, .step hm hreg hno⟩, hpar'⟩
      | failed cs =>
        have hno : h.params = [] := ih.2 (by simp [hp])
        have key : (∃ cs', (ev.step h).2.pfw = some (.failed cs')) ∧ (ev.step h).2.params = [] := by
          cases ev with
          | start files ds => simp [PfwEvent.step, pfwStart, hp, PfwHandler.failure, hno]
          | setCriterion name v =>
            simp only [PfwEvent.step, pfwSetCriterion, hp]
            split <;> simp [PfwHandler.failure, PfwHandler.success, hp, hno, Pfw.setCriterion]
          | getCriterion name =>
            simp only [PfwEvent.step, pfwGetCriterion, hp]
            split <;> simp [PfwHandler.failure, PfwHandler.success, hp, hno]
          | apply => simp [PfwEvent.step, pfwApplyConfigurations, hp] at ho
          | bind path => simp [PfwEvent.step, pfwBindParameter, hp, Out.done] at ho
          | getInt k => simp [Possible, hno] at hposs
          | getString k => simp [Possible, hno] at hposs
          | setInt k v => simp [Possible, hno] at hposs
          | setString k w => simp [Possible, hno] at hposs
          | other op => simp [PfwEvent.step, hp, hno]
        obtain ⟨⟨cs', hk⟩, hk2⟩ := key
        exact ⟨by simp [hk], fun _ => hk2⟩
    | none =>
      have hno : h.params = [] := ih.2 (by simp [hp])
      cases ev with
      | start files ds =>
        have hpar : (pfwStart h files ds).2.params = [] := by
          unfold pfwStart
          repeat' split
          all_goals simp [PfwHandler.failure, PfwHandler.success, hno]
        refine ⟨fun e m heq => ?_, fun _ => hpar⟩
        simp only [PfwEvent.step] at heq ho ⊢
        rw [hpar]
        revert heq ho
        simp only [pfwStart, hp]
        split
        · rename_i cs hcs
          split
          · simp [PfwHandler.failure]
          · rename_i f
            split
            · rename_i m' hm'
              simp only [PfwHandler.success, Option.some.injEq, Pfw.started.injEq]
              rintro _ ⟨rfl, rfl⟩
              have hg : GoodFiles f := hposs
              refine ⟨hg.1, ⟨cs, ?_⟩, by simp⟩
              have := C66_manager hg.1 hg.2 (back := f.back) (failOnError := true) (cs := cs) (by rw [hm'])
              rwa [hm'] at this
            · simp [PfwHandler.failure]
            · simp
        · simp [PfwHandler.failure]
        · simp
      | setCriterion name v => simp [PfwEvent.step, pfwSetCriterion, hp, PfwHandler.failure, hno]
      | getCriterion name => simp [PfwEvent.step, pfwGetCriterion, hp, PfwHandler.failure, hno]
      | apply => simp [PfwEvent.step, pfwApplyConfigurations, hp, PfwHandler.failure, hno]
      | bind path => simp [PfwEvent.step, pfwBindParameter, hp, PfwHandler.failure, hno]
      | getInt k => simp [Possible, hno] at hposs
      | getString k => simp [Possible, hno] at hposs
      | setInt k v => simp [Possible, hno] at hposs
      | setString k w => simp [Possible, hno] at hposs
      | other op => simp [PfwEvent.step, hp, hno]

/-- C76: setting criteria, getting anything and binding change no parameter, domain or setting; they wait for
an application. -/
theorem C76_parameters_kept {h : PfwHandler} {e : MEnv} {m : Mgr} (hp : h.pfw = some (.started e m)) (ev : PfwEvent)
    (hc : ¬ ChangesParameters ev) :
    ∃ m', (ev.step h).2.pfw = some (.started e m') ∧ m'.st.mem = m.st.mem ∧ m'.st.domains = m.st.domains ∧
      ((∀ n v, ev ≠ .setCriterion n v) → m' = m) := by
  cases ev with
  | start files ds => exact absurd trivial hc
  | apply => exact absurd trivial hc
  | setInt k v => exact absurd trivial hc
  | setString k w => exact absurd trivial hc
  | other op => exact absurd trivial hc
  | getInt k => exact ⟨m, (getInt_same h k).1.trans hp, rfl, rfl, fun _ => rfl⟩
  | getString k => exact ⟨m, (getString_same h k).1.trans hp, rfl, rfl, fun _ => rfl⟩
  | setCriterion name v =>
    simp only [PfwEvent.step, pfwSetCriterion, hp]
    split
    · exact ⟨m, by simp [PfwHandler.failure, hp], rfl, rfl, fun _ => rfl⟩
    · rename_i j _
      exact ⟨((MOp.setCriterion j v).step e m).2, rfl, rfl, rfl, fun hx => absurd rfl (hx _ _)⟩
  | getCriterion name =>
    simp only [PfwEvent.step, pfwGetCriterion, hp]
    refine ⟨m, ?_, rfl, rfl, fun _ => rfl⟩
    split <;> simp [PfwHandler.failure, PfwHandler.success, hp]
  | bind path =>
    simp only [PfwEvent.step, pfwBindParameter, hp]
    refine ⟨m, ?_, rfl, rfl, fun _ => rfl⟩
    repeat' split
    all_goals simp [PfwHandler.failure, PfwHandler.success, hp]

/-- C76: an application through the API is an application of the manager, which does not fail (C11 to C13 say what it
does). -/
theorem C76_apply {h : PfwHandler} (hr : PfwReachable h) {e : MEnv} {m : Mgr} (hp : h.pfw = some (.started e m)) :
    (MOp.applyConfigurations.step e m).1 = .ok () ∧ (pfwApplyConfigurations h).1 = .ok () ∧
    (pfwApplyConfigurations h).2.pfw = some (.started e (MOp.applyConfigurations.step e m).2) := by
  obtain ⟨wf, ⟨cs, hm⟩, _⟩ := (C76_manager hr).1 e m hp
  have h1 : (MOp.applyConfigurations.step e m).1 = .ok () := by
    simp only [MOp.step, Mgr.applyConfigurations]
    split
    · obtain ⟨b, log, h1, _⟩ := (hm.reachable.inv wf).apply_eq wf e.env.hw false
      simp [Mgr.run, DomOp.step, h1]
    · rfl
  refine ⟨h1, ?_⟩
  rcases hs : MOp.applyConfigurations.step e m with ⟨o, m'⟩
  rw [hs] at h1
  simp only at h1
  subst h1
  simp only [pfwApplyConfigurations, hp, hs]
  exact ⟨rfl, rfl⟩

theorem PfwHandler.set_started {h : PfwHandler} {e : MEnv} {m : Mgr} (hp : h.pfw = some (.started e m)) {k : Nat} {p : Pos}
    (hk : h.params[k]? = some p) (a : Atom) :
    (h.set k a).1 = ((MOp.handleSet p (.one a)).step e m).1 ∧ (h.set k a).2.params = h.params ∧
    (h.set k a).2.pfw = some (.started e ((MOp.handleSet p (.one a)).step e m).2) := by
  simp only [PfwHandler.set, hp, hk]
  generalize (MOp.handleSet p (.one a)).step e m = r
  obtain ⟨o, m'⟩ := r
  cases o <;> simp [PfwHandler.forward, PfwHandler.success, PfwHandler.failure]

theorem PfwHandler.get_started {h : PfwHandler} {e : MEnv} {m : Mgr} (hp : h.pfw = some (.started e m)) {k : Nat} {p : Pos}
    (hk : h.params[k]? = some p) (ty : ATy) : (h.get k ty).1 = e.env.root.getAs m.st.mem.main p ty := by
  simp only [PfwHandler.get, hp, hk]
  generalize e.env.root.getAs m.st.mem.main p ty = r
  cases r <;> rfl

/-- The integer of an answer. -/
def intAnswer : Out Atom → Out (BitVec 32)
  | .ok (.sint i) => .ok i
  | .err => .err
  | _ => .abort

/-- The C string of an answer. -/
def textAnswer : Out Atom → Out Str
  | .ok (.str w) => .ok (cutText w)
  | .err => .err
  | _ => .abort

theorem getInt_eq {h : PfwHandler} {k : Nat} {o : Out Atom} (ho : (h.get k .sint).1 = o) :
    (pfwGetIntParameter h k).1 = intAnswer o := by
  unfold pfwGetIntParameter
  revert ho
  generalize h.get k .sint = r
  obtain ⟨x, h'⟩ := r
  rintro rfl
  cases x with
  | ok a => cases a <;> rfl
  | err => rfl
  | abort => rfl

theorem getString_eq {h : PfwHandler} {k : Nat} {o : Out Atom} (ho : (h.get k .str).1 = o) :
    (pfwGetStringParameter h k).1 = textAnswer o := by
  unfold pfwGetStringParameter
  revert ho
  generalize h.get k .str = r
  obtain ⟨x, h'⟩ := r
  rintro rfl
  cases x with
  | ok a => cases a <;> rfl
  | err => rfl
  | abort => rfl

/-- A get through a handle on a parameter does not stop, and gives a value of the type asked for. -/
theorem getAs_safe {root : Elem} (wf : root.WF) (na : NoEmptyArray root) {b : Board} (hb : b.length = root.footprint)
    {p : Pos} {el : Elem} (he : root.at? p = some el) (hk : el.kind.isParameter = true) {ty : ATy}
    (hs : ty = .str → ∀ n, el.kind ≠ .string n) :
    root.getAs b p ty ≠ .abort ∧ (ty = .sint → ∀ a, root.getAs b p ty = .ok a → ∃ i, a = .sint i) ∧
      (ty = .str → ∀ a, root.getAs b p ty = .ok a → ∃ w, a = .str w) := by
  obtain ⟨off, ho⟩ := Elem.offset_of_at (off := 0) he
  have area := wf.area_main he ho
  have bitwf := wf.bit_wf he
  simp only [Elem.getAs, he, ho]
  have na := na p el
  cases el with | mk nm k sy cs =>
  simp only [Elem.kind] at hk hs bitwf na ⊢
  by_cases hv : k.getValid false = true
  · simp only [hv, if_true]
    cases k with
    | group g => simp [EKind.isParameter] at hk
    | bitBlock g => simp [EKind.isParameter] at hk
    | array t =>
      have := na t he rfl
      simp [EKind.getValid, EKind.arrayLength, this] at hv
    | string n =>
      cases ty with
      | str => exact absurd rfl (hs rfl n)
      | _ => simp [getParamAtom]
    | scalar t =>
      have room : off + t.size ≤ b.length := by
        rw [hb]
        simpa [Elem.areaSize, Elem.kind, Elem.footprint, EKind.ownSize, stringSize] using area
      obtain ⟨bs, hbs⟩ := Board.read_some room
      simp only [getParamAtom, readScalar, hbs, Out.bind]
      generalize decLE bs = x
      cases t <;> cases ty <;>
        simp [ScalarType.toAtom, ScalarType.toText, Out.bind, EnumType.toText, handleCtx]
    | bit t =>
      have room : off + t.blockSize ≤ b.length := by
        rw [hb]
        simpa [Elem.areaSize, Elem.kind, Elem.footprint, EKind.ownSize, stringSize] using area
      obtain ⟨bs, hbs⟩ := Board.read_some room
      obtain ⟨data, hd⟩ : ∃ data, t.readBlock b off = .ok data := by
        unfold BitType.readBlock
        simp [hbs]
      cases ty <;> simp [getParamAtom, getBitBool, getBitUInt, getBitText, hd, Out.bind]
      by_cases hone : t.bits = 1 <;> simp [hone]
  · simp [hv]

theorem intAnswer_safe {o : Out Atom} (h : o ≠ .abort) (h2 : ∀ a, o = .ok a → ∃ i, a = .sint i) :
    intAnswer o ≠ .abort := by
  cases o with
  | ok a => obtain ⟨i, rfl⟩ := h2 a rfl; exact fun hc => Out.noConfusion rfl (heq_of_eq hc)
  | err => exact fun hc => Out.noConfusion rfl (heq_of_eq hc)
  | abort => exact absurd rfl h

theorem textAnswer_safe {o : Out Atom} (h : o ≠ .abort) (h2 : ∀ a, o = .ok a → ∃ w, a = .str w) :
    textAnswer o ≠ .abort := by
  cases o with
  | ok a => obtain ⟨i, rfl⟩ := h2 a rfl; exact fun hc => Out.noConfusion rfl (heq_of_eq hc)
  | err => exact fun hc => Out.noConfusion rfl (heq_of_eq hc)
  | abort => exact absurd rfl h

theorem done_safe {α : Type} {o : Out α} (h : o ≠ .abort) : o.done ≠ .abort := by
  cases o <;> simp_all [Out.done]

/-- C76: no call stops the program, in any order, provided it is one that `Safe` describes.
Missing: after a start that failed an application or a binding stops (`C76_stops_after_failed_start`), and reading the
text of a string parameter relies on its memory having an end (C39). -/
theorem C76_no_stop_partial {h : PfwHandler} (hr : PfwReachable h)
    (na : ∀ e m, h.pfw = some (.started e m) → NoEmptyArray e.env.root)
    (ev : PfwEvent) (hp : Possible h ev) (hsafe : Safe h ev) : (ev.step h).1 ≠ .abort := by
  have hinv := C76_manager hr
  have hstarted : ∀ k, k < h.params.length → ∃ e m p el, h.pfw = some (.started e m) ∧ h.params[k]? = some p ∧
      e.env.root.at? p = some el ∧ el.kind.isParameter = true := by
    intro k hk
    have : ∃ e m, h.pfw = some (.started e m) := by
      apply Classical.byContradiction
      intro hn
      have := hinv.2 (fun e m hx => hn ⟨e, m, hx⟩)
      rw [this] at hk
      simp at hk
    obtain ⟨e, m, hp⟩ := this
    obtain ⟨_, _, h3⟩ := hinv.1 e m hp
    have hkk := List.getElem?_eq_getElem hk
    obtain ⟨el, h4, h5⟩ := h3 _ (List.mem_of_getElem? hkk)
    exact ⟨e, m, _, el, hp, hkk, h4, h5⟩
  have hset : ∀ k a, k < h.params.length → (h.set k a).1 ≠ .abort := by
    intro k a hk
    obtain ⟨e, m, p, el, h1, h2, h3, h4⟩ := hstarted k hk
    obtain ⟨wf, ⟨cs, hm⟩, _⟩ := hinv.1 e m h1
    simp only [PfwHandler.set, h1, h2]
    have key : ((MOp.handleSet p (.one a)).step e m).1 ≠ .abort := by
      simp only [MOp.step, Mgr.handleSet]
      split
      · simp
      · rename_i hv
        split
        · simp
        · simp only [Bool.not_eq_eq_eq_not, Bool.not_true, Bool.not_eq_false] at hv
          obtain ⟨_, _, h7⟩ := (setValid_iff h3).1 hv
          simp only [Mgr.run, DomOp.step]
          intro ha
          obtain ⟨el', h5, h6⟩ := Env.setMainVal_abort wf (hm.reachable.inv wf).main ha
          rw [h3] at h5
          simp only [Option.some.injEq] at h5
          subst h5
          apply h6
          have na := na e m h1 p el
          cases hk : el.kind <;> rw [hk] at h4 h7 <;> simp_all [HVal.Suits, EKind.isParameter, HVal.inputSize, EKind.arrayLength]
    revert key
    generalize (MOp.handleSet p (.one a)).step e m = r
    obtain ⟨o, m'⟩ := r
    cases o <;> simp [PfwHandler.forward, PfwHandler.success, PfwHandler.failure]
  cases ev with
  | start files ds =>
    simp only [PfwEvent.step, pfwStart]
    split
    · simp [PfwHandler.failure]
    · by_cases hw : WellDeclared ds
      · obtain ⟨cs, hc, _⟩ := (createCriteria_new ds).1 hw
        simp only [hc]
        cases files with
        | none => simp [PfwHandler.failure]
        | some f =>
          have hg : GoodFiles f := hp
          have := C66_no_stop hg.1 true f.settings f.back cs (fun x hx => hsafe f x rfl hx)
          have h2 : (Mgr.start f.env true f.settings f.back cs).1 ≠ .abort := this
          revert h2
          simp only
          generalize Mgr.start f.env true f.settings f.back cs = r
          obtain ⟨o, m'⟩ := r
          cases o <;> simp [PfwHandler.success, PfwHandler.failure]
      · have := (createCriteria_new ds).2 hw
        rcases hc : createCriteria [] ds with ⟨o, cs⟩
        rw [hc] at this
        simp only at this
        subst this
        simp [PfwHandler.failure]
  | setCriterion name v =>
    simp only [PfwEvent.step, pfwSetCriterion]
    repeat' split
    all_goals simp [PfwHandler.failure, PfwHandler.success]
  | getCriterion name =>
    simp only [PfwEvent.step, pfwGetCriterion]
    repeat' split
    all_goals simp [PfwHandler.failure, PfwHandler.success, Out.done]
  | apply =>
    cases hq : h.pfw with
    | none => simp [PfwEvent.step, pfwApplyConfigurations, hq, PfwHandler.failure]
    | some q =>
      cases q with
      | failed cs => exact absurd hq (hsafe cs)
      | started e m =>
        have := (C76_apply hr hq).2.1
        simp [PfwEvent.step, this]
  | bind path =>
    cases hq : h.pfw with
    | none => simp [PfwEvent.step, pfwBindParameter, hq, PfwHandler.failure, Out.done]
    | some q =>
      cases q with
      | failed cs => exact absurd hq (hsafe cs)
      | started e m =>
        simp only [PfwEvent.step, pfwBindParameter, hq]
        repeat' split
        all_goals simp [PfwHandler.failure, PfwHandler.success, Out.done]
  | getInt k =>
    obtain ⟨e, m, p, el, h1, h2, h3, h4⟩ := hstarted k hp
    obtain ⟨wf, ⟨cs, hm⟩, _⟩ := hinv.1 e m h1
    obtain ⟨g1, g2, _⟩ := getAs_safe wf (na e m h1) (hm.reachable.inv wf).main h3 h4 (ty := .sint) (by simp)
    have hq := getInt_eq (PfwHandler.get_started h1 h2 .sint)
    refine done_safe ?_
    rw [hq]
    exact intAnswer_safe g1 (g2 rfl)
  | getString k =>
    obtain ⟨e, m, p, el, h1, h2, h3, h4⟩ := hstarted k hp
    obtain ⟨wf, ⟨cs, hm⟩, _⟩ := hinv.1 e m h1
    obtain ⟨g1, _, g2⟩ := getAs_safe wf (na e m h1) (hm.reachable.inv wf).main h3 h4 (ty := .str)
      (fun _ n => hsafe e m p el n h1 h2 h3)
    have hq := getString_eq (PfwHandler.get_started h1 h2 .str)
    refine done_safe ?_
    rw [hq]
    exact textAnswer_safe g1 (g2 rfl)
  | setInt k v => exact hset k _ hp
  | setString k w => exact hset k _ hp
  | other op => exact absurd hsafe id

/-- C76 does not hold of the code for all orders: after a start that failed the handler counts as started; a second
start is refused, criteria can be set, but an application or a binding stops the program instead of
failing. -/
theorem C76_stops_after_failed_start : ∃ h ds, PfwReachable h ∧ pfwStart pfwCreate none ds = (.err, h) ∧
    (∀ files ds', (pfwStart h files ds').1 = .err) ∧
    (pfwSetCriterion h (s "Mode") 1#32).1 = .ok () ∧
    (pfwApplyConfigurations h).1 = .abort ∧ ∀ path, (pfwBindParameter h path).1 = .abort := by
  refine ⟨(pfwStart pfwCreate none [⟨some (s "Mode"), false, some [s "Off", s "On"]⟩]).2, [⟨some (s "Mode"), false, some [s "Off", s "On"]⟩],
    .step (ev := .start none _) .create trivial (fun h => by cases h), rfl, fun _ _ => rfl, rfl, rfl, fun _ => rfl⟩

/-! ## C77: parameters -/

/-- C77: a binding succeeds exactly for the paths of parameters; the handle is for that parameter, and the handles
given before stay what they are. -/
theorem C77_bind {h : PfwHandler} {e : MEnv} {m : Mgr} (hp : h.pfw = some (.started e m)) (path : Str) :
    (∀ p el, e.env.root.locate path = some p → e.env.root.at? p = some el → el.kind.isParameter = true →
      ∃ k, (pfwBindParameter h path).1 = .ok k ∧ (pfwBindParameter h path).2.params[k]? = some p) ∧
    ((∀ p el, e.env.root.locate path = some p → e.env.root.at? p = some el → el.kind.isParameter = false) →
      (pfwBindParameter h path).1 = .err ∧ (pfwBindParameter h path).2.params = h.params) ∧
    ∀ (k : Nat) p, h.params[k]? = some p → (pfwBindParameter h path).2.params[k]? = some p := by
  refine ⟨fun p el h1 h2 h3 => ?_, fun hn => ?_, fun k p hk => ?_⟩
  · simp [pfwBindParameter, hp, h1, h2, h3, PfwHandler.success]
  · simp only [pfwBindParameter, hp]
    split
    · exact ⟨rfl, rfl⟩
    · rename_i p hl
      split
      · exact ⟨rfl, rfl⟩
      · rename_i el he
        simp [hn p el hl he, PfwHandler.failure]
  · simp only [pfwBindParameter, hp]
    repeat' split
    all_goals first | exact hk | skip
    have := (List.getElem?_eq_some_iff.1 hk).1
    simp only [PfwHandler.success]
    rw [List.getElem?_append_left this]
    exact hk

/-- C77: an integer or enumerated parameter in no domain takes exactly the integers that its declaration
allows; a get then gives the integer.  The set succeeds when the hardware accepts the synchronisation.  A
refused set changes nothing.  (No other client has turned on the tuning mode.)
Missing: integer types with numbers above the largest signed one, see C34. -/
theorem C77_int_partial {h : PfwHandler} (hr : PfwReachable h) {e : MEnv} {m : Mgr} (hp : h.pfw = some (.started e m))
    (ht : m.tuning = false) {k : Nat} {p : Pos} (hk : h.params[k]? = some p) {el : Elem} {t : ScalarType}
    (he : e.env.root.at? p = some el) (hkind : el.kind = .scalar t) (hf : t.Faithful .sint)
    (hn : InNoDomain m.st p) (v : BitVec 32) :
    (t.Takes (.sint v) →
      (pfwGetIntParameter (pfwSetIntParameter h k v).2 k).1 = .ok v ∧
      ∀ x, e.env.root.getSyncer none p = some x →
        (∀ b, e.env.hw m.st.mem.log x b = none) → (pfwSetIntParameter h k v).1 = .ok ()) ∧
    (¬ t.Takes (.sint v) → (pfwSetIntParameter h k v).1 = .err ∧
      (pfwGetIntParameter (pfwSetIntParameter h k v).2 k).1 = (pfwGetIntParameter h k).1) := by
  obtain ⟨wf, ⟨cs, hm⟩, _⟩ := (C76_manager hr).1 e m hp
  obtain ⟨c1, c2⟩ := C55_scalar_partial wf hm ht (a := .sint v) he hkind hn (by simp [Atom.ty]) hf
  obtain ⟨s1, s2, s3⟩ := PfwHandler.set_started hp hk (.sint v)
  have hk' : (h.set k (.sint v)).2.params[k]? = some p := by rw [s2]; exact hk
  have hg := PfwHandler.get_started s3 hk' .sint
  refine ⟨fun hT => ?_, fun hT => ?_⟩
  · obtain ⟨a', a1, a2, a3⟩ := c1 hT
    have ha : a' = .sint v := by
      cases t <;> exact a1
    subst ha
    refine ⟨?_, fun x hx hw => ?_⟩
    · have := getInt_eq (hg.trans a2)
      exact this
    · exact s1.trans (a3 x hx (hw _))
  · obtain ⟨b1, b2⟩ := c2 hT
    refine ⟨s1.trans b1, ?_⟩
    rw [b2] at hg
    rw [getInt_eq (PfwHandler.get_started hp hk .sint)]
    exact getInt_eq hg

/-- C77: a string parameter in no domain takes exactly the C strings of at most its maximum length; a get then gives the
string.  A refused set changes nothing. -/
theorem C77_string {h : PfwHandler} (hr : PfwReachable h) {e : MEnv} {m : Mgr} (hp : h.pfw = some (.started e m))
    (ht : m.tuning = false) {k : Nat} {p : Pos} (hk : h.params[k]? = some p) {el : Elem} {n : Nat}
    (he : e.env.root.at? p = some el) (hkind : el.kind = .string n) (hn : InNoDomain m.st p)
    (bs : List Byte) (hbs : ∀ c ∈ bs, c ≠ 0#8) :
    (bs.length ≤ n →
      (pfwGetStringParameter (pfwSetStringParameter h k (bytesStr bs)).2 k).1 = .ok (bytesStr bs) ∧
      ∀ x, e.env.root.getSyncer none p = some x →
        (∀ b, e.env.hw m.st.mem.log x b = none) → (pfwSetStringParameter h k (bytesStr bs)).1 = .ok ()) ∧
    (n < bs.length → (pfwSetStringParameter h k (bytesStr bs)).1 = .err ∧
      (pfwGetStringParameter (pfwSetStringParameter h k (bytesStr bs)).2 k).1 = (pfwGetStringParameter h k).1) := by
  obtain ⟨wf, ⟨cs, hm⟩, _⟩ := (C76_manager hr).1 e m hp
  have hcut : cutText (bytesStr bs) = bytesStr bs := by
    have : ∀ bs : List Byte, (∀ c ∈ bs, c ≠ 0#8) → cutText (bytesStr bs) = bytesStr bs := by
      intro bs
      induction bs with
      | nil => intro _; rfl
      | cons b bs ih =>
        intro hb
        have h1 : Char.ofNat b.toNat ≠ Char.ofNat 0 := by
          intro hc
          have hb0 := hb b (by simp)
          apply hb0
          have h2 : strBytes (bytesStr [b]) = [b] := strBytes_bytesStr [b]
          simp only [bytesStr, strBytes, List.map_cons, List.map_nil, hc, List.cons.injEq, and_true] at h2
          rw [← h2]; decide
        have := ih (fun c hc => hb c (by simp [hc]))
        simp only [cutText, bytesStr, List.map_cons] at this ⊢
        rw [List.takeWhile_cons_of_pos (by simpa using h1), this]
    exact this bs hbs
  obtain ⟨c1, c2, _⟩ := C55_string wf hm ht (a := .str (bytesStr bs)) he hkind hn
  obtain ⟨s1, s2, s3⟩ := PfwHandler.set_started hp hk (.str (bytesStr bs))
  have hk' : (h.set k (.str (bytesStr bs))).2.params[k]? = some p := by rw [s2]; exact hk
  have hg := PfwHandler.get_started s3 hk' .str
  have hset : pfwSetStringParameter h k (bytesStr bs) = h.set k (.str (bytesStr bs)) := by
    rw [pfwSetStringParameter, hcut]
  rw [hset]
  refine ⟨fun hl => ?_, fun hl => ?_⟩
  · obtain ⟨a1, a2⟩ := c1 bs rfl hl
    have htw : bs.takeWhile (fun c => decide (c ≠ 0#8)) = bs := by
      simpa using (List.takeWhile_append_of_pos (l₂ := []) (p := fun c : Byte => decide (c ≠ 0#8)) (l₁ := bs) (fun c hc => by simpa using hbs c hc))
    rw [htw] at a1
    refine ⟨?_, fun x hx hw => s1.trans (a2 x hx (hw _))⟩
    rw [getString_eq (hg.trans a1)]
    simp only [textAnswer, hcut]
  · obtain ⟨b1, b2⟩ := c2 (.inr ⟨bs, rfl, hl⟩)
    refine ⟨s1.trans b1, ?_⟩
    rw [b2] at hg
    rw [getString_eq (PfwHandler.get_started hp hk .str)]
    exact getString_eq hg

/-- C77: a parameter in a domain cannot be set: the set is refused and nothing changes. -/
theorem C77_in_domain {h : PfwHandler} (hr : PfwReachable h) {e : MEnv} {m : Mgr} (hp : h.pfw = some (.started e m))
    {k : Nat} {p : Pos} (hk : h.params[k]? = some p) (hd : ¬ InNoDomain m.st p) (v : BitVec 32) (w : Str) :
    (pfwSetIntParameter h k v).1 = .err ∧ (pfwSetIntParameter h k v).2.pfw = h.pfw ∧
    (pfwSetStringParameter h k w).1 = .err ∧ (pfwSetStringParameter h k w).2.pfw = h.pfw := by
  obtain ⟨wf, ⟨cs, hm⟩, h3⟩ := (C76_manager hr).1 e m hp
  obtain ⟨el, he, _⟩ := h3 p (List.mem_of_getElem? hk)
  have key : ∀ a, (h.set k a).1 = .err ∧ (h.set k a).2.pfw = h.pfw := by
    intro a
    obtain ⟨s1, _, s3⟩ := PfwHandler.set_started hp hk a
    have := C49_refused_in_domain wf hm p (.one a) he (.inl hd)
    rw [this] at s1 s3
    exact ⟨s1, s3.trans hp.symm⟩
  exact ⟨(key _).1, (key _).2, (key _).1, (key _).2⟩

/-- C77: only other clients turn on the tuning mode. -/
theorem C77_no_tuning_mode (evs : List PfwEvent) (hc : ∀ ev ∈ evs, IsCall ev) {e : MEnv} {m : Mgr}
    (hp : (PfwHandler.after pfwCreate evs).pfw = some (.started e m)) : m.tuning = false := by
  have step : ∀ (h : PfwHandler) (ev : PfwEvent), IsCall ev → (∀ e m, h.pfw = some (.started e m) → m.tuning = false) →
      ∀ e m, (ev.step h).2.pfw = some (.started e m) → m.tuning = false := by
    intro h ev hcall hinv
    have hset : ∀ k a e m, (h.set k a).2.pfw = some (.started e m) → m.tuning = false := by
      intro k a
      cases hq : h.pfw with
      | none => simp [PfwHandler.set, hq]
      | some q =>
        cases q with
        | failed cs => simp [PfwHandler.set, hq]
        | started e m =>
          cases hk : h.params[k]? with
          | none =>
            intro e' m' hx
            simp only [PfwHandler.set, hq, hk] at hx
            exact hinv e' m' (hq.trans hx)
          | some p =>
            intro e' m' hx
            rw [(PfwHandler.set_started hq hk a).2.2] at hx
            simp only [Option.some.injEq, Pfw.started.injEq] at hx
            obtain ⟨-, rfl⟩ := hx
            have h1 := (C48_tuning_mode e m (.handleSet p (.one a))).1
            rw [Classical.byContradiction (fun hne => nomatch (h1 hne).1)]
            exact hinv e m hq
    cases ev with
    | other op => exact absurd hcall id
    | setInt k v => exact hset k _
    | setString k w => exact hset k _
    | getInt k => intro e m hx; exact hinv e m ((getInt_same h k).1.symm.trans hx)
    | getString k => intro e m hx; exact hinv e m ((getString_same h k).1.symm.trans hx)
    | start files ds =>
      intro e m
      simp only [PfwEvent.step, pfwStart]
      split
      · intro hx; exact hinv e m hx
      · rename_i hq
        repeat' split
        all_goals simp [PfwHandler.failure, PfwHandler.success, hq]
        rename_i m' hm'
        rintro _ rfl
        rw [← congrArg (fun r => r.2.tuning) hm']
        rfl
    | setCriterion name v =>
      intro e m
      cases hq : h.pfw with
      | none => simp [PfwEvent.step, pfwSetCriterion, hq, PfwHandler.failure]
      | some q =>
        simp only [PfwEvent.step, pfwSetCriterion, hq]
        split
        · intro hx; exact hinv e m hx
        · cases q with
          | failed cs => simp [PfwHandler.success, Pfw.setCriterion]
          | started e' m' =>
            simp only [PfwHandler.success, Pfw.setCriterion, Option.some.injEq, Pfw.started.injEq]
            rintro ⟨-, rfl⟩
            exact hinv e' m' hq
    | getCriterion name =>
      intro e m
      simp only [PfwEvent.step, pfwGetCriterion]
      repeat' split
      all_goals exact hinv e m
    | apply =>
      intro e m
      cases hq : h.pfw with
      | none => simp [PfwEvent.step, pfwApplyConfigurations, hq, PfwHandler.failure]
      | some q =>
        cases q with
        | failed cs => simp [PfwEvent.step, pfwApplyConfigurations, hq]
        | started e' m' =>
          have h1 := C48_tuning_mode e' m' .applyConfigurations
          simp only [PfwEvent.step, pfwApplyConfigurations, hq]
          split
          · intro hx; exact hinv e m hx
          · rename_i m2 hne hm2
            simp only [PfwHandler.success, Option.some.injEq, Pfw.started.injEq]
            rintro ⟨-, rfl⟩
            rw [hm2] at h1
            rw [Classical.byContradiction (fun hne => nomatch (h1.1 hne).1)]
            exact hinv e' m' hq
    | bind path =>
      intro e m
      simp only [PfwEvent.step, pfwBindParameter]
      repeat' split
      all_goals exact hinv e m
  have : ∀ (evs : List PfwEvent) (h : PfwHandler), (∀ ev ∈ evs, IsCall ev) → (∀ e m, h.pfw = some (.started e m) → m.tuning = false) →
      ∀ e m, (PfwHandler.after h evs).pfw = some (.started e m) → m.tuning = false := by
    intro evs
    induction evs with
    | nil => intro h _ hh; exact hh
    | cons ev evs ih =>
      intro h hc hh
      exact ih (ev.step h).2 (fun x hx => hc x (by simp [hx])) (step h ev (hc ev (by simp)) hh)
  exact this evs pfwCreate hc (by simp [pfwCreate]) e m hp

/-! ## Cases -/

namespace Sample

/-- The criteria of the sample, as a client declares them. -/
def declared : List PfwCriterion :=
  [⟨some (s "Device"), true, some [s "A", s "C", s "B"]⟩, ⟨some (s "Mode"), false, some [s "Idle", s "X", s "Y", s "InCall"]⟩]

/-- The files of the sample. -/
def files : PfwFiles := ⟨menv, .doc (someDomains [someDomain (s "D") someSettings]), .simulated⟩

theorem goodFiles : GoodFiles files := ⟨wf, settingsRegular⟩

example : WellDeclared declared := ⟨by decide, by decide, by
  intro d hd
  simp only [declared, List.mem_cons, List.not_mem_nil, or_false] at hd
  rcases hd with rfl | rfl
  · exact ⟨_, rfl, by unfold GoodValues; decide⟩
  · exact ⟨_, rfl, by unfold GoodValues; decide⟩⟩

/-- Declarations that are refused: a name twice, a value twice, the value `none`, too many values. -/
example : (pfwStart pfwCreate (some files) (declared ++ [⟨some (s "Mode"), false, some []⟩])).1 = .err ∧
    (pfwStart pfwCreate (some files) [⟨some (s "Mode"), false, some [s "a", s "a"]⟩]).1 = .err ∧
    (pfwStart pfwCreate (some files) [⟨some (s "Mode"), true, some [s "none"]⟩]).1 = .err ∧
    (pfwStart pfwCreate (some files) [⟨some (s "Mode"), true, some ((List.range 32).map (fun i => List.replicate i 'x'))⟩]).1 = .err ∧
    (pfwStart pfwCreate (some files) [⟨none, true, some []⟩]).1 = .err ∧
    (pfwStart pfwCreate (some files) [⟨some (s "Mode"), true, none⟩]).1 = .err := by decide +kernel

/-- A start, then the two criteria are set so that a configuration is selected, and applied: the volume is the one of the
configuration; then another parameter is bound and set. -/
def calls : List PfwEvent :=
  [.setCriterion (s "Device") 5#32, .setCriterion (s "Mode") 3#32, .apply, .bind (s "/Sys/sub/comp/vol"), .getInt 0,
   .bind (s "/Sys/sub/comp/label"), .setString 1 (s "ab")]

/-- The handler after the start. -/
def startedHandler : PfwHandler := (pfwStart pfwCreate (some files) declared).2

example : (pfwStart pfwCreate (some files) declared).1 = .ok () := by decide +kernel

/-- The outcomes of events. -/
def outcomes (h : PfwHandler) : List PfwEvent → List (Out Unit)
  | [] => []
  | ev :: evs => (ev.step h).1 :: outcomes (ev.step h).2 evs

example : outcomes startedHandler calls = List.replicate 7 (.ok ()) := by decide +kernel

theorem runs_of_outcomes {h : PfwHandler} {evs : List PfwEvent} (ho : .abort ∉ outcomes h evs) : PfwHandler.Runs h evs := by
  induction evs generalizing h with
  | nil => trivial
  | cons ev evs ih =>
    simp only [outcomes, List.mem_cons, not_or] at ho
    exact ⟨fun hx => ho.1 hx.symm, ih ho.2⟩

/-- The criteria are as set, and the volume is the one of the configuration (-2). -/
example : (pfwGetCriterion (PfwHandler.after startedHandler calls) (s "Mode")).1 = .ok 3#32 ∧
    (pfwGetIntParameter (PfwHandler.after startedHandler calls) 0).1 = .ok (0xFFFFFFFE#32) ∧
    (pfwGetStringParameter (PfwHandler.after startedHandler calls) 1).1 = .ok (s "ab") := by decide +kernel

example : PfwHandler.Runs startedHandler calls ∧ NoOtherCriterion calls := by
  refine ⟨runs_of_outcomes (by decide +kernel), ?_⟩
  intro i v h
  simp [calls] at h

theorem pfwStart_reachable {f : PfwFiles} {ds : List PfwCriterion} (hg : GoodFiles f)
    (ho : (pfwStart pfwCreate (some f) ds).1 ≠ .abort) : PfwReachable (pfwStart pfwCreate (some f) ds).2 :=
  .step (ev := .start (some f) ds) .create hg ho

/-- The handler after the start is reachable. -/
theorem reachableHandler : PfwReachable startedHandler := pfwStart_reachable goodFiles (by decide +kernel)

/-- The volume is in a domain: it cannot be set. -/
example : (pfwSetIntParameter (PfwHandler.after startedHandler calls) 0 5#32).1 = .err := by decide +kernel

/-- An undeclared number is accepted as the state of a criterion. -/
example : (pfwSetCriterion startedHandler (s "Mode") 17#32).1 = .ok () ∧
    (pfwGetCriterion (pfwSetCriterion startedHandler (s "Mode") 17#32).2 (s "Mode")).1 = .ok 17#32 := by decide +kernel

/-- Without settings no parameter is in a domain, and the volume takes what is in its range, [-100, 100]. -/
example : let h := (pfwBindParameter (pfwStart pfwCreate (some { files with settings := .absent }) declared).2 (s "/Sys/sub/comp/vol")).2
    (pfwSetIntParameter h 0 100#32).1 = .ok () ∧
    (pfwGetIntParameter (pfwSetIntParameter h 0 100#32).2 0).1 = .ok 100#32 ∧
    (pfwSetIntParameter h 0 101#32).1 = .err ∧
    (pfwGetIntParameter (pfwSetIntParameter h 0 101#32).2 0).1 = .ok (0xFFFFFF9C#32) := by decide +kernel

/-- Paths that are not those of parameters cannot be bound. -/
example : (pfwBindParameter startedHandler (s "/Sys/sub")).1 = .err ∧ (pfwBindParameter startedHandler (s "/Sys/none")).1 = .err := by
  decide +kernel

theorem noEmptyArray : NoEmptyArray root := by
  intro p el t he hk
  have key : ∀ p ∈ positions, ((root.at? p).map fun el => match el.kind with | .array t => decide (t.length ≠ 0) | _ => true).getD true = true := by
    decide +kernel
  have := key p (mem_positions he)
  simpa [he, hk] using this

end Sample

end PF
