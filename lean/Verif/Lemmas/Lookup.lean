import Verif.Lemmas.Names

/-! # Finding a domain or a configuration again after it is changed; operations that do not stop -/

namespace PF
open Spec

theorem find_set {α : Type} {f : α → Nat} {key : α → Str} {name : Str} {l : List α} {a a' : α}
    (nd : (l.map f).Nodup) (hf : f a' = f a) (hk : key a' = key a) (h : l.find? (fun x => key x == name) = some a) :
    (l.map fun x => if f x = f a' then a' else x).find? (fun x => key x == name) = some a' := by
  have ha := List.mem_of_find?_eq_some h
  have hka : key a = name := by simpa using List.find?_some h
  induction l with
  | nil => simp at h
  | cons x xs ih =>
    rw [List.map_cons, List.find?_cons]
    by_cases hx : x = a
    · subst hx
      rw [if_pos hf.symm]
      simp [hk, hka]
    · have hne : f x ≠ f a' := by
        intro he
        exact hx (nodup_map_inj nd (by simp) ha (he.trans hf))
      rw [if_neg hne]
      rw [List.find?_cons] at h
      cases hkx : key x == name with
      | true =>
        rw [hkx] at h
        simp only [Option.some.injEq] at h
        exact absurd h hx
      | false =>
        rw [hkx] at h
        simp only at h ⊢
        rw [List.map_cons, List.nodup_cons] at nd
        rcases List.mem_cons.1 ha with h1 | h1
        · exact absurd h1.symm hx
        · exact ih nd.2 h h1

theorem find_set_ne {α : Type} {f : α → Nat} {key : α → Str} {name : Str} {l : List α} {a a' : α} (ha : a ∈ l)
    (nd : (l.map f).Nodup) (hf : f a' = f a) (hk : key a' = key a) (hka : key a ≠ name) :
    (l.map fun x => if f x = f a' then a' else x).find? (fun x => key x == name) = l.find? (fun x => key x == name) := by
  have : ∀ x ∈ l, (if f x = f a' then a' else x) = x ∨ (key x ≠ name ∧ key (if f x = f a' then a' else x) ≠ name) := by
    intro x hx
    split
    · rename_i he
      have := nodup_map_inj nd hx ha (he.trans hf)
      subst this
      exact .inr ⟨hka, by rw [hk]; exact hka⟩
    · exact .inl rfl
  clear nd ha
  induction l with
  | nil => rfl
  | cons x xs ih =>
    rw [List.map_cons, List.find?_cons, List.find?_cons, ih (fun y hy => this y (by simp [hy]))]
    rcases this x (by simp) with h | ⟨h1, h2⟩
    · rw [h]
    · have e1 : (key x == name) = false := by simp [h1]
      have e2 : (key (if f x = f a' then a' else x) == name) = false := by simp [h2]
      rw [e1, e2]

theorem St.Inv.findDomain_set {root : Elem} {st : St} (h : st.Inv root) {name : Str} {d d' : Domain}
    (hd : st.findDomain name = some d) (h1 : d'.id = d.id) (h2 : d'.name = d.name) :
    (st.setDomain d').findDomain name = some d' :=
  find_set (f := Domain.id) (key := Domain.pathName) h.ids h1 (by simp [Domain.pathName, h2]) hd

theorem Domain.findConfig_set {d : Domain} (h : (d.configs.map Config.id).Nodup) {name : Str} {c c' : Config}
    (hc : d.findConfig name = some c) (h1 : c'.id = c.id) (h2 : c'.name = c.name) :
    (d.setConfig c').findConfig name = some c' :=
  find_set (f := Config.id) (key := Config.pathName) h h1 (by simp [Config.pathName, h2]) hc

theorem St.Inv.setDomain_self {root : Elem} {st : St} (h : st.Inv root) {d : Domain} (hd : d ∈ st.domains) :
    st.setDomain d = st := by
  have : (st.domains.map fun x => if x.id = d.id then d else x) = st.domains := by
    conv => rhs; rw [← List.map_id st.domains]
    apply List.map_congr_left
    intro x hx
    split
    · rename_i he; exact (nodup_map_inj h.ids hx hd he).symm
    · rfl
  simp only [St.setDomain, this]

theorem Domain.setConfig_self {d : Domain} (h : (d.configs.map Config.id).Nodup) {c : Config} (hc : c ∈ d.configs) :
    d.setConfig c = d := by
  have : (d.configs.map fun x => if x.id = c.id then c else x) = d.configs := by
    conv => rhs; rw [← List.map_id d.configs]
    apply List.map_congr_left
    intro x hx
    split
    · rename_i he; exact (nodup_map_inj h hx hc he).symm
    · rfl
  simp only [Domain.setConfig, this]

/-! ## Domain operations do not stop -/

theorem Domain.createConfig_ok {root : Elem} (wf : root.WF) {st : St} (h : st.Inv root) {d : Domain} (hd : d ∈ st.domains)
    (name : Str) : d.createConfig root st.mem.main st.nextId name ≠ .abort := by
  cases hf : d.findConfig name with
  | some c => simp [Domain.createConfig, hf]
  | none =>
    obtain ⟨c, h1, _⟩ := Domain.createConfig_spec wf (h.good d hd) h.main (id := st.nextId) (by
      intro hm
      obtain ⟨c, hc, he⟩ := List.mem_map.1 hm
      have := (h.fresh d hd).2 c hc
      omega) hf
    rw [h1]; simp

theorem St.onDomain_ok {st : St} (name : Str) (f : Domain → Out (Domain × Attached)) (hf : ∀ d ∈ st.domains, f d ≠ .abort) :
    (st.onDomain name f).1 ≠ .abort := by
  unfold St.onDomain
  split
  · simp
  · rename_i d hd
    have := hf d (St.findDomain_mem hd).1
    split
    · simp
    · simp
    · rename_i hx; exact absurd hx this

theorem St.onConfig_ok {st : St} (dom name : Str) (f : Config → Out Unit × Config)
    (hf : ∀ d ∈ st.domains, ∀ c ∈ d.configs, (f c).1 ≠ .abort) : (st.onConfig dom name f).1 ≠ .abort := by
  unfold St.onConfig
  split
  · simp
  · rename_i d hd
    split
    · simp
    · rename_i c hc
      exact hf d (St.findDomain_mem hd).1 c (Domain.findConfig_mem hc).1

theorem bind_ok {α β : Type} {o : Out α} {f : α → β} (h : o ≠ .abort) : (o.bind fun x => .ok (f x)) ≠ .abort := by
  cases o with
  | ok => simp [Out.bind]
  | err => simp [Out.bind]
  | abort => exact absurd rfl h

theorem Env.syncParam_ok (env : Env) (autoSync : Bool) (p : Pos) (m : Mem) : (env.syncParam autoSync p m).1 ≠ .abort := by
  unfold Env.syncParam
  split
  · simp
  · split
    · simp
    · dsimp only
      split <;> simp

theorem Env.setMain_abort {env : Env} {ctx : Ctx} {autoSync : Bool} {path text : Str} {m : Mem}
    (h : (env.setMain ctx autoSync path text m).1 = .abort) :
    (Elem.setText env.rd ctx env.root 0 m.main path text).1 = .abort := by
  unfold Env.setMain at h
  split at h
  · exact absurd h (Env.syncParam_ok _ _ _ _)
  · rename_i o b x h1 h2
    rw [h1]; exact h

/-- A text set in a memory as large as that of the element `q` does not stop. -/
theorem setText_fits {root : Elem} (wf : root.WF) (rd : Reader) (ctx : Ctx) {q : Pos} {eq : Elem}
    (hq : root.at? q = some eq) {base : Nat} (hb : root.offset 0 q = some base) (b : Board) (hl : b.length = eq.areaSize)
    (path text : Str) (hloc : ∀ p items, root.accessTarget path = some (p, items) → q <+: p) :
    (Elem.setText rd ctx root base b path text).1 ≠ .abort := by
  unfold Elem.setText
  split
  · simp
  · rename_i p items ht
    obtain ⟨f, hf, _⟩ := Elem.accessTarget_at ht
    obtain ⟨o, ho⟩ := Elem.offset_of_at (off := 0) hf
    simp only [hf, ho]
    have := wf.area_inside (hloc p items ht) hq hf hb ho
    exact setParamText_fits rd ctx items text this.1 (by omega)

theorem Elem.WF.areaSize_self {e : Elem} (wf : e.WF) : e.areaSize = e.footprint := by cases wf <;> rfl

theorem setText_main_fits {root : Elem} (wf : root.WF) (rd : Reader) (ctx : Ctx) {b : Board}
    (hl : b.length = root.footprint) (path text : Str) : (Elem.setText rd ctx root 0 b path text).1 ≠ .abort :=
  setText_fits (q := []) (eq := root) wf rd ctx (by cases root; rfl) (by simp [Elem.offset]) b
    (by rw [hl, wf.areaSize_self]) path text (fun _ _ _ => by simp)

theorem Env.setMainVal_abort {env : Env} (wf : env.root.WF) {p : Pos} {v : HVal} {m : Mem}
    (hm : m.main.length = env.root.footprint) (h : (env.setMainVal p v m).1 = .abort) :
    ∃ e, env.root.at? p = some e ∧ ¬ v.Suits e.kind := by
  cases he : env.root.at? p with
  | none => rw [Env.setMainVal_none env he] at h; simp at h
  | some e =>
    refine ⟨e, rfl, fun hs => ?_⟩
    obtain ⟨off, ho⟩ := Elem.offset_of_at (off := 0) he
    have := setParamVal_fits env.rd v hs (b := m.main) (off := off) (by rw [hm]; exact wf.area_main he ho)
    unfold Env.setMainVal at h
    rw [he, ho] at h
    dsimp only at h
    split at h
    · exact absurd h (Env.syncParam_ok _ _ _ _)
    · rename_i h1; rw [h1] at this; exact this h

theorem errorsOut_abort {o : Out (List Str)} (h : errorsOut o = .abort) : o = .abort := by
  unfold errorsOut at h
  split at h <;> simp at h ⊢

theorem Elem.setBytes_ok {root : Elem} (wf : root.WF) {b : Board} (hb : b.length = root.footprint) {p : Pos} {e : Elem}
    (he : root.at? p = some e) (bs : List Byte) : root.setBytes b p bs ≠ .abort := by
  obtain ⟨o, ho⟩ := Elem.offset_of_at (off := 0) he
  by_cases hl : bs.length = e.footprint
  · obtain ⟨b', h1, _⟩ := C32_set_then_get root wf b hb he ho bs hl
    rw [h1]; simp
  · rw [C32_wrong_size_refused root b he bs hl]; simp

end PF
