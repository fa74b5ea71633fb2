import Verif.Lemmas.Settings

/-! # Access to a parameter through a configuration -/

namespace PF
open Spec

/-- The area of a configuration with another board. -/
def Config.putBoard (c : Config) (q : Pos) (a : Area) (b : Board) : Config :=
  { c with areas := setArea q { a with board := b } c.areas }

/-- Setting a text in the area of a configuration and in a board that has the same settings. -/
theorem setText_area {root : Elem} (wf : root.WF) (rd : Reader) (ctx : Ctx) {p q : Pos} {f : Elem} {base : Nat}
    {path : Str} (text : Str) (hp : root.locate path = some p) (hqp : q <+: p) (hq : root.at? q = some f)
    (hb : root.offset 0 q = some base) {a : Area} (ha : a.elem = q) (hl : a.board.length = f.areaSize)
    {b : Board} (hbl : b.length = root.footprint) (hv : ∀ i, root.Owns q i → b.bit i = a.value root i) :
    (Elem.setText rd ctx root base a.board path text).1 = (Elem.setText rd ctx root 0 b path text).1 ∧
    (Elem.setText rd ctx root 0 b path text).2.length = b.length ∧
    (∀ i, ¬ root.Owns p i → (Elem.setText rd ctx root 0 b path text).2.bit i = b.bit i) ∧
    (∀ i, root.Owns q i → (Elem.setText rd ctx root 0 b path text).2.bit i =
      Area.value root { a with board := (Elem.setText rd ctx root base a.board path text).2 } i) := by
  unfold Elem.setText
  cases ht : root.accessTarget path with
  | none => exact ⟨rfl, rfl, fun _ _ => rfl, fun i hi => hv i hi⟩
  | some r =>
    obtain ⟨p', items⟩ := r
    obtain ⟨rfl, rfl⟩ := wf.access_locate hp ht
    obtain ⟨e, he, _⟩ := Elem.accessTarget_at ht
    obtain ⟨o, ho⟩ := Elem.offset_of_at (off := 0) he
    simp only [he, ho]
    have hvp : ∀ i, root.Owns p' i → b.bit i = a.value root i := fun i hi => hv i (Owns.up wf hqp hi)
    obtain ⟨hle, hal⟩ := area_alike wf hqp he ho hq hb ha hl hbl hvp
    have hbw := fun t hk => (wf.bit_wf he t hk).1
    obtain ⟨h1, h2⟩ := setParamText_alike (rd := rd) (ctx := ctx) hbw hle (Nat.zero_le o) hal text
    have fr := setParamText_frame (rd := rd) (ctx := ctx) (e := e) (b := b) (off := o) (base := 0) (items := [])
      (text := text) hbw (Nat.zero_le _)
    have fa := setParamText_frame (rd := rd) (ctx := ctx) (e := e) (b := a.board) (off := o) (base := base) (items := [])
      (text := text) hbw hle
    have hx := wf.extent_area he o
    have hout : ∀ i, ¬ root.Owns p' i → (setParamText rd ctx e.kind b o 0 [] text).2.bit i = b.bit i := by
      intro i hi
      rw [Elem.owns_iff he ho] at hi
      exact fr.2 i (by rw [Nat.sub_zero]; omega)
    refine ⟨h1, fr.1, hout, ?_⟩
    intro i hi
    have hoa : root.offset 0 ({ a with board := (setParamText rd ctx e.kind a.board o base [] text).2 } : Area).elem = some base := by
      rw [← hb, ← ha]
    rw [Area.value_of hoa]
    by_cases hpi : root.Owns p' i
    · have hpi' := hpi
      rw [Elem.owns_iff he ho] at hpi
      have := h2.bits (i - 8 * o) (by omega) (by omega)
      rw [show i = 8 * (o - 0) + (i - 8 * o) by omega, ← this]
      congr 1
      omega
    · rw [hout i hpi, hv i hi, Area.value_of (o := base) (by rw [ha]; exact hb)]
      rw [Elem.owns_iff he ho] at hpi
      rw [Elem.owns_iff hq hb] at hi
      have hxq := wf.extent_area hq base
      have hxe := wf.extent_area he (o - base)
      refine (fa.2 _ ?_).symm
      omega

/-- Getting a text from the area of a configuration and from a board that has the same settings. -/
theorem getText_area {root : Elem} (wf : root.WF) (ctx : Ctx) {p q : Pos} {f : Elem} {base : Nat}
    {path : Str} (hp : root.locate path = some p) (hqp : q <+: p) (hq : root.at? q = some f)
    (hb : root.offset 0 q = some base) {a : Area} (ha : a.elem = q) (hl : a.board.length = f.areaSize)
    {b : Board} (hbl : b.length = root.footprint) (hv : ∀ i, root.Owns q i → b.bit i = a.value root i)
    (term : ∀ e o m, root.at? p = some e → root.offset 0 p = some o → e.kind = .string m →
      StringTerminated a.board (o - base) m) :
    Elem.getText ctx root base a.board path = Elem.getText ctx root 0 b path := by
  unfold Elem.getText
  cases ht : root.accessTarget path with
  | none => rfl
  | some r =>
    obtain ⟨p', items⟩ := r
    obtain ⟨rfl, rfl⟩ := wf.access_locate hp ht
    obtain ⟨e, he, _⟩ := Elem.accessTarget_at ht
    obtain ⟨o, ho⟩ := Elem.offset_of_at (off := 0) he
    simp only [he, ho]
    have hvp : ∀ i, root.Owns p' i → b.bit i = a.value root i := fun i hi => hv i (Owns.up wf hqp hi)
    obtain ⟨hle, hal⟩ := area_alike wf hqp he ho hq hb ha hl hbl hvp
    exact getParamText_alike (fun t hk => (wf.bit_wf he t hk).1) hle (Nat.zero_le o) hal (fun m hk => term e o m he ho hk)

/-- What `setConfigParam` does when the element is one of the domain and the configuration exists. -/
theorem St.Inv.setConfigParam_eq {env : Env} {st : St} (inv : st.Inv env.root) (ctx : Ctx) (autoSync : Bool)
    {dom conf path : Str} (text : Str) {p q : Pos} {d : Domain} {c : Config} (hp : env.root.locate path = some p)
    (hd : st.findDomain dom = some d) (hq : q ∈ d.elems) (hqp : q <+: p) (hc : d.findConfig conf = some c) :
    ∃ q' f base a, q' ∈ d.elems ∧ q' <+: p ∧ env.root.at? q' = some f ∧ env.root.offset 0 q' = some base ∧
      c.area? q' = some a ∧ a.elem = q' ∧ a.board.length = f.areaSize ∧
      st.findBlackboard env.root dom conf path = some (d, c, q', decide (d.last = some c.id)) ∧
      ∃ r, r = Elem.setText env.rd ctx env.root base a.board path text ∧
      (st.setConfigParam env ctx autoSync dom conf path text) =
        if r.1 = .ok () then
          if d.last = some c.id then
            ((env.setMain ctx autoSync path text st.mem).1,
              { st.setDomain (d.setConfig (c.putBoard q' a r.2)) with mem := (env.setMain ctx autoSync path text st.mem).2 })
          else (.ok (), st.setDomain (d.setConfig (c.putBoard q' a r.2)))
        else (r.1, st.setDomain (d.setConfig (c.putBoard q' a r.2))) := by
  have hdm := (St.findDomain_mem hd).1
  have hcm := (Domain.findConfig_mem hc).1
  have hfound : ∃ q', d.elems.find? (fun x => decide (x <+: p)) = some q' := by
    cases hx : d.elems.find? (fun x => decide (x <+: p)) with
    | some q' => exact ⟨q', rfl⟩
    | none => exact absurd (List.find?_eq_none.1 hx q hq) (by simpa using hqp)
  obtain ⟨q', hq'⟩ := hfound
  have hq'm := List.mem_of_find?_eq_some hq'
  have hq'p : q' <+: p := by simpa using List.find?_some hq'
  have ok := (inv.good d hdm).ok c hcm
  obtain ⟨a, ha, hs⟩ := ok.area hq'm
  obtain ⟨ham, hae⟩ := ok.area_iff.1 ha
  obtain ⟨f, hf, hl⟩ := ok.sized a ham
  rw [hae] at hf
  obtain ⟨base, hb⟩ := Elem.offset_of_at (off := 0) hf
  have hfb : st.findBlackboard env.root dom conf path = some (d, c, q', decide (d.last = some c.id)) := by
    unfold St.findBlackboard
    have hbel := (inv.belongs hdm p).2 ⟨q, hq, hqp⟩
    simp only [hp, hd, hbel, Domain.findBlackboard, hc, hq']
    rfl
  refine ⟨q', f, base, a, hq'm, hq'p, hf, hb, ha, hae, hl, hfb, _, rfl, ?_⟩
  unfold St.setConfigParam
  simp only [hfb, ha, hb, decide_eq_true_eq, Config.putBoard]
  cases (Elem.setText env.rd ctx env.root base a.board path text).1 with
  | ok u => cases u; simp
  | err => simp
  | abort => simp

theorem setMain_frame {env : Env} (wf : env.root.WF) (ctx : Ctx) (autoSync : Bool) {path : Str} (text : Str) {p : Pos}
    (hp : env.root.locate path = some p) (m : Mem) (i : Nat) (hi : ¬ env.root.Owns p i) :
    (env.setMain ctx autoSync path text m).2.main.bit i = m.main.bit i := by
  rw [Env.setMain_board]
  unfold Elem.setText
  cases ht : env.root.accessTarget path with
  | none => rfl
  | some r =>
    obtain ⟨p', items⟩ := r
    obtain ⟨rfl, rfl⟩ := wf.access_locate hp ht
    obtain ⟨e, he, _⟩ := Elem.accessTarget_at ht
    obtain ⟨o, ho⟩ := Elem.offset_of_at (off := 0) he
    simp only [he, ho]
    rw [Elem.owns_iff he ho] at hi
    exact (setParamText_frame (fun t hk => (wf.bit_wf he t hk).1) (Nat.zero_le _)).2 i (by rw [Nat.sub_zero]; omega)

/-- Looking up another configuration after one is changed. -/
theorem Domain.findConfig_set_ne {d : Domain} (hids : (d.configs.map Config.id).Nodup) {name name' : Str} {c c' : Config}
    (hc : d.findConfig name = some c) (h1 : c'.id = c.id) (h2 : c'.name = c.name) (hne : name' ≠ name) :
    (d.setConfig c').findConfig name' = d.findConfig name' :=
  find_set_ne (f := Config.id) (key := Config.pathName) (Domain.findConfig_mem hc).1 hids h1
    (by simp [Config.pathName, h2]) (by rw [(Domain.findConfig_mem hc).2]; exact fun e => hne e.symm)

end PF
