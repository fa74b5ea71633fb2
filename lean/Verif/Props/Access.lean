import Verif.Lemmas.Access
import Verif.Props.DomainSettings
import Verif.Props.Manager

/-! # Text access to parameters in the value space and the output format of the manager (C61) -/

namespace PF
open Spec

theorem Elem.areaSize_scalar {e : Elem} {t : ScalarType} (h : e.kind = .scalar t) : e.areaSize = t.size := by
  obtain ⟨n, k, sy, xs⟩ := e
  simp only [Elem.kind] at h
  subst h
  simp [Elem.areaSize, Elem.kind, Elem.footprint, EKind.ownSize]

theorem Elem.setText_scalar {root : Elem} (wf : root.WF) {path : Str} {t : ScalarType} {o : Nat}
    (hp : ScalarAt root path t o) (rd : Reader) (ctx : Ctx) {b : Board} (hb : b.length = root.footprint) (text : Str) :
    (t.fromText rd ctx text = none → root.setText rd ctx 0 b path text = (.err, b)) ∧
    ∀ v, t.fromText rd ctx text = some v → ∃ b', root.setText rd ctx 0 b path text = (.ok (), b') ∧
      b'.read o t.size = some (encLE t.size v.toNat) ∧ SameOutside b b' o t.size := by
  obtain ⟨p, el, h1, h2, h3, h4⟩ := hp
  have hroom : o + t.size ≤ b.length := by
    have := wf.area_main h2 h4
    rw [Elem.areaSize_scalar h3] at this
    omega
  have hs : root.setText rd ctx 0 b path text = (setScalarText rd t ctx b o text).withBoard b := by
    simp only [Elem.setText, h1, h2, h4, h3, setParamText, ne_eq, not_true_eq_false, if_false, Nat.not_lt_zero, Nat.sub_zero]
  rw [hs]
  constructor
  · intro h
    simp [setScalarText, h, Out.withBoard]
  · intro v h
    obtain ⟨b', hb'⟩ := writeScalar_ok (size := t.size) v hroom
    refine ⟨b', by simp [setScalarText, h, hb', Out.withBoard], ?_, writeScalar_frame hb'⟩
    unfold writeScalar at hb'
    split at hb'
    · rename_i b'' hw
      simp only [Out.ok.injEq] at hb'; subst hb'
      have := Board.read_write_same hw
      rwa [encLE_length] at this
    · cases hb'

theorem Elem.getText_scalar {root : Elem} {path : Str} {t : ScalarType} {o : Nat}
    (hp : ScalarAt root path t o) (hs : Sound t) (raw hex : Bool) {b : Board} {bs : List Byte}
    (hb : b.read o t.size = some bs)
    (hx : ∀ u, t = .enum u → u.size = 4 → ¬ (raw = true ∧ hex = true)) :
    ∃ out, root.getText ⟨raw, hex⟩ 0 b path = .ok out ∧ Shown raw hex bs out t := by
  obtain ⟨p, el, h1, h2, h3, h4⟩ := hp
  obtain ⟨out, g1, g2⟩ := ScalarType.toText_shown hs raw hex (Board.read_length hb).1 hx
  refine ⟨out, ?_, g2⟩
  simp only [Elem.getText, h1, h2, h4, h3, getParamText, ne_eq, not_true_eq_false, if_false, Nat.not_lt_zero, Nat.sub_zero,
    getScalarText, readScalar, hb, Out.bind]
  exact g1

/-- **C61** (modes): reading and writing of texts start in real value space and decimal output format;
`setValueSpace` and `setOutputRawFormat` always succeed and change just that; nothing else changes
either. -/
theorem C61_modes (root : Elem) (cs : List Criterion) (e : MEnv) (m : Mgr) :
    ((Mgr.initial root cs).raw = false ∧ (Mgr.initial root cs).hex = false) ∧
    (∀ r, (MOp.setValueSpace r).step e m = (.ok (), { m with raw := r })) ∧
    (∀ x, (MOp.setOutputRawFormat x).step e m = (.ok (), { m with hex := x })) ∧
    ∀ op : MOp, (∀ r, op ≠ .setValueSpace r) → (∀ x, op ≠ .setOutputRawFormat x) →
      (op.step e m).2.raw = m.raw ∧ (op.step e m).2.hex = m.hex := by
  refine ⟨⟨rfl, rfl⟩, fun _ => rfl, fun _ => rfl, fun op h1 h2 => ?_⟩
  have tuned : ∀ o, (m.tuned e o).2.raw = m.raw ∧ (m.tuned e o).2.hex = m.hex := by
    intro o; unfold Mgr.tuned; split <;> exact ⟨rfl, rfl⟩
  have hsync : (m.sync e).2.raw = m.raw ∧ (m.sync e).2.hex = m.hex := by unfold Mgr.sync; split <;> exact ⟨rfl, rfl⟩
  cases op with
  | setTuningMode on =>
    simp only [MOp.step, Mgr.setTuningMode]
    repeat' split
    all_goals first
      | exact ⟨rfl, rfl⟩
      | (rename_i h; simp only [Mgr.run, Prod.mk.injEq] at h; obtain ⟨_, rfl⟩ := h; exact ⟨rfl, rfl⟩)
  | setValueSpace r => exact absurd rfl (h1 r)
  | setOutputRawFormat x => exact absurd rfl (h2 x)
  | setAutoSync on =>
    simp only [MOp.step, Mgr.setAutoSync]
    split
    · split
      · rename_i m' h; rw [h] at hsync; exact hsync
      · exact hsync
    · exact ⟨rfl, rfl⟩
  | sync => exact hsync
  | applyConfigurations => simp only [MOp.step, Mgr.applyConfigurations]; split <;> exact ⟨rfl, rfl⟩
  | setElementBytes path args =>
    simp only [MOp.step, Mgr.setElementBytes]
    repeat' split
    all_goals exact ⟨rfl, rfl⟩
  | handleSet p v =>
    simp only [MOp.step, Mgr.handleSet]
    repeat' split
    all_goals exact ⟨rfl, rfl⟩
  | _ => first | exact ⟨rfl, rfl⟩ | exact tuned _

/-- **C61** (reading): `getParameter` of a scalar parameter shows the bytes of the parameter in the
value space and the output format in force.  (Raw hexadecimal reads of 32-bit enumerations are
undefined, see C35.) -/
theorem C61_get {e : MEnv} (wf : e.env.root.WF) {cs : List Criterion} {m : Mgr} (h : MReachable e cs m)
    {path : Str} {t : ScalarType} {o : Nat} (hp : ScalarAt e.env.root path t o) (hs : Sound t)
    (hx : ∀ u, t = .enum u → u.size = 4 → ¬ (m.raw = true ∧ m.hex = true)) :
    ∃ bs out, m.st.mem.main.read o t.size = some bs ∧ m.getParameter e path = .ok out ∧ Shown m.raw m.hex bs out t := by
  have hm := (h.reachable.inv wf).main
  obtain ⟨p, el, h1, h2, h3, h4⟩ := hp
  have hroom := wf.area_main h2 h4
  rw [Elem.areaSize_scalar h3] at hroom
  obtain ⟨bs, hbs⟩ := Board.read_some (b := m.st.mem.main) (off := o) (size := t.size) (by omega)
  obtain ⟨out, g1, g2⟩ := Elem.getText_scalar ⟨p, el, h1, h2, h3, h4⟩ hs m.raw m.hex hbs hx
  exact ⟨bs, out, hbs, g1, g2⟩

/-- **C61** (writing): in tuning mode, `setParameter` of a scalar parameter refuses the texts that stand
for nothing in the value space in force, and changes nothing then; of any other text it gives the
parameter bytes that the text stands for, and changes nothing else in memory.  It succeeds if
automatic synchronisation is off. -/
theorem C61_set {e : MEnv} (wf : e.env.root.WF) {cs : List Criterion} {m : Mgr} (h : MReachable e cs m)
    (ht : m.tuning = true) {path : Str} {t : ScalarType} {o : Nat} (hp : ScalarAt e.env.root path t o) (hs : Sound t)
    (text : Str) :
    ((¬ ∃ bs, Stands e.env.rd m.raw text bs t) → (MOp.setParameter path text).step e m = (.err, m)) ∧
    ((∃ bs, Stands e.env.rd m.raw text bs t) → ∃ (bs : List Byte) (mem : Mem) (r : Out Unit),
      (MOp.setParameter path text).step e m = (r, { m with st := { m.st with mem := mem } }) ∧
      Stands e.env.rd m.raw text bs t ∧ mem.main.read o t.size = some bs ∧
      SameOutside m.st.mem.main mem.main o t.size ∧ (m.autoSync = false → r = .ok ())) := by
  have hm := (h.reachable.inv wf).main
  obtain ⟨k1, k2⟩ := Elem.setText_scalar wf hp e.env.rd ⟨m.raw, m.hex⟩ hm text
  have hstep : (MOp.setParameter path text).step e m =
      ((e.env.setMain ⟨m.raw, m.hex⟩ m.autoSync path text m.st.mem).1,
        { m with st := { m.st with mem := (e.env.setMain ⟨m.raw, m.hex⟩ m.autoSync path text m.st.mem).2 } }) := by
    simp only [MOp.step, Mgr.tuned, ht, Bool.not_true, Bool.false_eq_true, if_false, Mgr.run, DomOp.step, Mgr.ctx]
  constructor
  · intro hno
    have hn : t.fromText e.env.rd ⟨m.raw, m.hex⟩ text = none := by
      cases hf : t.fromText e.env.rd ⟨m.raw, m.hex⟩ text with
      | none => rfl
      | some v => exact absurd ⟨_, ScalarType.fromText_stands hs hf⟩ hno
    rw [hstep]
    simp only [Env.setMain, k1 hn]
  · rintro ⟨bs0, hbs0⟩
    obtain ⟨v, hv⟩ := ScalarType.fromText_of_stands (ctx := ⟨m.raw, m.hex⟩) hs hbs0
    obtain ⟨b', g1, g2, g3⟩ := k2 v hv
    obtain ⟨p, el, h1, h2, h3, h4⟩ := hp
    have hmain : (e.env.setMain ⟨m.raw, m.hex⟩ m.autoSync path text m.st.mem) =
        e.env.syncParam m.autoSync p ⟨b', m.st.mem.log⟩ := by
      simp only [Env.setMain, g1, h1]
    have hb : (e.env.syncParam m.autoSync p ⟨b', m.st.mem.log⟩).2.main = b' := by
      unfold Env.syncParam
      split
      · rfl
      · split <;> rfl
    refine ⟨encLE t.size v.toNat, (e.env.setMain ⟨m.raw, m.hex⟩ m.autoSync path text m.st.mem).2, _, hstep,
      ScalarType.fromText_stands hs hv, ?_, ?_, ?_⟩
    · rw [hmain, hb]; exact g2
    · rw [hmain, hb]; exact g3
    · intro ha
      rw [hmain]
      simp [Env.syncParam, ha]

/-- **C61** (configurations): when `setConfigurationParameter` of a scalar parameter succeeds, the text
stands for some bytes in the value space in force, and `getConfigurationParameter` shows these bytes,
in whatever value space and output format it is asked then. -/
theorem C61_configuration {e : MEnv} (wf : e.env.root.WF) (fd : e.env.root.FieldsDisjoint) {cs : List Criterion}
    {m : Mgr} (h : MReachable e cs m) {path : Str} {t : ScalarType} {o : Nat} (hp : ScalarAt e.env.root path t o)
    (hs : Sound t) (dom conf text : Str) {m' : Mgr}
    (hok : (MOp.setConfigurationParameter dom conf path text).step e m = (.ok (), m')) :
    ∃ bs, Stands e.env.rd m.raw text bs t ∧ ∀ raw hex,
      (∀ u, t = .enum u → u.size = 4 → ¬ (raw = true ∧ hex = true)) →
      ∃ out, { m' with raw := raw, hex := hex }.getConfigurationParameter e dom conf path = .ok out ∧
        Shown raw hex bs out t := by
  have inv := h.reachable.inv wf
  have hm := inv.main
  have hstep : (MOp.setConfigurationParameter dom conf path text).step e m =
      ((m.st.setConfigParam e.env ⟨m.raw, m.hex⟩ m.autoSync dom conf path text).1,
        { m with st := (m.st.setConfigParam e.env ⟨m.raw, m.hex⟩ m.autoSync dom conf path text).2 }) := rfl
  rw [hstep] at hok
  simp only [Prod.mk.injEq] at hok
  obtain ⟨hok1, hok2⟩ := hok
  have hex : ∃ p d c q, e.env.root.locate path = some p ∧ m.st.findDomain dom = some d ∧ d.findConfig conf = some c ∧
      q ∈ d.elems ∧ q <+: p := by
    refine Classical.byContradiction (fun hno => ?_)
    rw [C28_refused wf h.reachable _ _ _ _ _ _ hno] at hok1
    cases hok1
  obtain ⟨p, d, c, q, h1, h2, h3, h4, h5⟩ := hex
  obtain ⟨b, hb, hbl, _⟩ := St.Inv.restored wf fd inv e.env.hw m.autoSync hm h2 h3
  obtain ⟨_, _, n1, _, n3, _⟩ := C28_edits_configuration wf fd h.reachable ⟨m.raw, m.hex⟩ m.autoSync text h1 h2 h4 h5
    e.env.hw m.autoSync m.st.mem hm b hb
  obtain ⟨k1, k2⟩ := Elem.setText_scalar wf hp e.env.rd ⟨m.raw, m.hex⟩ hbl text
  have hset : (e.env.root.setText e.env.rd ⟨m.raw, m.hex⟩ 0 b path text).1 = .ok () := by
    by_cases hl : IsLast m.st dom conf
    · refine Classical.byContradiction (fun hne => ?_)
      rw [(n3 hl hne).1] at hok1
      exact hne hok1
    · rw [← (n1 hl).1]; exact hok1
  cases hf : t.fromText e.env.rd ⟨m.raw, m.hex⟩ text with
  | none => rw [k1 hf] at hset; cases hset
  | some v =>
    obtain ⟨b1, g1, g2, _⟩ := k2 v hf
    obtain ⟨b2, r1, r2, _⟩ := (Elem.setText_scalar wf hp e.env.rd ⟨m.raw, m.hex⟩ hm text).2 v hf
    refine ⟨_, ScalarType.fromText_stands hs hf, fun raw hex hx => ?_⟩
    obtain ⟨c1, c2⟩ := C28_get_after_set wf fd h.reachable ⟨m.raw, m.hex⟩ m.autoSync text hok1 ⟨raw, hex⟩
      e.env.hw m.autoSync m.st.mem hm b hb
    rw [g1] at c1 c2
    rw [r1] at c2
    obtain ⟨out, o1, o2⟩ := Elem.getText_scalar hp hs raw hex g2 hx
    obtain ⟨out', o3, o4⟩ := Elem.getText_scalar hp hs raw hex r2 hx
    subst hok2
    by_cases hl : IsLast m.st dom conf
    · refine ⟨out', ?_, o4⟩
      have := c2 hl
      rw [o1] at this
      simp only [Out.bind] at this
      rw [o3] at this
      exact this
    · exact ⟨out, (c1 hl).trans o1, o2⟩

/-! ### A sample with a fixed-point parameter and an enumeration -/

/-- `gain` is a Q2.1 number on 8 bits, `mode` an enumeration on 8 bits. -/
def SampleText.root : Elem := .mk (s "Sys") (.group (s "SystemClass")) none
  [.mk (s "sub") (.group (s "Subsystem")) none
    [.mk (s "gain") (.scalar (.fixed ⟨1, 2, 1⟩)) (some 1) [],
     .mk (s "mode") (.scalar (.enum ⟨1, [(s "Off", 0#32), (s "Low", BitVec.ofInt 32 (-2))]⟩)) (some 1) []]]

/-- The environment: `1.5` is the one decimal that is read, and the hardware takes everything. -/
def SampleText.menv : MEnv :=
  ⟨{ root := SampleText.root, rd := ⟨fun t => if t = s "1.5" then some ⟨3, 1⟩ else none, fun _ => none⟩, hw := fun _ _ _ => none }, true, fun _ => 0⟩

/-- In tuning mode. -/
def SampleText.tuned : Mgr := ((MOp.setTuningMode true).step SampleText.menv (Mgr.initial SampleText.root [])).2

theorem SampleText.tuned_reachable : MReachable SampleText.menv [] SampleText.tuned :=
  MReachable.start.step trivial (by decide +kernel)

theorem SampleText.gainAt : ScalarAt SampleText.root (s "/Sys/sub/gain") (.fixed ⟨1, 2, 1⟩) 0 :=
  ⟨[0, 0], _, by decide +kernel, rfl, rfl, by decide +kernel⟩

theorem SampleText.modeAt :
    ScalarAt SampleText.root (s "/Sys/sub/mode") (.enum ⟨1, [(s "Off", 0#32), (s "Low", BitVec.ofInt 32 (-2))]⟩) 1 :=
  ⟨[0, 1], _, by decide +kernel, rfl, rfl, by decide +kernel⟩

theorem SampleText.wf : SampleText.root.WF := by
  refine .group ?_ ?_
  · intro c hc
    simp only [List.mem_cons, List.not_mem_nil, or_false] at hc
    subst hc
    refine .group ?_ ?_
    · intro c hc
      simp only [List.mem_cons, List.not_mem_nil, or_false] at hc
      rcases hc with rfl | rfl
      · exact .scalar (.inl rfl)
      · exact .scalar (.inl rfl)
    · intro c hc t
      simp only [List.mem_cons, List.not_mem_nil, or_false] at hc
      rcases hc with rfl | rfl <;> simp [Elem.kind]
  · intro c hc t
    simp only [List.mem_cons, List.not_mem_nil, or_false] at hc
    subst hc; simp [Elem.kind]

/-- The sample meets the hypotheses of `C61_get` and `C61_set`; the text `1.5` is set in real space,
read as `1.5` there, as `48` in raw decimal space and as `0x30` in raw hexadecimal; `1.5` is refused
in raw space, where `0x50` is taken, which is 2.5 in real space. -/
example :
    Sound (.fixed ⟨1, 2, 1⟩) ∧ SampleText.tuned.tuning = true ∧
    (let set := (MOp.setParameter (s "/Sys/sub/gain") (s "1.5")).step SampleText.menv SampleText.tuned
     let raw := (MOp.setValueSpace true).step SampleText.menv set.2
     let hex := (MOp.setOutputRawFormat true).step SampleText.menv raw.2
     let other := (MOp.setParameter (s "/Sys/sub/gain") (s "0x50")).step SampleText.menv hex.2
     let back := (MOp.setValueSpace false).step SampleText.menv other.2
     set.1 = .ok () ∧ set.2.getParameter SampleText.menv (s "/Sys/sub/gain") = .ok (s "1.5") ∧
     raw.2.getParameter SampleText.menv (s "/Sys/sub/gain") = .ok (s "48") ∧
     hex.2.getParameter SampleText.menv (s "/Sys/sub/gain") = .ok (s "0x30") ∧
     ((MOp.setParameter (s "/Sys/sub/gain") (s "1.5")).step SampleText.menv hex.2).1 = .err ∧ other.1 = .ok () ∧
     back.2.getParameter SampleText.menv (s "/Sys/sub/gain") = .ok (s "2.5")) := by
  refine ⟨⟨.inl rfl, by decide⟩, by decide +kernel, ?_⟩
  decide +kernel

/-- The same of the enumeration: `Low` is `254` in raw decimal space. -/
example :
    let set := (MOp.setParameter (s "/Sys/sub/mode") (s "Low")).step SampleText.menv SampleText.tuned
    let raw := (MOp.setValueSpace true).step SampleText.menv set.2
    set.1 = .ok () ∧ set.2.getParameter SampleText.menv (s "/Sys/sub/mode") = .ok (s "Low") ∧
    raw.2.getParameter SampleText.menv (s "/Sys/sub/mode") = .ok (s "254") := by
  decide +kernel

/-- `C61_configuration` on the sample: domain `D` with configuration `C` that holds `gain`. -/
example :
    let m1 := ((MOp.createDomain (s "D")).step SampleText.menv SampleText.tuned).2
    let m2 := ((MOp.addElement (s "D") (s "/Sys/sub/gain")).step SampleText.menv m1).2
    let m3 := ((MOp.createConfiguration (s "D") (s "C")).step SampleText.menv m2).2
    let set := (MOp.setConfigurationParameter (s "D") (s "C") (s "/Sys/sub/gain") (s "1.5")).step SampleText.menv m3
    set.1 = .ok () ∧
    set.2.getConfigurationParameter SampleText.menv (s "D") (s "C") (s "/Sys/sub/gain") = .ok (s "1.5") ∧
    { set.2 with raw := true }.getConfigurationParameter SampleText.menv (s "D") (s "C") (s "/Sys/sub/gain") =
      .ok (s "48") := by
  decide +kernel

end PF
