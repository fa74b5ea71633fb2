import Verif.Lemmas.HandleTyped
import Verif.Lemmas.XmlSettings
import Verif.Props.Bits
import Verif.Props.Manager

/-!
# C55: typed access through a handle

A typed set through a handle on a parameter that is in no domain takes exactly the values that the
parameter's declaration allows; a typed get then gives the value.
-/

namespace PF
open Spec

/-- What the steps below have in common: the result of the set, from the result of the access. -/
theorem handleSet_result {e : MEnv} (wf : e.env.root.WF) {cs : List Criterion} {m : Mgr}
    (h : MReachable e cs m) (ht : m.tuning = false) {p : Pos} {v : HVal} {el : Elem} {off : Nat}
    (he : e.env.root.at? p = some el) (ho : e.env.root.offset 0 p = some off) (hn : InNoDomain m.st p)
    (hf : RightForm el.kind v) :
    (∀ b', setParamVal e.env.rd el.kind m.st.mem.main off v = (.ok (), b') →
      ((MOp.handleSet p v).step e m).2.st.mem.main = b' ∧
      ∀ x, e.env.root.getSyncer none p = some x → e.env.hw m.st.mem.log x b' = none →
        ((MOp.handleSet p v).step e m).1 = .ok ()) ∧
    ((setParamVal e.env.rd el.kind m.st.mem.main off v).1 = .err →
      ((MOp.handleSet p v).step e m).1 = .err ∧
      ((MOp.handleSet p v).step e m).2.st.mem.main = (setParamVal e.env.rd el.kind m.st.mem.main off v).2) := by
  obtain ⟨-, h2, h3, h4⟩ := C49_done_outside_tuning_mode wf h ht he ho hn hf
  refine ⟨fun b' hb => ?_, fun hb => ⟨(h3 hb).1, h2⟩⟩
  rw [hb] at h2 h4
  refine ⟨h2, fun x hx hw => ?_⟩
  exact ((h4 rfl x hx).2).2 (by rw [h2]; exact hw)

/-- The sample manager as it starts: no domain, no tuning mode. -/
def Sample.start : Mgr := .initial Sample.menv.env.root Sample.criteria

theorem Sample.start_reachable : MReachable Sample.menv Sample.criteria Sample.start := .start

/-- **C55** (scalar parameters).  For a Boolean, integer, enumerated or fixed-point parameter in no
domain, without tuning mode: a value that the declaration allows is taken, and a get of the same type
gives it (a nearest representable value for fixed point); the set succeeds when the hardware accepts
the synchronisation.  Any other value is refused and the memory does not change.
Missing: integer ranges accessed with numbers of the other sign, see C34. -/
theorem C55_scalar_partial {e : MEnv} (wf : e.env.root.WF) {cs : List Criterion} {m : Mgr}
    (h : MReachable e cs m) (ht : m.tuning = false) {p : Pos} {a : Atom} {el : Elem} {t : ScalarType}
    (he : e.env.root.at? p = some el) (hk : el.kind = .scalar t) (hn : InNoDomain m.st p)
    (hs : a.ty ≠ .str) (hf : t.Faithful a.ty) :
    (t.Takes a → ∃ a', t.Shows a a' ∧
      e.env.root.getAs ((MOp.handleSet p (.one a)).step e m).2.st.mem.main p a.ty = .ok a' ∧
      ∀ x, e.env.root.getSyncer none p = some x →
        e.env.hw m.st.mem.log x ((MOp.handleSet p (.one a)).step e m).2.st.mem.main = none →
        ((MOp.handleSet p (.one a)).step e m).1 = .ok ()) ∧
    (¬ t.Takes a → ((MOp.handleSet p (.one a)).step e m).1 = .err ∧
      ((MOp.handleSet p (.one a)).step e m).2.st.mem.main = m.st.mem.main) := by
  obtain ⟨off, ho⟩ := Elem.offset_of_at (off := 0) he
  have hr := handleSet_result (v := .one a) wf h ht he ho hn (by rw [hk]; simp [RightForm])
  have room : off + t.size ≤ m.st.mem.main.length := by
    rw [(h.reachable.inv wf).main]
    have := wf.area_main he ho
    clear hr
    cases el with | mk nm k sy cs =>
    simp only [Elem.kind] at hk
    subst hk
    simpa [Elem.areaSize, Elem.kind, Elem.footprint, EKind.ownSize, stringSize] using this
  obtain ⟨h1, h2⟩ := t.ofAtom_spec e.env.rd a hs hf
  refine ⟨fun hT => ?_, fun hT => ?_⟩
  · obtain ⟨v, a', e1, e2, e3⟩ := h1 hT
    obtain ⟨b', hb⟩ := writeScalar_ok (size := t.size) (b := m.st.mem.main) (off := off) v room
    have hset : setParamVal e.env.rd el.kind m.st.mem.main off (.one a) = (.ok (), b') := by
      simp only [setParamVal, hk, setParamAtom, e1, hb, Out.withBoard]
    obtain ⟨g1, g2⟩ := hr.1 b' hset
    refine ⟨a', e3, ?_, fun x hx hw => g2 x hx (by rw [← g1]; exact hw)⟩
    rw [g1]
    simp only [Elem.getAs, he, ho, hk, EKind.getValid, EKind.isParameter, EKind.arrayLength]
    simp only [getParamAtom, readScalar_written hb, Out.bind, e2]
    rfl
  · have hset : setParamVal e.env.rd el.kind m.st.mem.main off (.one a) = (.err, m.st.mem.main) := by
      simp only [setParamVal, hk, setParamAtom, h2 hT]
    have := hr.2 (by rw [hset])
    rw [hset] at this
    exact this

/-- On the sample: `vol` is a signed integer between -100 and 100. -/
example : Sample.start.tuning = false ∧ InNoDomain Sample.start.st [0, 0, 0] ∧
    (Sample.menv.env.root.at? [0, 0, 0]).map (·.kind) = some (.scalar Sample.int16) ∧
    Sample.int16.Faithful .sint ∧ Sample.int16.Takes (.sint 100#32) ∧ ¬ Sample.int16.Takes (.sint 101#32) ∧
    Sample.menv.env.root.getAs ((MOp.handleSet [0, 0, 0] (.one (.sint (BitVec.ofInt 32 (-5))))).step Sample.menv
      Sample.start).2.st.mem.main [0, 0, 0] .sint = .ok (.sint (BitVec.ofInt 32 (-5))) := by
  refine ⟨rfl, fun d hd => absurd hd (by simp [Sample.start, Mgr.initial, St.initial]), by decide +kernel,
    ⟨⟨by decide, by decide, by decide, by decide⟩, by decide⟩, ⟨by decide, by decide⟩, fun h => ?_, by decide +kernel⟩
  exact absurd h.2 (by decide)

/-- **C55** (access of another type).  A scalar parameter refuses sets and gets of a type that its
declaration does not have; nothing changes. -/
theorem C55_scalar_other_type {e : MEnv} (wf : e.env.root.WF) {cs : List Criterion} {m : Mgr}
    (h : MReachable e cs m) (ht : m.tuning = false) {p : Pos} {a : Atom} {el : Elem} {t : ScalarType}
    (he : e.env.root.at? p = some el) (hk : el.kind = .scalar t) (hn : InNoDomain m.st p)
    (hs : a.ty ≠ .str) (hf : ¬ t.Has a.ty) :
    ((MOp.handleSet p (.one a)).step e m).1 = .err ∧
    ((MOp.handleSet p (.one a)).step e m).2.st.mem.main = m.st.mem.main ∧
    e.env.root.getAs m.st.mem.main p a.ty = .err := by
  obtain ⟨off, ho⟩ := Elem.offset_of_at (off := 0) he
  have hr := handleSet_result (v := .one a) wf h ht he ho hn (by rw [hk]; simp [RightForm])
  have room : off + t.size ≤ m.st.mem.main.length := by
    rw [(h.reachable.inv wf).main]
    have := wf.area_main he ho
    clear hr
    cases el with | mk nm k sy cs =>
    simp only [Elem.kind] at hk
    subst hk
    simpa [Elem.areaSize, Elem.kind, Elem.footprint, EKind.ownSize, stringSize] using this
  have hset : setParamVal e.env.rd el.kind m.st.mem.main off (.one a) = (.err, m.st.mem.main) := by
    simp only [setParamVal, hk, setParamAtom, t.ofAtom_none e.env.rd a hs hf]
  have := hr.2 (by rw [hset])
  rw [hset] at this
  refine ⟨this.1, this.2, ?_⟩
  obtain ⟨bs, hbs⟩ := Board.read_some room
  simp only [Elem.getAs, he, ho, hk, EKind.getValid, EKind.isParameter, EKind.arrayLength]
  simp only [getParamAtom, readScalar, hbs, Out.bind, t.toAtom_err _ _ hs hf]
  rfl

example : ¬ Sample.int16.Has .dbl ∧ ¬ Sample.int16.Has .bool := ⟨id, id⟩

/-- **C55** (bit parameters).  A bit parameter takes exactly the numbers up to its maximum, and
Booleans if it has one bit; a get then gives the value. -/
theorem C55_bit {e : MEnv} (wf : e.env.root.WF) {cs : List Criterion} {m : Mgr}
    (h : MReachable e cs m) (ht : m.tuning = false) {p : Pos} {a : Atom} {el : Elem} {t : BitType}
    (he : e.env.root.at? p = some el) (hk : el.kind = .bit t) (hn : InNoDomain m.st p) (hs : a.ty ≠ .str) :
    (t.Takes a →
      e.env.root.getAs ((MOp.handleSet p (.one a)).step e m).2.st.mem.main p a.ty = .ok a ∧
      ∀ x, e.env.root.getSyncer none p = some x →
        e.env.hw m.st.mem.log x ((MOp.handleSet p (.one a)).step e m).2.st.mem.main = none →
        ((MOp.handleSet p (.one a)).step e m).1 = .ok ()) ∧
    (¬ t.Takes a → ((MOp.handleSet p (.one a)).step e m).1 = .err ∧
      ((MOp.handleSet p (.one a)).step e m).2.st.mem.main = m.st.mem.main) ∧
    (¬ t.Has a.ty → e.env.root.getAs m.st.mem.main p a.ty = .err) := by
  obtain ⟨off, ho⟩ := Elem.offset_of_at (off := 0) he
  have hr := handleSet_result (v := .one a) wf h ht he ho hn (by rw [hk]; simp [RightForm])
  have tw := (wf.bit_wf he t hk).1
  have room : off + t.blockSize ≤ m.st.mem.main.length := by
    rw [(h.reachable.inv wf).main]
    have := wf.area_main he ho
    clear hr
    cases el with | mk nm k sy cs =>
    simp only [Elem.kind] at hk
    subst hk
    simpa [Elem.areaSize, Elem.kind, Elem.footprint, EKind.ownSize, stringSize] using this
  have good : ∀ b', setParamVal e.env.rd el.kind m.st.mem.main off (.one a) = (.ok (), b') →
      getParamAtom el.kind b' off a.ty = .ok a →
      e.env.root.getAs ((MOp.handleSet p (.one a)).step e m).2.st.mem.main p a.ty = .ok a ∧
      ∀ x, e.env.root.getSyncer none p = some x →
        e.env.hw m.st.mem.log x ((MOp.handleSet p (.one a)).step e m).2.st.mem.main = none →
        ((MOp.handleSet p (.one a)).step e m).1 = .ok () := by
    intro b' hset hget
    obtain ⟨g1, g2⟩ := hr.1 b' hset
    refine ⟨?_, fun x hx hw => g2 x hx (by rw [← g1]; exact hw)⟩
    rw [g1]
    simp only [Elem.getAs, he, ho]
    rw [if_pos (by simp [EKind.getValid, hk, EKind.isParameter, EKind.arrayLength]), hget]
  have bad : setParamVal e.env.rd el.kind m.st.mem.main off (.one a) = (.err, m.st.mem.main) →
      ((MOp.handleSet p (.one a)).step e m).1 = .err ∧
      ((MOp.handleSet p (.one a)).step e m).2.st.mem.main = m.st.mem.main := by
    intro hset
    have := hr.2 (by rw [hset])
    rw [hset] at this
    exact this
  have noget : getParamAtom el.kind m.st.mem.main off a.ty = .err → e.env.root.getAs m.st.mem.main p a.ty = .err := by
    intro hg
    simp only [Elem.getAs, he, ho]
    rw [if_pos (by simp [EKind.getValid, hk, EKind.isParameter, EKind.arrayLength]), hg]
  cases a with
  | bool v =>
    obtain ⟨h1, h2, h3⟩ := C37_boolean_access t tw m.st.mem.main off room v
    refine ⟨fun hT => ?_, fun hT => ?_, fun hH => ?_⟩
    · obtain ⟨b', e1, -, e2⟩ := h2 hT.1 hT.2
      exact good b' (by simp only [setParamVal, hk, setParamAtom, e1, Out.withBoard])
        (by simp only [hk, Atom.ty, getParamAtom, e2, Out.bind])
    · apply bad
      by_cases hb : t.bits = 1
      · simp only [setParamVal, hk, setParamAtom, h3 hb (fun hc => hT ⟨hb, hc⟩), Out.withBoard]
      · simp only [setParamVal, hk, setParamAtom, (h1 hb).1, Out.withBoard]
    · exact noget (by simp only [hk, Atom.ty, getParamAtom, (h1 hH).2, Out.bind])
  | uint u =>
    have h1 := C37_integer_access t tw m.st.mem.main off room u
    refine ⟨fun hT => ?_, fun hT => ?_, fun hH => absurd trivial hH⟩
    · simp only [BitType.Takes] at hT
      rw [if_pos hT] at h1
      obtain ⟨b', bs, bs', e1, _, _, _, _, _, e2⟩ := h1
      exact good b' (by simp only [setParamVal, hk, setParamAtom, e1, Out.withBoard])
        (by simp only [hk, Atom.ty, getParamAtom, e2, Out.bind])
    · simp only [BitType.Takes] at hT
      rw [if_neg hT] at h1
      exact bad (by simp only [setParamVal, hk, setParamAtom, h1, Out.withBoard])
  | str w => exact absurd rfl hs
  | sint i => exact ⟨fun hT => hT.elim, fun _ => bad (by simp only [setParamVal, hk, setParamAtom]),
      fun _ => noget (by simp only [hk, Atom.ty, getParamAtom])⟩
  | dbl d => exact ⟨fun hT => hT.elim, fun _ => bad (by simp only [setParamVal, hk, setParamAtom]),
      fun _ => noget (by simp only [hk, Atom.ty, getParamAtom])⟩
  | special d => exact ⟨fun hT => hT.elim, fun _ => bad (by simp only [setParamVal, hk, setParamAtom]),
      fun _ => noget (by simp only [hk, Atom.ty, getParamAtom])⟩

/-- On the sample: `a` has three bits, so no Boolean access, and takes 7. -/
example : Sample.fieldA.Takes (.uint 7#32) ∧ ¬ Sample.fieldA.Takes (.uint 8#32) ∧ ¬ Sample.fieldA.Has .bool ∧
    Sample.menv.env.root.getAs ((MOp.handleSet [0, 0, 1, 0] (.one (.uint 7#32))).step Sample.menv
      Sample.start).2.st.mem.main [0, 0, 1, 0] .uint = .ok (.uint 7#32) := by
  refine ⟨by unfold BitType.Takes; decide, fun h => absurd h (by unfold BitType.Takes; decide), ?_, by decide +kernel⟩
  simp [BitType.Has, Sample.fieldA]

/-- **C55** (string parameters).  A string parameter takes exactly the texts of at most its maximum
length; a get then gives the text up to its first NUL character.  It refuses values of other types. -/
theorem C55_string {e : MEnv} (wf : e.env.root.WF) {cs : List Criterion} {m : Mgr}
    (h : MReachable e cs m) (ht : m.tuning = false) {p : Pos} {a : Atom} {el : Elem} {n : Nat}
    (he : e.env.root.at? p = some el) (hk : el.kind = .string n) (hn : InNoDomain m.st p) :
    (∀ bs, a = .str (bytesStr bs) → bs.length ≤ n →
      e.env.root.getAs ((MOp.handleSet p (.one a)).step e m).2.st.mem.main p .str =
        .ok (.str (bytesStr (bs.takeWhile (fun c => decide (c ≠ 0#8))))) ∧
      ∀ x, e.env.root.getSyncer none p = some x →
        e.env.hw m.st.mem.log x ((MOp.handleSet p (.one a)).step e m).2.st.mem.main = none →
        ((MOp.handleSet p (.one a)).step e m).1 = .ok ()) ∧
    (a.ty ≠ .str ∨ (∃ bs, a = .str (bytesStr bs) ∧ n < bs.length) →
      ((MOp.handleSet p (.one a)).step e m).1 = .err ∧
      ((MOp.handleSet p (.one a)).step e m).2.st.mem.main = m.st.mem.main) ∧
    (∀ ty, ty ≠ .str → e.env.root.getAs m.st.mem.main p ty = .err) := by
  obtain ⟨off, ho⟩ := Elem.offset_of_at (off := 0) he
  have hr := handleSet_result (v := .one a) wf h ht he ho hn (by rw [hk]; simp [RightForm])
  have room : off + (n + 1) ≤ m.st.mem.main.length := by
    rw [(h.reachable.inv wf).main]
    have := wf.area_main he ho
    clear hr
    cases el with | mk nm k sy cs =>
    simp only [Elem.kind] at hk
    subst hk
    simpa [Elem.areaSize, Elem.kind, Elem.footprint, EKind.ownSize, stringSize] using this
  have bad : setParamVal e.env.rd el.kind m.st.mem.main off (.one a) = (.err, m.st.mem.main) →
      ((MOp.handleSet p (.one a)).step e m).1 = .err ∧
      ((MOp.handleSet p (.one a)).step e m).2.st.mem.main = m.st.mem.main := by
    intro hset
    have := hr.2 (by rw [hset])
    rw [hset] at this
    exact this
  refine ⟨?_, ?_, ?_⟩
  · rintro bs rfl hl
    have h1 := C39_set_then_get n m.st.mem.main off room bs
    rw [if_pos hl] at h1
    obtain ⟨b', e1, -, e2⟩ := h1
    obtain ⟨g1, g2⟩ := hr.1 b' (by simp only [setParamVal, hk, setParamAtom, strBytes_bytesStr, e1, Out.withBoard])
    refine ⟨?_, fun x hx hw => g2 x hx (by rw [← g1]; exact hw)⟩
    rw [g1]
    simp only [Elem.getAs, he, ho]
    rw [if_pos (by simp [EKind.getValid, hk, EKind.isParameter, EKind.arrayLength])]
    simp only [hk, getParamAtom, e2, Out.bind]
  · rintro (hty | ⟨bs, rfl, hl⟩)
    · apply bad
      cases a <;> first | exact absurd rfl hty | simp only [setParamVal, hk, setParamAtom]
    · have h1 := C39_set_then_get n m.st.mem.main off room bs
      rw [if_neg (by omega)] at h1
      exact bad (by simp only [setParamVal, hk, setParamAtom, strBytes_bytesStr, h1, Out.withBoard])
  · intro ty hty
    simp only [Elem.getAs, he, ho]
    rw [if_pos (by simp [EKind.getValid, hk, EKind.isParameter, EKind.arrayLength])]
    cases ty <;> first | exact absurd rfl hty | simp only [hk, getParamAtom]

/-- On the sample: `label` takes three characters. -/
example :
    Sample.menv.env.root.getAs ((MOp.handleSet [0, 0, 2] (.one (.str (s "abc")))).step Sample.menv
      Sample.start).2.st.mem.main [0, 0, 2] .str = .ok (.str (s "abc")) ∧
    ((MOp.handleSet [0, 0, 2] (.one (.str (s "abcd")))).step Sample.menv Sample.start).1 = .err := by
  decide +kernel

/-- **C55** (arrays).  An array takes a list of as many values as it has elements exactly when every
value is one that the declaration allows, and a get of the list gives them; otherwise the set is
refused.  Missing: as for scalars; texts; and after a refused set the values before the first refused
one are written, see C40. -/
theorem C55_array_partial {e : MEnv} (wf : e.env.root.WF) {cs : List Criterion} {m : Mgr}
    (h : MReachable e cs m) (ht : m.tuning = false) {p : Pos} {v : HVal} {el : Elem} {t : ArrayType}
    (he : e.env.root.at? p = some el) (hk : el.kind = .array t) (hn : InNoDomain m.st p)
    (hone : ∀ a, v ≠ .one a) (hl : v.atoms.length = t.length) (h0 : t.length ≠ 0)
    (hs : v.ty ≠ .str) (hf : t.elem.Faithful v.ty) :
    ((∀ a ∈ v.atoms, t.elem.Takes a) → ∃ as,
      e.env.root.getAsArray ((MOp.handleSet p v).step e m).2.st.mem.main p v.ty = .ok as ∧
      as.length = v.atoms.length ∧
      (∀ (j : Nat) a a', v.atoms[j]? = some a → as[j]? = some a' → t.elem.Shows a a') ∧
      ∀ x, e.env.root.getSyncer none p = some x →
        e.env.hw m.st.mem.log x ((MOp.handleSet p v).step e m).2.st.mem.main = none →
        ((MOp.handleSet p v).step e m).1 = .ok ()) ∧
    ((¬ ∀ a ∈ v.atoms, t.elem.Takes a) → ((MOp.handleSet p v).step e m).1 = .err) := by
  obtain ⟨off, ho⟩ := Elem.offset_of_at (off := 0) he
  have hr := handleSet_result (v := v) wf h ht he ho hn (by
    rw [hk]; cases v <;> first | exact absurd rfl (hone _) | exact hl)
  have room : off + t.length * t.elem.size ≤ m.st.mem.main.length := by
    rw [(h.reachable.inv wf).main]
    have := wf.area_main he ho
    clear hr hf
    cases el with | mk nm k sy cs =>
    simp only [Elem.kind] at hk
    subst hk
    rw [Nat.mul_comm]
    simpa [Elem.areaSize, Elem.kind, Elem.footprint, EKind.ownSize, ArrayType.footprint] using this
  have hval : setParamVal e.env.rd el.kind m.st.mem.main off v =
      setArrayTyped t (t.elem.ofAtom e.env.rd) m.st.mem.main off v.atoms := by
    rw [hk]; cases v <;> first | exact absurd rfl (hone _) | rfl
  obtain ⟨h1, h2⟩ := setArrayTyped_spec e.env.rd t v.atoms v.ty HVal.atoms_ty hs hf m.st.mem.main off room hl
  refine ⟨fun hT => ?_, fun hT => (hr.2 (by rw [hval]; exact h2 hT)).1⟩
  obtain ⟨b', as, e1, e2, e3, e4⟩ := h1 hT
  obtain ⟨g1, g2⟩ := hr.1 b' (by rw [hval]; exact e1)
  refine ⟨as, ?_, e3, e4, fun x hx hw => g2 x hx (by rw [← g1]; exact hw)⟩
  rw [g1]
  simp only [Elem.getAsArray, he, ho, hk]
  rw [if_pos h0, e2]

/-- On the sample: `gains` is an array of two Booleans. -/
example : ScalarType.bool.Faithful .uint ∧ (∀ a ∈ (HVal.uints [1#32, 0#32]).atoms, ScalarType.bool.Takes a) ∧
    Sample.menv.env.root.getAsArray ((MOp.handleSet [0, 0, 3] (.uints [1#32, 0#32])).step Sample.menv
      Sample.start).2.st.mem.main [0, 0, 3] .uint = .ok [.uint 1#32, .uint 0#32] ∧
    ((MOp.handleSet [0, 0, 3] (.uints [1#32, 2#32])).step Sample.menv Sample.start).1 = .err := by
  refine ⟨trivial, ?_, by decide +kernel, by decide +kernel⟩
  intro a ha
  simp only [HVal.atoms, List.map_cons, List.map_nil, List.mem_cons, List.not_mem_nil, or_false] at ha
  rcases ha with rfl | rfl <;> simp [ScalarType.Takes]

/-- **C55** (nothing else).  A set through a handle, accepted or not, changes no bit outside the
parameter. -/
theorem C55_only_own_bits {e : MEnv} (wf : e.env.root.WF) {cs : List Criterion} {m : Mgr}
    (h : MReachable e cs m) (ht : m.tuning = false) {p : Pos} {v : HVal} {el : Elem}
    (he : e.env.root.at? p = some el) (hn : InNoDomain m.st p) (hf : RightForm el.kind v) (i : Nat)
    (hi : ¬ e.env.root.Owns p i) :
    ((MOp.handleSet p v).step e m).2.st.mem.main.bit i = m.st.mem.main.bit i := by
  obtain ⟨off, ho⟩ := Elem.offset_of_at (off := 0) he
  obtain ⟨-, h2, -⟩ := C49_done_outside_tuning_mode wf h ht he ho hn hf
  rw [h2]
  refine (setParamVal_frame v (fun t hk => (wf.bit_wf he t hk).1)).2 i ?_
  apply Decidable.byContradiction
  intro hc
  exact hi ⟨el, off, he, ho, by omega, by omega⟩

example : ¬ Sample.root.Owns [0, 0, 0] 16 := by
  rintro ⟨e, o, he, ho, h1, h2⟩
  have hv : Sample.root.at? [0, 0, 0] = some (.mk (s "vol") (.scalar Sample.int16) (some 1) []) := rfl
  rw [hv] at he
  simp only [Option.some.injEq] at he
  subst he
  have : Sample.root.offset 0 [0, 0, 0] = some 0 := by decide +kernel
  rw [this] at ho
  simp at ho
  subst ho
  simp [Elem.extent, Elem.kind, Elem.footprint, EKind.ownSize, Sample.int16, ScalarType.size] at h2

/-- **C55** (texts).  A text set through a handle on a parameter that is not an array does to the memory
and gives what setting the text in real value space gives, and a get of the text gives what reading in
real value space and decimal gives (see C33 to C39 for what these are). -/
theorem C55_text (rd : Reader) (k : EKind) (hk : k.isParameter = true) (ha : ∀ t, k ≠ .array t)
    (b : Board) (off : Nat) (w : Str) :
    setParamVal rd k b off (.one (.str w)) = setParamText rd ⟨false, false⟩ k b off 0 [] w ∧
    getParamAtom k b off .str = (getParamText ⟨false, false⟩ k b off 0 []).bind fun r => .ok (.str r) := by
  cases k with
  | group g => simp [EKind.isParameter] at hk
  | bitBlock g => simp [EKind.isParameter] at hk
  | array t => exact absurd rfl (ha t)
  | scalar t =>
    constructor
    · simp only [setParamVal, setParamAtom, setParamText, ScalarType.ofAtom, handleCtx, setScalarText, Nat.sub_zero,
        Nat.not_lt_zero, ↓reduceIte, ne_eq, not_true_eq_false]
      split <;> rename_i hv <;> simp [hv, Out.withBoard]
    · simp only [getParamAtom, getParamText, getScalarText, Nat.sub_zero, Nat.not_lt_zero, ↓reduceIte, ne_eq,
        not_true_eq_false]
      cases readScalar t.size b off <;> simp only [Out.bind]
      cases t <;> rfl
  | string n =>
    constructor
    · simp [setParamVal, setParamAtom, setParamText]
    · simp only [getParamAtom, getParamText, Nat.sub_zero, Nat.not_lt_zero, ↓reduceIte, ne_eq, not_true_eq_false]
      cases getString b off <;> rfl
  | bit t =>
    constructor
    · simp [setParamVal, setParamAtom, setParamText]
    · simp [getParamAtom, getParamText, handleCtx]

example : setParamVal .none (.scalar Sample.int16) [0#8, 0#8] 0 (.one (.str (s "-5"))) =
    (.ok (), [0xFB#8, 0xFF#8]) := by decide +kernel

end PF
