import Verif.Model.AdaptedHandle
import Verif.Spec.AdaptedHandle
import Verif.Props.Adaptation
import Verif.Props.Access

/-!
# C99: doubles through handles on adapted integer parameters
-/

namespace PF
open Spec

theorem IntType.WF.fromInt_ok {t : IntType} (wf : t.WF) (hs : t.signed = true) {n : Int} (h1 : t.min ≤ n) (h2 : n ≤ t.max) :
    t.fromInt (BitVec.ofInt 32 n) = some (BitVec.ofInt 32 n) := by
  have key : ∀ k : Int, t.min ≤ k → k ≤ t.max → (BitVec.ofInt 32 k).toInt = k := by
    intro k k1 k2
    have hsz := t.size_bits wf
    have := wf.bounds k1 k2
    rw [BitVec.toInt_ofInt]
    rcases hsz with ⟨_, e⟩ | ⟨_, e⟩ | ⟨_, e⟩ <;> rw [e, hs] at this <;> simp at this <;>
      exact Int.bmod_eq_of_le (by omega) (by omega)
  have ho := wf.ordered
  unfold IntType.fromInt
  rw [key n h1 h2, key t.min (le_refl _) ho, key t.max ho (le_refl _)]
  simp
  omega

theorem IntType.WF.fromUInt_ok {t : IntType} (wf : t.WF) (hs : t.signed = false) {n : Int} (h1 : t.min ≤ n) (h2 : n ≤ t.max) :
    t.fromUInt (BitVec.ofInt 32 n) = some (BitVec.ofInt 32 n) := by
  have key : ∀ k : Int, t.min ≤ k → k ≤ t.max → ((BitVec.ofInt 32 k).toNat : Int) = k := by
    intro k k1 k2
    have hsz := t.size_bits wf
    have := wf.bounds k1 k2
    rw [BitVec.toNat_ofInt]
    rcases hsz with ⟨_, e⟩ | ⟨_, e⟩ | ⟨_, e⟩ <;> rw [e, hs] at this <;> simp at this <;> omega
  have ho := wf.ordered
  have a := key n h1 h2
  have b := key t.min (le_refl _) ho
  have c := key t.max ho (le_refl _)
  unfold IntType.fromUInt
  simp only [Bool.or_eq_true, decide_eq_true_eq]
  rw [if_neg (by omega)]

theorem setParamVal_asInteger {t : IntType} (wf : t.WF) {n : Int} (h1 : t.min ≤ n) (h2 : n ≤ t.max) (rd : Reader) (b : Board)
    (off : Nat) :
    setParamVal rd (.scalar (.int t)) b off (asInteger t n) = (writeScalar t.size b off (BitVec.ofInt 32 n)).withBoard b := by
  unfold asInteger
  cases hs : t.signed with
  | true => simp [setParamVal, setParamAtom, ScalarType.ofAtom, wf.fromInt_ok hs h1 h2, ScalarType.size]
  | false => simp [setParamVal, setParamAtom, ScalarType.ofAtom, wf.fromUInt_ok hs h1 h2, ScalarType.size]

/-- An access that is not refused: the parameter is not in a domain and tuning mode is off. -/
theorem Mgr.setAsDouble_open (lm : Libm) {ad : Pos → Option Adaptation} {e : MEnv} {m : Mgr} {p : Pos} {t : IntType} {off : Nat}
    (hi : IntAt e.env.root p t off) (hv : e.env.root.isRogue m.st.attached p = true) (ht : m.tuning = false) (d : F64) :
    m.setAsDouble lm ad e p d =
      match setIntDouble lm t (ad p) m.st.mem.main off d with
      | (.ok (), b) =>
        ((e.env.syncParam true p ⟨b, m.st.mem.log⟩).1,
          { m with st := { m.st with mem := (e.env.syncParam true p ⟨b, m.st.mem.log⟩).2 } })
      | (o, b) => (o, { m with st := { m.st with mem := ⟨b, m.st.mem.log⟩ } }) := by
  obtain ⟨el, h1, h2, h3, wf⟩ := hi
  have : e.env.root.setValid m.st.attached p (.one (.bool false)) = true := by
    simp [Elem.setValid, h1, h2, hv, HVal.inputSize, EKind.getValid, EKind.isParameter, EKind.arrayLength]
  unfold Mgr.setAsDouble
  rw [this, if_neg (by simp), if_neg (by simp [ht]), h1, h3]
  simp only [h2]
  rcases setIntDouble lm t (ad p) m.st.mem.main off d with ⟨⟨⟩ | _ | _, b⟩ <;> rfl

theorem Mgr.handleSet_open {e : MEnv} {m : Mgr} {p : Pos} {t : IntType} {off : Nat}
    (hi : IntAt e.env.root p t off) (hv : e.env.root.isRogue m.st.attached p = true) (ht : m.tuning = false) {n : Int}
    (h1 : t.min ≤ n) (h2 : n ≤ t.max) :
    (MOp.handleSet p (asInteger t n)).step e m =
      match (writeScalar t.size m.st.mem.main off (BitVec.ofInt 32 n)).withBoard m.st.mem.main with
      | (.ok (), b) =>
        ((e.env.syncParam true p ⟨b, m.st.mem.log⟩).1,
          { m with st := { m.st with mem := (e.env.syncParam true p ⟨b, m.st.mem.log⟩).2 } })
      | (o, b) => (o, { m with st := { m.st with mem := ⟨b, m.st.mem.log⟩ } }) := by
  obtain ⟨el, k1, k2, k3, wf⟩ := hi
  have hz : (asInteger t n).inputSize = 0 := by simp [asInteger, HVal.inputSize]
  have : e.env.root.setValid m.st.attached p (asInteger t n) = true := by
    simp [Elem.setValid, k1, k2, hv, hz, EKind.getValid, EKind.isParameter, EKind.arrayLength]
  simp only [MOp.step, Mgr.handleSet, this, ht, Bool.not_true, Bool.false_eq_true, if_false, Mgr.run, DomOp.step, Env.setMainVal,
    k1, k3, k2, setParamVal_asInteger wf h1 h2]
  split <;> simp_all

/-- **C99** (access).  A `double` set through a handle is refused, and changes nothing, on a parameter that is in a domain or whose
type has no adaptation; with tuning mode on it is accepted and changes nothing. -/
theorem C99_refused (lm : Libm) (ad : Pos → Option Adaptation) (e : MEnv) (m : Mgr) (p : Pos) (t : IntType) (off : Nat)
    (hi : IntAt e.env.root p t off) (d : F64) :
    (e.env.root.isRogue m.st.attached p = false → m.setAsDouble lm ad e p d = (.err, m)) ∧
    (e.env.root.isRogue m.st.attached p = true → m.tuning = true → m.setAsDouble lm ad e p d = (.ok (), m)) ∧
    (m.tuning = false → ad p = none → m.setAsDouble lm ad e p d = (.err, m)) := by
  have hi' := hi
  obtain ⟨el, h1, h2, h3, wf⟩ := hi
  have hsv : e.env.root.setValid m.st.attached p (.one (.bool false)) = e.env.root.isRogue m.st.attached p := by
    simp [Elem.setValid, h1, h2, HVal.inputSize, EKind.getValid, EKind.isParameter, EKind.arrayLength]
  refine ⟨fun hv => ?_, fun hv ht => ?_, fun ht hn => ?_⟩
  · simp [Mgr.setAsDouble, hsv, hv]
  · simp [Mgr.setAsDouble, hsv, hv, ht]
  · cases hv : e.env.root.isRogue m.st.attached p with
    | false => simp [Mgr.setAsDouble, hsv, hv]
    | true =>
      rw [Mgr.setAsDouble_open lm hi' hv ht, hn]
      rfl

/-- **C99** (one set).  A `double` set through a handle on an adapted integer parameter does exactly what setting the integer that
the adaptation gives for it does, on the memory and the hardware, or is refused and changes nothing.  (Undefined conversions of
the C++ are `abort`.) -/
theorem C99_same (lm : Libm) (ad : Pos → Option Adaptation) (e : MEnv) (m : Mgr) (p : Pos) (t : IntType) (off : Nat)
    (hi : IntAt e.env.root p t off) (hv : e.env.root.isRogue m.st.attached p = true) (ht : m.tuning = false)
    (a : Adaptation) (ha : ad p = some a) (d : F64) :
    (∀ n, a.fromUser lm d = .ok n → t.min ≤ n → n ≤ t.max →
      m.setAsDouble lm ad e p d = (MOp.handleSet p (asInteger t n)).step e m) ∧
    (∀ n, a.fromUser lm d = .ok n → n < t.min ∨ t.max < n → m.setAsDouble lm ad e p d = (.err, m)) ∧
    (a.fromUser lm d = .err → m.setAsDouble lm ad e p d = (.err, m)) ∧
    (a.fromUser lm d = .abort → m.setAsDouble lm ad e p d = (.abort, m)) := by
  rw [Mgr.setAsDouble_open lm hi hv ht, ha]
  have e0 : setIntDouble lm t (some a) m.st.mem.main off d =
      match (a.fromUser lm d).bind fun n => if n < t.min ∨ n > t.max then .err else .ok (BitVec.ofInt 32 n) with
      | .ok v => (writeScalar t.size m.st.mem.main off v).withBoard m.st.mem.main
      | .err => (.err, m.st.mem.main)
      | .abort => (.abort, m.st.mem.main) := rfl
  rw [e0]
  refine ⟨fun n hn h1 h2 => ?_, fun n hn h1 => ?_, fun hn => ?_, fun hn => ?_⟩
  · rw [Mgr.handleSet_open hi hv ht h1 h2, hn]
    simp only [Out.bind]
    rw [if_neg (by omega)]
  · rw [hn]
    simp only [Out.bind]
    rw [if_pos (by omega)]
  · rw [hn]; rfl
  · rw [hn]; rfl

/-- **C99** (linear adaptations).  The same, with what the linear adaptation gives. -/
theorem C99_linear (lm : Libm) (ad : Pos → Option Adaptation) (e : MEnv) (m : Mgr) (p : Pos) (t : IntType) (off : Nat)
    (hi : IntAt e.env.root p t off) (hv : e.env.root.isRogue m.st.attached p = true) (ht : m.tuning = false)
    (a : Adaptation) (ha : ad p = some a) (lin : a.log = none) (hd : a.den ≠ 0) (d : Rat) :
    (∃ n, LinearGives a.num a.den a.off d n ∧ t.min ≤ n ∧ n ≤ t.max ∧
      m.setAsDouble lm ad e p (.fin d) = (MOp.handleSet p (asInteger t n)).step e m) ∨
    (∃ n, LinearGives a.num a.den a.off d n ∧ (n < t.min ∨ t.max < n) ∧ m.setAsDouble lm ad e p (.fin d) = (.err, m)) ∨
    (LinearOverflows a.num a.den a.off d ∧ m.setAsDouble lm ad e p (.fin d) = (.abort, m)) := by
  obtain ⟨k1, k2, k3, k4⟩ := C99_same lm ad e m p t off hi hv ht a ha (.fin d)
  have hf : a.fromUser lm (.fin d) = a.linFrom (.fin d) := by unfold Adaptation.fromUser; rw [lin]
  have hs := a.linFrom_spec hd d
  rw [← hf] at hs
  rcases hs with ⟨n, hm, hg⟩ | ⟨hm, hg⟩
  · by_cases hr : n < t.min ∨ t.max < n
    · exact .inr (.inl ⟨n, hg, hr, k2 n hm hr⟩)
    · exact .inl ⟨n, hg, by omega, by omega, k1 n hm (by omega) (by omega)⟩
  · exact .inr (.inr ⟨hg, k4 hm⟩)

/-- **C99** (histories).  So a set of a `double` is one more operation of a history: whatever holds of every history without them
holds of every history with them. -/
theorem C99_history {lm : Libm} {ad : Pos → Option Adaptation} {e : MEnv} {cs : List Criterion} {m : Mgr} (h : MReachable e cs m)
    {p : Pos} {t : IntType} {off : Nat} (hi : IntAt e.env.root p t off) (d : F64)
    (hok : (m.setAsDouble lm ad e p d).1 ≠ .abort) : MReachable e cs (m.setAsDouble lm ad e p d).2 := by
  obtain ⟨r1, r2, r3⟩ := C99_refused lm ad e m p t off hi d
  cases hv : e.env.root.isRogue m.st.attached p with
  | false => rw [r1 hv]; exact h
  | true =>
    cases ht : m.tuning with
    | true => rw [r2 hv ht]; exact h
    | false =>
      cases ha : ad p with
      | none => rw [r3 ht ha]; exact h
      | some a =>
        obtain ⟨k1, k2, k3, k4⟩ := C99_same lm ad e m p t off hi hv ht a ha d
        cases hf : a.fromUser lm d with
        | err => rw [k3 hf]; exact h
        | abort => rw [k4 hf] at hok; exact absurd rfl hok
        | ok n =>
          by_cases hr : n < t.min ∨ t.max < n
          · rw [k2 n hf hr]; exact h
          · have e1 := k1 n hf (by omega) (by omega)
            rw [e1] at hok ⊢
            exact h.step trivial hok

/-- **C99** (reading).  After a set that succeeded, with a linear adaptation, reading the parameter through the handle gives the number
that the adaptation shows for the integer it gave, or an infinite one when that leaves the range of the type; and nothing in memory
outside the parameter changed. -/
theorem C99_read {lm : Libm} {ad : Pos → Option Adaptation} {e : MEnv} (wfr : e.env.root.WF) {cs : List Criterion} {m : Mgr}
    (h : MReachable e cs m) {p : Pos} {t : IntType} {off : Nat} (hi : IntAt e.env.root p t off)
    (hv : e.env.root.isRogue m.st.attached p = true) (ht : m.tuning = false) {a : Adaptation} (ha : ad p = some a)
    (lin : a.log = none) (hn : a.num ≠ 0) (hd : a.den ≠ 0) (ho : -2 ^ 31 ≤ a.off ∧ a.off < 2 ^ 31) {d : Rat} {m' : Mgr}
    (hs : m.setAsDouble lm ad e p (.fin d) = (.ok (), m')) :
    ∃ n, LinearGives a.num a.den a.off d n ∧ t.min ≤ n ∧ n ≤ t.max ∧ HoldsInt t m'.st.mem.main off n ∧
      SameOutside m.st.mem.main m'.st.mem.main off t.size ∧
      ((∃ v, m'.getAsDouble lm ad e p = .ok (.fin v) ∧ LinearShows a.num a.den a.off n v) ∨
       (m'.getAsDouble lm ad e p = .ok .notFinite ∧
        (f64Limit ≤ |((n - a.off : Int) : Rat) * a.den| ∨
         ∃ x, Rounds ((n - a.off : Int) * a.den) x ∧ f64Limit ≤ |x / a.num|))) := by
  have hm := (h.reachable.inv wfr).main
  have hi' := hi
  obtain ⟨el, h1, h2, h3, wf⟩ := hi
  have hroom := wfr.area_main h1 h3
  rw [Elem.areaSize_scalar h2] at hroom
  have hroom' : off + t.size ≤ m.st.mem.main.length := by simp only [ScalarType.size] at hroom; omega
  rw [Mgr.setAsDouble_open lm hi' hv ht, ha] at hs
  rcases C79_set lm t wf a lin hd m.st.mem.main off hroom' d with ⟨n, b', g1, g2, g3, g4, g5, g6⟩ | ⟨n, g1, g2, g3⟩ | ⟨g1, g2⟩
  · rw [g4] at hs
    simp only [Prod.mk.injEq] at hs
    have hmain : m'.st.mem.main = b' := by rw [← hs.2]; exact Env.syncParam_main _ _ _ _
    have hg : m'.getAsDouble lm ad e p = getIntDouble lm t (some a) b' off := by
      simp [Mgr.getAsDouble, h1, h2, h3, ha, hmain, EKind.getValid, EKind.isParameter, EKind.arrayLength]
    refine ⟨n, g1, g2, g3, by rw [hmain]; exact g5, by rw [hmain]; exact g6, ?_⟩
    rw [hg]
    exact C79_get lm t wf a lin hn ho b' off n g5 (wf.range32 g2 g3)
  · rw [g3] at hs; simp at hs
  · rw [g2] at hs; simp at hs

/-- **C99** (any reading).  Reading a `double` through a handle is refused on a parameter whose type has no adaptation; it needs
neither tuning mode off nor a parameter outside the domains, and gives what the adaptation shows for the integer in memory. -/
theorem C99_get {lm : Libm} {ad : Pos → Option Adaptation} {e : MEnv} (wfr : e.env.root.WF) {cs : List Criterion} {m : Mgr}
    (h : MReachable e cs m) {p : Pos} {t : IntType} {off : Nat} (hi : IntAt e.env.root p t off) :
    (ad p = none → m.getAsDouble lm ad e p = .err) ∧
    (∀ a, ad p = some a → ∃ n, HoldsInt t m.st.mem.main off n ∧ m.getAsDouble lm ad e p = .ok (a.toUser lm n) ∧
      (a.log = none → a.num ≠ 0 → -2 ^ 31 ≤ a.off ∧ a.off < 2 ^ 31 → ∀ v, m.getAsDouble lm ad e p = .ok (.fin v) →
        LinearShows a.num a.den a.off n v)) := by
  have hm := (h.reachable.inv wfr).main
  obtain ⟨el, h1, h2, h3, wf⟩ := hi
  have hroom := wfr.area_main h1 h3
  rw [Elem.areaSize_scalar h2] at hroom
  have hroom' : off + t.size ≤ m.st.mem.main.length := by simp only [ScalarType.size] at hroom; omega
  obtain ⟨bs, hbs⟩ := Board.read_some (b := m.st.mem.main) (off := off) (size := t.size) hroom'
  have hg : m.getAsDouble lm ad e p = getIntDouble lm t (ad p) m.st.mem.main off := by
    simp [Mgr.getAsDouble, h1, h2, h3, EKind.getValid, EKind.isParameter, EKind.arrayLength]
  have hh : HoldsInt t m.st.mem.main off (memValue t.signed bs) := ⟨bs, hbs, rfl⟩
  rw [hg]
  refine ⟨fun hn => ?_, fun a ha => ⟨_, hh, ?_, fun lin hn ho v hvv => ?_⟩⟩
  · rw [hn]
    unfold getIntDouble
    have : ∃ v, readScalar t.size m.st.mem.main off = .ok v := by
      simp only [readScalar, hbs]
      exact ⟨_, rfl⟩
    obtain ⟨v, hv⟩ := this
    rw [hv]
    rfl
  · rw [ha]; exact getIntDouble_holds lm wf hh a
  · have hl := (Board.read_length hbs).1
    have hb : -2 ^ 31 ≤ memValue t.signed bs ∧ memValue t.signed bs < 2 ^ 32 := by
      cases hs : t.signed with
      | true =>
        have := memValue_signed_fits wf.size hl
        unfold FitsSigned at this
        rcases wf.size with e | e | e <;> rw [e] at this <;> omega
      | false =>
        have hlt := decLE_lt bs
        rw [hl] at hlt
        simp only [memValue, Bool.false_eq_true, if_false]
        rcases wf.size with e | e | e <;> rw [e] at hlt <;> omega
    rw [ha] at hvv
    rcases C79_get lm t wf a lin hn ho m.st.mem.main off _ hh hb with ⟨w, g1, g2⟩ | ⟨g1, _⟩
    · rw [g1] at hvv
      cases hvv
      exact g2
    · rw [g1] at hvv
      cases hvv

/-! ## Arrays -/

theorem setDoubles_run {lm : Libm} {a : Adaptation} {t : IntType} {ds : List F64} {ns : List Int} (h : GivesAll lm a t ds ns)
    (rest : List F64) (b : Board) (off : Nat) :
    setDoubles lm t (some a) b off (ds ++ rest) =
      match setElems t.size b off (ns.map fun n => some (BitVec.ofInt 32 n)) with
      | (.ok (), b') => setDoubles lm t (some a) b' (off + ns.length * t.size) rest
      | r => r := by
  unfold GivesAll at h
  induction h generalizing b off with
  | nil => simp [setElems]
  | @cons d n ds ns hd _ ih =>
    obtain ⟨h1, h2, h3⟩ := hd
    have e0 : setIntDouble lm t (some a) b off d = (writeScalar t.size b off (BitVec.ofInt 32 n)).withBoard b := by
      unfold setIntDouble IntType.fromDouble
      simp only [h1, Out.bind]
      rw [if_neg (by omega)]
    simp only [List.cons_append, setDoubles, e0, List.map_cons, setElems]
    cases hw : writeScalar t.size b off (BitVec.ofInt 32 n) with
    | ok b1 =>
      simp only [Out.withBoard]
      rw [ih b1 (off + t.size), List.length_cons, Nat.succ_mul]
      rw [show off + t.size + ns.length * t.size = off + (ns.length * t.size + t.size) by omega]
    | err => simp [Out.withBoard]
    | abort => simp [Out.withBoard]

theorem setDoubles_refused {lm : Libm} {a : Adaptation} {t : IntType} {d : F64} (h : Refuses lm a t d) (rest : List F64) (b : Board)
    (off : Nat) : setDoubles lm t (some a) b off (d :: rest) = (.err, b) := by
  have e0 : setIntDouble lm t (some a) b off d = (.err, b) := by
    unfold setIntDouble IntType.fromDouble
    rcases h with h | ⟨n, h, hr⟩
    · simp only [h, Out.bind]
    · simp only [h, Out.bind]
      rw [if_pos (by omega)]
  simp only [setDoubles, e0]

theorem setDoubles_abort {lm : Libm} {a : Adaptation} {t : IntType} {d : F64} (h : a.fromUser lm d = .abort) (rest : List F64)
    (b : Board) (off : Nat) : setDoubles lm t (some a) b off (d :: rest) = (.abort, b) := by
  have e0 : setIntDouble lm t (some a) b off d = (.abort, b) := by
    unfold setIntDouble IntType.fromDouble
    simp only [h, Out.bind]
  simp only [setDoubles, e0]

/-- The numbers before the first one that is not accepted. -/
theorem givesAll_split (lm : Libm) (a : Adaptation) (t : IntType) (ds : List F64) :
    (∃ ns, GivesAll lm a t ds ns) ∨ ∃ ds1 ns d rest, ds = ds1 ++ d :: rest ∧ GivesAll lm a t ds1 ns ∧
      (Refuses lm a t d ∨ a.fromUser lm d = .abort) := by
  induction ds with
  | nil => exact .inl ⟨[], .nil⟩
  | cons d ds ih =>
    by_cases hd : ∃ n, a.fromUser lm d = .ok n ∧ t.min ≤ n ∧ n ≤ t.max
    · obtain ⟨n, hn⟩ := hd
      rcases ih with ⟨ns, h⟩ | ⟨ds1, ns, x, rest, rfl, h, hx⟩
      · exact .inl ⟨n :: ns, .cons hn h⟩
      · exact .inr ⟨d :: ds1, n :: ns, x, rest, rfl, .cons hn h, hx⟩
    · refine .inr ⟨[], [], d, ds, rfl, .nil, ?_⟩
      cases hf : a.fromUser lm d with
      | err => exact .inl (.inl hf)
      | abort => exact .inr rfl
      | ok n =>
        refine .inl (.inr ⟨n, hf, ?_⟩)
        by_contra hc
        exact hd ⟨n, hf, by omega, by omega⟩

theorem givesAll_length {lm : Libm} {a : Adaptation} {t : IntType} {ds : List F64} {ns : List Int} (h : GivesAll lm a t ds ns) :
    ds.length = ns.length := List.Forall₂.length_eq h

theorem givesAll_range {lm : Libm} {a : Adaptation} {t : IntType} {ds : List F64} {ns : List Int} (h : GivesAll lm a t ds ns) :
    ∀ n ∈ ns, t.min ≤ n ∧ n ≤ t.max := by
  unfold GivesAll at h
  induction h with
  | nil => simp
  | cons hd _ ih =>
    intro n hn
    rcases List.mem_cons.1 hn with rfl | hn
    · exact hd.2
    · exact ih n hn

/-- An access that is not refused. -/
theorem Mgr.setAsDoubleArray_open (lm : Libm) {ad : Pos → Option Adaptation} {e : MEnv} {m : Mgr} {p : Pos} {t : IntType} {len off : Nat}
    (hi : IntsAt e.env.root p t len off) (hv : e.env.root.isRogue m.st.attached p = true) (ht : m.tuning = false) {ds : List F64}
    (hl : ds.length = len) :
    m.setAsDoubleArray lm ad e p ds =
      match setDoubles lm t (ad p) m.st.mem.main off ds with
      | (.ok (), b) =>
        ((e.env.syncParam true p ⟨b, m.st.mem.log⟩).1,
          { m with st := { m.st with mem := (e.env.syncParam true p ⟨b, m.st.mem.log⟩).2 } })
      | (o, b) => (o, { m with st := { m.st with mem := ⟨b, m.st.mem.log⟩ } }) := by
  obtain ⟨el, h1, h2, h3, wf, h0⟩ := hi
  have : e.env.root.setValid m.st.attached p (.bools (ds.map fun _ => false)) = true := by
    simp [Elem.setValid, h1, h2, hv, HVal.inputSize, EKind.getValid, EKind.isParameter, EKind.arrayLength, hl, h0]
  unfold Mgr.setAsDoubleArray
  rw [this, if_neg (by simp), if_neg (by simp [ht]), h1, h3]
  simp only [h2]
  rw [if_neg (by simp [hl])]
  rcases setDoubles lm t (ad p) m.st.mem.main off ds with ⟨⟨⟩ | _ | _, b⟩ <;> rfl

/-- A typed set of an array of integers whose values convert to `vs`. -/
theorem Mgr.handleSet_array {e : MEnv} {m : Mgr} {p : Pos} {t : IntType} {len off : Nat}
    (hi : IntsAt e.env.root p t len off) (hv : e.env.root.isRogue m.st.attached p = true) (ht : m.tuning = false) {v : HVal}
    (hz : v.inputSize = len) (ha : v.atoms.length = len) (hone : ∀ x, v ≠ .one x) {vs : List (Option (BitVec 32))}
    (hc : v.atoms.map ((ScalarType.int t).ofAtom e.env.rd) = vs) :
    (MOp.handleSet p v).step e m =
      match setElems t.size m.st.mem.main off vs with
      | (.ok (), b) =>
        ((e.env.syncParam true p ⟨b, m.st.mem.log⟩).1,
          { m with st := { m.st with mem := (e.env.syncParam true p ⟨b, m.st.mem.log⟩).2 } })
      | (o, b) => (o, { m with st := { m.st with mem := ⟨b, m.st.mem.log⟩ } }) := by
  obtain ⟨el, k1, k2, k3, wf, h0⟩ := hi
  have : e.env.root.setValid m.st.attached p v = true := by
    simp [Elem.setValid, k1, k2, hv, hz, EKind.getValid, EKind.isParameter, EKind.arrayLength, h0]
  have hset : setParamVal e.env.rd (.array ⟨.int t, len⟩) m.st.mem.main off v = setElems t.size m.st.mem.main off vs := by
    cases v with
    | one x => exact absurd rfl (hone x)
    | _ => simp only [setParamVal, setArrayTyped]; rw [if_neg (by simp [ha])]; rw [hc]; rfl
  simp only [MOp.step, Mgr.handleSet, this, ht, Bool.not_true, Bool.false_eq_true, if_false, Mgr.run, DomOp.step, Env.setMainVal,
    k1, k3, k2, hset]
  split <;> simp_all

theorem asIntegers_convert {t : IntType} (wf : t.WF) (rd : Reader) {ns : List Int} (h : ∀ n ∈ ns, t.min ≤ n ∧ n ≤ t.max) :
    (asIntegers t ns).atoms.map ((ScalarType.int t).ofAtom rd) = ns.map fun n => some (BitVec.ofInt 32 n) := by
  unfold asIntegers
  cases hs : t.signed with
  | true =>
    simp only [if_true, HVal.atoms, List.map_map]
    refine List.map_congr_left fun n hn => ?_
    simp [ScalarType.ofAtom, wf.fromInt_ok hs (h n hn).1 (h n hn).2]
  | false =>
    simp only [Bool.false_eq_true, if_false, HVal.atoms, List.map_map]
    refine List.map_congr_left fun n hn => ?_
    simp [ScalarType.ofAtom, wf.fromUInt_ok hs (h n hn).1 (h n hn).2]

theorem IntType.WF.fromText_intText {t : IntType} (wf : t.WF) {n : Int} (h1 : t.min ≤ n) (h2 : n ≤ t.max) :
    t.fromText (intText n) = some (BitVec.ofInt 32 n) := by
  rw [t.fromText_iff wf]
  refine ⟨n, denotes_intText _ _ _ ?_, h1, h2, rfl⟩
  cases hs : t.signed with
  | true => exact .inl rfl
  | false =>
    have := wf.low
    rw [hs] at this
    simp at this
    exact .inr (by omega)

/-- **C99** (arrays).  Doubles set through a handle on an array of adapted integers do exactly what setting the integers that the
adaptation gives for them does. -/
theorem C99_array_same (lm : Libm) (ad : Pos → Option Adaptation) (e : MEnv) (m : Mgr) (p : Pos) (t : IntType) (len off : Nat)
    (hi : IntsAt e.env.root p t len off) (hv : e.env.root.isRogue m.st.attached p = true) (ht : m.tuning = false)
    (a : Adaptation) (ha : ad p = some a) (ds : List F64) (hl : ds.length = len) (ns : List Int) (hg : GivesAll lm a t ds ns) :
    m.setAsDoubleArray lm ad e p ds = (MOp.handleSet p (asIntegers t ns)).step e m := by
  have wf : t.WF := by obtain ⟨_, _, _, _, wf, _⟩ := hi; exact wf
  have hn : ns.length = len := by rw [← givesAll_length hg, hl]
  rw [Mgr.setAsDoubleArray_open lm hi hv ht hl, ha]
  rw [Mgr.handleSet_array hi hv ht (v := asIntegers t ns) (by unfold asIntegers; split <;> simp [HVal.inputSize, hn])
    (by unfold asIntegers; split <;> simp [HVal.atoms, hn]) (by intro x; unfold asIntegers; split <;> simp)
    (asIntegers_convert wf e.env.rd (givesAll_range hg))]
  have := setDoubles_run hg [] m.st.mem.main off
  rw [List.append_nil] at this
  rw [this]
  rcases setElems t.size m.st.mem.main off (ns.map fun n => some (BitVec.ofInt 32 n)) with ⟨⟨⟩ | _ | _, b⟩ <;> rfl

theorem setElems_run (size : Nat) (vs : List (BitVec 32)) (rest : List (Option (BitVec 32))) (b : Board) (off : Nat) :
    setElems size b off (vs.map some ++ rest) =
      match setElems size b off (vs.map some) with
      | (.ok (), b') => setElems size b' (off + vs.length * size) rest
      | r => r := by
  induction vs generalizing b off with
  | nil => simp [setElems]
  | cons v vs ih =>
    simp only [List.map_cons, List.cons_append, setElems]
    cases hw : writeScalar size b off v with
    | ok b1 =>
      simp only [ih b1 (off + size), List.length_cons, Nat.succ_mul]
      rw [show off + size + vs.length * size = off + (vs.length * size + size) by omega]
    | err => rfl
    | abort => rfl

theorem setElems_some_not_err (size : Nat) (vs : List (BitVec 32)) (b b' : Board) (off : Nat) :
    setElems size b off (vs.map some) ≠ (.err, b') := by
  induction vs generalizing b off with
  | nil => simp [setElems]
  | cons v vs ih =>
    simp only [List.map_cons, setElems]
    cases hw : writeScalar size b off v with
    | ok b1 => exact ih b1 _
    | err => unfold writeScalar at hw; split at hw <;> simp at hw
    | abort => simp

/-- What a set of doubles does when one of them is refused, as a set of texts. -/
theorem Mgr.setAsDoubleArray_texts {lm : Libm} {ad : Pos → Option Adaptation} {e : MEnv} {m : Mgr} {p : Pos} {t : IntType} {len off : Nat}
    (hi : IntsAt e.env.root p t len off) (hv : e.env.root.isRogue m.st.attached p = true) (ht : m.tuning = false)
    {a : Adaptation} (ha : ad p = some a) {ds1 : List F64} {d : F64} {rest : List F64} (hl : (ds1 ++ d :: rest).length = len)
    {ns : List Int} (hg : GivesAll lm a t ds1 ns) (hr : Refuses lm a t d) :
    m.setAsDoubleArray lm ad e p (ds1 ++ d :: rest) =
      (MOp.handleSet p (.strs (ns.map intText ++ [] :: rest.map fun _ => []))).step e m := by
  have wf : t.WF := by obtain ⟨_, _, _, _, wf, _⟩ := hi; exact wf
  have hn := givesAll_length hg
  have hl' : ds1.length + (rest.length + 1) = len := by simpa using hl
  rw [Mgr.setAsDoubleArray_open lm hi hv ht hl, ha]
  have hnone : t.fromText [] = none := by
    have : ∀ s b, convertTo s b [] = none := by intro s b; simp [convertTo, parseNat]
    simp [IntType.fromText, this]
  rw [Mgr.handleSet_array hi hv ht (v := .strs (ns.map intText ++ [] :: rest.map fun _ => []))
    (vs := (ns.map (BitVec.ofInt 32 ·)).map some ++ none :: rest.map fun _ => none)
    (by simp [HVal.inputSize]; omega) (by simp [HVal.atoms]; omega) (by simp) ?_]
  · rw [setDoubles_run hg]
    have e1 : (ns.map fun n => some (BitVec.ofInt 32 n)) = (ns.map (BitVec.ofInt 32 ·)).map some := by simp
    rw [e1, setElems_run]
    rcases setElems t.size m.st.mem.main off ((ns.map (BitVec.ofInt 32 ·)).map some) with ⟨⟨⟩ | _ | _, b⟩
    · simp only [setDoubles_refused hr, setElems]
    · rfl
    · rfl
  · simp only [HVal.atoms, List.map_append, List.map_cons, List.map_map]
    refine congr_arg₂ _ (List.map_congr_left fun n hn => ?_) (congr_arg₂ _ ?_ (List.map_congr_left fun x _ => ?_))
    · have := givesAll_range hg n hn
      simp [ScalarType.ofAtom, ScalarType.fromText, wf.fromText_intText this.1 this.2]
    · simp [ScalarType.ofAtom, ScalarType.fromText, hnone]
    · simp [ScalarType.ofAtom, ScalarType.fromText, hnone]

/-- **C99** (arrays, refusal).  If a number is refused, the set fails and the hardware is not called, but the numbers before it stay
written: only the memory of the array changes. -/
theorem C99_array_refused (lm : Libm) (ad : Pos → Option Adaptation) (e : MEnv) (wfr : e.env.root.WF) (cs : List Criterion) (m : Mgr)
    (h : MReachable e cs m) (p : Pos) (t : IntType) (len off : Nat)
    (hi : IntsAt e.env.root p t len off) (hv : e.env.root.isRogue m.st.attached p = true) (ht : m.tuning = false)
    (a : Adaptation) (ha : ad p = some a) (ds1 : List F64) (d : F64) (rest : List F64) (hl : (ds1 ++ d :: rest).length = len)
    (ns : List Int) (hg : GivesAll lm a t ds1 ns) (hr : Refuses lm a t d) :
    ∃ b, m.setAsDoubleArray lm ad e p (ds1 ++ d :: rest) = (.err, { m with st := { m.st with mem := ⟨b, m.st.mem.log⟩ } }) ∧
      SameOutside m.st.mem.main b off (ns.length * t.size) ∧ ∀ j n, ns[j]? = some n → HoldsInt t b (off + j * t.size) n := by
  have hm := (h.reachable.inv wfr).main
  rw [Mgr.setAsDoubleArray_open lm hi hv ht hl, ha, setDoubles_run hg]
  obtain ⟨el, h1, h2, h3, wf, h0⟩ := hi
  have hn := givesAll_length hg
  have hl' : ds1.length + (rest.length + 1) = len := by simpa using hl
  have hroom := wfr.area_main h1 h3
  have hsz : el.areaSize = len * t.size := by
    obtain ⟨nm, k, sy, xs⟩ := el
    simp only [Elem.kind] at h2
    subst h2
    simp [Elem.areaSize, Elem.kind, Elem.footprint, EKind.ownSize, ArrayType.footprint, ScalarType.size, Nat.mul_comm]
  have hle : ns.length * t.size ≤ len * t.size := Nat.mul_le_mul_right _ (by omega)
  obtain ⟨b', g1, g2, g3⟩ := setElems_ok t.size (ns.map (BitVec.ofInt 32 ·)) m.st.mem.main off (by simp; omega)
  have e1 : (ns.map fun n => some (BitVec.ofInt 32 n)) = (ns.map (BitVec.ofInt 32 ·)).map some := by simp
  rw [e1, g1]
  refine ⟨b', by simp only [setDoubles_refused hr], by simpa using g2, fun j n hj => ?_⟩
  have hr' := givesAll_range hg n (List.mem_of_getElem? hj)
  exact ⟨_, g3 j _ (by simp [hj]), memValue_encLE t wf hr'.1 hr'.2⟩

/-- **C99** (arrays, access).  Doubles set through a handle on an array are refused, and change nothing, if the array is in a domain, if
their number is not the one of the elements of the array or if its type has no adaptation; with tuning mode on they are accepted and
change nothing. -/
theorem C99_array_access (lm : Libm) (ad : Pos → Option Adaptation) (e : MEnv) (m : Mgr) (p : Pos) (t : IntType) (len off : Nat)
    (hi : IntsAt e.env.root p t len off) (ds : List F64) :
    (e.env.root.isRogue m.st.attached p = false ∨ ds.length ≠ len → m.setAsDoubleArray lm ad e p ds = (.err, m)) ∧
    (e.env.root.isRogue m.st.attached p = true → ds.length = len → m.tuning = true →
      m.setAsDoubleArray lm ad e p ds = (.ok (), m)) ∧
    (m.tuning = false → ad p = none → m.setAsDoubleArray lm ad e p ds = (.err, m)) := by
  have hi' := hi
  obtain ⟨el, h1, h2, h3, wf, h0⟩ := hi'
  have hsv : e.env.root.setValid m.st.attached p (.bools (ds.map fun _ => false)) =
      (e.env.root.isRogue m.st.attached p && decide (ds.length = len)) := by
    simp only [Elem.setValid, h1, h2, HVal.inputSize, EKind.getValid, EKind.isParameter, EKind.arrayLength, List.length_map]
    by_cases hz : ds.length = 0
    · simp [hz, h0, Ne.symm h0]
    · by_cases hq : ds.length = len <;> simp [hq, h0, hz]
  have hbad : e.env.root.isRogue m.st.attached p = false ∨ ds.length ≠ len → m.setAsDoubleArray lm ad e p ds = (.err, m) := by
    intro hc
    unfold Mgr.setAsDoubleArray
    rw [hsv, if_pos (by rcases hc with hc | hc <;> simp [hc])]
  refine ⟨hbad, fun hv hl ht => ?_, fun ht ha => ?_⟩
  · unfold Mgr.setAsDoubleArray
    rw [hsv, if_neg (by simp [hv, hl]), if_pos ht]
  · by_cases hc : e.env.root.isRogue m.st.attached p = false ∨ ds.length ≠ len
    · exact hbad hc
    · have hv : e.env.root.isRogue m.st.attached p = true := by
        cases hq : e.env.root.isRogue m.st.attached p with
        | true => rfl
        | false => exact absurd (.inl hq) hc
      have hl : ds.length = len := by
        by_contra hq
        exact hc (.inr hq)
      rw [Mgr.setAsDoubleArray_open lm hi hv ht hl, ha]
      cases ds with
      | nil => simp at hl; omega
      | cons d ds => rfl

theorem getDoubles_ok (lm : Libm) {t : IntType} (wf : t.WF) (a : Adaptation) (b : Board) (n off : Nat) (h : off + n * t.size ≤ b.length) :
    ∃ ns : List Int, getDoubles lm t (some a) b off n = .ok (ns.map (a.toUser lm)) ∧ ns.length = n ∧
      ∀ j k, ns[j]? = some k → HoldsInt t b (off + j * t.size) k := by
  induction n generalizing off with
  | zero => exact ⟨[], rfl, rfl, by simp⟩
  | succ n ih =>
    rw [Nat.succ_mul] at h
    obtain ⟨ns, g1, g2, g3⟩ := ih (off + t.size) (by omega)
    obtain ⟨bs, hbs⟩ := Board.read_some (b := b) (off := off) (size := t.size) (by omega)
    have hh : HoldsInt t b off (memValue t.signed bs) := ⟨bs, hbs, rfl⟩
    refine ⟨memValue t.signed bs :: ns, ?_, by simp [g2], fun j k hj => ?_⟩
    · simp only [getDoubles, getIntDouble_holds lm wf hh a, g1, Out.bind, List.map_cons]
    · cases j with
      | zero =>
        simp only [List.getElem?_cons_zero, Option.some.injEq] at hj
        subst hj
        simpa using hh
      | succ j =>
        rw [List.getElem?_cons_succ] at hj
        have := g3 j k hj
        rwa [show off + t.size + j * t.size = off + (j + 1) * t.size by rw [Nat.succ_mul]; omega] at this

/-- **C99** (arrays, reading).  Reading doubles through a handle on an array of adapted integers gives, in order, what the adaptation
shows for each integer in memory. -/
theorem C99_array_get {lm : Libm} {ad : Pos → Option Adaptation} {e : MEnv} (wfr : e.env.root.WF) {cs : List Criterion} {m : Mgr}
    (h : MReachable e cs m) {p : Pos} {t : IntType} {len off : Nat} (hi : IntsAt e.env.root p t len off) {a : Adaptation}
    (ha : ad p = some a) :
    ∃ ns : List Int, m.getAsDoubleArray lm ad e p = .ok (ns.map (a.toUser lm)) ∧ ns.length = len ∧
      ∀ j k, ns[j]? = some k → HoldsInt t m.st.mem.main (off + j * t.size) k := by
  have hm := (h.reachable.inv wfr).main
  obtain ⟨el, h1, h2, h3, wf, h0⟩ := hi
  have hroom := wfr.area_main h1 h3
  have hsz : el.areaSize = len * t.size := by
    obtain ⟨nm, k, sy, xs⟩ := el
    simp only [Elem.kind] at h2
    subst h2
    simp [Elem.areaSize, Elem.kind, Elem.footprint, EKind.ownSize, ArrayType.footprint, ScalarType.size, Nat.mul_comm]
  have hg : m.getAsDoubleArray lm ad e p = getDoubles lm t (some a) m.st.mem.main off len := by
    simp [Mgr.getAsDoubleArray, h1, h2, h3, ha, EKind.getValid, EKind.isParameter, EKind.arrayLength, h0]
  rw [hg]
  exact getDoubles_ok lm wf a m.st.mem.main len off (by omega)

/-- **C99** (arrays, histories).  Sets of doubles on arrays of adapted integers are operations of a history too. -/
theorem C99_array_history {lm : Libm} {ad : Pos → Option Adaptation} {e : MEnv} {cs : List Criterion} {m : Mgr} (h : MReachable e cs m)
    {p : Pos} {t : IntType} {len off : Nat} (hi : IntsAt e.env.root p t len off) (ds : List F64)
    (hok : (m.setAsDoubleArray lm ad e p ds).1 ≠ .abort) : MReachable e cs (m.setAsDoubleArray lm ad e p ds).2 := by
  obtain ⟨r1, r2, r3⟩ := C99_array_access lm ad e m p t len off hi ds
  by_cases hc : e.env.root.isRogue m.st.attached p = false ∨ ds.length ≠ len
  · rw [r1 hc]; exact h
  · have hv : e.env.root.isRogue m.st.attached p = true := by
      cases hq : e.env.root.isRogue m.st.attached p with
      | true => rfl
      | false => exact absurd (.inl hq) hc
    have hl : ds.length = len := by
      by_contra hq
      exact hc (.inr hq)
    cases ht : m.tuning with
    | true => rw [r2 hv hl ht]; exact h
    | false =>
      cases ha : ad p with
      | none =>
        rw [r3 ht ha]; exact h
      | some a =>
        rcases givesAll_split lm a t ds with ⟨ns, hg⟩ | ⟨ds1, ns, d, rest, rfl, hg, hr | hr⟩
        · have e1 := C99_array_same lm ad e m p t len off hi hv ht a ha ds hl ns hg
          rw [e1] at hok ⊢
          exact h.step trivial hok
        · have e1 := Mgr.setAsDoubleArray_texts hi hv ht ha hl hg hr
          rw [e1] at hok ⊢
          exact h.step trivial hok
        · exfalso
          apply hok
          rw [Mgr.setAsDoubleArray_open lm hi hv ht hl, ha, setDoubles_run hg]
          rcases hq : setElems t.size m.st.mem.main off (ns.map fun n => some (BitVec.ofInt 32 n)) with ⟨⟨⟩ | _ | _, b⟩
          · simp only [setDoubles_abort hr]
          · exact absurd hq (by
              have e1 : (ns.map fun n => some (BitVec.ofInt 32 n)) = (ns.map (BitVec.ofInt 32 ·)).map some := by simp
              rw [e1]
              exact fun h => setElems_some_not_err _ _ _ _ _ h)
          · rfl

/-! On the sample: the volume, from -100 to 100, in tenths above an offset of 5. -/

namespace SampleAdapt

/-- The volume is adapted. -/
def volume : Pos → Option Adaptation := fun p => if p = [0, 0, 0] then some tenths else none

/-- No domain, tuning mode off. -/
def fresh : Mgr := Mgr.initial Sample.root Sample.criteria

theorem volume_at : IntAt Sample.menv.env.root [0, 0, 0] ⟨true, 2, -100, 100⟩ 0 :=
  ⟨_, rfl, rfl, by decide, ⟨by decide, by decide, by decide, by decide⟩⟩

/-- After setting 123.5. -/
def louder : Mgr := (fresh.setAsDouble lib volume Sample.menv [0, 0, 0] (.fin (247 / 2))).2

end SampleAdapt

example : Sample.menv.env.root.isRogue SampleAdapt.fresh.st.attached [0, 0, 0] = true ∧ SampleAdapt.fresh.tuning = false ∧
    MReachable Sample.menv Sample.criteria SampleAdapt.fresh := ⟨by decide +kernel, rfl, .start⟩

-- 17 is stored and sent to the hardware; 120 is read; 1000 is refused
example : (SampleAdapt.fresh.setAsDouble SampleAdapt.lib SampleAdapt.volume Sample.menv [0, 0, 0] (.fin (247 / 2))).1 = .ok () ∧
    SampleAdapt.louder.st.mem.main.take 3 = [17#8, 0#8, 0#8] ∧ SampleAdapt.louder.st.mem.log.map (·.syncer) = [1] ∧
    SampleAdapt.louder.getAsDouble SampleAdapt.lib SampleAdapt.volume Sample.menv [0, 0, 0] = .ok (.fin 120) ∧
    (SampleAdapt.louder.setAsDouble SampleAdapt.lib SampleAdapt.volume Sample.menv [0, 0, 0] (.fin 1000)).1 = .err := by
  decide +kernel

-- in a domain, it is refused
example : Sample.menv.env.root.isRogue Sample.mgr.st.attached [0, 0, 0] = false ∧
    (Sample.mgr.setAsDouble SampleAdapt.lib SampleAdapt.volume Sample.menv [0, 0, 0] (.fin 100)).1 = .err := by decide +kernel

/-! An array of three adapted integers. -/

namespace SampleAdapt

/-- A subsystem with one array. -/
def gainRoot : Elem := .mk (s "Sys") (.group (s "SystemClass")) none
  [.mk (s "sub") (.group (s "Subsystem")) none [.mk (s "gains") (.array ⟨.int type, 3⟩) (some 1) []]]

/-- The manager of it. -/
def gainEnv : MEnv := ⟨⟨gainRoot, Sample.env.hw, Sample.env.rd⟩, true, fun _ => 0⟩

theorem gainRoot_wf : gainRoot.WF := by
  refine .group ?_ (by simp [Elem.kind])
  intro c hc
  simp only [List.mem_singleton] at hc
  subst hc
  refine .group ?_ (by simp [Elem.kind])
  intro c hc
  simp only [List.mem_singleton] at hc
  subst hc
  exact .array (.inl rfl)

theorem gains_at : IntsAt gainEnv.env.root [0, 0] type 3 0 := ⟨_, rfl, rfl, by decide, type_wf, by decide⟩

/-- The array is adapted. -/
def gains : Pos → Option Adaptation := fun _ => some tenths

end SampleAdapt

-- 10, 20 and 30 are stored as 6, 7 and 8; of 50, 100000 and 70 the first stays written, and the hardware is not called
example :
    let m0 := Mgr.initial SampleAdapt.gainRoot []
    let m1 := (m0.setAsDoubleArray SampleAdapt.lib SampleAdapt.gains SampleAdapt.gainEnv [0, 0] [.fin 10, .fin 20, .fin 30]).2
    let r2 := m1.setAsDoubleArray SampleAdapt.lib SampleAdapt.gains SampleAdapt.gainEnv [0, 0] [.fin 50, .fin 100000, .fin 70]
    SampleAdapt.gainEnv.env.root.isRogue m0.st.attached [0, 0] = true ∧
    m1.st.mem.main = [6#8, 7#8, 8#8] ∧ m1.st.mem.log.length = 1 ∧
    m1.getAsDoubleArray SampleAdapt.lib SampleAdapt.gains SampleAdapt.gainEnv [0, 0] = .ok [.fin 10, .fin 20, .fin 30] ∧
    r2.1 = .err ∧ r2.2.st.mem.main = [10#8, 7#8, 8#8] ∧ r2.2.st.mem.log.length = 1 := by decide +kernel

example : GivesAll SampleAdapt.lib SampleAdapt.tenths SampleAdapt.type [.fin 10, .fin 20, .fin 30] [6, 7, 8] ∧
    Refuses SampleAdapt.lib SampleAdapt.tenths SampleAdapt.type (.fin 100000) :=
  ⟨.cons (by decide +kernel) (.cons (by decide +kernel) (.cons (by decide +kernel) .nil)), .inr ⟨10005, by decide +kernel, by decide⟩⟩

end PF
