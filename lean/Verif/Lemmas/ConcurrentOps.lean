import Verif.Lemmas.Concurrency
import Verif.Lemmas.HandleSet

/-!
# The critical sections of the operations do what the operations do alone
-/

namespace PF

/-- Bytes `off .. off + n - 1` take their values in `nb`. -/
def Board.pokes (b nb : Board) : (off n : Nat) → Board
  | _, 0 => b
  | off, n + 1 => Board.pokes (b.set off (nb.getD off 0#8)) nb (off + 1) n

theorem Board.pokes_getElem? (nb : Board) (n : Nat) : ∀ (b : Board) (off j : Nat),
    (b.pokes nb off n)[j]? = if off ≤ j ∧ j < off + n ∧ j < b.length then some (nb.getD j 0#8) else b[j]? := by
  induction n with
  | zero => intro b off j; rw [if_neg (by omega)]; rfl
  | succ n ih =>
    intro b off j
    simp only [Board.pokes]
    rw [ih]
    simp only [List.length_set]
    by_cases hj : j = off
    · subst hj
      rw [if_neg (by omega)]
      by_cases hl : j < b.length
      · rw [if_pos (by omega), List.getElem?_set_self hl]
      · rw [if_neg (by omega), List.getElem?_eq_none (by simp; omega), List.getElem?_eq_none (by omega)]
    · rw [List.getElem?_set_ne (by omega)]
      by_cases h : off + 1 ≤ j ∧ j < off + 1 + n ∧ j < b.length
      · rw [if_pos h, if_pos (by omega)]
      · rw [if_neg h, if_neg (by omega)]

theorem Board.pokes_eq {b nb : Board} {off n : Nat} (h : SameOutside b nb off n) : b.pokes nb off n = nb := by
  apply List.ext_getElem?
  intro j
  rw [Board.pokes_getElem?]
  have hl := h.1
  split
  · rename_i hj
    rw [List.getD_eq_getElem?_getD, List.getElem?_eq_getElem (by omega)]
    rfl
  · rename_i hj
    by_cases hb : j < b.length
    · exact (h.2 j (by omega)).symm
    · rw [List.getElem?_eq_none (by omega), List.getElem?_eq_none (by omega)]

/-- Bits that agree outside some bytes. -/
theorem SameOutside.of_bits {b nb : Board} {off n : Nat} (hl : nb.length = b.length)
    (h : ∀ i, i < 8 * off ∨ 8 * (off + n) ≤ i → nb.bit i = b.bit i) : SameOutside b nb off n := by
  refine ⟨hl, fun j hj => ?_⟩
  by_cases hb : j < b.length
  · rw [List.getElem?_eq_getElem hb, List.getElem?_eq_getElem (by omega)]
    congr 1
    apply BitVec.eq_of_getLsbD_eq
    intro k hk
    have := h (8 * j + k) (by omega)
    simp only [Board.bit] at this
    rw [show (8 * j + k) / 8 = j by omega, show (8 * j + k) % 8 = k by omega] at this
    simpa [List.getD_eq_getElem?_getD, List.getElem?_eq_getElem hb,
      List.getElem?_eq_getElem (show j < nb.length by omega)] using this
  · rw [List.getElem?_eq_none (by omega), List.getElem?_eq_none (by omega)]

theorem extent_in_area {e : Elem} (off : Nat) (wf : ∀ t, e.kind = .bit t → t.WF) :
    8 * off ≤ (e.extent off).1 ∧ (e.extent off).2 ≤ 8 * (off + e.areaSize) := by
  unfold Elem.extent Elem.areaSize
  cases hk : e.kind with
  | bit t => have := (wf t hk).fits; simp only; omega
  | _ => simp only; omega

theorem setParamVal_bytes {rd : Reader} {e : Elem} {b : Board} {off : Nat} (v : HVal)
    (wf : ∀ t, e.kind = .bit t → t.WF) : SameOutside b (setParamVal rd e.kind b off v).2 off e.areaSize := by
  have h := setParamVal_frame (rd := rd) (b := b) (off := off) v wf
  have hx := extent_in_area off wf
  exact SameOutside.of_bits h.1 fun i hi => h.2 i (by omega)

theorem setParamText_bytes {rd : Reader} {ctx : Ctx} {e : Elem} {b : Board} {off : Nat} (items : List Str)
    (text : Str) (wf : ∀ t, e.kind = .bit t → t.WF) :
    SameOutside b (setParamText rd ctx e.kind b off 0 items text).2 off e.areaSize := by
  have h := setParamText_frame (rd := rd) (ctx := ctx) (b := b) (off := off) (base := 0) (items := items) (text := text) wf (by omega)
  have hx := extent_in_area (e := e) off wf
  simp only [Nat.sub_zero] at h
  exact SameOutside.of_bits h.1 fun i hi => h.2 i (by omega)

/-! ## Sections -/

/-- The state inside a critical section has the tuning mode of the state at its end. -/
abbrev SameMode (m m' : Mgr) : Prop := m.tuning = m'.tuning

/-- A section that leaves the tuning mode as it is. -/
structure Calm (I : Mgr → Prop) (c : Code Mgr CRes) : Prop where
  sect : Sect I SameMode c
  mode : ∀ m, (c.finish m).2.tuning = m.tuning

theorem Calm.leave {I : Mgr → Prop} (r : CRes) : Calm I (leave r) := ⟨⟨r, rfl⟩, fun _ => rfl⟩

theorem Calm.write {I : Mgr → Prop} (hI : ∀ m mem, I m → I (m.withMem mem)) {nb : Board} {k : Code Mgr CRes}
    (hk : Calm I k) (n : Nat) : ∀ off, Calm I (writeCode nb k off n) := by
  induction n with
  | zero => intro off; exact hk
  | succ n ih =>
    intro off
    have h := ih (off + 1)
    refine ⟨fun m hm => ⟨hI _ _ hm, h.sect, ?_⟩, fun m => ?_⟩
    · exact (h.mode _).symm
    · exact h.mode _

theorem Calm.sync {I : Mgr → Prop} (hI : ∀ m mem, I m → I (m.withMem mem)) (e : MEnv) (a : Bool) (p : Pos) :
    Calm I (syncCode e a p PF.leave) :=
  ⟨fun _ hm => ⟨hI _ _ hm, ⟨_, rfl⟩, rfl⟩, fun _ => rfl⟩

theorem Calm.look {I : Mgr → Prop} {k : Mgr → Code Mgr CRes} (h : ∀ m, Calm I (k m)) : Calm I (.look k) :=
  ⟨fun m _ => (h m).sect, fun m => (h m).mode m⟩

theorem Calm.read {I : Mgr → Prop} {k : Board → Code Mgr CRes} (h : ∀ b, Calm I (k b)) (n : Nat) :
    ∀ acc off, Calm I (readCode k acc off n) := by
  induction n with
  | zero => intro acc off; exact h acc
  | succ n ih => intro acc off; exact Calm.look fun m => ih _ _

theorem Calm.snapshot {I : Mgr → Prop} {k : Board → Code Mgr CRes} (h : ∀ b, Calm I (k b)) : Calm I (snapshotCode k) :=
  Calm.look fun _ => Calm.read h _ _ _

theorem Calm.setEnd {I : Mgr → Prop} (hI : ∀ m mem, I m → I (m.withMem mem)) (e : MEnv) (a : Bool) (p : Pos) (o : Out Unit) :
    Calm I (endSet e a p o) := by
  cases o with
  | ok u => exact Calm.sync hI e a p
  | err => exact Calm.leave _
  | abort => exact Calm.leave _

/-! ## What the sections do -/

theorem write_finish (nb : Board) (k : Code Mgr CRes) (n : Nat) : ∀ (off : Nat) (m : Mgr),
    (writeCode nb k off n).finish m = k.finish (m.withMem ⟨m.st.mem.main.pokes nb off n, m.st.mem.log⟩) := by
  induction n with
  | zero => intro off m; rfl
  | succ n ih =>
    intro off m
    simp only [writeCode, Code.finish]
    rw [ih]
    rfl

theorem read_finish (k : Board → Code Mgr CRes) (n : Nat) : ∀ (acc : Board) (off : Nat) (m : Mgr),
    off + n = m.st.mem.main.length → (readCode k acc off n).finish m = (k (acc ++ m.st.mem.main.drop off)).finish m := by
  induction n with
  | zero =>
    intro acc off m h
    rw [List.drop_eq_nil_of_le (by omega), List.append_nil]
    rfl
  | succ n ih =>
    intro acc off m h
    simp only [readCode, Code.finish]
    rw [ih _ _ _ (by omega), List.append_assoc]
    have : m.st.mem.main.drop off = m.st.mem.main.getD off 0#8 :: m.st.mem.main.drop (off + 1) := by
      rw [List.drop_eq_getElem_cons (by omega), List.getD_eq_getElem?_getD, List.getElem?_eq_getElem (by omega)]
      rfl
    rw [this]
    rfl

theorem snapshot_finish (k : Board → Code Mgr CRes) (m : Mgr) :
    (snapshotCode k).finish m = (k m.st.mem.main).finish m := by
  simp only [snapshotCode, Code.finish]
  rw [read_finish _ _ _ _ _ (by omega)]
  rfl

theorem sync_finish (e : MEnv) (a : Bool) (p : Pos) (m : Mgr) :
    (syncCode e a p leave).finish m = (.unit (e.env.syncParam a p m.st.mem).1, m.withMem (e.env.syncParam a p m.st.mem).2) := rfl

theorem leave_finish (r : CRes) (m : Mgr) : (leave r).finish m = (r, m) := rfl

/-- A set, from its computation on a board. -/
theorem set_finish (e : MEnv) (a : Bool) (p : Pos) {nb : Board} {o : Out Unit} {off n : Nat} {m : Mgr}
    (h : SameOutside m.st.mem.main nb off n) :
    (writeCode nb (endSet e a p o) off n).finish m =
      match o with
      | .ok () => (.unit (e.env.syncParam a p ⟨nb, m.st.mem.log⟩).1, m.withMem (e.env.syncParam a p ⟨nb, m.st.mem.log⟩).2)
      | o => (.unit o, m.withMem ⟨nb, m.st.mem.log⟩) := by
  rw [write_finish, Board.pokes_eq h]
  cases o <;> rfl

end PF

namespace PF

/-- What no operation of the threads changes; with `fixed`, the tuning mode too. -/
structure Steady (fixed : Bool) (m0 m : Mgr) : Prop where
  attached : m.st.attached = m0.st.attached
  raw : m.raw = m0.raw
  hex : m.hex = m0.hex
  autoSync : m.autoSync = m0.autoSync
  tuning : fixed = true → m.tuning = m0.tuning

theorem Steady.withMem {fixed : Bool} {m0 m : Mgr} (mem : Mem) (h : Steady fixed m0 m) : Steady fixed m0 (m.withMem mem) :=
  ⟨h.attached, h.raw, h.hex, h.autoSync, h.tuning⟩

theorem apply_attached (env : Env) (force : Bool) (st : St) : ((DomOp.apply force).step env st).2.attached = st.attached := by
  simp only [DomOp.step, St.apply]
  repeat' split
  all_goals rfl

theorem Steady.apply {fixed : Bool} {m0 m : Mgr} (e : MEnv) (force : Bool) (h : Steady fixed m0 m) :
    Steady fixed m0 (m.run e (.apply force)).2 :=
  ⟨(apply_attached _ _ _).trans h.attached, h.raw, h.hex, h.autoSync, h.tuning⟩

/-- What an operation may do. -/
def COp.may (fixed : Bool) (e : MEnv) (op : COp) (m : Mgr) (out : CRes × Mgr) : Prop :=
  out = op.alone e m ∨ (fixed = false ∧ op.late e m = some out)

/-- The operations that only use the mutex. -/
theorem COp.before {e : MEnv} (wf : e.env.root.WF) (fixed : Bool) (m0 : Mgr) (op : COp) (hl : op.Locked)
    (hk : fixed = true → op.KeepsMode) : Before (Steady fixed m0) SameMode (op.may fixed e) (op.code e) := by
  have hI : ∀ m mem, Steady fixed m0 m → Steady fixed m0 (m.withMem mem) := fun m mem h => h.withMem mem
  cases op with
  | setBytes p bs => exact absurd hl (fun x => x)
  | getBytes p => exact absurd hl (fun x => x)
  | set p v =>
    simp only [COp.code]
    intro s1 hs1
    by_cases hv : e.env.root.setValid s1.st.attached p v = true
    · left
      simp only [hv, Bool.not_true, Bool.false_eq_true, if_false]
      intro s2 hs2
      by_cases ht : s2.tuning = true
      · right
        simp only [ht, if_true]
        refine ⟨_, rfl, fun s' hs' hj => .inl ?_⟩
        have ht' : s'.tuning = true := by rw [← ht]; exact hj.symm
        simp [COp.alone, Mgr.handleSet, ht', hs'.attached, ← hs1.attached, hv]
      · left
        simp only [ht, if_false, Bool.false_eq_true]
        have sect : ∀ m, Steady fixed m0 m → ∀ r,
            r = (CRes.unit (m.run e (.handleSet p v)).1, (m.run e (.handleSet p v)).2) → COp.may fixed e (.set p v) m r := by
          intro m hm r hr
          have hv' : e.env.root.setValid m.st.attached p v = true := by rw [hm.attached, ← hs1.attached]; exact hv
          cases hf : fixed with
          | false => exact .inr ⟨rfl, by simp [COp.late, hv', hr]⟩
          | true =>
            refine .inl ?_
            have : m.tuning = false := by
              rw [hm.tuning hf, ← hs2.tuning hf]; simpa using ht
            simp [COp.alone, Mgr.handleSet, hv', this, hr]
        cases ha : e.env.root.at? p with
        | none =>
          refine ⟨(Calm.leave _).sect, fun m hm => sect m hm _ ?_⟩
          simp [Mgr.run, DomOp.step, Env.setMainVal, ha, leave_finish]
        | some el =>
          cases hoff : e.env.root.offset 0 p with
          | none =>
            refine ⟨(Calm.leave _).sect, fun m hm => sect m hm _ ?_⟩
            simp [Mgr.run, DomOp.step, Env.setMainVal, hoff, leave_finish]
          | some off =>
            refine ⟨(Calm.look fun m => Calm.write hI (Calm.setEnd hI e true p _) _ _).sect, fun m hm => sect m hm _ ?_⟩
            have hb := setParamVal_bytes (rd := e.env.rd) (e := el) (b := m.st.mem.main) (off := off) v
              (fun t h => (wf.bit_wf ha t h).1)
            simp only [Code.finish]
            rw [set_finish e true p hb]
            simp only [Mgr.run, DomOp.step, Env.setMainVal, ha, hoff]
            generalize setParamVal e.env.rd el.kind m.st.mem.main off v = x
            obtain ⟨o, nb⟩ := x
            cases o <;> rfl
    · right
      simp only [Bool.not_eq_true] at hv
      simp only [hv, Bool.not_false, if_true]
      refine ⟨_, rfl, fun s' hs' _ => .inl ?_⟩
      simp [COp.alone, Mgr.handleSet, hs'.attached, ← hs1.attached, hv]
  | get p ty =>
    simp only [COp.code]
    intro s1 hs1
    cases ha : e.env.root.at? p with
    | none =>
      right
      refine ⟨_, rfl, fun s' hs' _ => .inl ?_⟩
      simp [COp.alone, Elem.getAs, ha]
    | some el =>
      by_cases hg : el.kind.getValid false = true
      · left
        simp only [hg, Bool.not_true, Bool.false_eq_true, if_false]
        exact ⟨(Calm.snapshot fun b => Calm.leave _).sect, fun m hm => .inl (by rw [snapshot_finish]; rfl)⟩
      · right
        simp only [Bool.not_eq_true] at hg
        simp only [hg, Bool.not_false, if_true]
        refine ⟨_, rfl, fun s' hs' _ => .inl ?_⟩
        obtain ⟨off, hoff⟩ := Elem.offset_of_at (off := 0) ha
        simp [COp.alone, Elem.getAs, ha, hg, hoff]
  | getArray p ty =>
    simp only [COp.code]
    intro s1 hs1
    cases ha : e.env.root.at? p with
    | none =>
      right
      refine ⟨_, rfl, fun s' hs' _ => .inl ?_⟩
      simp [COp.alone, Elem.getAsArray, ha]
    | some el =>
      by_cases hg : el.kind.getValid true = true
      · left
        simp only [hg, Bool.not_true, Bool.false_eq_true, if_false]
        exact ⟨(Calm.snapshot fun b => Calm.leave _).sect, fun m hm => .inl (by rw [snapshot_finish]; rfl)⟩
      · right
        simp only [Bool.not_eq_true] at hg
        simp only [hg, Bool.not_false, if_true]
        refine ⟨_, rfl, fun s' hs' _ => .inl ?_⟩
        obtain ⟨off, hoff⟩ := Elem.offset_of_at (off := 0) ha
        simp only [COp.alone, Elem.getAsArray, ha, hoff]
        cases hkd : el.kind with
        | array t =>
          have : t.length = 0 := by simpa [EKind.getValid, EKind.isParameter, EKind.arrayLength, hkd] using hg
          simp [this]
        | _ => rfl
  | apply =>
    refine ⟨fun m hm => ⟨?_, ⟨_, rfl⟩, rfl⟩, fun m hm => .inl rfl⟩
    dsimp only [Mgr.applyConfigurations]
    split
    · exact hm.apply e false
    · exact hm
  | setParameter path text =>
    simp only [COp.code]
    intro s1 hs1
    by_cases ht : s1.tuning = true
    · left
      simp only [ht, Bool.not_true, Bool.false_eq_true, if_false]
      intro s2 hs2
      left
      have sect : ∀ m, Steady fixed m0 m → ∀ r,
          r = (CRes.unit (m.run e (.setParameter m.ctx m.autoSync path text)).1, (m.run e (.setParameter m.ctx m.autoSync path text)).2) →
          COp.may fixed e (.setParameter path text) m r := by
        intro m hm r hr
        cases hf : fixed with
        | false => exact .inr ⟨rfl, by simp [COp.late, hr]⟩
        | true =>
          refine .inl ?_
          have : m.tuning = true := by rw [hm.tuning hf, ← hs1.tuning hf]; exact ht
          simp [COp.alone, MOp.step, Mgr.tuned, this, hr]
      have hctx : ∀ m, Steady fixed m0 m → m.ctx = s2.ctx ∧ m.autoSync = s2.autoSync := by
        intro m hm
        simp [Mgr.ctx, hm.raw, hm.hex, hm.autoSync, hs2.raw, hs2.hex, hs2.autoSync]
      cases htg : e.env.root.accessTarget path with
      | none =>
        refine ⟨(Calm.leave _).sect, fun m hm => sect m hm _ ?_⟩
        simp [Mgr.run, DomOp.step, Env.setMain, Elem.setText, htg, leave_finish]
      | some x =>
        obtain ⟨p, items⟩ := x
        cases ha : e.env.root.at? p with
        | none =>
          simp only [ha]
          refine ⟨(Calm.leave _).sect, fun m hm => sect m hm _ ?_⟩
          simp [Mgr.run, DomOp.step, Env.setMain, Elem.setText, htg, ha, leave_finish]
        | some el =>
          cases hoff : e.env.root.offset 0 p with
          | none =>
            simp only [ha, hoff]
            refine ⟨(Calm.leave _).sect, fun m hm => sect m hm _ ?_⟩
            simp [Mgr.run, DomOp.step, Env.setMain, Elem.setText, htg, hoff, leave_finish]
          | some off =>
            simp only [ha, hoff]
            refine ⟨(Calm.look fun m => Calm.write hI (Calm.setEnd hI e _ p _) _ _).sect, fun m hm => sect m hm _ ?_⟩
            have hb := setParamText_bytes (rd := e.env.rd) (ctx := s2.ctx) (e := el) (b := m.st.mem.main) (off := off) items text
              (fun t h => (wf.bit_wf ha t h).1)
            have hst : Elem.setText e.env.rd s2.ctx e.env.root 0 m.st.mem.main path text =
                setParamText e.env.rd s2.ctx el.kind m.st.mem.main off 0 items text := by
              simp only [Elem.setText, htg, ha, hoff]
            rw [← hst] at hb
            simp only [Code.finish]
            rw [set_finish e _ p hb]
            simp only [Mgr.run, DomOp.step, Env.setMain, (hctx m hm).1, (hctx m hm).2, htg]
            generalize Elem.setText e.env.rd s2.ctx e.env.root 0 m.st.mem.main path text = x
            obtain ⟨o, nb⟩ := x
            cases o <;> simp [Mgr.withMem, (hctx m hm).2]
    · right
      simp only [Bool.not_eq_true] at ht
      simp only [ht, Bool.not_false, if_true]
      refine ⟨_, rfl, fun s' hs' hj => .inl ?_⟩
      have ht' : s'.tuning = false := by rw [← ht]; exact hj.symm
      simp [COp.alone, MOp.step, Mgr.tuned, ht']
  | getParameter path =>
    simp only [COp.code]
    intro s1 hs1
    left
    refine ⟨(Calm.snapshot fun b => Calm.leave _).sect, fun m hm => .inl ?_⟩
    rw [snapshot_finish, leave_finish]
    simp [COp.alone, Mgr.ctx, hm.raw, hm.hex, hs1.raw, hs1.hex]
  | setTuningMode on =>
    have hf : fixed = false := by
      cases hf : fixed with
      | false => rfl
      | true => exact absurd (hk hf) (fun x => x)
    subst hf
    simp only [COp.code]
    intro s1 hs1
    by_cases ht : on = s1.tuning
    · right
      simp only [ht, if_true]
      refine ⟨_, rfl, fun s' hs' hj => .inl ?_⟩
      have hj : s1.tuning = s'.tuning := hj
      simp [COp.alone, Mgr.setTuningMode, hj]
    · simp only [ht, if_false]
      cases on with
      | true =>
        cases hal : e.allowed with
        | false =>
          right
          refine ⟨_, rfl, fun s' hs' hj => .inl ?_⟩
          simp only [COp.alone, Mgr.setTuningMode, hal]
          cases s'.tuning <;> simp
        | true =>
          left
          refine ⟨fun m hm => ⟨⟨hm.attached, hm.raw, hm.hex, hm.autoSync, by simp⟩, ⟨_, rfl⟩, rfl⟩, fun m hm => .inr ⟨rfl, ?_⟩⟩
          simp [COp.late, hal, Code.finish, leave]
      | false =>
        left
        refine ⟨fun m hm => ⟨?_, ⟨_, rfl⟩, rfl⟩, fun m hm => .inr ⟨rfl, ?_⟩⟩
        · have := hm.apply e true
          simp only [Bool.false_eq_true, if_false]
          split
          · rename_i m' hx
            rw [hx] at this
            exact ⟨this.attached, this.raw, this.hex, this.autoSync, by simp⟩
          · exact this
        · simp only [COp.late, Code.finish, leave, Bool.false_eq_true, if_false]
          generalize m.run e (.apply true) = x
          obtain ⟨o, m'⟩ := x
          cases o <;> rfl

end PF
