import Verif.Lemmas.ConcurrentOps
import Verif.Spec.Manager

/-!
# C54: concurrent accesses

`Linearisable spec code prog s`: whatever the schedule of the threads, there is an order of the operations
that explains all the answers and, when no thread holds the mutex, the state (Spec/Concurrency.lean).
-/

namespace PF

/-- C54: typed gets and sets through handles, gets and sets of parameters by their text, and
applications of configurations, by any number of threads and with any schedule, behave as if they were
run one after the other, as long as no thread changes the tuning mode. -/
theorem C54_serialised (e : MEnv) (wf : e.env.root.WF) (m : Mgr) (prog : Nat → List COp)
    (h : ∀ i, ∀ op ∈ prog i, op.Locked ∧ op.KeepsMode) :
    Linearisable (fun op s out => out = COp.alone e s op) (COp.code e) prog m := by
  have := linearisable (I := Steady true m) (J := SameMode) (spec := fun op => op.may true e) (prog := prog) (s0 := m)
    (code := COp.code e) (fun _ => rfl) ⟨rfl, rfl, rfl, rfl, fun _ => rfl⟩
    (fun i op hop => COp.before wf true m op (h i op hop).1 fun _ => (h i op hop).2)
  have hs : (fun op : COp => op.may true e) = fun op s out => out = COp.alone e s op := by
    funext op s out
    simp [COp.may]
  rw [hs] at this
  exact this

/-- C54, for threads that may also change the tuning mode: the same, but a set that has seen the tuning
mode off (or, for a set by text, on), or a change of the mode that was not refused, may act later,
whatever the mode has become.
Missing: the full statement, which `C54_late_set` refutes, and the accesses by bytes and XML, which
`C54_torn_read` refutes. -/
theorem C54_serialised_with_mode_changes_partial (e : MEnv) (wf : e.env.root.WF) (m : Mgr)
    (prog : Nat → List COp) (h : ∀ i, ∀ op ∈ prog i, op.Locked) :
    Linearisable (fun op s out => out = COp.alone e s op ∨ op.late e s = some out) (COp.code e) prog m := by
  have := linearisable (I := Steady false m) (J := SameMode) (spec := fun op => op.may false e) (prog := prog) (s0 := m)
    (code := COp.code e) (fun _ => rfl) ⟨rfl, rfl, rfl, rfl, fun h => absurd h (by simp)⟩
    (fun i op hop => COp.before wf false m op (h i op hop) (fun h => absurd h (by simp)))
  have hs : (fun op : COp => op.may false e) = fun op s out => out = COp.alone e s op ∨ op.late e s = some out := by
    funext op s out
    simp [COp.may]
  rw [hs] at this
  exact this

/-- The application of configurations done by several steps. -/
def applyIn (e : MEnv) : List (Mgr → Mgr) → CRes → Code Mgr CRes
  | [], r => leave r
  | f :: fs, r => .act f fun _ => applyIn e fs r

/-- C54: the application of configurations need not be one step: other threads may be scheduled between
any steps it is made of. -/
theorem C54_application_in_steps (e : MEnv) (wf : e.env.root.WF) (m : Mgr) (prog : Nat → List COp)
    (h : ∀ i, ∀ op ∈ prog i, op.Locked ∧ op.KeepsMode) (steps : List (Mgr → Mgr))
    (hs : ∀ s, steps.foldl (fun s f => f s) s = (s.applyConfigurations e).2)
    (keep : ∀ f ∈ steps, ∀ s, (f s).st.attached = s.st.attached ∧ (f s).raw = s.raw ∧ (f s).hex = s.hex ∧
      (f s).autoSync = s.autoSync ∧ (f s).tuning = s.tuning) :
    Linearisable (fun op s out => out = COp.alone e s op)
      (fun op => if op = .apply then
          .lock (.look fun s => applyIn e steps (.unit (s.applyConfigurations e).1)) else op.code e) prog m := by
  have fin : ∀ (fs : List (Mgr → Mgr)) (r : CRes) (s : Mgr), (applyIn e fs r).finish s = (r, fs.foldl (fun s f => f s) s) := by
    intro fs
    induction fs with
    | nil => intro r s; rfl
    | cons f fs ih => intro r s; simp only [applyIn, Code.finish, ih, List.foldl_cons]
  have mode : ∀ (fs : List (Mgr → Mgr)), (∀ f ∈ fs, f ∈ steps) → ∀ s : Mgr, (fs.foldl (fun s f => f s) s).tuning = s.tuning := by
    intro fs
    induction fs with
    | nil => intro _ s; rfl
    | cons f fs ih =>
      intro hin s
      simp only [List.foldl_cons]
      rw [ih (fun g hg => hin g (by simp [hg]))]
      exact (keep f (hin f (by simp)) s).2.2.2.2
  have sect : ∀ (fs : List (Mgr → Mgr)), (∀ f ∈ fs, f ∈ steps) → ∀ r, Sect (Steady true m) SameMode (applyIn e fs r) := by
    intro fs
    induction fs with
    | nil => intro _ r; exact ⟨r, rfl⟩
    | cons f fs ih =>
      intro hin r s hI
      have hk := keep f (hin f (by simp)) s
      refine ⟨⟨hk.1.trans hI.attached, hk.2.1.trans hI.raw, hk.2.2.1.trans hI.hex, hk.2.2.2.1.trans hI.autoSync,
        fun h => hk.2.2.2.2.trans (hI.tuning h)⟩, ih (fun g hg => hin g (by simp [hg])) r, ?_⟩
      rw [fin]
      exact (mode fs (fun g hg => hin g (by simp [hg])) (f s)).symm
  refine linearisable (I := Steady true m) (J := SameMode) (fun _ => rfl) ⟨rfl, rfl, rfl, rfl, fun _ => rfl⟩ ?_
  intro i op hop
  have hb := COp.before wf true m op (h i op hop).1 fun _ => (h i op hop).2
  have hsp : op.may true e = fun s out => out = COp.alone e s op := by
    funext s out
    simp [COp.may]
  rw [hsp] at hb
  by_cases ha : op = .apply
  · subst ha
    simp only [if_true]
    refine ⟨fun s _ => sect steps (fun _ h => h) _, fun s _ => ?_⟩
    simp only [Code.finish]
    rw [fin, hs]
    rfl
  · simp only [ha, if_false]
    exact hb

/-- C54: the mutex is always released: whatever has been scheduled, any thread can still be run to the
end of its program. -/
theorem C54_no_deadlock (e : MEnv) (wf : e.env.root.WF) (m : Mgr) (prog : Nat → List COp)
    (h : ∀ i, ∀ op ∈ prog i, op.Locked) (sch : List Nat) (i : Nat) :
    ∃ more, (((Sys.start prog m).run (COp.code e) (sch ++ more)).threads i).cur = none ∧
      (((Sys.start prog m).run (COp.code e) (sch ++ more)).threads i).todo = [] :=
  can_finish (I := Steady false m) (J := SameMode) (spec := fun op => op.may false e) (fun _ => rfl)
    ⟨rfl, rfl, rfl, rfl, fun h => absurd h (by simp)⟩
    (fun i op hop => COp.before wf false m op (h i op hop) (fun h => absurd h (by simp))) sch i

/-! ## Examples and counterexamples -/

namespace Sample

/-- No domain: all the parameters can be set through handles. -/
def bare : Mgr := Mgr.initial root criteria

/-- One thread sets `vol`, another one applies configurations and gets `vol`. -/
def twoThreads : Nat → List COp
  | 0 => [.set [0, 0, 0] (.one (.sint 90#32))]
  | 1 => [.apply, .get [0, 0, 0] .sint]
  | _ => []

/-- The hypotheses hold of the two threads; with the set interrupted between its two bytes the get waits
for its end. -/
example : (∀ i, ∀ op ∈ twoThreads i, op.Locked ∧ op.KeepsMode) ∧
    let s := (Sys.start twoThreads bare).run (COp.code menv)
      ([0, 0, 0, 0, 0, 0] ++ List.replicate 20 1 ++ List.replicate 5 0 ++ List.replicate 20 1)
    s.owner = none ∧ s.shared.st.mem.main.take 2 = [90#8, 0#8] ∧ (s.threads 0).done = [.unit (.ok ())] ∧
      (s.threads 1).done = [.unit (.ok ()), .atom (.ok (.sint 90#32))] := by
  refine ⟨?_, by decide +kernel⟩
  intro i op hop
  match i, hop with
  | 0, hop => simp [twoThreads] at hop; subst hop; exact ⟨trivial, trivial⟩
  | 1, hop =>
    simp [twoThreads] at hop
    rcases hop with rfl | rfl <;> exact ⟨trivial, trivial⟩
  | n + 2, hop => simp [twoThreads] at hop

/-- The hypotheses of `C54_application_in_steps` hold of an application made of two steps, the second of
which does nothing. -/
example : ∃ steps : List (Mgr → Mgr), steps.length = 2 ∧
    (∀ s, steps.foldl (fun s f => f s) s = (s.applyConfigurations menv).2) ∧
    ∀ f ∈ steps, ∀ s, (f s).st.attached = s.st.attached ∧ (f s).raw = s.raw ∧ (f s).hex = s.hex ∧
      (f s).autoSync = s.autoSync ∧ (f s).tuning = s.tuning := by
  refine ⟨[fun s => (s.applyConfigurations menv).2, id], rfl, fun _ => rfl, ?_⟩
  intro f hf s
  simp only [List.mem_cons, List.not_mem_nil, or_false] at hf
  rcases hf with rfl | rfl
  · simp only [Mgr.applyConfigurations]
    split
    · exact ⟨apply_attached _ _ _, rfl, rfl, rfl, rfl⟩
    · exact ⟨rfl, rfl, rfl, rfl, rfl⟩
  · exact ⟨rfl, rfl, rfl, rfl, rfl⟩

/-- One thread sets the bytes of `vol` to -5, another one gets `vol`. -/
def torn : Nat → List COp
  | 0 => [.setBytes [0, 0, 0] [0xFB#8, 0xFF#8]]
  | 1 => [.get [0, 0, 0] .sint]
  | _ => []

/-- One thread sets `vol`, another one enters tuning mode and then gets `vol`. -/
def racing : Nat → List COp
  | 0 => [.set [0, 0, 0] (.one (.sint 90#32))]
  | 1 => [.setTuningMode true, .get [0, 0, 0] .sint]
  | _ => []

/-- The set looks at the tuning mode; the other thread runs; the set writes. -/
def lateSchedule : List Nat := [0, 0, 0] ++ List.replicate 40 1 ++ List.replicate 10 0

end Sample

/-- What is in the order of thread `i` is in the order. -/
theorem mem_opsOf {α : Type} {i : Nat} {ord : List (Nat × α)} {x : α} : x ∈ opsOf i ord ↔ (i, x) ∈ ord := by
  simp only [opsOf, List.mem_filterMap]
  constructor
  · rintro ⟨⟨j, y⟩, h, hx⟩
    split at hx
    · rename_i hj
      have hj : j = i := hj
      injection hx with hx
      have hx : y = x := hx
      rw [← hx, ← hj]; exact h
    · cases hx
  · intro h
    exact ⟨_, h, by simp⟩

/-- C54 is false of the accesses by bytes: they do not take the mutex.  A handle that sets a parameter from
0 to -5 by its bytes lets another handle read 251, which is neither and is outside the declared range
-100 .. 100. -/
theorem C54_torn_read :
    ∃ (e : MEnv) (m : Mgr) (prog : Nat → List COp) (sch : List Nat), e.env.root.WF ∧
      ((((Sys.start prog m).run (COp.code e) sch).threads 1).done = [.atom (.ok (.sint 251#32))]) ∧
      ¬ Linearisable (fun op s out => out = COp.alone e s op) (COp.code e) prog m := by
  refine ⟨Sample.menv, Sample.bare, Sample.torn, [0, 0] ++ List.replicate 20 1, Sample.wf, by decide +kernel, ?_⟩
  rintro ⟨ord, _, h⟩
  have hx := h ([0, 0] ++ List.replicate 20 1)
  obtain ⟨s1, hrun, _⟩ := hx.serial
  have hd := hx.answers 1
  rw [show ((Sys.run (COp.code Sample.menv) (Sys.start Sample.torn Sample.bare) ([0, 0] ++ List.replicate 20 1)).threads 1).done =
    [CRes.atom (.ok (.sint 251#32))] by decide +kernel] at hd
  have hprog : ∀ i op r, (i, op, r) ∈ ord ([0, 0] ++ List.replicate 20 1) →
      op = .setBytes [0, 0, 0] [0xFB#8, 0xFF#8] ∨ op = .get [0, 0, 0] .sint := by
    intro i op r hm
    have h1 : op ∈ Sample.torn i := (hx.programs i).subset (List.mem_map.2 ⟨(op, r), mem_opsOf.2 hm, rfl⟩)
    match i, h1 with
    | 0, h1 => left; simpa [Sample.torn] using h1
    | 1, h1 => right; simpa [Sample.torn] using h1
    | n + 2, h1 => simp [Sample.torn] at h1
  have inv : ∀ l s, SerialRun (fun op s out => out = COp.alone Sample.menv s op) Sample.bare l s →
      (∀ i op r, (i, op, r) ∈ l → op = .setBytes [0, 0, 0] [0xFB#8, 0xFF#8] ∨ op = .get [0, 0, 0] .sint) →
      (s.st.mem.main = List.replicate 10 0#8 ∨ s.st.mem.main = [0xFB#8, 0xFF#8] ++ List.replicate 8 0#8) ∧
      ∀ i op r, (i, op, r) ∈ l → r ≠ .atom (.ok (.sint 251#32)) := by
    intro l s hr
    induction hr with
    | nil => intro _; exact ⟨.inl (by decide +kernel), by simp⟩
    | snoc hprev hspec ih =>
      rename_i l s i op r s2
      intro hops
      obtain ⟨h1, h2⟩ := ih fun i op r hm => hops i op r (by simp [hm])
      have key : (s2.st.mem.main = List.replicate 10 0#8 ∨ s2.st.mem.main = [0xFB#8, 0xFF#8] ++ List.replicate 8 0#8) ∧
          r ≠ .atom (.ok (.sint 251#32)) := by
        have hr : r = (COp.alone Sample.menv s op).1 := congrArg Prod.fst hspec
        have hs : s2 = (COp.alone Sample.menv s op).2 := congrArg Prod.snd hspec
        rcases hops i op r (by simp) with rfl | rfl
        · have hb : Sample.root.setBytes s.st.mem.main [0, 0, 0] [0xFB#8, 0xFF#8] =
              .ok ([0xFB#8, 0xFF#8] ++ List.replicate 8 0#8) := by
            rcases h1 with h1 | h1 <;> rw [h1] <;> decide +kernel
          rw [hr, hs]
          simp only [COp.alone, Env.setMainBytes, show Sample.menv.env.root = Sample.root from rfl, hb]
          split
          · rename_i heq
            split at heq <;> (injection heq with h1 h2; rw [← h2]; exact ⟨.inr rfl, by simp⟩)
          · rename_i heq
            split at heq <;> (injection heq with h1 h2; cases h1)
          · rename_i heq
            split at heq <;> (injection heq with h1 h2; cases h1)
        · have hg : Sample.root.getAs s.st.mem.main [0, 0, 0] .sint ≠ .ok (.sint 251#32) := by
            rcases h1 with h1 | h1 <;> rw [h1] <;> decide +kernel
          rw [hr, hs]
          refine ⟨h1, ?_⟩
          intro hc
          injection hc with hc
          exact hg hc
      refine ⟨key.1, fun i' op' r' hm => ?_⟩
      rcases List.mem_append.1 hm with hm | hm
      · exact h2 _ _ _ hm
      · simp only [List.mem_cons, Prod.mk.injEq, List.not_mem_nil, or_false] at hm
        rw [hm.2.2]; exact key.2
  have hmem : CRes.atom (.ok (.sint 251#32)) ∈ (opsOf 1 (ord ([0, 0] ++ List.replicate 20 1))).map Prod.snd :=
    hd.subset (by simp)
  obtain ⟨⟨op, r⟩, hm, hr⟩ := List.mem_map.1 hmem
  exact (inv _ _ hrun hprog).2 1 op r (mem_opsOf.1 hm) hr

theorem SerialRun.no_value {e : MEnv} {m s : Mgr} {l : List (Nat × COp × CRes)}
    (h : SerialRun (fun op s out => out = COp.alone e s op) m l s) (i : Nat) (p : Pos) (v : HVal) (o : Out Atom) :
    (i, COp.set p v, CRes.atom o) ∉ l := by
  induction h with
  | nil => simp
  | snoc _ hspec ih =>
    rename_i s1 j op r s2 _
    intro hm
    rcases List.mem_append.1 hm with hm | hm
    · exact ih hm
    · simp only [List.mem_cons, Prod.mk.injEq, List.not_mem_nil, or_false] at hm
      have hr : r = (COp.alone e s1 op).1 := congrArg Prod.fst hspec
      rw [← hm.2.1, ← hm.2.2] at hr
      cases hr

theorem Sample.set_vol (m : Mgr) (ha : m.st.attached = []) (ht : m.tuning = false)
    (hm : m.st.mem.main = List.replicate 10 0#8 ∨ m.st.mem.main = 90#8 :: List.replicate 9 0#8) :
    ∃ m', COp.alone Sample.menv m (.set [0, 0, 0] (.one (.sint 90#32))) = (.unit (.ok ()), m') ∧
      m'.tuning = false ∧ m'.st.attached = [] ∧ m'.st.mem.main = 90#8 :: List.replicate 9 0#8 := by
  obtain ⟨el, hel⟩ : ∃ el, Sample.root.at? [0, 0, 0] = some el := ⟨_, rfl⟩
  have hoff : Sample.root.offset 0 [0, 0, 0] = some 0 := by decide +kernel
  have hv : Sample.root.setValid [] [0, 0, 0] (.one (.sint 90#32)) = true := by decide +kernel
  have hk : el.kind = .scalar Sample.int16 := by
    have : (Sample.root.at? [0, 0, 0]).map Elem.kind = some (.scalar Sample.int16) := rfl
    rw [hel] at this
    simpa using this
  have hset : setParamVal .none (.scalar Sample.int16) m.st.mem.main 0 (.one (.sint 90#32)) =
      (.ok (), 90#8 :: List.replicate 9 0#8) := by
    rcases hm with h1 | h1 <;> rw [h1] <;> decide +kernel
  have hsy : Sample.root.getSyncer none [0, 0, 0] = some 1 := by decide +kernel
  have e1 : Sample.menv.env.root = Sample.root := rfl
  have e2 : Sample.menv.env.rd = .none := rfl
  have e3 : Sample.menv.env.hw = fun _ _ _ => none := rfl
  simp only [COp.alone, Mgr.handleSet, Mgr.run, DomOp.step, Env.setMainVal, Env.syncParam, e1, e2, e3, ha, ht, hv, hel, hk,
    hoff, hset, hsy]
  exact ⟨_, rfl, rfl, rfl, rfl⟩

/-- C54 is false when tuning mode is entered at the same time: a handle looks at the tuning mode before it
takes the mutex.  A thread that has entered tuning mode and read a parameter can see it change
afterwards by a set that was to be ignored in tuning mode. -/
theorem C54_late_set :
    ∃ (e : MEnv) (m : Mgr) (prog : Nat → List COp), e.env.root.WF ∧ (∀ i, ∀ op ∈ prog i, op.Locked) ∧
      ¬ Linearisable (fun op s out => out = COp.alone e s op) (COp.code e) prog m := by
  refine ⟨Sample.menv, Sample.bare, Sample.racing, Sample.wf, ?_, ?_⟩
  · intro i op hop
    match i, hop with
    | 0, hop => simp [Sample.racing] at hop; subst hop; trivial
    | 1, hop =>
      simp [Sample.racing] at hop
      rcases hop with rfl | rfl <;> trivial
    | n + 2, hop => simp [Sample.racing] at hop
  rintro ⟨ord, _, h⟩
  have hx := h Sample.lateSchedule
  obtain ⟨s1, hrun, hfin⟩ := hx.serial
  have hd := hx.answers 1
  rw [show ((Sys.run (COp.code Sample.menv) (Sys.start Sample.racing Sample.bare) Sample.lateSchedule).threads 1).done =
    [CRes.unit (.ok ()), CRes.atom (.ok (.sint 0#32))] by decide +kernel] at hd
  have hend := hfin (by decide +kernel)
  have hmain : s1.st.mem.main = 90#8 :: List.replicate 9 0#8 := by rw [← hend]; decide +kernel
  generalize ord Sample.lateSchedule = l at *
  have inv : ∀ l s, SerialRun (fun op s out => out = COp.alone Sample.menv s op) Sample.bare l s →
      (∀ i, (opsOf i l).map Prod.fst <+: Sample.racing i) →
      s.st.attached = [] ∧
      (s.st.mem.main = List.replicate 10 0#8 ∨ s.st.mem.main = 90#8 :: List.replicate 9 0#8) ∧
      (s.tuning = false → ∀ r, (1, COp.setTuningMode true, r) ∉ l) ∧
      (s.st.mem.main = 90#8 :: List.replicate 9 0#8 → ∀ i op, (i, op, CRes.atom (.ok (.sint 0#32))) ∉ l) := by
    intro l s hr
    induction hr with
    | nil => intro _; exact ⟨rfl, .inl (by decide +kernel), by simp, by simp⟩
    | snoc hprev hspec ih =>
      rename_i l s i op r s2
      intro hprog
      have hprog' : ∀ i, (opsOf i l).map Prod.fst <+: Sample.racing i := by
        intro j
        refine List.IsPrefix.trans ?_ (hprog j)
        rw [opsOf_append, List.map_append]
        exact List.prefix_append _ _
      obtain ⟨h0, h1, h2, h3⟩ := ih hprog'
      have hop : op ∈ Sample.racing i :=
        (hprog i).subset (List.mem_map.2 ⟨(op, r), mem_opsOf.2 (by simp), rfl⟩)
      -- a get is after the change of mode
      have horder : (∃ r, (1, COp.get [0, 0, 0] .sint, r) ∈ l) → ∃ r, (1, COp.setTuningMode true, r) ∈ l := by
        rintro ⟨r, hm⟩
        have hm1 : COp.get [0, 0, 0] .sint ∈ (opsOf 1 l).map Prod.fst := List.mem_map.2 ⟨_, mem_opsOf.2 hm, rfl⟩
        obtain ⟨t, ht⟩ := hprog' 1
        cases hl : (opsOf 1 l).map Prod.fst with
        | nil => rw [hl] at hm1; cases hm1
        | cons a as =>
          rw [hl] at ht
          have ha : a = COp.setTuningMode true := by
            have := congrArg List.head? ht
            simpa [Sample.racing] using this
          have : COp.setTuningMode true ∈ (opsOf 1 l).map Prod.fst := by rw [hl, ha]; simp
          obtain ⟨⟨op', r'⟩, hm', ho'⟩ := List.mem_map.1 this
          have ho' : op' = COp.setTuningMode true := ho'
          exact ⟨r', by rw [← ho']; exact mem_opsOf.1 hm'⟩
      have hwho : ∀ i op r, (i, op, r) ∈ l → op ∈ Sample.racing i := by
        intro j op' r' hm
        exact (hprog' j).subset (List.mem_map.2 ⟨(op', r'), mem_opsOf.2 hm, rfl⟩)
      have hr : r = (COp.alone Sample.menv s op).1 := congrArg Prod.fst hspec
      have hs : s2 = (COp.alone Sample.menv s op).2 := congrArg Prod.snd hspec
      obtain ⟨⟨⟨main, log⟩, cs, ds, att, nx, asked⟩, tu, au, ra, he⟩ := s
      have h0 : att = [] := h0
      subst h0
      match i, hop with
      | 0, hop =>
        have hop : op = .set [0, 0, 0] (.one (.sint 90#32)) := by simpa [Sample.racing] using hop
        subst hop
        cases tu with
        | true =>
          -- skipped
          have hsk : COp.alone Sample.menv ⟨⟨⟨main, log⟩, cs, ds, [], nx, asked⟩, true, au, ra, he⟩ (.set [0, 0, 0] (.one (.sint 90#32))) =
              (.unit (.ok ()), ⟨⟨⟨main, log⟩, cs, ds, [], nx, asked⟩, true, au, ra, he⟩) := by
            have hv : Sample.menv.env.root.setValid [] [0, 0, 0] (.one (.sint 90#32)) = true := by decide +kernel
            simp [COp.alone, Mgr.handleSet, hv]
          rw [hsk] at hs hr
          subst hs hr
          refine ⟨rfl, h1, by simp, fun hb j op' hm => ?_⟩
          rcases List.mem_append.1 hm with hm | hm
          · exact h3 hb _ _ hm
          · simp at hm
        | false =>
          have hno := h2 rfl
          have hnoget : ∀ i op, (i, op, CRes.atom (.ok (.sint 0#32))) ∉ l := by
            intro j op' hm
            match j, hwho j op' _ hm with
            | 0, hin =>
              have hin : op' = .set [0, 0, 0] (.one (.sint 90#32)) := by simpa [Sample.racing] using hin
              subst hin
              -- the answer of a set is not a value
              exact absurd hm (SerialRun.no_value hprev _ _ _ _)
            | 1, hin =>
              have hin : op' = .setTuningMode true ∨ op' = .get [0, 0, 0] .sint := by simpa [Sample.racing] using hin
              rcases hin with rfl | rfl
              · exact hno _ hm
              · obtain ⟨r', hr'⟩ := horder ⟨_, hm⟩
                exact hno _ hr'
            | n + 2, hin => simp [Sample.racing] at hin
          obtain ⟨m', hm', hm2⟩ := Sample.set_vol ⟨⟨⟨main, log⟩, cs, ds, [], nx, asked⟩, false, au, ra, he⟩ rfl rfl h1
          rw [hm'] at hs hr
          have hs : s2 = m' := hs
          subst hs
          refine ⟨hm2.2.1, .inr hm2.2.2, fun _ r' hm => ?_, fun _ j op' hm => ?_⟩
          · rcases List.mem_append.1 hm with hm | hm
            · exact hno _ hm
            · simp at hm
          · rcases List.mem_append.1 hm with hm | hm
            · exact hnoget _ _ hm
            · simp [hr] at hm
      | 1, hop =>
        have hop : op = .setTuningMode true ∨ op = .get [0, 0, 0] .sint := by simpa [Sample.racing] using hop
        rcases hop with rfl | rfl
        · have hst : s2.tuning = true ∧ s2.st = ⟨⟨main, log⟩, cs, ds, [], nx, asked⟩ := by
            subst hs
            cases tu <;> exact ⟨rfl, rfl⟩
          refine ⟨by rw [hst.2], (by rw [hst.2]; exact h1), (fun hf => by rw [hst.1] at hf; cases hf), fun hb j op' hm => ?_⟩
          rw [hst.2] at hb
          rcases List.mem_append.1 hm with hm | hm
          · exact h3 hb _ _ hm
          · have hr' : r = .unit ((Mgr.setTuningMode Sample.menv ⟨⟨⟨main, log⟩, cs, ds, [], nx, asked⟩, tu, au, ra, he⟩ true).1) := hr
            simp [hr'] at hm
        · have hs : s2 = ⟨⟨⟨main, log⟩, cs, ds, [], nx, asked⟩, tu, au, ra, he⟩ := hs
          subst hs
          refine ⟨rfl, h1, fun ht r' hm => ?_, fun hb j op' hm => ?_⟩
          · rcases List.mem_append.1 hm with hm | hm
            · exact h2 ht _ hm
            · simp at hm
          · rcases List.mem_append.1 hm with hm | hm
            · exact h3 hb _ _ hm
            · have hb : main = _ := hb
              subst hb
              have hg : Sample.root.getAs (90#8 :: List.replicate 9 0#8) [0, 0, 0] .sint = .ok (.sint 90#32) := by decide +kernel
              have hr' : r = .atom (Sample.root.getAs (90#8 :: List.replicate 9 0#8) [0, 0, 0] .sint) := hr
              rw [hr', hg] at hm
              simp at hm
      | n + 2, hop => simp [Sample.racing] at hop
  have hmem : CRes.atom (.ok (.sint 0#32)) ∈ (opsOf 1 l).map Prod.snd := hd.subset (by simp)
  obtain ⟨⟨op, r⟩, hm, hr⟩ := List.mem_map.1 hmem
  have hr : r = CRes.atom (.ok (.sint 0#32)) := hr
  subst hr
  exact (inv _ _ hrun hx.programs).2.2.2 hmain 1 op (mem_opsOf.1 hm)

end PF
