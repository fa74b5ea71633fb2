import Verif.Lemmas.Platform
import Verif.Props.Command

/-! # The test platform: what requests do -/

namespace PF
open Spec


theorem platRequest_item (p : PEnv) (c : Conn) {name : String} {min : Nat} {help desc : String}
    {f : Str → Conn → List Str → Option (CmdStatus × Str) × Conn} (hm : platItem name min help desc f ∈ platCommands p)
    {args : List Str} (ha : min ≤ args.length) :
    (platRequest p c (s name) args).2 = (f (s name) c args).2 ∧
    (∀ r, (f (s name) c args).1 = some (.done, r) → (platRequest p c (s name) args).1 = some (true, s "Done")) ∧
    (∀ r, (f (s name) c args).1 = some (.succeeded, r) → (platRequest p c (s name) args).1 = some (true, r)) ∧
    (∀ r, (f (s name) c args).1 = some (.failed, r) → (platRequest p c (s name) args).1 = some (false, r)) ∧
    (∀ r, (f (s name) c args).1 = some (.showUsage, r) →
      (platRequest p c (s name) args).1 = some (false, s name ++ s " " ++ s help)) ∧
    ((f (s name) c args).1 = none → (platRequest p c (s name) args).1 = none) := by
  have hn := plat_names p
  have hne : s name ≠ s "help" := fun h => by
    rw [List.nodup_cons] at hn
    exact hn.1 (List.mem_map.2 ⟨_, hm, h⟩)
  unfold platRequest
  exact C47_executed (createHandler (platCommands p)) (C47_names_distinct _) (platItem name min help desc f)
    (by rw [createHandler_eq _ hn]; exact List.mem_cons_of_mem _ hm) hne _ rfl c args ha

/-- What a parser of the test platform does, other than that of `start`. -/
structure PlatEffect (name : Str) (f : Conn → List Str → Option (CmdStatus × Str) × Conn) (c : Conn) (args : List Str) : Prop where
  refused : ∀ st t, (f c args).1 = some (st, t) → st = .failed ∨ st = .showUsage → (f c args).2 = c
  pol : (f c args).2.pol = c.pol ∨ ∃ k b, SetsTo k b (name, args) ∧ NotStarted c ∧ (f c args).2.pol = k.set c.pol b
  setup : ∀ cs, c.phase = .setup cs → ∃ cs', (f c args).2.phase = .setup cs'
  failed : ∀ cs, c.phase = .failed cs → ∃ cs', (f c args).2.phase = .failed cs'
  running : ∀ e m, c.phase = .running e m → (f c args).2.schemas = c.schemas ∧ (f c args).2.phase = .running e m ∨
    (∃ i v, (f c args).2 = { c with phase := .running e ((MOp.setCriterion i v).step e m).2 }) ∨
    (∃ r m', MOp.applyConfigurations.step e m = (r, m') ∧ r ≠ .abort ∧ (f c args).2 = { c with phase := .running e m' }) ∨
    (name = s "setSchemaUri" ∧ (f c args).2.phase = c.phase)

theorem PlatEffect.same {name : Str} {f : Conn → List Str → Option (CmdStatus × Str) × Conn} {c : Conn} {args : List Str}
    (h : (f c args).2 = c) : PlatEffect name f c args where
  refused := fun _ _ _ _ => h
  pol := .inl (by rw [h])
  setup := fun cs hc => ⟨cs, by rw [h, hc]⟩
  failed := fun cs hc => ⟨cs, by rw [h, hc]⟩
  running := fun e m hc => .inl (by rw [h]; exact ⟨rfl, hc⟩)

theorem doneOrFailed_snd (t : Str) (x : Option Bool × Conn) : (doneOrFailed t x).2 = x.2 := by
  rcases x with ⟨_ | _ | _, c⟩ <;> rfl

theorem doneOrFailed_fst {t : Str} {x : Option Bool × Conn} :
    (doneOrFailed t x).1 = x.1.map fun b => if b then (.done, []) else (.failed, t) := by
  rcases x with ⟨_ | _ | _, c⟩ <;> rfl

theorem Conn.createCriterion_cases (c : Conn) (inclusive : Bool) (name : Str) (values : List Str) :
    ((c.createCriterion inclusive name values).1 ≠ some true ∧ (c.createCriterion inclusive name values).2 = c) ∨
    ((c.createCriterion inclusive name values).1 = some true ∧ ∃ t, (CritType.new inclusive).addGenerated 0 values = .ok t ∧
      ((∃ cs, c.phase = .setup cs ∧
          (c.createCriterion inclusive name values).2 = { c with phase := .setup (cs ++ [⟨name, t, 0#32, 0#32⟩]) }) ∨
       (∃ cs, c.phase = .failed cs ∧
          (c.createCriterion inclusive name values).2 = { c with phase := .failed (cs ++ [⟨name, t, 0#32, 0#32⟩]) }))) := by
  unfold Conn.createCriterion
  cases hp : c.phase with
  | running e m => exact .inl ⟨by simp, rfl⟩
  | setup cs =>
    cases ha : (CritType.new inclusive).addGenerated 0 values with
    | ok t => exact .inr ⟨rfl, t, rfl, .inl ⟨cs, rfl, rfl⟩⟩
    | threw => exact .inl ⟨by simp, rfl⟩
    | stopped => exact .inl ⟨by simp, rfl⟩
    | endless => exact .inl ⟨by simp, rfl⟩
    | outside => exact .inl ⟨by simp, rfl⟩
  | failed cs =>
    cases ha : (CritType.new inclusive).addGenerated 0 values with
    | ok t => exact .inr ⟨rfl, t, rfl, .inr ⟨cs, rfl, rfl⟩⟩
    | threw => exact .inl ⟨by simp, rfl⟩
    | stopped => exact .inl ⟨by simp, rfl⟩
    | endless => exact .inl ⟨by simp, rfl⟩
    | outside => exact .inl ⟨by simp, rfl⟩

theorem PlatEffect.create {name : Str} {f : Conn → List Str → Option (CmdStatus × Str) × Conn} {c : Conn} {args : List Str}
    {inclusive : Bool} {n : Str} {values : List Str} {t : Str}
    (h : f c args = doneOrFailed t (c.createCriterion inclusive n values)) : PlatEffect name f c args := by
  rcases c.createCriterion_cases inclusive n values with ⟨-, h2⟩ | ⟨h1, ty, -, ⟨cs, hp, h2⟩ | ⟨cs, hp, h2⟩⟩
  · exact .same (by rw [h, doneOrFailed_snd, h2])
  · have e : (f c args).2 = { c with phase := .setup (cs ++ [⟨n, ty, 0#32, 0#32⟩]) } := by rw [h, doneOrFailed_snd, h2]
    refine ⟨fun st t' h3 h4 => ?_, .inl (by rw [e]), fun cs' h3 => ⟨_, by rw [e]⟩, fun cs' h3 => ?_, fun e m h3 => ?_⟩
    · rw [h, doneOrFailed_fst, h1] at h3
      cases h3
      rcases h4 with h4 | h4 <;> cases h4
    · rw [hp] at h3; cases h3
    · rw [hp] at h3; cases h3
  · have e : (f c args).2 = { c with phase := .failed (cs ++ [⟨n, ty, 0#32, 0#32⟩]) } := by rw [h, doneOrFailed_snd, h2]
    refine ⟨fun st t' h3 h4 => ?_, .inl (by rw [e]), fun cs' h3 => ?_, fun cs' h3 => ⟨_, by rw [e]⟩, fun e m h3 => ?_⟩
    · rw [h, doneOrFailed_fst, h1] at h3
      cases h3
      rcases h4 with h4 | h4 <;> cases h4
    · rw [hp] at h3; cases h3
    · rw [hp] at h3; cases h3

theorem PlatEffect.setter (p : PEnv) {k : Policy} {cmd : Str} (c : Conn) {args : List Str} (ha : 1 ≤ args.length) :
    PlatEffect (setterOf k) (platSetter p cmd k) c args := by
  obtain ⟨a, r, rfl⟩ := one_arg ha
  cases hb : convertBool a with
  | none => exact .same (by simp [platSetter, hb])
  | some b =>
    have e : platSetter p cmd k c (a :: r) =
        doneOrFailed (p.text cmd (a :: r)) (some (c.setPolicy k b).1, (c.setPolicy k b).2) := by simp [platSetter, hb]
    cases hs : c.isStarted with
    | true => exact .same (by rw [e, doneOrFailed_snd]; simp [Conn.setPolicy, hs])
    | false =>
      have e2 : (platSetter p cmd k c (a :: r)).2 = { c with pol := k.set c.pol b } := by
        rw [e, doneOrFailed_snd]; simp [Conn.setPolicy, hs]
      have e1 : (platSetter p cmd k c (a :: r)).1 = some (.done, []) := by
        rw [e, doneOrFailed_fst]; simp [Conn.setPolicy, hs]
      have hn : NotStarted c := fun e m hp => by simp [Conn.isStarted, hp] at hs
      refine ⟨fun st t h1 h2 => ?_, .inr ⟨k, b, ⟨a, r, rfl, convertBool_iff.1 hb⟩, hn, by rw [e2]⟩, fun cs h => ⟨cs, by rw [e2, h]⟩,
        fun cs h => ⟨cs, by rw [e2, h]⟩, fun e m h => absurd h (hn e m)⟩
      rw [e1] at h1
      cases h1
      rcases h2 with h2 | h2 <;> cases h2

theorem PlatEffect.setState (p : PEnv) {name cmd : Str} (c : Conn) {args : List Str} (ha : 2 ≤ args.length) :
    PlatEffect name (platSetState p cmd) c args := by
  obtain ⟨n, w, ws, rfl⟩ := two_args ha
  have e := platSetState_eq p cmd c n w ws
  cases hf : findCriterion c.criteria n with
  | none => exact .same (by rw [e, hf])
  | some i =>
    cases hk : c.criteria[i]? with
    | none => exact .same (by rw [e, hf]; simp only [hk])
    | some k =>
      cases hw : wordsState k.type w ws with
      | none => exact .same (by rw [e, hf]; simp only [hk, hw])
      | some v =>
        have e' : platSetState p cmd c (n :: w :: ws) = (some (.done, []), c.setState i v) := by
          rw [e, hf]; simp only [hk, hw]
        refine ⟨fun st t h1 h2 => ?_, .inl ?_, fun cs h => ?_, fun cs h => ?_, fun e m h => .inr (.inl ⟨i, v, ?_⟩)⟩
        · rw [e'] at h1
          cases h1
          rcases h2 with h2 | h2 <;> cases h2
        · rw [e']; unfold Conn.setState; split <;> rfl
        · exact ⟨cs.modify i fun k => k.setState v, by rw [e']; simp only [Conn.setState, h]⟩
        · exact ⟨cs.modify i fun k => k.setState v, by rw [e']; simp only [Conn.setState, h]⟩
        · rw [e']; simp only [Conn.setState, h]

theorem PlatEffect.apply {name : Str} (c : Conn) (args : List Str) :
    PlatEffect name (fun c _ => (c.apply.1.map fun _ => (.done, []), c.apply.2)) c args := by
  cases hp : c.phase with
  | setup cs => exact .same (by simp [Conn.apply, hp])
  | failed cs => exact .same (by simp [Conn.apply, hp])
  | running e m =>
    rcases hs : MOp.applyConfigurations.step e m with ⟨r, m'⟩
    cases r with
    | abort => exact .same (by simp [Conn.apply, hp, hs])
    | ok u =>
      have e2 : c.apply = (some (), { c with phase := .running e m' }) := by simp [Conn.apply, hp, hs]
      refine ⟨fun st t h1 h2 => ?_, .inl ?_, fun cs h => ?_, fun cs h => ?_, fun e' m'' h => .inr (.inr (.inl ?_))⟩
      · simp only [e2, Option.map_some, Option.some.injEq, Prod.mk.injEq] at h1
        obtain ⟨rfl, -⟩ := h1
        rcases h2 with h2 | h2 <;> cases h2
      · simp only [e2]
      · rw [hp] at h; cases h
      · rw [hp] at h; cases h
      · rw [hp] at h; cases h
        exact ⟨_, m', hs, by simp, by simp only [e2]⟩
    | err =>
      have e2 : c.apply = (some (), { c with phase := .running e m' }) := by simp [Conn.apply, hp, hs]
      refine ⟨fun st t h1 h2 => ?_, .inl ?_, fun cs h => ?_, fun cs h => ?_, fun e' m'' h => .inr (.inr (.inl ?_))⟩
      · simp only [e2, Option.map_some, Option.some.injEq, Prod.mk.injEq] at h1
        obtain ⟨rfl, -⟩ := h1
        rcases h2 with h2 | h2 <;> cases h2
      · simp only [e2]
      · rw [hp] at h; cases h
      · rw [hp] at h; cases h
      · rw [hp] at h; cases h
        exact ⟨_, m', hs, by simp, by simp only [e2]⟩

theorem plat_effect (p : PEnv) {it : CmdItem Conn} (hit : it ∈ platCommands p) (hs : it.name ≠ s "start") :
    ∃ f, it.parser = some f ∧ ∀ c args, it.minArgs ≤ args.length → PlatEffect it.name f c args := by
  unfold platCommands at hit
  simp only [List.mem_cons, List.not_mem_nil, or_false] at hit
  rcases hit with rfl | rfl | rfl | rfl | rfl | rfl | rfl | rfl | rfl | rfl | rfl | rfl | rfl | rfl | rfl | rfl
  · exact ⟨_, rfl, fun c args _ => .same rfl⟩
  · refine ⟨_, rfl, fun c args h => ?_⟩
    obtain ⟨n, w, ws, rfl⟩ := two_args h
    exact .create (by rfl)
  · refine ⟨_, rfl, fun c args h => ?_⟩
    obtain ⟨n, w, ws, rfl⟩ := two_args h
    exact .create (by rfl)
  · refine ⟨_, rfl, fun c args h => ?_⟩
    obtain ⟨n, w, ws, rfl⟩ := two_args h
    exact .create (by rfl)
  · refine ⟨_, rfl, fun c args h => ?_⟩
    obtain ⟨n, w, ws, rfl⟩ := two_args h
    exact .create (by rfl)
  · exact absurd rfl hs
  · exact ⟨_, rfl, fun c args h => .setState p c h⟩
  · exact ⟨_, rfl, fun c args _ => .apply c args⟩
  · exact ⟨_, rfl, fun c args h => .setter (k := .missing) p c h⟩
  · exact ⟨_, rfl, fun c args _ => .same rfl⟩
  · exact ⟨_, rfl, fun c args h => .setter (k := .settings) p c h⟩
  · exact ⟨_, rfl, fun c args _ => .same rfl⟩
  · exact ⟨_, rfl, fun c args h => .setter (k := .validate) p c h⟩
  · exact ⟨_, rfl, fun c args _ => .same rfl⟩
  · exact ⟨_, rfl, fun c args _ => .same rfl⟩
  · refine ⟨_, rfl, fun c args h => ⟨fun st t h1 h2 => ?_, .inl rfl, fun cs h => ⟨cs, h⟩, fun cs h => ⟨cs, h⟩,
      fun e m h => .inr (.inr (.inr ⟨rfl, rfl⟩))⟩⟩
    cases h1
    rcases h2 with h2 | h2 <;> cases h2

theorem process_cases {σ : Type} (t : List (CmdItem σ)) (x : σ) (cmd : Str) (args : List Str) :
    (∃ a, processCommand t x cmd args = (some a, x)) ∨
    ∃ it, findCommand t cmd = some it ∧ cmd ≠ s "help" ∧ it.minArgs ≤ args.length := by
  cases hf : findCommand t cmd with
  | none => exact .inl ⟨_, by simp only [processCommand, hf]; rfl⟩
  | some it =>
    by_cases hh : cmd = s "help"
    · subst hh
      exact .inl ⟨_, by simp only [processCommand, hf, if_true]; rfl⟩
    by_cases hmin : args.length < it.minArgs
    · exact .inl ⟨_, by simp only [processCommand, hf, hh, if_false, CmdItem.parse, if_pos hmin]; rfl⟩
    exact .inr ⟨it, rfl, hh, by omega⟩

/-- What a request does, other than `start`. -/
theorem plat_request (p : PEnv) (c : Conn) (cmd : Str) (args : List Str) (hs : cmd ≠ s "start") :
    (∃ a, platRequest p c cmd args = (some a, c)) ∨
    ∃ f, PlatEffect cmd f c args ∧ (platRequest p c cmd args).2 = (f c args).2 ∧
      ∀ t, (platRequest p c cmd args).1 = some (false, t) → ∃ st t', (f c args).1 = some (st, t') ∧ (st = .failed ∨ st = .showUsage) := by
  unfold platRequest
  rcases process_cases (createHandler (platCommands p)) c cmd args with h | ⟨it, hf, hh, hmin⟩
  · exact .inl h
  obtain ⟨hm, hn⟩ := findCommand_some hf
  rw [createHandler_eq _ (plat_names p)] at hm
  rcases List.mem_cons.1 hm with rfl | hm
  · exact absurd hn.symm hh
  subst hn
  obtain ⟨f, hpf, heff⟩ := plat_effect p hm hs
  obtain ⟨h1, h2, h3, h4, h5, h6⟩ := C47_executed (createHandler (platCommands p)) (C47_names_distinct _) it
    (by rw [createHandler_eq _ (plat_names p)]; exact List.mem_cons_of_mem _ hm) hh f hpf c args hmin
  refine .inr ⟨f, heff c args hmin, h1, fun t ht => ?_⟩
  rcases hr : (f c args).1 with _ | ⟨st, t'⟩
  · rw [h6 hr] at ht; cases ht
  · refine ⟨st, t', rfl, ?_⟩
    cases st with
    | done => rw [h2 _ hr] at ht; cases ht
    | succeeded => rw [h3 _ hr] at ht; cases ht
    | failed => exact .inl rfl
    | showUsage => exact .inr rfl

end PF
