import Verif.Lemmas.PlatformRequest
import Verif.Lemmas.CriteriaFrame
import Verif.Props.Framework

/-! # C90: the platform connector and the test platform -/

namespace PF
open Spec

/-! ## Samples -/

namespace SamplePlatform
open SampleFiles

/-- The surroundings: the files of `SampleFiles`; a second start does nothing. -/
def env : PEnv := ⟨fun _ => world (configuration "false" "5000"), s "main.xml", 100, fun ph => (some false, ph), fun _ _ => s "error"⟩

/-- The requests of a client, with a mistake in two of them. -/
def requests : List PlatAsk :=
  [(s "setValidateSchemasOnStart", [s "true"]),
   (s "createExclusiveSelectionCriterionFromStateList", [s "mode", s "idle", s "call"]),
   (s "createInclusiveSelectionCriterionFromStateList", [s "device", s "earpiece", s "speaker", s "headset"]),
   (s "setValidateSchemasOnStart", [s "maybe"]),
   (s "setCriterionState", [s "device", s "earpiece|headset", s "speaker"]),
   (s "setCriterionState", [s "mode", s "ringing"]),
   (s "setValidateSchemasOnStart", [s "0"])]

/-- The test platform after some requests. -/
def after (c : Conn) : List PlatAsk → Conn
  | [] => c
  | r :: rs => after (platRequest env c r.1 r.2).2 rs

/-- What it answers. -/
def answers (c : Conn) : List PlatAsk → List (Option (Bool × Str))
  | [] => []
  | r :: rs => (platRequest env c r.1 r.2).1 :: answers (platRequest env c r.1 r.2).2 rs

theorem serves : answers (Conn.new []) requests =
    [some (true, s "Done"), some (true, s "Done"), some (true, s "Done"), some (false, s "setValidateSchemasOnStart true|false"),
     some (true, s "Done"), some (false, s "error"), some (true, s "Done")] := by decide +kernel

theorem criteria : (after (Conn.new []) requests).criteria.map (fun k => (k.name, k.state)) =
    [(s "mode", 0#32), (s "device", 7#32)] := by decide +kernel

end SamplePlatform

attribute [local irreducible] platRequest

/-! ## Any request -/

/-- **C90 (refused).**  A request that is refused changes nothing, except `start`. -/
theorem C90_refused (p : PEnv) (c c' : Conn) (cmd : Str) (args : List Str) (hs : cmd ≠ s "start") (t : Str)
    (h : platRequest p c cmd args = (some (false, t), c')) : c' = c := by
  rcases plat_request p c cmd args hs with ⟨a, ha⟩ | ⟨f, hf, h2, h3⟩
  · rw [ha] at h; cases h; rfl
  · obtain ⟨st, t', h4, h5⟩ := h3 t (by rw [h])
    have := hf.refused st t' h4 h5
    rw [h] at h2
    exact h2.trans this

/-! ## Policies -/

theorem getter_answer (p : PEnv) (c : Conn) (k : Policy) (args : List Str) :
    platRequest p c (getterOf k) args = (some (true, if k.get c.pol then s "true" else s "false"), c) := by
  cases k with
  | missing =>
    obtain ⟨h1, -, h2, -⟩ := platRequest_item p c (List.mem_of_getElem? (i := 9) rfl) (Nat.zero_le args.length)
    exact Prod.ext (h2 _ rfl) h1
  | settings =>
    obtain ⟨h1, -, h2, -⟩ := platRequest_item p c (List.mem_of_getElem? (i := 11) rfl) (Nat.zero_le args.length)
    exact Prod.ext (h2 _ rfl) h1
  | validate =>
    obtain ⟨h1, -, h2, -⟩ := platRequest_item p c (List.mem_of_getElem? (i := 13) rfl) (Nat.zero_le args.length)
    exact Prod.ext (h2 _ rfl) h1

theorem setter_answer (p : PEnv) (c : Conn) (k : Policy) (t : Str) (rest : List Str) :
    (∀ r, (platSetter p (setterOf k) k c (t :: rest)).1 = some (.done, r) →
      platRequest p c (setterOf k) (t :: rest) = (some (true, s "Done"), (platSetter p (setterOf k) k c (t :: rest)).2)) ∧
    (∀ r, (platSetter p (setterOf k) k c (t :: rest)).1 = some (.failed, r) →
      platRequest p c (setterOf k) (t :: rest) = (some (false, r), (platSetter p (setterOf k) k c (t :: rest)).2)) ∧
    (∀ r, (platSetter p (setterOf k) k c (t :: rest)).1 = some (.showUsage, r) →
      platRequest p c (setterOf k) (t :: rest) =
        (some (false, setterOf k ++ s " " ++ s "true|false"), (platSetter p (setterOf k) k c (t :: rest)).2)) := by
  have hl : 1 ≤ (t :: rest).length := by simp
  cases k with
  | missing =>
    obtain ⟨h1, h2, -, h3, h4, -⟩ := platRequest_item p c (List.mem_of_getElem? (i := 8) rfl) hl
    exact ⟨fun r h => Prod.ext (h2 r h) h1, fun r h => Prod.ext (h3 r h) h1, fun r h => Prod.ext (h4 r h) h1⟩
  | settings =>
    obtain ⟨h1, h2, -, h3, h4, -⟩ := platRequest_item p c (List.mem_of_getElem? (i := 10) rfl) hl
    exact ⟨fun r h => Prod.ext (h2 r h) h1, fun r h => Prod.ext (h3 r h) h1, fun r h => Prod.ext (h4 r h) h1⟩
  | validate =>
    obtain ⟨h1, h2, -, h3, h4, -⟩ := platRequest_item p c (List.mem_of_getElem? (i := 12) rfl) hl
    exact ⟨fun r h => Prod.ext (h2 r h) h1, fun r h => Prod.ext (h3 r h) h1, fun r h => Prod.ext (h4 r h) h1⟩

theorem Policy.get_set (k k' : Policy) (p : Policies) (b : Bool) :
    k'.get (k.set p b) = if k' = k then b else k'.get p := by cases k <;> cases k' <;> rfl

theorem Policy.set_noRemote (k : Policy) (p : Policies) (b : Bool) : (k.set p b).noRemote = p.noRemote := by cases k <;> rfl

theorem isStarted_iff {c : Conn} : c.isStarted = false ↔ NotStarted c := by
  unfold Conn.isStarted NotStarted
  cases c.phase <;> simp

theorem setter_sets (p : PEnv) (c : Conn) (k : Policy) (t : Str) (rest : List Str) (b : Bool) (ht : BoolWord t b)
    (hn : NotStarted c) :
    platRequest p c (setterOf k) (t :: rest) = (some (true, s "Done"), { c with pol := k.set c.pol b }) := by
  have hb := convertBool_iff.2 ht
  have e : platSetter p (setterOf k) k c (t :: rest) = (some (.done, []), { c with pol := k.set c.pol b }) := by
    simp [platSetter, hb, Conn.setPolicy, isStarted_iff.2 hn, doneOrFailed]
  have := (setter_answer p c k t rest).1 [] (by rw [e])
  rw [e] at this
  exact this

/-- **C90 (policies).**  Before the start a policy is set with the text of a boolean: from then on it is read with that value; no
other policy changes, nor does anything else. -/
theorem C90_policy (p : PEnv) (c : Conn) (k : Policy) (t : Str) (rest : List Str) (b : Bool) (ht : BoolWord t b)
    (hn : NotStarted c) :
    ∃ c', platRequest p c (setterOf k) (t :: rest) = (some (true, s "Done"), c') ∧ c'.phase = c.phase ∧ c'.schemas = c.schemas ∧
      c'.pol.noRemote = c.pol.noRemote ∧
      (∀ args, platRequest p c' (getterOf k) args = (some (true, if b then s "true" else s "false"), c')) ∧
      ∀ k', k' ≠ k → ∀ args, (platRequest p c' (getterOf k') args).1 = (platRequest p c (getterOf k') args).1 := by
  refine ⟨_, setter_sets p c k t rest b ht hn, rfl, rfl, k.set_noRemote _ _, fun args => ?_, fun k' hk args => ?_⟩
  · rw [getter_answer]
    simp only [Policy.get_set, if_true]
  · rw [getter_answer, getter_answer]
    simp only [Policy.get_set, if_neg hk]

/-- **C90 (policies, refused).**  A text that is not that of a boolean is refused; so is any once the framework is started. -/
theorem C90_policy_refused (p : PEnv) (c : Conn) (k : Policy) (t : Str) (rest : List Str)
    (h : (∀ b, ¬ BoolWord t b) ∨ ¬ NotStarted c) : ∃ a, platRequest p c (setterOf k) (t :: rest) = (some (false, a), c) := by
  cases hb : convertBool t with
  | none =>
    have e : platSetter p (setterOf k) k c (t :: rest) = (some (.showUsage, []), c) := by simp [platSetter, hb]
    have := (setter_answer p c k t rest).2.2 [] (by rw [e])
    rw [e] at this
    exact ⟨_, this⟩
  | some b =>
    rcases h with h | h
    · exact absurd (convertBool_iff.1 hb) (h b)
    have hs : c.isStarted = true := by
      cases hs : c.isStarted with
      | true => rfl
      | false => exact absurd (isStarted_iff.1 hs) h
    have e : platSetter p (setterOf k) k c (t :: rest) = (some (.failed, p.text (setterOf k) (t :: rest)), c) := by
      simp [platSetter, hb, Conn.setPolicy, hs, doneOrFailed]
    have := (setter_answer p c k t rest).2.1 _ (by rw [e])
    rw [e] at this
    exact ⟨_, this⟩

theorem SetsTo.unique {k k' : Policy} {b b' : Bool} {r : PlatAsk} (h : SetsTo k b r) (h' : SetsTo k' b' r) : k = k' ∧ b = b' := by
  obtain ⟨t, rest, rfl, hb⟩ := h
  obtain ⟨t', rest', h2, hb'⟩ := h'
  simp only [Prod.mk.injEq, List.cons.injEq] at h2
  obtain ⟨h2, rfl, -⟩ := h2
  refine ⟨?_, ?_⟩
  · revert h2
    cases k <;> cases k' <;> first | (intro; rfl) | (intro h; exact absurd h (by decide))
  · have h1 := convertBool_iff.2 hb
    rw [convertBool_iff.2 hb'] at h1
    exact (Option.some.inj h1).symm

theorem policy_step (p : PEnv) {c c' : Conn} {r : PlatAsk} {a : Option (Bool × Str)} (hn : NotStarted c) (hs : r.1 ≠ s "start")
    (h : platRequest p c r.1 r.2 = (a, c')) (k : Policy) :
    (∀ b, SetsTo k b r → k.get c'.pol = b) ∧ ((∀ b, ¬ SetsTo k b r) → k.get c'.pol = k.get c.pol) ∧
      c'.pol.noRemote = c.pol.noRemote := by
  have key : c'.pol = c.pol ∨ ∃ k' b, SetsTo k' b r ∧ c'.pol = k'.set c.pol b := by
    rcases plat_request p c r.1 r.2 hs with ⟨a', ha⟩ | ⟨f, hf, h2, -⟩
    · rw [ha] at h; cases h; exact .inl rfl
    · rw [h] at h2
      rcases hf.pol with h3 | ⟨k', b, h3, -, h4⟩
      · exact .inl (by rw [show c' = _ from h2, h3])
      · exact .inr ⟨k', b, h3, by rw [show c' = _ from h2, h4]⟩
  refine ⟨fun b hb => ?_, fun hno => ?_, ?_⟩
  · obtain ⟨t, rest, rfl, ht⟩ := hb
    have := setter_sets p c k t rest b ht hn
    rw [h] at this
    cases this
    simp only [Policy.get_set, if_true]
  · rcases key with h1 | ⟨k', b, h1, h2⟩
    · rw [h1]
    · rw [h2, Policy.get_set, if_neg]
      rintro rfl
      exact hno b h1
  · rcases key with h1 | ⟨k', b, -, h2⟩
    · rw [h1]
    · rw [h2, Policy.set_noRemote]

theorem setup_step (p : PEnv) {c c' : Conn} {r : PlatAsk} {a : Option (Bool × Str)} {cs : List Criterion} (hp : c.phase = .setup cs)
    (hs : r.1 ≠ s "start") (h : platRequest p c r.1 r.2 = (a, c')) : ∃ cs', c'.phase = .setup cs' := by
  rcases plat_request p c r.1 r.2 hs with ⟨a', ha⟩ | ⟨f, hf, h2, -⟩
  · rw [ha] at h; cases h; exact ⟨cs, hp⟩
  · rw [h] at h2
    obtain ⟨cs', h3⟩ := hf.setup cs hp
    exact ⟨cs', by rw [show c' = _ from h2, h3]⟩

/-- **C90 (history).**  Whatever the requests before the start, accepted or not, each policy has the value that the last request to
set it gives, or the initial one: failures fail the start, and nothing is validated. -/
theorem C90_history (p : PEnv) (schemas : Str) (rs : List PlatAsk) (as : List (Bool × Str)) (c : Conn)
    (h : Serve p (Conn.new schemas) rs as c) (hs : ∀ r ∈ rs, r.1 ≠ s "start") :
    (∃ cs, c.phase = .setup cs) ∧ c.pol.noRemote = false ∧
    LastSet .missing true rs c.pol.failOnMissing ∧ LastSet .settings true rs c.pol.failOnSettings ∧
    LastSet .validate false rs c.pol.validate := by
  have key : ∀ {c0 rs as c}, Serve p c0 rs as c → (∀ r ∈ rs, r.1 ≠ s "start") → ∀ cs, c0.phase = .setup cs →
      (∃ cs, c.phase = .setup cs) ∧ c.pol.noRemote = c0.pol.noRemote ∧ ∀ k, LastSet k (k.get c0.pol) rs (k.get c.pol) := by
    intro c0 rs as c h
    induction h with
    | nil c => exact fun _ cs hc => ⟨⟨cs, hc⟩, rfl, fun k => .inr ⟨by simp, rfl⟩⟩
    | @cons c c' c'' r rs a as h1 _ ih =>
      intro hs cs hc
      have hs0 := hs r (by simp)
      have hn : NotStarted c := fun e m h => by rw [hc] at h; cases h
      obtain ⟨cs', hc'⟩ := setup_step p hc hs0 h1
      obtain ⟨i1, i2, i3⟩ := ih (fun r hr => hs r (by simp [hr])) cs' hc'
      refine ⟨i1, i2.trans (policy_step p hn hs0 h1 .missing).2.2, fun k => ?_⟩
      obtain ⟨s1, s2, -⟩ := policy_step p hn hs0 h1 k
      rcases i3 k with ⟨pre, r', post, rfl, h2, h3⟩ | ⟨h2, h3⟩
      · exact .inl ⟨r :: pre, r', post, rfl, h2, h3⟩
      · by_cases hr : ∃ b, SetsTo k b r
        · obtain ⟨b, hb⟩ := hr
          exact .inl ⟨[], r, rs, rfl, by rw [h3, s1 b hb]; exact hb, h2⟩
        · have hr' : ∀ b, ¬ SetsTo k b r := fun b hb => hr ⟨b, hb⟩
          refine .inr ⟨fun r' h' => ?_, by rw [h3, s2 hr']⟩
          rcases List.mem_cons.1 h' with rfl | h'
          · exact hr'
          · exact h2 r' h'
  obtain ⟨h1, h2, h3⟩ := key h hs [] rfl
  exact ⟨h1, h2, h3 .missing, h3 .settings, h3 .validate⟩

/-! ## The start -/

theorem start_answer (p : PEnv) (c : Conn) (args : List Str) :
    (platRequest p c (s "start") args).2 = (c.start p).2 ∧
    ((c.start p).1 = some true → (platRequest p c (s "start") args).1 = some (true, s "Done")) ∧
    ((c.start p).1 = some false → ∃ t, (platRequest p c (s "start") args).1 = some (false, t)) ∧
    ((c.start p).1 = none → (platRequest p c (s "start") args).1 = none) := by
  obtain ⟨h1, h2, -, h3, -, h4⟩ := platRequest_item p c (List.mem_of_getElem? (i := 5) rfl) (Nat.zero_le args.length)
  refine ⟨h1.trans (doneOrFailed_snd _ _), fun h => h2 [] ?_, fun h => ⟨p.text (s "start") args, h3 _ ?_⟩, fun h => h4 ?_⟩
  all_goals
    show (doneOrFailed _ _).1 = _
    rw [doneOrFailed_fst, h]
    rfl

/-- **C90 (start).**  The first start succeeds exactly when the files, the policies and the criteria of the connector start a system;
the connector then runs this system. -/
theorem C90_start (p : PEnv) (c : Conn) (cs : List Criterion) (hc : c.phase = .setup cs) (args : List Str) :
    (∀ r, startFramework (p.world c.schemas) c.pol p.config p.fuel cs = .ok r →
      platRequest p c (s "start") args = (some (true, s "Done"), ⟨c.pol, c.schemas, .running r.env r.mgr⟩)) ∧
    (startFramework (p.world c.schemas) c.pol p.config p.fuel cs = .refused →
      ∃ t, platRequest p c (s "start") args = (some (false, t), ⟨c.pol, c.schemas, .failed cs⟩)) ∧
    ((∀ r, startFramework (p.world c.schemas) c.pol p.config p.fuel cs ≠ .ok r) →
      startFramework (p.world c.schemas) c.pol p.config p.fuel cs ≠ .refused → (platRequest p c (s "start") args).1 = none) := by
  obtain ⟨h1, h2, h3, h4⟩ := start_answer p c args
  refine ⟨fun r hr => ?_, fun hr => ?_, fun hr hr' => h4 ?_⟩
  · have e : c.start p = (some true, ⟨c.pol, c.schemas, .running r.env r.mgr⟩) := by simp only [Conn.start, hc, hr]
    rw [e] at h1 h2
    exact Prod.ext (h2 rfl) h1
  · have e : c.start p = (some false, ⟨c.pol, c.schemas, .failed cs⟩) := by simp only [Conn.start, hc, hr]
    rw [e] at h1 h3
    obtain ⟨t, ht⟩ := h3 rfl
    exact ⟨t, Prod.ext ht h1⟩
  · cases hx : startFramework (p.world c.schemas) c.pol p.config p.fuel cs with
    | ok r => exact absurd hx (hr r)
    | refused => exact absurd hx hr'
    | threw => simp only [Conn.start, hc, hx]
    | stopped => simp only [Conn.start, hc, hx]
    | endless => simp only [Conn.start, hc, hx]

/-- **C90 (start, from requests).**  A start that succeeds after requests is a start with the policies that were set last, and with
the remote interface. -/
theorem C90_start_policies (p : PEnv) (schemas : Str) (rs : List PlatAsk) (as : List (Bool × Str)) (c c' : Conn)
    (h : Serve p (Conn.new schemas) rs as c) (hs : ∀ r ∈ rs, r.1 ≠ s "start") (args : List Str) (t : Str)
    (h' : platRequest p c (s "start") args = (some (true, t), c')) :
    ∃ missing settings validate r cfg st found, LastSet .missing true rs missing ∧ LastSet .settings true rs settings ∧
      LastSet .validate false rs validate ∧
      Starts (p.world c.schemas) ⟨missing, settings, validate, false⟩ p.config c.criteria r cfg st found ∧
      c'.phase = .running r.env r.mgr ∧ c'.pol = c.pol := by
  obtain ⟨⟨cs, hc⟩, h1, h2, h3, h4⟩ := C90_history p schemas rs as c h hs
  obtain ⟨s1, s2, s3⟩ := C90_start p c cs hc args
  cases hx : startFramework (p.world c.schemas) c.pol p.config p.fuel cs with
  | ok r =>
    have := s1 r hx
    rw [h'] at this
    cases this
    obtain ⟨cfg, st, found, hS⟩ := C82_starts.1 ⟨_, hx⟩
    have e : c.pol = ⟨c.pol.failOnMissing, c.pol.failOnSettings, c.pol.validate, false⟩ := by rw [← h1]
    have e' : c.criteria = cs := by simp only [Conn.criteria, hc]
    rw [e] at hS
    exact ⟨_, _, _, r, cfg, st, found, h2, h3, h4, by rw [e']; exact hS, rfl, rfl⟩
  | refused =>
    obtain ⟨t', ht⟩ := s2 hx
    rw [h'] at ht
    cases ht
  | threw =>
    have := s3 (by simp [hx]) (by simp [hx])
    rw [h'] at this; cases this
  | stopped =>
    have := s3 (by simp [hx]) (by simp [hx])
    rw [h'] at this; cases this
  | endless =>
    have := s3 (by simp [hx]) (by simp [hx])
    rw [h'] at this; cases this

/-! ## Criteria -/

theorem setState_answer (p : PEnv) (c : Conn) (name w : Str) (ws : List Str) :
    (platRequest p c (s "setCriterionState") (name :: w :: ws)).2 = (platSetState p (s "setCriterionState") c (name :: w :: ws)).2 ∧
    (∀ r, (platSetState p (s "setCriterionState") c (name :: w :: ws)).1 = some (.done, r) →
      (platRequest p c (s "setCriterionState") (name :: w :: ws)).1 = some (true, s "Done")) ∧
    (∀ r, (platSetState p (s "setCriterionState") c (name :: w :: ws)).1 = some (.failed, r) →
      (platRequest p c (s "setCriterionState") (name :: w :: ws)).1 = some (false, r)) := by
  obtain ⟨h1, h2, -, h3, -⟩ := platRequest_item p c (List.mem_of_getElem? (i := 6) rfl)
    (show 2 ≤ (name :: w :: ws).length by simp)
  exact ⟨h1, h2, h3⟩

theorem onlyState_modify (cs : List Criterion) (i : Nat) (v : BitVec 32) :
    OnlyState cs (cs.modify i fun k => k.setState v) i v := by
  refine ⟨by simp, fun j hj => ?_, fun k hk => ?_⟩
  · rw [List.getElem?_modify]
    simp [Ne.symm hj]
  · rw [List.getElem?_modify, hk]
    simp only [if_true, Option.map_some, Option.some.injEq, Criterion.setState]
    by_cases hv : k.state = v
    · subst hv; simp
    · have : ¬ v = k.state := fun h => hv h.symm
      simp [hv, this]

theorem mapIdx_modify {α : Type} (l : List α) (i : Nat) (f : α → α) : (l.mapIdx fun j c => if j = i then f c else c) = l.modify i f := by
  apply List.ext_getElem?
  intro j
  rw [List.getElem?_mapIdx, List.getElem?_modify]
  cases l[j]? with
  | none => rfl
  | some a =>
    by_cases h : j = i
    · subst h; simp
    · simp [h, Ne.symm h]

theorem Conn.setState_criteria (c : Conn) (i : Nat) (v : BitVec 32) :
    (c.setState i v).criteria = c.criteria.modify i (fun k => k.setState v) ∧ (c.setState i v).pol = c.pol ∧
    (c.setState i v).schemas = c.schemas ∧
    (∀ e m, c.phase = .running e m → (c.setState i v).phase =
      .running e { m with st := { m.st with criteria := c.criteria.modify i (fun k => k.setState v) } }) := by
  cases hp : c.phase with
  | setup cs => simp [Conn.setState, Conn.criteria, hp]
  | failed cs => simp [Conn.setState, Conn.criteria, hp]
  | running e m =>
    have e1 : ((MOp.setCriterion i v).step e m).2 =
        { m with st := { m.st with criteria := m.st.criteria.modify i (fun k => k.setState v) } } := by
      show { m with st := (St.setCriterion i v m.st).2 } = _
      simp only [St.setCriterion, mapIdx_modify]
    refine ⟨?_, ?_, ?_, ?_⟩
    · simp only [Conn.setState, Conn.criteria, hp, e1]
    · simp only [Conn.setState, hp]
    · simp only [Conn.setState, hp]
    · intro e' m' h
      cases h
      simp only [Conn.setState, Conn.criteria, hp, e1]

/-- **C90 (state).**  The state of a criterion is set by a number, by a value, or by lists of values of an inclusive criterion; nothing
else changes, in a running system neither.  Words that stand for no state are refused. -/
theorem C90_state (p : PEnv) (c : Conn) (name : Str) (i : Nat) (k : Criterion) (hk : IsCriterion c.criteria name i k)
    (hf : Functional k.type) (ws : List Str) (hw : ws ≠ []) :
    (∀ v, StateWords k.type ws v →
      ∃ c', platRequest p c (s "setCriterionState") (name :: ws) = (some (true, s "Done"), c') ∧
        OnlyState c.criteria c'.criteria i v ∧ c'.pol = c.pol ∧ c'.schemas = c.schemas ∧
        ∀ e m, c.phase = .running e m → c'.phase = .running e { m with st := { m.st with criteria := c'.criteria } }) ∧
    ((∀ v, ¬ StateWords k.type ws v) →
      ∃ t, platRequest p c (s "setCriterionState") (name :: ws) = (some (false, t), c)) := by
  obtain ⟨w, ws, rfl⟩ : ∃ w r, ws = w :: r := by
    cases ws with
    | nil => exact absurd rfl hw
    | cons w r => exact ⟨w, r, rfl⟩
  obtain ⟨h1, h2, h3⟩ := setState_answer p c name w ws
  have hfind : findCriterion c.criteria name = some i := findCriterion_is.2 ⟨k, hk⟩
  have e := platSetState_eq p (s "setCriterionState") c name w ws
  simp only [hfind, hk.1] at e
  constructor
  · intro v hv
    rw [(wordsState_iff hf w ws v).2 hv] at e
    simp only at e
    rw [e] at h1 h2
    obtain ⟨s1, s2, s3, s4⟩ := c.setState_criteria i v
    refine ⟨c.setState i v, Prod.ext (h2 [] rfl) h1, by rw [s1]; exact onlyState_modify _ _ _, s2, s3, fun e m h => ?_⟩
    rw [s1]
    exact s4 e m h
  · intro hv
    cases hx : wordsState k.type w ws with
    | some v => exact absurd ((wordsState_iff hf w ws v).1 hx) (hv v)
    | none =>
      rw [hx] at e
      simp only at e
      rw [e] at h1 h3
      exact ⟨_, Prod.ext (h3 _ rfl) h1⟩

/-- **C90 (state, unknown).**  The state of a criterion that does not exist is not set. -/
theorem C90_state_unknown (p : PEnv) (c : Conn) (name : Str) (hk : ∀ k ∈ c.criteria, ¬ Called k name) (ws : List Str) (hw : ws ≠ []) :
    ∃ t, platRequest p c (s "setCriterionState") (name :: ws) = (some (false, t), c) := by
  obtain ⟨w, ws, rfl⟩ : ∃ w r, ws = w :: r := by
    cases ws with
    | nil => exact absurd rfl hw
    | cons w r => exact ⟨w, r, rfl⟩
  obtain ⟨h1, -, h3⟩ := setState_answer p c name w ws
  have e := platSetState_eq p (s "setCriterionState") c name w ws
  rw [findCriterion_none.2 hk] at e
  simp only at e
  rw [e] at h1 h3
  exact ⟨_, Prod.ext (h3 _ rfl) h1⟩

theorem create_spec (c : Conn) (hn : NotStarted c) (incl : Bool) (name : Str) (values : List Str) :
    ((GoodValues incl values ∧ (incl = false → values.length ≤ 2 ^ 31)) →
      ∃ c' k, c.createCriterion incl name values = (some true, c') ∧ IsDeclared ⟨incl, name, values⟩ k ∧
        c'.criteria = c.criteria ++ [k] ∧ c'.pol = c.pol ∧ c'.schemas = c.schemas) ∧
    (¬ (GoodValues incl values ∧ (incl = false → values.length ≤ 2 ^ 31)) →
      (c.createCriterion incl name values).1 ≠ some true ∧ (c.createCriterion incl name values).2 = c) := by
  have h0 : GoodValues incl [] := by
    refine ⟨List.nodup_nil, ?_⟩
    cases incl <;> simp
  obtain ⟨h1, h2⟩ := addGenerated_spec (CritType.new incl) [] values h0 (by simp) (hasValues_new _)
  simp only [List.nil_append, List.length_nil, show (CritType.new incl).inclusive = incl from rfl] at h1 h2
  constructor
  · intro hg
    obtain ⟨t, ht, hi, hv⟩ := h1 hg
    unfold Conn.createCriterion
    cases hp : c.phase with
    | running e m => exact absurd hp (hn e m)
    | setup cs =>
      simp only [ht]
      exact ⟨_, ⟨name, t, 0#32, 0#32⟩, rfl, ⟨rfl, hi, hv, rfl, rfl⟩, by simp [Conn.criteria, hp], rfl, rfl⟩
    | failed cs =>
      simp only [ht]
      exact ⟨_, ⟨name, t, 0#32, 0#32⟩, rfl, ⟨rfl, hi, hv, rfl, rfl⟩, by simp [Conn.criteria, hp], rfl, rfl⟩
  · intro hg
    rcases c.createCriterion_cases incl name values with h | ⟨-, t, ht, -⟩
    · exact h
    · exact absurd (h2 t ht) hg

theorem list_answer (p : PEnv) (c : Conn) (incl : Bool) (name w : Str) (ws : List Str) :
    (platRequest p c (listCreator incl) (name :: w :: ws)).2 = (c.createCriterion incl name (w :: ws)).2 ∧
    ((c.createCriterion incl name (w :: ws)).1 = some true →
      (platRequest p c (listCreator incl) (name :: w :: ws)).1 = some (true, s "Done")) ∧
    ((c.createCriterion incl name (w :: ws)).1 ≠ some true →
      ∀ t, (platRequest p c (listCreator incl) (name :: w :: ws)).1 ≠ some (true, t)) := by
  have hl : 2 ≤ (name :: w :: ws).length := by simp
  cases incl with
  | false =>
    obtain ⟨h1, h2, -, h3, -, h4⟩ := platRequest_item p c (List.mem_of_getElem? (i := 1) rfl) hl
    refine ⟨h1.trans (doneOrFailed_snd _ _), fun h => h2 [] ?_, fun h t ht => ?_⟩
    · show (doneOrFailed _ _).1 = _
      rw [doneOrFailed_fst, h]; rfl
    · rcases hx : (c.createCriterion false name (w :: ws)).1 with _ | _ | _
      · have := h4 (by show (doneOrFailed _ _).1 = _; rw [doneOrFailed_fst, hx]; rfl)
        exact absurd (this.symm.trans ht) (by simp)
      · have := h3 (p.text (listCreator false) (name :: w :: ws)) (by show (doneOrFailed _ _).1 = _; rw [doneOrFailed_fst, hx]; rfl)
        exact absurd (this.symm.trans ht) (by simp)
      · exact h hx
  | true =>
    obtain ⟨h1, h2, -, h3, -, h4⟩ := platRequest_item p c (List.mem_of_getElem? (i := 2) rfl) hl
    refine ⟨h1.trans (doneOrFailed_snd _ _), fun h => h2 [] ?_, fun h t ht => ?_⟩
    · show (doneOrFailed _ _).1 = _
      rw [doneOrFailed_fst, h]; rfl
    · rcases hx : (c.createCriterion true name (w :: ws)).1 with _ | _ | _
      · have := h4 (by show (doneOrFailed _ _).1 = _; rw [doneOrFailed_fst, hx]; rfl)
        exact absurd (this.symm.trans ht) (by simp)
      · have := h3 (p.text (listCreator true) (name :: w :: ws)) (by show (doneOrFailed _ _).1 = _; rw [doneOrFailed_fst, hx]; rfl)
        exact absurd (this.symm.trans ht) (by simp)
      · exact h hx

/-- **C90 (creation).**  Before the start, a criterion is created from the list of its values exactly when no value is there twice (nor
is `none` for an inclusive one) and the numbers fit; it is the last one, with these values, and nothing else changes.  Otherwise nothing
changes. -/
theorem C90_create (p : PEnv) (c : Conn) (hn : NotStarted c) (d : GenCriterion) (hv : d.values ≠ []) :
    (Acceptable d → ∃ c' k, platRequest p c (listCreator d.inclusive) (d.name :: d.values) = (some (true, s "Done"), c') ∧
      IsDeclared d k ∧ c'.criteria = c.criteria ++ [k] ∧ c'.pol = c.pol ∧ c'.schemas = c.schemas) ∧
    (¬ Acceptable d → (platRequest p c (listCreator d.inclusive) (d.name :: d.values)).2 = c ∧
      ∀ t, (platRequest p c (listCreator d.inclusive) (d.name :: d.values)).1 ≠ some (true, t)) := by
  obtain ⟨incl, name, values⟩ := d
  obtain ⟨w, ws, rfl⟩ : ∃ w r, values = w :: r := by
    cases values with
    | nil => exact absurd rfl hv
    | cons w r => exact ⟨w, r, rfl⟩
  obtain ⟨h1, h2, h3⟩ := list_answer p c incl name w ws
  obtain ⟨s1, s2⟩ := create_spec c hn incl name (w :: ws)
  constructor
  · intro ha
    obtain ⟨c', k, e, hk, hc⟩ := s1 ha.2
    rw [e] at h1 h2
    exact ⟨c', k, Prod.ext (h2 rfl) h1, hk, hc⟩
  · intro ha
    obtain ⟨e1, e2⟩ := s2 fun h => ha ⟨hv, h⟩
    exact ⟨h1.trans e2, h3 e1⟩

/-- **C90 (creation, too late).**  Once started, the creation of a criterion stops the program. -/
theorem C90_create_late (p : PEnv) (c : Conn) (e : MEnv) (m : Mgr) (hc : c.phase = .running e m) (incl : Bool) (name w : Str)
    (ws : List Str) : (platRequest p c (listCreator incl) (name :: w :: ws)).1 = none := by
  have hl : 2 ≤ (name :: w :: ws).length := by simp
  have e1 : (c.createCriterion incl name (w :: ws)).1 = none := by simp [Conn.createCriterion, hc]
  cases incl with
  | false =>
    obtain ⟨-, -, -, -, -, h4⟩ := platRequest_item p c (List.mem_of_getElem? (i := 1) rfl) hl
    exact h4 (by show (doneOrFailed _ _).1 = _; rw [doneOrFailed_fst, e1]; rfl)
  | true =>
    obtain ⟨-, -, -, -, -, h4⟩ := platRequest_item p c (List.mem_of_getElem? (i := 2) rfl) hl
    exact h4 (by show (doneOrFailed _ _).1 = _; rw [doneOrFailed_fst, e1]; rfl)

theorem natText_injective {a b : Nat} (h : natText a = natText b) : a = b := by
  have h1 := strtoull_cNumeral (cNumeral_natText a)
  have h2 := (cMagnitude_cNumeral (cNumeral_natText a)).symm
  rw [h, cMagnitude_cNumeral (cNumeral_natText b)] at h2
  exact h2

theorem stateNames_eq {incl : Bool} {n : Nat} (h : incl = true → n ≤ 31) :
    (List.range n).map (stateName incl) = numberedValues incl n := by
  refine List.map_congr_left fun i hi => ?_
  rw [List.mem_range] at hi
  unfold stateName
  cases incl with
  | false => rfl
  | true =>
    simp only [if_true]
    congr 1
    have hi : i < 31 := by have := h rfl; omega
    have key : ∀ i, i < 31 → (1#32 <<< i).toInt = ((2 ^ i : Nat) : Int) := by decide
    rw [key i hi]
    unfold intText
    rw [if_neg (Int.not_lt.2 (Int.natCast_nonneg _)), Int.natAbs_natCast]

theorem numberedValues_good {incl : Bool} {n : Nat} (h : if incl then n ≤ 31 else n ≤ 2 ^ 31) :
    GoodValues incl (numberedValues incl n) := by
  refine ⟨?_, ?_⟩
  · unfold numberedValues List.Nodup
    rw [List.pairwise_map]
    refine (List.nodup_range (n := n)).imp fun {a b} hab he => hab ?_
    cases incl with
    | false => exact natText_injective (List.append_cancel_left he)
    | true => exact Nat.pow_right_injective (Nat.le_refl 2) (natText_injective (List.append_cancel_left he))
  · cases incl with
    | false => simp only [Bool.false_eq_true, if_false] at h ⊢; simp [numberedValues]; omega
    | true =>
      simp only [if_true] at h ⊢
      refine ⟨by simp [numberedValues]; exact h, ?_⟩
      simp only [numberedValues, if_true, List.mem_map, not_exists, not_and]
      intro i _ he
      have := congrArg List.head? he
      revert this
      simp [s]

theorem count_answer (p : PEnv) (c : Conn) (incl : Bool) (name t : Str) (rest : List Str) :
    (platRequest p c (countCreator incl) (name :: t :: rest)).2 =
      (c.createCriterion incl name ((List.range (strtoull t).toNat).map (stateName incl))).2 ∧
    ((c.createCriterion incl name ((List.range (strtoull t).toNat).map (stateName incl))).1 = some true →
      (platRequest p c (countCreator incl) (name :: t :: rest)).1 = some (true, s "Done")) := by
  have hl : 2 ≤ (name :: t :: rest).length := by simp
  cases incl with
  | false =>
    obtain ⟨h1, h2, -⟩ := platRequest_item p c (List.mem_of_getElem? (i := 3) rfl) hl
    refine ⟨h1.trans (doneOrFailed_snd _ _), fun h => h2 [] ?_⟩
    show (doneOrFailed _ _).1 = _
    rw [doneOrFailed_fst, h]; rfl
  | true =>
    obtain ⟨h1, h2, -⟩ := platRequest_item p c (List.mem_of_getElem? (i := 4) rfl) hl
    refine ⟨h1.trans (doneOrFailed_snd _ _), fun h => h2 [] ?_⟩
    show (doneOrFailed _ _).1 = _
    rw [doneOrFailed_fst, h]; rfl

/-- **C90 (creation by a number).**  Before the start, a criterion is created from the number of its values, at most 31 for an inclusive
one; the values are named after their numbers. -/
theorem C90_create_count (p : PEnv) (c : Conn) (hn : NotStarted c) (incl : Bool) (name t : Str) (rest : List Str) (n : Nat)
    (ht : CNumeral t n) (hb : if incl then n ≤ 31 else n ≤ 2 ^ 31) :
    ∃ c' k, platRequest p c (countCreator incl) (name :: t :: rest) = (some (true, s "Done"), c') ∧
      IsDeclared ⟨incl, name, numberedValues incl n⟩ k ∧ c'.criteria = c.criteria ++ [k] ∧ c'.pol = c.pol ∧ c'.schemas = c.schemas := by
  have hn64 : n < 2 ^ 64 := by cases incl <;> simp at hb <;> omega
  obtain ⟨h1, h2⟩ := count_answer p c incl name t rest
  have e : (strtoull t).toNat = n := by
    rw [strtoull_cNumeral ht, if_pos hn64, BitVec.toNat_ofNat, Nat.mod_eq_of_lt hn64]
  rw [e, stateNames_eq fun h => by rw [h] at hb; exact hb] at h1 h2
  obtain ⟨c', k, e, hk, hc⟩ := (create_spec c hn incl name (numberedValues incl n)).1
    ⟨numberedValues_good hb, fun h => by rw [h] at hb; simp [numberedValues]; simpa using hb⟩
  rw [e] at h1 h2
  exact ⟨c', k, Prod.ext (h2 rfl) h1, hk, hc⟩

theorem Spec.IsDeclared.functional {d : GenCriterion} {k : Criterion} (hd : GoodValues d.inclusive d.values)
    (h : IsDeclared d k) : Functional k.type := by
  intro l v v' h1 h2
  rw [h.values] at h1 h2
  rw [h.inclusive] at h1 h2
  rcases h1 with ⟨i, hi, rfl⟩ | ⟨hi, rfl, rfl⟩
  · rcases h2 with ⟨j, hj, rfl⟩ | ⟨hinc, rfl, rfl⟩
    · have := hd.1
      obtain ⟨hi1, hi2⟩ := List.getElem?_eq_some_iff.1 hi
      obtain ⟨hj1, hj2⟩ := List.getElem?_eq_some_iff.1 hj
      rw [(List.Nodup.getElem_inj_iff this).1 (hi2.trans hj2.symm)]
    · have := hd.2
      rw [hinc, if_pos rfl] at this
      exact absurd (List.mem_of_getElem? hi) this.2
  · rcases h2 with ⟨j, hj, rfl⟩ | ⟨-, -, rfl⟩
    · have := hd.2
      rw [hi, if_pos rfl] at this
      exact absurd (List.mem_of_getElem? hj) this.2
    · rfl

/-! ## The running system -/

/-- **C90 (application).**  Once started, `applyConfigurations` applies the configurations; before, it stops the program. -/
theorem C90_apply (p : PEnv) (c : Conn) (args : List Str) :
    (∀ e m r m', c.phase = .running e m → MOp.applyConfigurations.step e m = (r, m') → r ≠ .abort →
      platRequest p c (s "applyConfigurations") args = (some (true, s "Done"), ⟨c.pol, c.schemas, .running e m'⟩)) ∧
    (NotStarted c → (platRequest p c (s "applyConfigurations") args).1 = none) := by
  obtain ⟨h1, h2, -, -, -, h4⟩ := platRequest_item p c (List.mem_of_getElem? (i := 7) rfl) (Nat.zero_le args.length)
  constructor
  · intro e m r m' hc hr hn
    have ea : c.apply = (some (), ⟨c.pol, c.schemas, .running e m'⟩) := by
      cases r with
      | abort => exact absurd rfl hn
      | ok u => simp only [Conn.apply, hc, hr]
      | err => simp only [Conn.apply, hc, hr]
    exact Prod.ext (h2 [] (by rw [ea]; rfl)) (h1.trans (by rw [ea]))
  · intro hn
    refine h4 ?_
    have : c.apply.1 = none := by
      unfold Conn.apply
      cases hp : c.phase with
      | running e m => exact absurd hp (hn e m)
      | setup cs => rfl
      | failed cs => rfl
    rw [this]
    rfl

/-- **C90 (running).**  Once started, requests other than `start` keep the policies and the system started, in a state that operations of
the framework reach. -/
theorem C90_running (p : PEnv) (c c' : Conn) (rs : List PlatAsk) (as : List (Bool × Str)) (h : Serve p c rs as c')
    (hs : ∀ r ∈ rs, r.1 ≠ s "start") (e : MEnv) (m : Mgr) (hc : c.phase = .running e m) :
    c'.pol = c.pol ∧ ∃ m', c'.phase = .running e m' ∧ ∀ cs, MReachable e cs m → MReachable e cs m' := by
  induction h generalizing m with
  | nil c => exact ⟨rfl, m, hc, fun _ h => h⟩
  | @cons c c' c'' r rs a as h1 _ ih =>
    have key : c'.pol = c.pol ∧ ∃ m', c'.phase = .running e m' ∧ ∀ cs, MReachable e cs m → MReachable e cs m' := by
      rcases plat_request p c r.1 r.2 (hs r (by simp)) with ⟨a', ha⟩ | ⟨f, hf, h2, -⟩
      · rw [ha] at h1; cases h1; exact ⟨rfl, m, hc, fun _ h => h⟩
      · rw [h1] at h2
        have h2 : c' = (f c r.2).2 := h2
        constructor
        · rcases hf.pol with h3 | ⟨_, _, -, hn, -⟩
          · rw [h2, h3]
          · exact absurd hc (hn e m)
        · rcases hf.running e m hc with ⟨-, h3⟩ | ⟨i, v, h3⟩ | ⟨r', m', h3, h4, h5⟩ | ⟨-, h3⟩
          · exact ⟨m, by rw [h2, h3], fun _ h => h⟩
          · exact ⟨_, by rw [h2, h3], fun cs h => h.step (op := .setCriterion i v) trivial (by simp [MOp.step, Mgr.run, DomOp.step, St.setCriterion])⟩
          · refine ⟨m', by rw [h2, h5], fun cs h => ?_⟩
            have := h.step (op := .applyConfigurations) trivial (by rw [h3]; exact h4)
            rw [h3] at this
            exact this
          · exact ⟨m, by rw [h2, h3, hc], fun _ h => h⟩
    obtain ⟨k1, m', k2, k3⟩ := key
    obtain ⟨i1, m'', i2, i3⟩ := ih (fun r hr => hs r (by simp [hr])) m' k2
    exact ⟨i1.trans k1, m'', i2, fun cs h => i3 cs (k3 cs h)⟩

/-- **C90 (sessions).**  Requests, a start that succeeds, and more requests, leave a state that the framework reaches from its start, to
which all that is proved about these states applies. -/
theorem C90_session_partial (p : PEnv) (schemas : Str) (rs rs' : List PlatAsk) (as as' : List (Bool × Str)) (c c1 c2 : Conn)
    (h : Serve p (Conn.new schemas) rs as c) (hs : ∀ r ∈ rs, r.1 ≠ s "start") (args : List Str) (t : Str)
    (h1 : platRequest p c (s "start") args = (some (true, t), c1)) (h2 : Serve p c1 rs' as' c2) (hs' : ∀ r ∈ rs', r.1 ≠ s "start")
    (h32 : ∀ f t, ((p.world c.schemas).plugin f t).1.length ≤ 32)
    (hdoc : ∀ v cfg ys, IsDoc (p.world c.schemas).disk v (s "ParameterFrameworkConfiguration") p.config cfg →
      DeclaredSubsystems (p.world c.schemas).disk v p.config cfg ys → ∀ c ∈ ys,
      (∃ lib defx, Layout c lib defx) ∧ Everywhere SizesDeclared c)
    (hreg : ∀ v cfg settings, IsDoc (p.world c.schemas).disk v (s "ParameterFrameworkConfiguration") p.config cfg →
      DeclaredSettings (p.world c.schemas).disk v p.config cfg settings → ∀ root, settings.Regular root) :
    ∃ e m, c2.phase = .running e m ∧ MReachable e c.criteria m := by
  obtain ⟨b1, b2, b3, r, cfg, st, found, -, -, -, hS, hc, -⟩ := C90_start_policies p schemas rs as c c1 h hs args t h1
  have hm := C82_reachable_partial hS h32 (fun ys => hdoc _ cfg ys hS.config) (hreg _ cfg found hS.config hS.declared _)
  obtain ⟨-, m', h3, h4⟩ := C90_running p c1 c2 rs' as' h2 hs' r.env r.mgr hc
  exact ⟨r.env, m', h3, h4 _ hm⟩

/-! ## The types of the criteria -/

theorem createCriterion_functional {c : Conn} (hf : ∀ k ∈ c.criteria, Functional k.type) (incl : Bool) (name : Str) (values : List Str) :
    ∀ k ∈ (c.createCriterion incl name values).2.criteria, Functional k.type := by
  by_cases hn : NotStarted c
  · obtain ⟨s1, s2⟩ := create_spec c hn incl name values
    by_cases hg : GoodValues incl values ∧ (incl = false → values.length ≤ 2 ^ 31)
    · obtain ⟨c', k, e, hk, hc, -⟩ := s1 hg
      rw [e]
      intro k' hk'
      rw [show (some true, c').2.criteria = c.criteria ++ [k] from hc] at hk'
      rcases List.mem_append.1 hk' with h | h
      · exact hf k' h
      · rw [List.mem_singleton.1 h]
        exact hk.functional hg.1
    · rw [(s2 hg).2]; exact hf
  · have : (c.createCriterion incl name values).2 = c := by
      unfold Conn.createCriterion
      cases hp : c.phase with
      | running e m => rfl
      | setup cs => exact absurd (fun e m h => by rw [hp] at h; cases h) hn
      | failed cs => exact absurd (fun e m h => by rw [hp] at h; cases h) hn
    rw [this]; exact hf

theorem modify_functional {cs : List Criterion} (hf : ∀ k ∈ cs, Functional k.type) (i : Nat) (v : BitVec 32) :
    ∀ k ∈ cs.modify i (fun k => k.setState v), Functional k.type := by
  intro k hk
  obtain ⟨j, hj⟩ := List.mem_iff_getElem?.1 hk
  rw [List.getElem?_modify] at hj
  obtain ⟨k0, h0, rfl⟩ := Option.map_eq_some_iff.1 hj
  have h0 := hf k0 (List.mem_of_getElem? h0)
  split
  · unfold Criterion.setState; split <;> exact h0
  · exact h0

theorem reset_functional {cs : List Criterion} (hf : ∀ k ∈ cs, Functional k.type) :
    ∀ k ∈ cs.map Criterion.resetModified, Functional k.type := by
  intro k hk
  obtain ⟨k0, h0, rfl⟩ := List.mem_map.1 hk
  exact hf k0 h0

theorem apply_functional {c : Conn} (hf : ∀ k ∈ c.criteria, Functional k.type) : ∀ k ∈ c.apply.2.criteria, Functional k.type := by
  cases hp : c.phase with
  | setup cs => simpa only [Conn.apply, hp] using hf
  | failed cs => simpa only [Conn.apply, hp] using hf
  | running e m =>
    have hf0 := hf
    have hf : ∀ k ∈ m.st.criteria, Functional k.type := by simpa only [Conn.criteria, hp] using hf
    have key : ∀ k ∈ (MOp.applyConfigurations.step e m).2.st.criteria, Functional k.type := by
      rcases MOp.step_criteria e m .applyConfigurations with h | ⟨_, _, h⟩ | ⟨-, -, h⟩
      · rw [h]; exact hf
      · cases h
      · rw [h]; exact reset_functional hf
    rcases hs : MOp.applyConfigurations.step e m with ⟨r, m'⟩
    rw [hs] at key
    cases r with
    | ok u =>
      have ea : c.apply = (some (), ⟨c.pol, c.schemas, .running e m'⟩) := by simp only [Conn.apply, hp, hs]
      rw [ea]; exact key
    | err =>
      have ea : c.apply = (some (), ⟨c.pol, c.schemas, .running e m'⟩) := by simp only [Conn.apply, hp, hs]
      rw [ea]; exact key
    | abort =>
      have ea : c.apply = (none, c) := by simp only [Conn.apply, hp, hs]
      rw [ea]; exact hf0

theorem item_functional (p : PEnv) {it : CmdItem Conn} (hit : it ∈ platCommands p) (hs : it.name ≠ s "start") :
    ∃ f, it.parser = some f ∧ ∀ c args, it.minArgs ≤ args.length → (∀ k ∈ c.criteria, Functional k.type) →
      ∀ k ∈ (f c args).2.criteria, Functional k.type := by
  have hset : ∀ (k : Policy) cmd c (args : List Str), (platSetter p cmd k c args).2.criteria = c.criteria := by
    intro k cmd c args
    unfold platSetter
    split
    · split
      · rfl
      · rw [doneOrFailed_snd]
        show (Conn.setPolicy c k _).2.criteria = _
        unfold Conn.setPolicy
        split <;> rfl
    · rfl
  unfold platCommands at hit
  simp only [List.mem_cons, List.not_mem_nil, or_false] at hit
  rcases hit with rfl | rfl | rfl | rfl | rfl | rfl | rfl | rfl | rfl | rfl | rfl | rfl | rfl | rfl | rfl | rfl
  · exact ⟨_, rfl, fun c args _ hf => hf⟩
  · refine ⟨_, rfl, fun c args h hf => ?_⟩
    obtain ⟨n, w, ws, rfl⟩ := two_args h
    simp only [platCreateList, doneOrFailed_snd]
    exact createCriterion_functional hf _ _ _
  · refine ⟨_, rfl, fun c args h hf => ?_⟩
    obtain ⟨n, w, ws, rfl⟩ := two_args h
    simp only [platCreateList, doneOrFailed_snd]
    exact createCriterion_functional hf _ _ _
  · refine ⟨_, rfl, fun c args h hf => ?_⟩
    obtain ⟨n, w, ws, rfl⟩ := two_args h
    simp only [platCreateCount, doneOrFailed_snd]
    exact createCriterion_functional hf _ _ _
  · refine ⟨_, rfl, fun c args h hf => ?_⟩
    obtain ⟨n, w, ws, rfl⟩ := two_args h
    simp only [platCreateCount, doneOrFailed_snd]
    exact createCriterion_functional hf _ _ _
  · exact absurd rfl hs
  · refine ⟨_, rfl, fun c args h hf => ?_⟩
    obtain ⟨n, w, ws, rfl⟩ := two_args h
    simp only [platSetState_eq]
    split
    · exact hf
    · split
      · exact hf
      · split
        · exact hf
        · rw [(c.setState_criteria _ _).1]
          exact modify_functional hf _ _
  · exact ⟨_, rfl, fun c args _ hf => apply_functional hf⟩
  · exact ⟨_, rfl, fun c args _ hf => by simp only [hset]; exact hf⟩
  · exact ⟨_, rfl, fun c args _ hf => hf⟩
  · exact ⟨_, rfl, fun c args _ hf => by simp only [hset]; exact hf⟩
  · exact ⟨_, rfl, fun c args _ hf => hf⟩
  · exact ⟨_, rfl, fun c args _ hf => by simp only [hset]; exact hf⟩
  · exact ⟨_, rfl, fun c args _ hf => hf⟩
  · exact ⟨_, rfl, fun c args _ hf => hf⟩
  · exact ⟨_, rfl, fun c args _ hf => hf⟩

theorem start_functional {e : MEnv} {b : Bool} {settings : Settings} {back : BackSync} {cs : List Criterion}
    (hf : ∀ k ∈ cs, Functional k.type) : ∀ k ∈ (Mgr.start e b settings back cs).2.st.criteria, Functional k.type := by
  have h0 : ((St.initial e.env.root cs).loadSettings e.env.root e.env.rd b settings).2.criteria = cs := by
    have h1 : ((St.initial e.env.root cs).loadSettingsFile e.env.root e.env.rd settings).2.criteria = cs := by
      cases settings with
      | absent => rfl
      | unusable => rfl
      | doc x =>
        simp only [St.loadSettingsFile]
        split
        · rfl
        · split
          · rfl
          · split <;> rfl
    unfold St.loadSettings
    split
    · rename_i hx; rw [hx] at h1; exact h1
    · exact h1
  show ∀ k ∈ (St.start e.env b settings back cs).2.criteria, Functional k.type
  unfold St.start
  split
  · rename_i st hx
    rw [hx] at h0
    have h0 : st.criteria = cs := h0
    unfold St.finishStart
    split
    · split
      · rw [h0]; exact hf
      · unfold St.apply
        split
        · show ∀ k ∈ st.criteria, _
          rw [h0]; exact hf
        · show ∀ k ∈ st.criteria.map Criterion.resetModified, _
          rw [h0]; exact reset_functional hf
    · rw [h0]; exact hf
  · rw [h0]; exact hf

theorem request_functional (p : PEnv) {c c' : Conn} {r : PlatAsk} {a : Option (Bool × Str)} (hs : r.1 ≠ s "start")
    (h : platRequest p c r.1 r.2 = (a, c')) (hf : ∀ k ∈ c.criteria, Functional k.type) : ∀ k ∈ c'.criteria, Functional k.type := by
  have e : c' = (processCommand (createHandler (platCommands p)) c r.1 r.2).2 := by
    have : platRequest p c r.1 r.2 = processCommand (createHandler (platCommands p)) c r.1 r.2 := by unfold platRequest; rfl
    rw [← this, h]
  rcases process_cases (createHandler (platCommands p)) c r.1 r.2 with ⟨a', h'⟩ | ⟨it, hfind, hh, hmin⟩
  · rw [h'] at e
    rw [e]; exact hf
  · obtain ⟨hm, hn⟩ := findCommand_some hfind
    rw [createHandler_eq _ (plat_names p)] at hm
    rcases List.mem_cons.1 hm with rfl | hm
    · exact absurd hn.symm hh
    obtain ⟨f, hpf, hfun⟩ := item_functional p hm (by rw [hn]; exact hs)
    obtain ⟨h1, -⟩ := C47_executed (createHandler (platCommands p)) (C47_names_distinct _) it
      (by rw [createHandler_eq _ (plat_names p)]; exact List.mem_cons_of_mem _ hm) (by rw [hn]; exact hh) f hpf c r.2 hmin
    rw [hn] at h1
    rw [e, h1]
    exact hfun c r.2 hmin hf

/-- **C90 (literals).**  Whatever the requests, with a start among them, the criteria have no literal with two numbers: what
`C90_state` asks of them. -/
theorem C90_literals (p : PEnv) (schemas : Str) (rs rs' : List PlatAsk) (as as' : List (Bool × Str)) (c c1 c2 : Conn)
    (h : Serve p (Conn.new schemas) rs as c) (hs : ∀ r ∈ rs, r.1 ≠ s "start") :
    (∀ k ∈ c.criteria, Functional k.type) ∧
    (∀ args a, platRequest p c (s "start") args = (some a, c1) → Serve p c1 rs' as' c2 → (∀ r ∈ rs', r.1 ≠ s "start") →
      ∀ k ∈ c2.criteria, Functional k.type) := by
  have key : ∀ {c0 rs as c}, Serve p c0 rs as c → (∀ r ∈ rs, r.1 ≠ s "start") → (∀ k ∈ c0.criteria, Functional k.type) →
      ∀ k ∈ c.criteria, Functional k.type := by
    intro c0 rs as c h
    induction h with
    | nil c => exact fun _ hf => hf
    | @cons c c' c'' r rs a as h1 _ ih =>
      intro hs hf
      exact ih (fun r hr => hs r (by simp [hr])) (request_functional p (hs r (by simp)) h1 hf)
  have hf := key h hs (by simp [Conn.new, Conn.criteria])
  refine ⟨hf, fun args a h1 h2 hs' => key h2 hs' ?_⟩
  obtain ⟨⟨cs, hc⟩, -⟩ := C90_history p schemas rs as c h hs
  have hf : ∀ k ∈ cs, Functional k.type := by simpa only [Conn.criteria, hc] using hf
  obtain ⟨s1, s2, s3⟩ := C90_start p c cs hc args
  cases hx : startFramework (p.world c.schemas) c.pol p.config p.fuel cs with
  | ok r =>
    have := s1 r hx
    rw [h1] at this
    cases this
    obtain ⟨cfg, st, found, hS⟩ := C82_starts.1 ⟨_, hx⟩
    have := start_functional (e := r.env) (b := c.pol.failOnSettings) (settings := found) (back := (p.world c.schemas).back) hf
    rw [hS.manager] at this
    exact this
  | refused =>
    obtain ⟨t', ht⟩ := s2 hx
    rw [h1] at ht
    cases ht
    exact hf
  | threw =>
    have := s3 (by simp [hx]) (by simp [hx])
    rw [h1] at this; cases this
  | stopped =>
    have := s3 (by simp [hx]) (by simp [hx])
    rw [h1] at this; cases this
  | endless =>
    have := s3 (by simp [hx]) (by simp [hx])
    rw [h1] at this; cases this

/-! ## Samples and findings -/

namespace SamplePlatform

theorem serve : ∀ (c : Conn) (rs : List PlatAsk) (as : List (Bool × Str)), answers c rs = as.map some →
    Serve env c rs as (after c rs)
  | c, [], as, h => by
    cases as with
    | nil => exact .nil c
    | cons a as => cases h
  | c, r :: rs, as, h => by
    cases as with
    | nil => cases h
    | cons a as =>
      simp only [answers, List.map_cons, List.cons.injEq] at h
      exact .cons (Prod.ext h.1 rfl) (serve _ rs as h.2)

theorem served : Serve env (Conn.new []) requests
    [(true, s "Done"), (true, s "Done"), (true, s "Done"), (false, s "setValidateSchemasOnStart true|false"), (true, s "Done"),
     (false, s "error"), (true, s "Done")] (after (Conn.new []) requests) := serve _ _ _ serves

theorem noStart : ∀ r ∈ requests, r.1 ≠ s "start" := by decide +kernel

/-- The test platform with the criteria, started, and after two more requests. -/
def started : Conn := (platRequest env (after (Conn.new []) requests) (s "start") []).2

/-- See `started`. -/
def later : List PlatAsk := [(s "setCriterionState", [s "mode", s "call"]), (s "applyConfigurations", [])]

theorem starts : (platRequest env (after (Conn.new []) requests) (s "start") []).1 = some (true, s "Done") := by decide +kernel

theorem servesLater : Serve env started later [(true, s "Done"), (true, s "Done")] (after started later) :=
  serve _ _ _ (by decide +kernel)

end SamplePlatform

/-- The requests of the sample and a start: `C90_history` and `C90_start_policies` apply. -/
example : LastSet .validate false SamplePlatform.requests false ∧ LastSet .missing true SamplePlatform.requests true := by
  obtain ⟨-, -, h1, -, h2⟩ := C90_history _ _ _ _ _ SamplePlatform.served SamplePlatform.noStart
  have e : (SamplePlatform.after (Conn.new []) SamplePlatform.requests).pol = .initial := by decide +kernel
  rw [e] at h1 h2
  exact ⟨h2, h1⟩

example : ∃ missing settings validate r cfg st found, LastSet .missing true SamplePlatform.requests missing ∧
    LastSet .settings true SamplePlatform.requests settings ∧ LastSet .validate false SamplePlatform.requests validate ∧
    Starts (SamplePlatform.env.world (SamplePlatform.after (Conn.new []) SamplePlatform.requests).schemas)
      ⟨missing, settings, validate, false⟩ SamplePlatform.env.config (SamplePlatform.after (Conn.new []) SamplePlatform.requests).criteria
      r cfg st found ∧
    SamplePlatform.started.phase = .running r.env r.mgr ∧
    SamplePlatform.started.pol = (SamplePlatform.after (Conn.new []) SamplePlatform.requests).pol :=
  C90_start_policies _ _ _ _ _ _ SamplePlatform.served SamplePlatform.noStart [] _ (Prod.ext SamplePlatform.starts rfl)

/-- The sample, started, with two more requests: `C90_session_partial` applies. -/
example : ∃ e m, (SamplePlatform.after SamplePlatform.started SamplePlatform.later).phase = .running e m ∧
    MReachable e (SamplePlatform.after (Conn.new []) SamplePlatform.requests).criteria m :=
  C90_session_partial _ _ _ _ _ _ _ _ _ SamplePlatform.served SamplePlatform.noStart [] _ (Prod.ext SamplePlatform.starts rfl)
    SamplePlatform.servesLater (by decide +kernel) (fun _ _ => by simp [SamplePlatform.env, SampleFiles.world])
    (fun v cfg ys hd hys => by
      obtain rfl : SampleFiles.configuration "false" "5000" = cfg := Option.some.inj hd.1
      rw [SampleFiles.declared hys]; exact SampleFiles.sizes)
    (fun v cfg found hd hf root => by
      obtain rfl : SampleFiles.configuration "false" "5000" = cfg := Option.some.inj hd.1
      rw [SampleFiles.settings hf]; trivial)

/-- The types of the criteria of the sample, after the start and two more requests, have no literal with two numbers. -/
example : ∀ k ∈ (SamplePlatform.after SamplePlatform.started SamplePlatform.later).criteria, Functional k.type :=
  (C90_literals _ _ _ _ _ _ _ _ _ SamplePlatform.served SamplePlatform.noStart).2 [] _ (Prod.ext SamplePlatform.starts rfl)
    SamplePlatform.servesLater (by decide +kernel)

/-- The criteria of the running system of the sample: the second request took the pending changes into account. -/
example : (SamplePlatform.after SamplePlatform.started SamplePlatform.later).criteria.map (fun k => (k.name, k.state, k.nbModifications)) =
    [(s "mode", 1#32, 0#32), (s "device", 7#32, 0#32)] := by decide +kernel

/-- The criterion `device` of the sample, and words for a state of it: `C90_state` applies, also to the running system. -/
example : ∃ k, IsCriterion SamplePlatform.started.criteria (s "device") 1 k ∧ Functional k.type ∧
    StateWords k.type [s "earpiece|headset"] 5#32 ∧ StateWords k.type [s "6"] 6#32 := by
  have hl : ∀ k ∈ SamplePlatform.started.criteria, Functional k.type := (C90_literals _ _ _ [] _ [] _ _ _ SamplePlatform.served SamplePlatform.noStart).2 [] _
    (Prod.ext SamplePlatform.starts rfl) (.nil _) (by simp)
  have hname : SamplePlatform.started.criteria.map (·.name) = [s "mode", s "device"] := by decide +kernel
  have htype : (SamplePlatform.started.criteria[1]?).map (·.type) =
      some ⟨true, [(s "earpiece", 1#32), (s "headset", 4#32), (s "none", 0#32), (s "speaker", 2#32)]⟩ := by decide +kernel
  have hstate : ∀ ws v, (wordsState ⟨true, [(s "earpiece", 1#32), (s "headset", 4#32), (s "none", 0#32), (s "speaker", 2#32)]⟩ ws []) =
      some v → ∀ k ∈ SamplePlatform.started.criteria, k.type =
        ⟨true, [(s "earpiece", 1#32), (s "headset", 4#32), (s "none", 0#32), (s "speaker", 2#32)]⟩ → StateWords k.type [ws] v := by
    intro w v h k hk e
    exact (wordsState_iff (hl k hk) w [] v).1 (by rw [e]; exact h)
  cases hk : SamplePlatform.started.criteria with
  | nil => rw [hk] at hname; cases hname
  | cons k0 ks =>
    cases ks with
    | nil => rw [hk] at hname; simp at hname
    | cons k1 ks =>
      rw [hk] at hname htype hl hstate
      simp only [List.map_cons, List.cons.injEq] at hname
      simp only [List.getElem?_cons_succ, List.getElem?_cons_zero, Option.map_some, Option.some.injEq] at htype
      refine ⟨k1, ⟨rfl, .inl ⟨by rw [hname.2.1]; decide, hname.2.1⟩, ?_⟩, hl k1 (by simp), hstate _ _ (by decide +kernel) k1 (by simp) htype,
        hstate _ _ (by decide +kernel) k1 (by simp) htype⟩
      intro j hj k' hk'
      obtain rfl : j = 0 := by omega
      simp only [List.getElem?_cons_zero, Option.some.injEq] at hk'
      subst hk'
      rintro (⟨-, h⟩ | ⟨h, -⟩)
      · rw [hname.1] at h; exact absurd h (by decide)
      · rw [hname.1] at h; exact absurd h (by decide)

/-- An acceptable criterion, and one that is not: `C90_create` applies. -/
example : Acceptable ⟨true, s "device", [s "earpiece", s "speaker"]⟩ ∧ ¬ Acceptable ⟨false, s "mode", [s "idle", s "idle"]⟩ ∧
    CNumeral (s "5") 5 ∧ numberedValues true 5 = [s "State_0x1", s "State_0x2", s "State_0x4", s "State_0x8", s "State_0x16"] := by
  refine ⟨⟨by simp, ⟨by decide, ?_⟩, by simp⟩, fun h => absurd h.2.1.1 (by decide), ?_, by decide +kernel⟩
  · decide
  · exact .dec (.single ⟨by decide, by decide⟩) (by decide)

/-- **C90 (finding).**  `getSchemaUri` never tells the folder of the schemas: whatever it is, the answer is `Done`. -/
theorem C90_schemas_untold (p : PEnv) (c : Conn) (args : List Str) :
    platRequest p c (s "getSchemaUri") args = (some (true, s "Done"), c) := by
  obtain ⟨h1, h2, -⟩ := platRequest_item p c (List.mem_of_getElem? (i := 14) rfl) (Nat.zero_le args.length)
  exact Prod.ext (h2 _ rfl) h1

/-- **C90 (finding).**  A number is not checked: any one that fits in 32 bits becomes the state, be it that of a value or not. -/
theorem C90_number_unchecked : ∃ (p : PEnv) (c c' : Conn) (k : Criterion),
    platRequest p c (s "setCriterionState") [s "mode", s "7"] = (some (true, s "Done"), c') ∧ c'.criteria = [k] ∧
    k.type.inclusive = false ∧ k.state = 7#32 ∧ ∀ l, (l, k.state) ∉ k.type.map := by
  have hr : (platRequest SamplePlatform.env ⟨.initial, [], .setup [⟨s "mode", ⟨false, [(s "call", 1#32), (s "idle", 0#32)]⟩, 0#32, 0#32⟩]⟩
      (s "setCriterionState") [s "mode", s "7"]).1 = some (true, s "Done") := by decide +kernel
  have hc : (platRequest SamplePlatform.env ⟨.initial, [], .setup [⟨s "mode", ⟨false, [(s "call", 1#32), (s "idle", 0#32)]⟩, 0#32, 0#32⟩]⟩
      (s "setCriterionState") [s "mode", s "7"]).2.criteria =
      [⟨s "mode", ⟨false, [(s "call", 1#32), (s "idle", 0#32)]⟩, 7#32, 1#32⟩] := by decide +kernel
  refine ⟨_, _, _, _, Prod.ext hr rfl, hc, rfl, rfl, fun l h => ?_⟩
  simp at h

/-- **C90 (finding).**  A word that is no number makes a criterion without a value, and the answer is that all went well. -/
theorem C90_count_unchecked : ∃ (p : PEnv) (c c' : Conn) (k : Criterion),
    platRequest p c (s "createExclusiveSelectionCriterion") [s "mode", s "three"] = (some (true, s "Done"), c') ∧
    c'.criteria = [k] ∧ k.type.map = [] := by
  have hr : (platRequest SamplePlatform.env (Conn.new []) (s "createExclusiveSelectionCriterion") [s "mode", s "three"]).1 =
      some (true, s "Done") := by decide +kernel
  have hc : (platRequest SamplePlatform.env (Conn.new []) (s "createExclusiveSelectionCriterion") [s "mode", s "three"]).2.criteria =
      [⟨s "mode", ⟨false, []⟩, 0#32, 0#32⟩] := by decide +kernel
  exact ⟨_, _, _, _, Prod.ext hr rfl, hc, rfl⟩

/-- **C90 (finding).**  Two criteria of the same name are accepted; the second one can then never be set by its name. -/
theorem C90_same_name (p : PEnv) (c : Conn) (name : Str) (k k' : Criterion) (i j : Nat) (hij : i < j) (hi : c.criteria[i]? = some k)
    (hj : c.criteria[j]? = some k') (hk : Called k name) (ws : List Str) (hw : ws ≠ []) :
    (platRequest p c (s "setCriterionState") (name :: ws)).2.criteria[j]? = some k' := by
  obtain ⟨w, ws, rfl⟩ : ∃ w r, ws = w :: r := by
    cases ws with
    | nil => exact absurd rfl hw
    | cons w r => exact ⟨w, r, rfl⟩
  obtain ⟨h1, -, -⟩ := setState_answer p c name w ws
  rw [h1, platSetState_eq]
  cases hf : findCriterion c.criteria name with
  | none => exact hj
  | some n =>
    obtain ⟨kn, h2, h3, h4⟩ := findCriterion_is.1 hf
    have hn : n ≤ i := by
      refine Nat.le_of_not_lt fun h => h4 i h k hi hk
    simp only [h2]
    split
    · exact hj
    · rw [(c.setState_criteria _ _).1, List.getElem?_modify, hj]
      show some (if n = j then _ else k') = some k'
      rw [if_neg (by omega)]

end PF
