import Verif.Spec.Concurrency

/-!
# Serialisation of operations that use one mutex
-/

namespace PF

variable {ω σ ρ : Type}

/-- The answer and the state left by the rest of an operation when no other thread runs. -/
def Code.finish : Code σ ρ → σ → ρ × σ
  | .ret r, s => (r, s)
  | .look k, s => (k s).finish s
  | .lock c, s => c.finish s
  | .unlock c, s => c.finish s
  | .act f k, s => (k s).finish (f s)

/-- A critical section, to its end.  `I` holds of every state, `J` of a state inside the section and the
state at its end. -/
def Sect (I : σ → Prop) (J : σ → σ → Prop) : Code σ ρ → Prop
  | .ret _ => False
  | .look k => ∀ s, I s → Sect I J (k s)
  | .lock _ => False
  | .unlock c => ∃ r, c = .ret r
  | .act f k => ∀ s, I s → I (f s) ∧ Sect I J (k s) ∧ J (f s) ((k s).finish (f s)).2

/-- An operation before its critical section. -/
def Before (I : σ → Prop) (J : σ → σ → Prop) (spec : σ → ρ × σ → Prop) : Code σ ρ → Prop
  | .ret _ => False
  | .look k => ∀ s, I s → Before I J spec (k s) ∨ ∃ r, k s = .ret r ∧ ∀ s', I s' → J s s' → spec s' (r, s')
  | .lock c => Sect I J c ∧ ∀ s, I s → spec s (c.finish s)
  | .unlock _ => False
  | .act _ _ => False

theorem Sect.final {I : σ → Prop} {J : σ → σ → Prop} : ∀ {c : Code σ ρ} {s : σ}, Sect I J c → I s → I (c.finish s).2 := by
  intro c
  induction c with
  | ret r => intro s h; exact absurd h (fun x => x)
  | look k ih => intro s h hi; exact ih s (h s hi) hi
  | lock c ih => intro s h; exact absurd h (fun x => x)
  | unlock c ih => intro s h hi; obtain ⟨r, rfl⟩ := h; exact hi
  | act f k ih => intro s h hi; exact ih s (h s hi).2.1 (h s hi).1

/-- What a thread has done and will do, given its program `p`, its operations in the order `l`, the
shared state `sh`, the last state `fin` of the order, and whether it holds the mutex. -/
inductive TOk (I : σ → Prop) (J : σ → σ → Prop) (spec : ω → σ → ρ × σ → Prop) (sh fin : σ) (mine : Prop)
    (p : List ω) (l : List (ω × ρ)) : Thread ω σ ρ → Prop
  | idle {todo} : ¬ mine → l.map Prod.fst ++ todo = p → TOk I J spec sh fin mine p l ⟨none, todo, l.map Prod.snd⟩
  | before {op c todo} : ¬ mine → Before I J (spec op) c → l.map Prod.fst ++ op :: todo = p →
    TOk I J spec sh fin mine p l ⟨some (op, c), todo, l.map Prod.snd⟩
  | entered {op c todo} : mine → sh = fin → Sect I J c → spec op sh (c.finish sh) →
    l.map Prod.fst ++ op :: todo = p → TOk I J spec sh fin mine p l ⟨some (op, c), todo, l.map Prod.snd⟩
  | inside {op c todo r pre} : mine → Sect I J c → c.finish sh = (r, fin) → l = pre ++ [(op, r)] →
    pre.map Prod.fst ++ op :: todo = p → TOk I J spec sh fin mine p l ⟨some (op, c), todo, pre.map Prod.snd⟩
  | after {op r todo pre} : ¬ mine → l = pre ++ [(op, r)] → pre.map Prod.fst ++ op :: todo = p →
    TOk I J spec sh fin mine p l ⟨some (op, .ret r), todo, pre.map Prod.snd⟩

/-- The step at which an operation takes its place in the order: its first change of the shared state,
or the release of the mutex, or the refusal. -/
def Code.commits (sh : σ) : Code σ ρ → Bool
  | .look k => match k sh with | .ret _ => true | _ => false
  | .unlock _ => true
  | .act _ _ => true
  | _ => false

/-- The order after a step of thread `i`. -/
def ordStep (s : Sys ω σ ρ) (ord : List (Nat × ω × ρ)) (i : Nat) : List (Nat × ω × ρ) :=
  match (s.threads i).cur with
  | some (op, c) =>
    if c.commits s.shared && (opsOf i ord).length == (s.threads i).done.length
    then ord ++ [(i, op, (c.finish s.shared).1)] else ord
  | none => ord

/-- The threads and the order after a schedule. -/
def ghostRun (code : ω → Code σ ρ) (s : Sys ω σ ρ) (sch : List Nat) : Sys ω σ ρ × List (Nat × ω × ρ) :=
  sch.foldl (fun x i => (x.1.step code i, ordStep x.1 x.2 i)) (s, [])

theorem ghost_fst (code : ω → Code σ ρ) (sch : List Nat) : ∀ (x : Sys ω σ ρ × List (Nat × ω × ρ)),
    (sch.foldl (fun x i => (x.1.step code i, ordStep x.1 x.2 i)) x).1 = sch.foldl (Sys.step code) x.1 := by
  induction sch with
  | nil => intro x; rfl
  | cons i sch ih => intro x; simp only [List.foldl_cons]; rw [ih]

theorem ordStep_prefix (s : Sys ω σ ρ) (ord : List (Nat × ω × ρ)) (i : Nat) : ord <+: ordStep s ord i := by
  unfold ordStep
  split
  · split
    · exact List.prefix_append _ _
    · exact List.prefix_refl _
  · exact List.prefix_refl _

theorem ghost_prefix (code : ω → Code σ ρ) (sch : List Nat) : ∀ (x : Sys ω σ ρ × List (Nat × ω × ρ)),
    x.2 <+: (sch.foldl (fun x i => (x.1.step code i, ordStep x.1 x.2 i)) x).2 := by
  induction sch with
  | nil => intro x; exact List.prefix_refl _
  | cons i sch ih =>
    intro x
    simp only [List.foldl_cons]
    exact (ordStep_prefix x.1 x.2 i).trans (ih (x.1.step code i, ordStep x.1 x.2 i))

theorem opsOf_append {α : Type} (i : Nat) (a b : List (Nat × α)) : opsOf i (a ++ b) = opsOf i a ++ opsOf i b := by
  simp [opsOf]

theorem opsOf_self {α : Type} (i : Nat) (ord : List (Nat × α)) (x : α) : opsOf i (ord ++ [(i, x)]) = opsOf i ord ++ [x] := by
  simp [opsOf]

theorem opsOf_other {α : Type} {i j : Nat} (ord : List (Nat × α)) (x : α) (h : j ≠ i) :
    opsOf j (ord ++ [(i, x)]) = opsOf j ord := by
  simp [opsOf, Ne.symm h]

/-- The invariant. -/
structure Inv (I : σ → Prop) (J : σ → σ → Prop) (spec : ω → σ → ρ × σ → Prop) (prog : Nat → List ω) (s0 : σ)
    (s : Sys ω σ ρ) (ord : List (Nat × ω × ρ)) (fin : σ) : Prop where
  serial : SerialRun spec s0 ord fin
  shared : I s.shared
  final : I fin
  rel : J s.shared fin
  free : s.owner = none → s.shared = fin
  threads : ∀ i, TOk I J spec s.shared fin (s.owner = some i) (prog i) (opsOf i ord) (s.threads i)

theorem TOk.other {I : σ → Prop} {J : σ → σ → Prop} {spec : ω → σ → ρ × σ → Prop} {sh sh' fin fin' : σ}
    {mine mine' : Prop} {p : List ω} {l : List (ω × ρ)} {t : Thread ω σ ρ} (h : TOk I J spec sh fin mine p l t)
    (h1 : ¬ mine) (h2 : ¬ mine') : TOk I J spec sh' fin' mine' p l t := by
  cases h with
  | idle _ b => exact .idle h2 b
  | before _ b c => exact .before h2 b c
  | entered a => exact absurd a h1
  | inside a => exact absurd a h1
  | after _ b c => exact .after h2 b c

/-- The state of the threads that do not run. -/
theorem TOk.same {I : σ → Prop} {J : σ → σ → Prop} {spec : ω → σ → ρ × σ → Prop} {sh fin : σ}
    {mine mine' : Prop} {p : List ω} {l : List (ω × ρ)} {t : Thread ω σ ρ} (h : TOk I J spec sh fin mine p l t)
    (hm : mine ↔ mine') : TOk I J spec sh fin mine' p l t := by
  have : mine = mine' := propext hm
  subst this
  exact h

theorem Inv.step {I : σ → Prop} {J : σ → σ → Prop} {spec : ω → σ → ρ × σ → Prop} {prog : Nat → List ω} {s0 : σ}
    {code : ω → Code σ ρ} (refl : ∀ s, J s s) (hcode : ∀ i, ∀ op ∈ prog i, Before I J (spec op) (code op))
    {s : Sys ω σ ρ} {ord : List (Nat × ω × ρ)} {fin : σ} (h : Inv I J spec prog s0 s ord fin) (i : Nat) :
    ∃ fin', Inv I J spec prog s0 (s.step code i) (ordStep s ord i) fin' := by
  have hi := h.threads i
  generalize ht : s.threads i = t at hi
  generalize hl : opsOf i ord = l at hi
  -- a step that only changes thread `i`
  have only : ∀ t', ordStep s ord i = ord → s.step code i = s.put i t' →
      TOk I J spec s.shared fin (s.owner = some i) (prog i) l t' →
      ∃ fin', Inv I J spec prog s0 (s.step code i) (ordStep s ord i) fin' := by
    intro t' ho hs hok
    rw [ho, hs]
    refine ⟨fin, h.serial, h.shared, h.final, h.rel, h.free, ?_⟩
    intro j
    by_cases hj : j = i
    · subst hj
      simpa [Sys.put, hl] using hok
    · simpa [Sys.put, hj] using h.threads j
  cases hi with
  | idle hm hp =>
    rename_i todo
    cases todo with
    | nil =>
      have hs : s.step code i = s := by simp [Sys.step, ht]
      have ho : ordStep s ord i = ord := by simp [ordStep, ht]
      rw [hs, ho]
      exact ⟨fin, h⟩
    | cons op ops =>
      refine only ⟨some (op, code op), ops, l.map Prod.snd⟩ (by simp [ordStep, ht]) (by simp only [Sys.step, ht]) ?_
      exact .before hm (hcode i op (by rw [← hp]; simp)) hp
  | before hm hb hp =>
    rename_i op c todo
    have hlen : (opsOf i ord).length = (s.threads i).done.length := by simp [ht, hl]
    cases c with
    | ret r => exact absurd hb (fun x => x)
    | unlock c => exact absurd hb (fun x => x)
    | act f k => exact absurd hb (fun x => x)
    | look k =>
      rcases hb s.shared h.shared with hb | ⟨r, hr, hsp⟩
      · have hnc : Code.commits s.shared (.look k) = false := by
          simp only [Code.commits]
          split
          · rename_i r' hr'; rw [hr'] at hb; exact absurd hb (fun x => x)
          · rfl
        refine only ⟨some (op, k s.shared), todo, l.map Prod.snd⟩ (by simp [ordStep, ht, hnc]) (by simp only [Sys.step, ht]) ?_
        exact .before hm hb hp
      · have hc : Code.commits s.shared (.look k) = true := by simp only [Code.commits, hr]
        have ho : ordStep s ord i = ord ++ [(i, op, r)] := by
          simp only [ordStep, ht, hc]
          rw [ht] at hlen
          simp [hlen, Code.finish, hr]
        rw [ho]
        refine ⟨fin, h.serial.snoc (hsp _ h.final h.rel), ?_, h.final, ?_, ?_, ?_⟩
        · simpa only [Sys.step, ht, Sys.put] using h.shared
        · simpa only [Sys.step, ht, Sys.put] using h.rel
        · simpa only [Sys.step, ht, Sys.put] using h.free
        · intro j
          simp only [Sys.step, ht, Sys.put]
          by_cases hj : j = i
          · subst hj
            simp only [if_true, opsOf_self, hr]
            exact .after hm (by rw [hl]) hp
          · simpa [hj, opsOf_other _ _ hj] using h.threads j
    | lock c =>
      have ho : ordStep s ord i = ord := by simp [ordStep, ht, Code.commits]
      rw [ho]
      cases hw : s.owner with
      | some w =>
        have hs : s.step code i = s := by simp only [Sys.step, ht, hw]
        rw [hs]
        exact ⟨fin, h⟩
      | none =>
        refine ⟨fin, h.serial, ?_, h.final, ?_, ?_, ?_⟩
        · simpa only [Sys.step, ht, hw, Sys.put] using h.shared
        · simpa only [Sys.step, ht, hw, Sys.put] using h.rel
        · simp [Sys.step, ht, hw]
        · intro j
          simp only [Sys.step, ht, hw, Sys.put]
          by_cases hj : j = i
          · subst hj
            simp only [if_true, hl]
            exact .entered trivial (h.free hw) hb.1 (hb.2 _ h.shared) hp
          · simp only [hj, if_false]
            exact (h.threads j).same (by simp [hw, Ne.symm hj])
  | entered hm hf hb hsp hp =>
    rename_i op c todo
    have hlen : (opsOf i ord).length = (s.threads i).done.length := by simp [ht, hl]
    have hothers : ∀ j, j ≠ i → ¬ s.owner = some j := by
      intro j hj hx; rw [hm] at hx; injection hx with hx; exact hj hx.symm
    cases c with
    | ret r => exact absurd hb (fun x => x)
    | lock c => exact absurd hb (fun x => x)
    | look k =>
      have hk := hb _ h.shared
      have hnc : Code.commits s.shared (.look k) = false := by
        simp only [Code.commits]
        split
        · rename_i r' hr'; rw [hr'] at hk; exact absurd hk (fun x => x)
        · rfl
      refine only ⟨some (op, k s.shared), todo, l.map Prod.snd⟩ (by simp [ordStep, ht, hnc]) (by simp only [Sys.step, ht]) ?_
      exact .entered hm hf hk hsp hp
    | unlock c =>
      obtain ⟨r, rfl⟩ := hb
      have ho : ordStep s ord i = ord ++ [(i, op, r)] := by
        simp only [ordStep, ht, Code.commits]
        rw [ht] at hlen
        simp [hlen, Code.finish]
      rw [ho]
      refine ⟨fin, h.serial.snoc (by simpa [Code.finish, hf] using hsp), ?_, h.final, ?_, ?_, ?_⟩
      · simpa only [Sys.step, ht, Sys.put] using h.shared
      · simpa only [Sys.step, ht, Sys.put] using h.rel
      · simpa [Sys.step, ht, Sys.put] using hf
      · intro j
        simp only [Sys.step, ht, Sys.put]
        by_cases hj : j = i
        · subst hj
          simp only [if_true, opsOf_self, hl]
          exact .after (by simp) rfl hp
        · simp only [hj, if_false, opsOf_other _ _ hj]
          exact (h.threads j).other (hothers j hj) (by simp)
    | act f k =>
      obtain ⟨h1, h2, h3⟩ := hb _ h.shared
      have ho : ordStep s ord i = ord ++ [(i, op, ((k s.shared).finish (f s.shared)).1)] := by
        simp only [ordStep, ht, Code.commits]
        rw [ht] at hlen
        simp [hlen, Code.finish]
      rw [ho]
      refine ⟨((k s.shared).finish (f s.shared)).2, h.serial.snoc (by rw [← hf]; exact hsp), ?_, ?_, ?_, ?_, ?_⟩
      · simpa only [Sys.step, ht, Sys.put] using h1
      · exact h2.final h1
      · simpa only [Sys.step, ht, Sys.put] using h3
      · intro hn
        simp [Sys.step, ht, Sys.put, hm] at hn
      · intro j
        simp only [Sys.step, ht, Sys.put]
        by_cases hj : j = i
        · subst hj
          simp only [if_true, opsOf_self, hl]
          exact .inside hm h2 rfl rfl hp
        · simp only [hj, if_false, opsOf_other _ _ hj]
          exact (h.threads j).other (hothers j hj) (hothers j hj)
  | inside hm hb hfin hle hp =>
    rename_i op c todo r pre
    have hlen : (opsOf i ord).length ≠ pre.length := by simp [hl, hle]
    have hothers : ∀ j, j ≠ i → ¬ s.owner = some j := by
      intro j hj hx; rw [hm] at hx; injection hx with hx; exact hj hx.symm
    have ho : ordStep s ord i = ord := by
      simp only [ordStep, ht]
      simp [hlen]
    cases c with
    | ret r => exact absurd hb (fun x => x)
    | lock c => exact absurd hb (fun x => x)
    | look k =>
      refine only ⟨some (op, k s.shared), todo, pre.map Prod.snd⟩ ho (by simp only [Sys.step, ht]) ?_
      exact .inside hm (hb _ h.shared) hfin hle hp
    | unlock c =>
      obtain ⟨r', rfl⟩ := hb
      simp only [Code.finish, Prod.mk.injEq] at hfin
      rw [ho]
      refine ⟨fin, h.serial, ?_, h.final, ?_, ?_, ?_⟩
      · simpa only [Sys.step, ht, Sys.put] using h.shared
      · simpa only [Sys.step, ht, Sys.put] using h.rel
      · simpa [Sys.step, ht, Sys.put] using hfin.2
      · intro j
        simp only [Sys.step, ht, Sys.put]
        by_cases hj : j = i
        · subst hj
          simp only [if_true, hl]
          rw [hfin.1]
          exact .after (by simp) hle hp
        · simp only [hj, if_false]
          exact (h.threads j).other (hothers j hj) (by simp)
    | act f k =>
      obtain ⟨h1, h2, h3⟩ := hb _ h.shared
      simp only [Code.finish] at hfin
      rw [ho]
      refine ⟨fin, h.serial, ?_, h.final, ?_, ?_, ?_⟩
      · simpa only [Sys.step, ht, Sys.put] using h1
      · rw [hfin] at h3
        simpa only [Sys.step, ht, Sys.put] using h3
      · intro hn
        simp [Sys.step, ht, Sys.put, hm] at hn
      · intro j
        simp only [Sys.step, ht, Sys.put]
        by_cases hj : j = i
        · subst hj
          simp only [if_true, hl]
          exact .inside hm h2 hfin hle hp
        · simp only [hj, if_false]
          exact (h.threads j).other (hothers j hj) (hothers j hj)
  | after hm hle hp =>
    rename_i op r todo pre
    refine only ⟨none, todo, pre.map Prod.snd ++ [r]⟩ (by simp [ordStep, ht, Code.commits]) (by simp only [Sys.step, ht]) ?_
    have : pre.map Prod.snd ++ [r] = l.map Prod.snd := by simp [hle]
    rw [this]
    exact .idle hm (by simp [hle, ← hp])

theorem Inv.foldl {I : σ → Prop} {J : σ → σ → Prop} {spec : ω → σ → ρ × σ → Prop} {prog : Nat → List ω} {s0 : σ}
    {code : ω → Code σ ρ} (refl : ∀ s, J s s) (hcode : ∀ i, ∀ op ∈ prog i, Before I J (spec op) (code op))
    (sch : List Nat) : ∀ {x : Sys ω σ ρ × List (Nat × ω × ρ)} {fin : σ}, Inv I J spec prog s0 x.1 x.2 fin →
    ∃ fin', Inv I J spec prog s0 (sch.foldl (fun x i => (x.1.step code i, ordStep x.1 x.2 i)) x).1
      (sch.foldl (fun x i => (x.1.step code i, ordStep x.1 x.2 i)) x).2 fin' := by
  induction sch with
  | nil => intro x fin h; exact ⟨fin, h⟩
  | cons i sch ih =>
    intro x fin h
    obtain ⟨fin', h'⟩ := h.step refl hcode i
    exact ih (x := (x.1.step code i, ordStep x.1 x.2 i)) h'

theorem Inv.start {I : σ → Prop} {J : σ → σ → Prop} {spec : ω → σ → ρ × σ → Prop} {prog : Nat → List ω} {s0 : σ}
    (refl : ∀ s, J s s) (h0 : I s0) : Inv I J spec prog s0 (Sys.start prog s0) [] s0 :=
  ⟨.nil, h0, h0, refl _, fun _ => rfl, fun _ => .idle (l := []) (by simp [Sys.start]) rfl⟩

theorem Inv.explains {I : σ → Prop} {J : σ → σ → Prop} {spec : ω → σ → ρ × σ → Prop} {prog : Nat → List ω} {s0 : σ}
    {s : Sys ω σ ρ} {ord : List (Nat × ω × ρ)} {fin : σ} (h : Inv I J spec prog s0 s ord fin) :
    Explains spec prog s0 s ord := by
  refine ⟨⟨fin, h.serial, h.free⟩, ?_, ?_, ?_⟩
  · intro i
    have hi := h.threads i
    generalize s.threads i = t at hi
    cases hi with
    | idle _ hp => exact ⟨_, hp⟩
    | before _ _ hp => exact ⟨_, hp⟩
    | entered _ _ _ _ hp => exact ⟨_, hp⟩
    | inside _ _ _ hl hp => exact ⟨_, by rw [hl]; simpa using hp⟩
    | after _ hl hp => exact ⟨_, by rw [hl]; simpa using hp⟩
  · intro i
    have hi := h.threads i
    generalize s.threads i = t at hi
    cases hi with
    | idle _ hp => exact List.prefix_refl _
    | before _ _ hp => exact List.prefix_refl _
    | entered _ _ _ _ hp => exact List.prefix_refl _
    | inside _ _ _ hl hp => rw [hl]; simp
    | after _ hl hp => rw [hl]; simp
  · intro i
    have hi := h.threads i
    generalize s.threads i = t at hi
    cases hi with
    | idle _ hp => rw [← hp]; simp
    | before _ _ hp => rw [← hp]; simp
    | entered _ _ _ _ hp => rw [← hp]; simp
    | inside _ _ _ hl hp => rw [← hp, hl]; simp; omega
    | after _ hl hp => rw [← hp, hl]; simp; omega

/-- The serialisation theorem: operations that change the shared state in one critical section, and do
there what `spec` says, are serialised whatever the schedule. -/
theorem linearisable {I : σ → Prop} {J : σ → σ → Prop} {spec : ω → σ → ρ × σ → Prop} {prog : Nat → List ω} {s0 : σ}
    {code : ω → Code σ ρ} (refl : ∀ s, J s s) (h0 : I s0)
    (hcode : ∀ i, ∀ op ∈ prog i, Before I J (spec op) (code op)) : Linearisable spec code prog s0 := by
  refine ⟨fun sch => (ghostRun code (Sys.start prog s0) sch).2, ?_, ?_⟩
  · intro sch more
    simp only [ghostRun, List.foldl_append]
    exact ghost_prefix _ _ _
  · intro sch
    obtain ⟨fin, h⟩ := Inv.foldl (code := code) refl hcode sch (x := (Sys.start prog s0, [])) (Inv.start refl h0)
    have := h.explains
    rw [ghost_fst] at this
    exact this

/-! ## The mutex is always released -/

theorem Sys.run_append (code : ω → Code σ ρ) (s : Sys ω σ ρ) (a b : List Nat) :
    s.run code (a ++ b) = (s.run code a).run code b := by simp [Sys.run]

/-- The thread that holds the mutex can always run to the end of its operation. -/
theorem Sect.leaves {I : σ → Prop} {J : σ → σ → Prop} {code : ω → Code σ ρ} : ∀ {c : Code σ ρ} {s : Sys ω σ ρ} {i : Nat} {op : ω},
    Sect I J c → I s.shared → (s.threads i).cur = some (op, c) → s.owner = some i →
    ∃ n r, ((s.run code (List.replicate n i)).threads i) =
        ⟨some (op, .ret r), (s.threads i).todo, (s.threads i).done⟩ ∧
      (s.run code (List.replicate n i)).owner = none ∧ I (s.run code (List.replicate n i)).shared ∧
      ∀ j, j ≠ i → (s.run code (List.replicate n i)).threads j = s.threads j := by
  intro c
  induction c with
  | ret r => intro s i op h; exact absurd h (fun x => x)
  | lock c ih => intro s i op h; exact absurd h (fun x => x)
  | unlock c ih =>
    intro s i op h hI hc ho
    obtain ⟨r, rfl⟩ := h
    refine ⟨1, r, ?_⟩
    simp [Sys.run, Sys.step, hc, Sys.put]
    refine ⟨hI, ?_⟩
    intro j hj; simp [hj]
  | look k ih =>
    intro s i op h hI hc ho
    have hs : s.step code i = s.put i ⟨some (op, k s.shared), (s.threads i).todo, (s.threads i).done⟩ := by
      simp only [Sys.step, hc]
    obtain ⟨n, r, h1, h2, h3, h4⟩ := ih s.shared
      (s := s.put i ⟨some (op, k s.shared), (s.threads i).todo, (s.threads i).done⟩) (i := i) (op := op)
      (h _ hI) hI (by simp [Sys.put]) ho
    refine ⟨n + 1, r, ?_⟩
    rw [List.replicate_succ]
    have hr : s.run code (i :: List.replicate n i) = (s.step code i).run code (List.replicate n i) := rfl
    rw [hr, hs]
    refine ⟨by rw [h1]; simp [Sys.put], h2, h3, ?_⟩
    intro j hj
    rw [h4 j hj]
    simp [Sys.put, hj]
  | act f k ih =>
    intro s i op h hI hc ho
    have hs : s.step code i = { s.put i ⟨some (op, k s.shared), (s.threads i).todo, (s.threads i).done⟩ with shared := f s.shared } := by
      simp only [Sys.step, hc]
    obtain ⟨n, r, h1, h2, h3, h4⟩ := ih s.shared
      (s := { s.put i ⟨some (op, k s.shared), (s.threads i).todo, (s.threads i).done⟩ with shared := f s.shared }) (i := i) (op := op)
      (h _ hI).2.1 (h _ hI).1 (by simp [Sys.put]) ho
    refine ⟨n + 1, r, ?_⟩
    rw [List.replicate_succ]
    have hr : s.run code (i :: List.replicate n i) = (s.step code i).run code (List.replicate n i) := rfl
    rw [hr, hs]
    refine ⟨by rw [h1]; simp [Sys.put], h2, h3, ?_⟩
    intro j hj
    rw [h4 j hj]
    simp [Sys.put, hj]

/-- When the mutex is free, a thread can run to the end of its operation. -/
theorem Before.leaves {I : σ → Prop} {J : σ → σ → Prop} {spec : σ → ρ × σ → Prop} {code : ω → Code σ ρ} :
    ∀ {c : Code σ ρ} {s : Sys ω σ ρ} {i : Nat} {op : ω},
    Before I J spec c → I s.shared → (s.threads i).cur = some (op, c) → s.owner = none →
    ∃ n r, ((s.run code (List.replicate n i)).threads i) =
        ⟨some (op, .ret r), (s.threads i).todo, (s.threads i).done⟩ ∧
      (s.run code (List.replicate n i)).owner = none ∧ I (s.run code (List.replicate n i)).shared := by
  intro c
  induction c with
  | ret r => intro s i op h; exact absurd h (fun x => x)
  | unlock c ih => intro s i op h; exact absurd h (fun x => x)
  | act c ih => intro s i op h; exact absurd h (fun x => x)
  | lock c ih =>
    intro s i op h hI hc ho
    have hs : s.step code i = { s.put i ⟨some (op, c), (s.threads i).todo, (s.threads i).done⟩ with owner := some i } := by
      simp only [Sys.step, hc, ho]
    obtain ⟨n, r, h1, h2, h3, _⟩ := h.1.leaves (code := code)
      (s := { s.put i ⟨some (op, c), (s.threads i).todo, (s.threads i).done⟩ with owner := some i }) (i := i) (op := op)
      hI (by simp [Sys.put]) rfl
    refine ⟨n + 1, r, ?_⟩
    rw [List.replicate_succ]
    have hr : s.run code (i :: List.replicate n i) = (s.step code i).run code (List.replicate n i) := rfl
    rw [hr, hs]
    exact ⟨by rw [h1]; simp [Sys.put], h2, h3⟩
  | look k ih =>
    intro s i op h hI hc ho
    have hs : s.step code i = s.put i ⟨some (op, k s.shared), (s.threads i).todo, (s.threads i).done⟩ := by
      simp only [Sys.step, hc]
    have hr : ∀ n, s.run code (i :: List.replicate n i) = (s.step code i).run code (List.replicate n i) := fun _ => rfl
    rcases h _ hI with h | ⟨r, hk, _⟩
    · obtain ⟨n, r, h1, h2, h3⟩ := ih s.shared
        (s := s.put i ⟨some (op, k s.shared), (s.threads i).todo, (s.threads i).done⟩) (i := i) (op := op)
        h hI (by simp [Sys.put]) ho
      refine ⟨n + 1, r, ?_⟩
      rw [List.replicate_succ, hr, hs]
      exact ⟨by rw [h1]; simp [Sys.put], h2, h3⟩
    · refine ⟨1, r, ?_⟩
      rw [List.replicate_succ, hr, hs, hk]
      simp [Sys.run, Sys.put, ho, hI]

/-- When the mutex is free, a thread that has not begun an operation can run all its program. -/
theorem finish_program {I : σ → Prop} {J : σ → σ → Prop} {spec : ω → σ → ρ × σ → Prop} {code : ω → Code σ ρ} :
    ∀ {todo : List ω} {s : Sys ω σ ρ} {i : Nat}, (∀ op ∈ todo, Before I J (spec op) (code op)) → I s.shared →
    (s.threads i).cur = none → (s.threads i).todo = todo → s.owner = none →
    ∃ n, ((s.run code (List.replicate n i)).threads i).cur = none ∧
      ((s.run code (List.replicate n i)).threads i).todo = [] := by
  intro todo
  induction todo with
  | nil => intro s i _ _ hc ht _; exact ⟨0, hc, ht⟩
  | cons op todo ih =>
    intro s i hb hI hc ht ho
    have hs : s.step code i = s.put i ⟨some (op, code op), todo, (s.threads i).done⟩ := by
      simp only [Sys.step, hc, ht]
    obtain ⟨n, r, h1, h2, h3⟩ := (hb op (by simp)).leaves (code := code)
      (s := s.put i ⟨some (op, code op), todo, (s.threads i).done⟩) (i := i) (op := op) hI (by simp [Sys.put]) ho
    generalize hs1 : (s.put i ⟨some (op, code op), todo, (s.threads i).done⟩).run code (List.replicate n i) = s1 at h1 h2 h3
    have hs2 : s1.step code i = s1.put i ⟨none, (s1.threads i).todo, (s1.threads i).done ++ [r]⟩ := by
      simp only [Sys.step, h1]
    obtain ⟨m, h5, h6⟩ := ih (s := s1.step code i) (i := i) (fun o ho => hb o (by simp [ho])) (by rw [hs2]; exact h3)
      (by rw [hs2]; simp [Sys.put]) (by rw [hs2]; simp [Sys.put, h1]) (by rw [hs2]; exact h2)
    refine ⟨1 + n + 1 + m, ?_⟩
    have hr : s.run code (List.replicate (1 + n + 1 + m) i) = (s1.step code i).run code (List.replicate m i) := by
      have e1 : List.replicate (1 + n + 1 + m) i = [i] ++ List.replicate n i ++ [i] ++ List.replicate m i := by
        rw [← List.replicate_append_replicate, ← List.replicate_append_replicate, ← List.replicate_append_replicate]; rfl
      rw [e1, Sys.run_append, Sys.run_append, Sys.run_append]
      have e2 : s.run code [i] = s.step code i := rfl
      rw [e2, hs, hs1]
      rfl
    rw [hr]
    exact ⟨h5, h6⟩

/-- Whatever has been run, any thread can still finish its program: no deadlock. -/
theorem can_finish {I : σ → Prop} {J : σ → σ → Prop} {spec : ω → σ → ρ × σ → Prop} {prog : Nat → List ω} {s0 : σ}
    {code : ω → Code σ ρ} (refl : ∀ s, J s s) (h0 : I s0)
    (hcode : ∀ i, ∀ op ∈ prog i, Before I J (spec op) (code op)) (sch : List Nat) (i : Nat) :
    ∃ more, ((((Sys.start prog s0).run code (sch ++ more)).threads i).cur = none ∧
      (((Sys.start prog s0).run code (sch ++ more)).threads i).todo = []) := by
  obtain ⟨fin, h⟩ := Inv.foldl (code := code) refl hcode sch (x := (Sys.start prog s0, [])) (Inv.start refl h0)
  generalize (sch.foldl (fun x i => (x.1.step code i, ordStep x.1 x.2 i)) ((Sys.start prog s0, []) : Sys ω σ ρ × List (Nat × ω × ρ))).2 = ord at h
  rw [ghost_fst] at h
  simp only [Sys.run_append]
  have h : Inv I J spec prog s0 ((Sys.start prog s0).run code sch) ord fin := h
  generalize (Sys.start prog s0).run code sch = s at h
  -- first the holder of the mutex leaves
  have free : ∃ more fin' ord', Inv I J spec prog s0 (s.run code more) ord' fin' ∧ (s.run code more).owner = none := by
    cases ho : s.owner with
    | none => exact ⟨[], fin, ord, h, ho⟩
    | some w =>
      have hw := h.threads w
      generalize ht : s.threads w = t at hw
      have fin : ∀ op c, t.cur = some (op, c) → Sect I J c →
          ∃ more fin' ord', Inv I J spec prog s0 (s.run code more) ord' fin' ∧ (s.run code more).owner = none := by
        intro op c hc hb
        obtain ⟨n, r, h1, h2, h3, h4⟩ := hb.leaves (code := code) (s := s) h.shared (by rw [ht]; exact hc) ho
        obtain ⟨f', hf'⟩ := Inv.foldl (code := code) refl hcode (List.replicate n w) (x := (s, ord)) h
        rw [ghost_fst] at hf'
        exact ⟨List.replicate n w, f', _, hf', h2⟩
      cases hw with
      | idle hm => exact absurd ho hm
      | before hm => exact absurd ho hm
      | after hm => exact absurd ho hm
      | entered _ _ hb => exact fin _ _ rfl hb
      | inside _ hb => exact fin _ _ rfl hb
  obtain ⟨more, fin', ord', h', ho'⟩ := free
  generalize hs' : s.run code more = s' at h' ho'
  have hi := h'.threads i
  generalize ht : s'.threads i = t at hi
  have go : ∀ m2, (s'.run code m2).owner = none → I (s'.run code m2).shared → ((s'.run code m2).threads i).cur = none →
      (∀ op ∈ ((s'.run code m2).threads i).todo, Before I J (spec op) (code op)) →
      ∃ more, ((s.run code more).threads i).cur = none ∧ ((s.run code more).threads i).todo = [] := by
    intro m2 a b c d
    obtain ⟨n, h5, h6⟩ := finish_program (code := code) d b c rfl a
    refine ⟨more ++ m2 ++ List.replicate n i, ?_⟩
    rw [Sys.run_append, Sys.run_append, hs']
    exact ⟨h5, h6⟩
  have after : ∀ m2 op r todo done, (s'.run code m2).owner = none → I (s'.run code m2).shared →
      (s'.run code m2).threads i = ⟨some (op, .ret r), todo, done⟩ →
      (∀ op ∈ todo, Before I J (spec op) (code op)) →
      ∃ more, ((s.run code more).threads i).cur = none ∧ ((s.run code more).threads i).todo = [] := by
    intro m2 op r todo done a b c d
    have hst : s'.run code (m2 ++ [i]) = (s'.run code m2).put i ⟨none, todo, done ++ [r]⟩ := by
      rw [Sys.run_append]
      show Sys.step code (s'.run code m2) i = _
      simp only [Sys.step, c]
    refine go (m2 ++ [i]) ?_ ?_ ?_ ?_
    · rw [hst]; exact a
    · rw [hst]; exact b
    · rw [hst]; simp [Sys.put]
    · rw [hst]; simpa [Sys.put] using d
  have hprog : ∀ (pre : List ω) op todo, pre ++ op :: todo = prog i → ∀ o ∈ todo, Before I J (spec o) (code o) := by
    intro pre op todo hp o ho
    exact hcode i o (by rw [← hp]; simp [ho])
  cases hi with
  | idle hm hp =>
    refine go [] ho' h'.shared (by simp [Sys.run, ht]) ?_
    simp only [Sys.run, List.foldl_nil, ht]
    intro op hop
    exact hcode i op (by rw [← hp]; simp [hop])
  | before hm hb hp =>
    obtain ⟨n, r, h1, h2, h3⟩ := hb.leaves (code := code) (s := s') (i := i) h'.shared (by rw [ht]) ho'
    exact after _ _ _ _ _ h2 h3 (by rw [h1]) (by rw [ht]; exact hprog _ _ _ hp)
  | entered hm => rw [ho'] at hm; cases hm
  | inside hm => rw [ho'] at hm; cases hm
  | after hm hl hp => exact after [] _ _ _ _ ho' h'.shared (by simpa [Sys.run] using ht) (hprog _ _ _ hp)

end PF
