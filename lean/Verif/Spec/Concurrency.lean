import Verif.Model.Concurrency

/-!
# Specification of concurrent accesses

Threads behave as if their operations were run one after the other when there is an order of the
operations that explains everything the threads see.
-/

namespace PF

/-- The operations of `ord` (thread, operation, answer), run one after the other from `s`, may give these
answers and lead to the last state.  `spec op s (r, s')`: run alone from `s`, the operation may answer
`r` and leave `s'`. -/
inductive SerialRun {ω σ ρ : Type} (spec : ω → σ → ρ × σ → Prop) (s : σ) : List (Nat × ω × ρ) → σ → Prop
  | nil : SerialRun spec s [] s
  | snoc {ord s1 i op r s2} : SerialRun spec s ord s1 → spec op s1 (r, s2) →
    SerialRun spec s (ord ++ [(i, op, r)]) s2

/-- The operations of thread `i` in an order, with their answers. -/
def opsOf {α : Type} (i : Nat) (ord : List (Nat × α)) : List α :=
  ord.filterMap fun x => if x.1 = i then some x.2 else none

/-- The order `ord` explains what the threads, started with the programs `prog`, have seen so far. -/
structure Explains {ω σ ρ : Type} (spec : ω → σ → ρ × σ → Prop) (prog : Nat → List ω) (s0 : σ)
    (now : Sys ω σ ρ) (ord : List (Nat × ω × ρ)) : Prop where
  /-- The order is a serial run; its last state is the shared one when no thread is in its critical
  section. -/
  serial : ∃ s1, SerialRun spec s0 ord s1 ∧ (now.owner = none → now.shared = s1)
  /-- It respects the program of each thread. -/
  programs : ∀ i, (opsOf i ord).map Prod.fst <+: prog i
  /-- It contains all the operations that have answered, with the answers they gave. -/
  answers : ∀ i, (now.threads i).done <+: (opsOf i ord).map Prod.snd
  /-- It contains no operation that has not begun. -/
  begun : ∀ i, (opsOf i ord).length + (now.threads i).todo.length ≤ (prog i).length

/-- Whatever the schedule, the threads behave as if their operations were run one after the other.
The order only grows as the schedule goes on, so that an operation that ends before another one
begins is before it in the order. -/
def Linearisable {ω σ ρ : Type} (spec : ω → σ → ρ × σ → Prop) (code : ω → Code σ ρ) (prog : Nat → List ω)
    (s0 : σ) : Prop :=
  ∃ ord : List Nat → List (Nat × ω × ρ),
    (∀ sch more, ord sch <+: ord (sch ++ more)) ∧
    ∀ sch, Explains spec prog s0 ((Sys.start prog s0).run code sch) (ord sch)

/-- What the operations do when nothing else runs. -/
def COp.alone (e : MEnv) (m : Mgr) : COp → CRes × Mgr
  | .set p v => (.unit (m.handleSet e p v).1, (m.handleSet e p v).2)
  | .get p ty => (.atom (e.env.root.getAs m.st.mem.main p ty), m)
  | .getArray p ty => (.atoms (e.env.root.getAsArray m.st.mem.main p ty), m)
  | .apply => (.unit (m.applyConfigurations e).1, (m.applyConfigurations e).2)
  | .setParameter path text =>
    (.unit ((MOp.setParameter path text).step e m).1, ((MOp.setParameter path text).step e m).2)
  | .getParameter path => (.text (Elem.getText m.ctx e.env.root 0 m.st.mem.main path), m)
  | .setTuningMode on => (.unit (m.setTuningMode e on).1, (m.setTuningMode e on).2)
  | .setBytes p bytes =>
    match e.env.setMainBytes m.autoSync p bytes m.st.mem with
    | (.ok es, mem) => (.unit (if es = [] then .ok () else .err), m.withMem mem)
    | (.err, mem) => (.unit .err, m.withMem mem)
    | (.abort, mem) => (.unit .abort, m.withMem mem)
  | .getBytes p => (.bytes (e.env.root.getBytes m.st.mem.main p), m)

/-- The effect of an operation that has seen tuning mode in the state it wants, and acts later without
looking again. -/
def COp.late (e : MEnv) (m : Mgr) : COp → Option (CRes × Mgr)
  | .set p v =>
    if e.env.root.setValid m.st.attached p v
    then some (.unit (m.run e (.handleSet p v)).1, (m.run e (.handleSet p v)).2) else none
  | .setParameter path text =>
    some (.unit (m.run e (.setParameter m.ctx m.autoSync path text)).1,
      (m.run e (.setParameter m.ctx m.autoSync path text)).2)
  | .setTuningMode true => if e.allowed then some (.unit (.ok ()), { m with tuning := true }) else none
  | .setTuningMode false =>
    match m.run e (.apply true) with
    | (.ok (), m') => some (.unit (.ok ()), { m' with tuning := false })
    | (o, m') => some (.unit o, m')
  | _ => none

/-- Operations whose accesses to the blackboard are all done with the mutex. -/
def COp.Locked : COp → Prop
  | .setBytes .. => False
  | .getBytes .. => False
  | _ => True

/-- Operations that leave the tuning mode as it is. -/
def COp.KeepsMode : COp → Prop
  | .setTuningMode .. => False
  | _ => True

end PF
