import Verif.Model.Manager

/-!
# Model of concurrent accesses

Handles may be used from any thread while another thread applies configurations, and the remote command
server runs in a thread of its own (BackgroundRemoteProcessorServer.cpp:37-50).  The manager has one
mutex (ParameterMgr.h:881), taken by the typed accesses of handles (ElementHandle.cpp:218, 233), by
`applyConfigurations` (ParameterMgr.cpp:685), by the text accesses to parameters (2094) and by
`setTuningMode` (2126), and by nothing else.

Memory is sequentially consistent here: one step of one thread after the other.  In C++ the accesses
done without the mutex are data races; the model gives them the mildest meaning.
-/

namespace PF

/-! ## Threads and one mutex -/

/-- What remains to be done of an operation: steps on the shared state `σ`, then an answer. -/
inductive Code (σ ρ : Type) where
  /-- The operation is over, with answer `r`. -/
  | ret (r : ρ)
  /-- One step that may read the shared state. -/
  | look (k : σ → Code σ ρ)
  /-- Constructor of a `lock_guard`: waits until the mutex is free. -/
  | lock (c : Code σ ρ)
  /-- Destructor of a `lock_guard`. -/
  | unlock (c : Code σ ρ)
  /-- One step that reads and changes the shared state; what follows depends on the state read. -/
  | act (f : σ → σ) (k : σ → Code σ ρ)

/-- A thread: the operation being run, the operations still to run, the answers of those finished. -/
structure Thread (ω σ ρ : Type) where
  cur : Option (ω × Code σ ρ)
  todo : List ω
  done : List ρ

/-- All threads, the shared state and the holder of the mutex. -/
structure Sys (ω σ ρ : Type) where
  shared : σ
  owner : Option Nat
  threads : Nat → Thread ω σ ρ

/-- Thread `i` becomes `t`. -/
def Sys.put {ω σ ρ : Type} (s : Sys ω σ ρ) (i : Nat) (t : Thread ω σ ρ) : Sys ω σ ρ :=
  { s with threads := fun j => if j = i then t else s.threads j }

/-- One step of thread `i`; a thread that waits for the mutex, or has finished, does nothing. -/
def Sys.step {ω σ ρ : Type} (code : ω → Code σ ρ) (s : Sys ω σ ρ) (i : Nat) : Sys ω σ ρ :=
  match (s.threads i).cur with
  | none =>
    match (s.threads i).todo with
    | [] => s
    | op :: ops => s.put i ⟨some (op, code op), ops, (s.threads i).done⟩
  | some (_, .ret r) => s.put i ⟨none, (s.threads i).todo, (s.threads i).done ++ [r]⟩
  | some (op, .look k) => s.put i ⟨some (op, k s.shared), (s.threads i).todo, (s.threads i).done⟩
  | some (op, .lock c) =>
    match s.owner with
    | some _ => s
    | none => { s.put i ⟨some (op, c), (s.threads i).todo, (s.threads i).done⟩ with owner := some i }
  | some (op, .unlock c) =>
    { s.put i ⟨some (op, c), (s.threads i).todo, (s.threads i).done⟩ with owner := none }
  | some (op, .act f k) =>
    { s.put i ⟨some (op, k s.shared), (s.threads i).todo, (s.threads i).done⟩ with shared := f s.shared }

/-- The threads at the beginning: thread `i` has to run `prog i`. -/
def Sys.start {ω σ ρ : Type} (prog : Nat → List ω) (s : σ) : Sys ω σ ρ :=
  { shared := s, owner := none, threads := fun i => ⟨none, prog i, []⟩ }

/-- The threads after the schedule `sch`: the numbers of the threads that run, in order. -/
def Sys.run {ω σ ρ : Type} (code : ω → Code σ ρ) (s : Sys ω σ ρ) (sch : List Nat) : Sys ω σ ρ :=
  sch.foldl (Sys.step code) s

/-! ## The operations -/

/-- Operations that can be run by several threads at once. -/
inductive COp where
  /-- A typed set through a handle. -/
  | set (p : Pos) (v : HVal)
  /-- A typed get through a handle. -/
  | get (p : Pos) (ty : ATy)
  /-- A typed get of an array through a handle. -/
  | getArray (p : Pos) (ty : ATy)
  /-- `applyConfigurations`. -/
  | apply
  /-- The set of a parameter from a text (remote command). -/
  | setParameter (path text : Str)
  /-- The get of the text of a parameter (remote command). -/
  | getParameter (path : Str)
  /-- `setTuningMode`. -/
  | setTuningMode (on : Bool)
  /-- `setAsBytes` of a handle. -/
  | setBytes (p : Pos) (bytes : List Byte)
  /-- `getAsBytes` of a handle. -/
  | getBytes (p : Pos)
deriving DecidableEq

/-- The answers. -/
inductive CRes where
  | unit (o : Out Unit)
  | atom (o : Out Atom)
  | atoms (o : Out (List Atom))
  | text (o : Out Str)
  | bytes (o : Out (List Byte))
deriving DecidableEq

/-- The manager with another memory. -/
def Mgr.withMem (m : Mgr) (mem : Mem) : Mgr := { m with st := { m.st with mem := mem } }

/-- One byte of the main blackboard takes its value in `nb`. -/
def Mgr.poke (m : Mgr) (nb : Board) (i : Nat) : Mgr :=
  m.withMem ⟨m.st.mem.main.set i (nb.getD i 0#8), m.st.mem.log⟩

/-- The copy of `n` bytes from `off` on of `nb` to the main blackboard, one byte per step
(`std::copy`, ParameterBlackboard.cpp:40-132). -/
def writeCode (nb : Board) (k : Code Mgr CRes) : (off n : Nat) → Code Mgr CRes
  | _, 0 => k
  | off, n + 1 => .act (fun m => m.poke nb off) fun _ => writeCode nb k (off + 1) n

/-- A copy of the `n` bytes from `off` on of the main blackboard, one byte per step, added to `acc`. -/
def readCode (k : Board → Code Mgr CRes) : (acc : Board) → (off n : Nat) → Code Mgr CRes
  | acc, _, 0 => k acc
  | acc, off, n + 1 => .look fun m => readCode k (acc ++ [m.st.mem.main.getD off 0#8]) (off + 1) n

/-- A read of the blackboard by a typed or text get.  The bytes are read one per step; all the bytes
are, which are more than those of the parameter. -/
def snapshotCode (k : Board → Code Mgr CRes) : Code Mgr CRes :=
  .look fun m => readCode k [] 0 m.st.mem.main.length

/-- The end of a set: the synchronisation, in one step, and the end of the critical section
(BaseParameter.cpp:147-175, InstanceConfigurableElement.cpp:176-196). -/
def syncCode (e : MEnv) (autoSync : Bool) (p : Pos) (done : CRes → Code Mgr CRes) : Code Mgr CRes :=
  .act (fun m => m.withMem (e.env.syncParam autoSync p m.st.mem).2)
    fun m => done (.unit (e.env.syncParam autoSync p m.st.mem).1)

/-- The end of the critical section and of the operation. -/
def leave (r : CRes) : Code Mgr CRes := .unlock (.ret r)

/-- The end of a set whose answer is `o` before the synchronisation: nothing is synchronised after a
failure (BaseParameter.cpp:160-172, 210-222). -/
def endSet (e : MEnv) (autoSync : Bool) (p : Pos) : Out Unit → Code Mgr CRes
  | .ok () => syncCode e autoSync p leave
  | o => leave (.unit o)

/-- The steps of each operation. -/
def COp.code (e : MEnv) : COp → Code Mgr CRes
  -- ElementHandle.cpp:196-221: both checks are done before the mutex is taken.
  | .set p v =>
    .look fun m =>
      if !e.env.root.setValid m.st.attached p v then .ret (.unit .err)
      else .look fun m =>
        if m.tuning then .ret (.unit (.ok ()))
        else .lock (match e.env.root.at? p, e.env.root.offset 0 p with
          | some el, some off => .look fun m =>
            writeCode (setParamVal e.env.rd el.kind m.st.mem.main off v).2
              (endSet e true p (setParamVal e.env.rd el.kind m.st.mem.main off v).1) off el.areaSize
          | _, _ => leave (.unit .err))
  -- ElementHandle.cpp:223-238 with 344-361.
  | .get p ty =>
    .look fun _ =>
      match e.env.root.at? p with
      | none => .ret (.atom .abort)
      | some el =>
        if !el.kind.getValid false then .ret (.atom .err)
        else .lock (snapshotCode fun b => leave (.atom (e.env.root.getAs b p ty)))
  | .getArray p ty =>
    .look fun _ =>
      match e.env.root.at? p with
      | none => .ret (.atoms .abort)
      | some el =>
        if !el.kind.getValid true then .ret (.atoms .err)
        else .lock (snapshotCode fun b => leave (.atoms (e.env.root.getAsArray b p ty)))
  -- ParameterMgr.cpp:680-695, the application itself in one step.
  | .apply =>
    .lock (.act (fun m => (m.applyConfigurations e).2) fun m => leave (.unit (m.applyConfigurations e).1))
  -- ParameterMgr.cpp `setParameterCommandProcess` and 1959-1979, 2089-2109: tuning mode, value space,
  -- output format and automatic synchronisation are read before the mutex is taken.
  | .setParameter path text =>
    .look fun m =>
      if !m.tuning then .ret (.unit .err)
      else .look fun m0 => .lock (
        match e.env.root.accessTarget path with
        | none => leave (.unit .err)
        | some (p, _) =>
          match e.env.root.at? p, e.env.root.offset 0 p with
          | some el, some off => .look fun m =>
            writeCode (Elem.setText e.env.rd m0.ctx e.env.root 0 m.st.mem.main path text).2
              (endSet e m0.autoSync p (Elem.setText e.env.rd m0.ctx e.env.root 0 m.st.mem.main path text).1)
              off el.areaSize
          | _, _ => leave (.unit .abort))
  | .getParameter path =>
    .look fun m0 => .lock (snapshotCode fun b => leave (.text (Elem.getText m0.ctx e.env.root 0 b path)))
  -- ParameterMgr.cpp:2112-2140: the state and the permission are checked before the mutex is taken.
  | .setTuningMode on =>
    .look fun m =>
      if on = m.tuning then .ret (.unit .err)
      else if on && !e.allowed then .ret (.unit .err)
      else .lock (.act (fun m =>
          if on then { m with tuning := true }
          else match m.run e (.apply true) with
            | (.ok (), m') => { m' with tuning := false }
            | r => r.2)
        fun m => leave (.unit (if on then .ok () else (m.run e (.apply true)).1)))
  -- ElementHandle.cpp:188-192, ParameterMgr.cpp:801-817, ConfigurableElement.cpp:241-275: no mutex.
  -- The synchronisation of the syncers below is one step.
  | .setBytes p bytes =>
    match e.env.root.at? p, e.env.root.offset 0 p with
    | some el, some off =>
      if el.footprint ≠ bytes.length then .ret (.unit .err)
      else writeCode (List.replicate off 0#8 ++ bytes)
        (.act (fun m => if !m.autoSync then m
            else m.withMem ⟨m.st.mem.main, (syncAll e.env.hw m.st.mem.main (e.env.root.syncerSet p) m.st.mem.log).1⟩)
          fun m => .ret (.unit (if !m.autoSync then .ok ()
            else if (syncAll e.env.hw m.st.mem.main (e.env.root.syncerSet p) m.st.mem.log).2 = [] then .ok () else .err)))
        off bytes.length
    | _, _ => .ret (.unit .abort)
  -- ElementHandle.cpp:176-187, ConfigurableElement.cpp:226-239: no mutex.
  | .getBytes p =>
    match e.env.root.at? p, e.env.root.offset 0 p with
    | some el, some off => readCode (fun b => .ret (.bytes (.ok b))) [] off el.footprint
    | _, _ => .ret (.bytes .abort)

end PF
