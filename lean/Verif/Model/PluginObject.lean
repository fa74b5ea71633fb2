import Verif.Model.Start

/-!
# The objects of plugins

`parameter/SubsystemObject.cpp`: how the code of a plugin gets at the blackboard, and what happens when it fails; and
`skeleton-subsystem/SkeletonSubsystemObject.cpp`, the plugin that authors start from.
-/

namespace PF

/-- What the code of a plugin does, in `sendToHW`, `receiveFromHW` or `accessHW`, with what `CSubsystemObject` gives it: it reads bytes
(`blackboardRead`), on which all it does later may depend, it writes bytes (`blackboardWrite`), and it ends with success or an error.
It does so at most a finite number of times. -/
inductive PlugCode where
  | done (error : Option Str)
  | read (n : Nat) (next : List Byte → PlugCode)
  | write (bs : List Byte) (next : PlugCode)

/-- The code on a blackboard, for an object whose element is at `off` and that has gone `idx` bytes far (`_accessedIndex`;
`blackboardRead` and `blackboardWrite`, SubsystemObject.cpp:174-186).  The blackboard stops the program when an access ends outside
of it. -/
def PlugCode.run (off : Nat) : PlugCode → Nat → Board → Out (Option Str × Board)
  | .done r, _, b => .ok (r, b)
  | .read n k, idx, b =>
    match b.read (off + idx) n with
    | some bs => (k bs).run off (idx + n) b
    | none => .abort
  | .write bs k, idx, b =>
    match b.write (off + idx) bs with
    | some b' => k.run off (idx + bs.length) b'
    | none => .abort

/-- An object of a plugin: whether its subsystem is alive (Subsystem.cpp `isAlive`), and its code in both directions. -/
structure PlugObj where
  alive : Bool
  send : PlugCode
  receive : PlugCode

/-- An object that implements nothing (SubsystemObject.cpp:145-158). -/
def PlugObj.plain (alive : Bool) : PlugObj :=
  ⟨alive, .done (some (s "Send to HW interface not implemented at subsystem level")), .done none⟩

/-- `accessHW` (SubsystemObject.cpp:161-171). -/
def PlugObj.access (o : PlugObj) (back : Bool) : PlugCode := if back then o.receive else o.send

/-- `sync` (SubsystemObject.cpp:107-142) of an object of the element at `p`.  The build option `SIMULATION` is not modelled. -/
def PlugObj.sync (root : Elem) (p : Pos) (o : PlugObj) (back : Bool) (b : Board) : Out (Option Str × Board) :=
  match root.at? p, root.offset 0 p with
  | some e, some off =>
    match (if o.alive then (o.access back).run off 0 b else .ok (some (s "Susbsystem not alive"), b)) with
    | .ok (some t, b') => if back then (e.setDefaults off b').bind fun b'' => .ok (some t, b'') else .ok (some t, b')
    | r => r
  | _, _ => .abort

/-- `toPlainInteger` (SubsystemObject.cpp:78-92; TypeElement.cpp:59-62; IntegerParameterType.h:297-305): only integer parameters have
one of their own.  `v` holds the bytes of the parameter. -/
def EKind.toPlainInteger (k : EKind) (v : BitVec 32) : BitVec 32 :=
  match k with
  | .scalar (.int t) => if t.signed then signExtend t.size v else v
  | .array t =>
    match t.elem with
    | .int u => if u.signed then signExtend u.size v else v
    | _ => v
  | _ => v

/-! ## The skeleton -/

/-- The loop of `sendToHW` (SkeletonSubsystemObject.cpp:91-105). -/
def skeletonSend (size : Nat) : Nat → PlugCode
  | 0 => .done none
  | n + 1 => .read size fun _ => skeletonSend size n

/-- The loop of `receiveFromHW` (SkeletonSubsystemObject.cpp:107-121): the buffer is never given a value, `junk` is what is there. -/
def skeletonReceive (junk : List Byte) : Nat → PlugCode
  | 0 => .done none
  | n + 1 => .write junk (skeletonReceive junk n)

/-- The constructor (SkeletonSubsystemObject.cpp:48-76): the type of the element is taken for that of a parameter before it is looked
at; there is no object when it is of another class, which is undefined, or when a size of 0 is divided by. -/
def skeletonObject (junk : Nat → List Byte) (e : Elem) : Option PlugObj :=
  match e.kind with
  | .scalar t =>
    if t.size = 0 then none
    else some ⟨true, skeletonSend t.size (e.footprint / t.size), skeletonReceive (junk t.size) (e.footprint / t.size)⟩
  | .array t =>
    if t.elem.size = 0 then none
    else some ⟨true, skeletonSend t.elem.size (e.footprint / t.elem.size),
      skeletonReceive (junk t.elem.size) (e.footprint / t.elem.size)⟩
  | _ => none

end PF
