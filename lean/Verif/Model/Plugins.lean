import Verif.Model.Structure

/-!
# Loading of subsystem plugins

`CPluginLocation::fromXml`, `CSystemClass::loadSubsystems`, `CSystemClass::loadSubsystemsFromSharedLibraries`,
`CSystemClass::loadPlugins` (SystemClass.cpp:95-221) and the library of subsystem builders (ElementLibrary.cpp,
DefaultElementLibrary.h, SubsystemLibrary.h).

The dynamic linker and the plugins are left open: which files can be opened, given the libraries in memory, and what the entry
point of each does.  Error texts are left out.
-/

namespace PF

/-- A builder of subsystems: of virtual ones, or one of those a plugin registered. -/
inductive Builder where
  | virtual
  | plugin (file type : Str)
deriving Repr, DecidableEq

/-- The dynamic linker and the plugins.  `opens loaded file`: `DynamicLibrary(file)` and `getSymbol` succeed when the libraries
`loaded` are in memory.  `types file`: the types that the entry point of `file` registers.  `throws file`: the entry point ends
with an exception, after that. -/
structure Linker where
  opens : List Str → Str → Bool
  types : Str → List Str
  throws : Str → Bool

/-- `CSystemClass`: the handles of the libraries kept in memory (`_subsystemLibraryHandleList`), the builders
(`_elementBuilderMap`, the one registered last first), and whether there is a default builder (`_defaultBuilder`). -/
structure PluginState where
  loaded : List Str
  builders : List (Str × Builder)
  fallback : Bool
deriving Repr, DecidableEq

/-- `CElementLibrary::addElementBuilder` (ElementLibrary.cpp:60-64): replaces the builder of that type, if any. -/
def PluginState.addBuilder (st : PluginState) (type : Str) (b : Builder) : PluginState :=
  { st with builders := (type, b) :: st.builders }

/-- The entry point of a plugin. -/
def Linker.enter (lk : Linker) (st : PluginState) (file : Str) : PluginState :=
  (lk.types file).foldl (fun st ty => st.addBuilder ty (.plugin file ty)) st

/-- One attempt of `CSystemClass::loadPlugins` (SystemClass.cpp:189-217): whether it succeeded, and the state after it.  The handle
is kept before the entry point is called. -/
def Linker.attempt (lk : Linker) (st : PluginState) (file : Str) : Bool × PluginState :=
  if lk.opens st.loaded file then
    (!lk.throws file, lk.enter { st with loaded := st.loaded ++ [file] } file)
  else (false, st)

/-- `CSystemClass::loadPlugins` (SystemClass.cpp:179-221): whether one was loaded, the files left, and the state. -/
def Linker.pass (lk : Linker) (st : PluginState) : List Str → Bool × List Str × PluginState
  | [] => (false, [], st)
  | f :: fs =>
    let r := lk.attempt st f
    let q := lk.pass r.2 fs
    if r.1 then (true, q.2.1, q.2.2) else (q.1, f :: q.2.1, q.2.2)

/-- The loop of `CSystemClass::loadSubsystemsFromSharedLibraries` (SystemClass.cpp:153-176), at most `fuel` passes of it; `none` if
it is not over by then. -/
def Linker.passes (lk : Linker) : (fuel : Nat) → PluginState → List Str → Option (List Str × PluginState)
  | _, st, [] => some ([], st)
  | 0, _, _ :: _ => none
  | fuel + 1, st, f :: fs =>
    let r := lk.pass st (f :: fs)
    if r.1 then lk.passes fuel r.2.2 r.2.1 else some (r.2.1, r.2.2)

/-- `CPluginLocation` (PluginLocation.cpp:39-47): a folder and names of plugins. -/
structure PluginLocation where
  folder : Str
  names : List Str
deriving Repr, DecidableEq

/-- `CPluginLocation::fromXml` (PluginLocation.cpp:49-67). -/
def PluginLocation.ofXml (x : SXml) : PluginLocation :=
  ⟨(x.attr (s "Folder")).getD [], x.children.map SXml.nameAttr⟩

/-- The files of a location (SystemClass.cpp:127-150). -/
def PluginLocation.files (l : PluginLocation) : List Str :=
  l.names.map fun n => (if l.folder = [] then [] else l.folder ++ s "/") ++ n

/-- `CSystemClass::loadSubsystems` (SystemClass.cpp:95-119) with `loadSubsystemsFromSharedLibraries`: the result, the files that
could not be loaded, and the state.  The library is cleaned first, but neither the default builder nor the handles. -/
def Linker.loadSubsystems (lk : Linker) (st : PluginState) (locs : List PluginLocation) (fallback : Bool) :
    Option (Bool × List Str × PluginState) :=
  let st1 : PluginState := { st with builders := [(s "Virtual", .virtual)], fallback := st.fallback || fallback }
  let files := locs.flatMap PluginLocation.files
  (lk.passes files.length st1 files).map fun r => (r.1.isEmpty || fallback, r.1, r.2)

/-- `CDefaultElementLibrary::createElement` (DefaultElementLibrary.h:78-96) with `CElementLibrary::createElement`
(ElementLibrary.cpp:49-58): the builder of a subsystem of the given type. -/
def PluginState.builderOf (st : PluginState) (type : Str) : Option Builder :=
  match st.builders.find? (fun e => e.1 == type) with
  | some e => some e.2
  | none => if st.fallback then some .virtual else none

end PF
