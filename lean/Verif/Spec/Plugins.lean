import Verif.Model.Plugins

/-! # What the loading of plugins is expected to do -/

namespace PF
namespace Spec

/-- The files named by plugin locations. -/
def PluginFiles (locs : List PluginLocation) : List Str := locs.flatMap PluginLocation.files

/-- A library in memory never prevents another one from being opened. -/
def MoreOpens (lk : Linker) : Prop := ∀ L L' f, (∀ g ∈ L, g ∈ L') → lk.opens L f = true → lk.opens L' f = true

/-- `f` can be loaded: it is one of the files, and it opens once others that can be loaded are in memory. -/
inductive Loadable (lk : Linker) (files : List Str) : Str → Prop where
  | step (L : List Str) (f : Str) (hf : f ∈ files) (hL : ∀ g ∈ L, Loadable lk files g) (ho : lk.opens L f = true) :
      Loadable lk files f

end Spec
end PF
