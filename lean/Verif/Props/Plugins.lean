import Verif.Lemmas.Plugins

/-!
# C80: loading of plugins
-/

namespace PF
open Spec

/-! A plugin `b` that needs the library of `a`, and a broken one. -/

namespace SamplePlugins

/-- `lib/b` opens only after `lib/a`; `lib/c` never. -/
def linker : Linker :=
  ⟨fun L f => f == s "lib/a" || (f == s "lib/b" && L.contains (s "lib/a")),
   fun f => if f = s "lib/a" then [s "Audio"] else if f = s "lib/b" then [s "Modem", s "Radio"] else [], fun _ => false⟩

theorem linker_more : MoreOpens linker := by
  intro L L' f h ho
  simp only [linker, Bool.or_eq_true, Bool.and_eq_true, List.contains_iff_mem] at ho ⊢
  exact ho.imp_right fun h2 => ⟨h2.1, h _ h2.2⟩

/-- The system at its creation. -/
def fresh : PluginState := ⟨[], [], false⟩

/-- In the wrong order. -/
def locs : List PluginLocation := [⟨s "lib", [s "b", s "a"]⟩]

/-- With one that cannot be loaded. -/
def badLocs : List PluginLocation := [⟨s "lib", [s "b", s "c"]⟩, ⟨[], [s "lib/a"]⟩]

end SamplePlugins

/-- **C80** (termination).  The loading always ends. -/
theorem C80_terminates (lk : Linker) (st : PluginState) (locs : List PluginLocation) (fallback : Bool) :
    ∃ r, lk.loadSubsystems st locs fallback = some r := by
  obtain ⟨r, hr⟩ := lk.passes_some _ { st with builders := [(s "Virtual", .virtual)], fallback := st.fallback || fallback }
    (Nat.le_refl (locs.flatMap PluginLocation.files).length)
  exact ⟨_, by unfold Linker.loadSubsystems; simp only [hr, Option.map_some]; rfl⟩

/-- The parts of a loading. -/
theorem loadSubsystems_passes {lk : Linker} {st st' : PluginState} {locs : List PluginLocation} {fallback ok : Bool} {rest : List Str}
    (h : lk.loadSubsystems st locs fallback = some (ok, rest, st')) :
    ok = (rest.isEmpty || fallback) ∧
    lk.passes (PluginFiles locs).length { st with builders := [(s "Virtual", .virtual)], fallback := st.fallback || fallback }
      (PluginFiles locs) = some (rest, st') := by
  unfold Linker.loadSubsystems at h
  rw [Option.map_eq_some_iff] at h
  obtain ⟨r, hr, he⟩ := h
  obtain ⟨rfl, e2⟩ := Prod.mk.inj he
  obtain ⟨rfl, rfl⟩ := Prod.mk.inj e2
  exact ⟨rfl, hr⟩

/-- **C80** (exactly the loadable ones, partial).  Whatever the order in which the plugins are named, those that can be loaded are all
loaded, each as many times as it is named, the others are reported in their order, and the result is a success when there are none or
when the fallback is on.  Missing: entry points that throw. -/
theorem C80_exact_partial (lk : Linker) (hm : MoreOpens lk) (st : PluginState) (h0 : st.loaded = []) (locs : List PluginLocation)
    (hq : ∀ f ∈ PluginFiles locs, lk.throws f = false) (fallback ok : Bool) (rest : List Str) (st' : PluginState)
    (h : lk.loadSubsystems st locs fallback = some (ok, rest, st')) :
    (∀ f, f ∈ st'.loaded ↔ Loadable lk (PluginFiles locs) f) ∧
    (∀ f, f ∈ rest ↔ f ∈ PluginFiles locs ∧ ¬ Loadable lk (PluginFiles locs) f) ∧
    (st'.loaded ++ rest).Perm (PluginFiles locs) ∧ rest.Sublist (PluginFiles locs) ∧
    (ok = true ↔ (∀ f ∈ PluginFiles locs, Loadable lk (PluginFiles locs) f) ∨ fallback = true) := by
  obtain ⟨rfl, hp⟩ := loadSubsystems_passes h
  obtain ⟨h1, h2, h3, h4⟩ := Linker.passes_quiet (files := PluginFiles locs) _ hq (fun _ hf => hf) (by simp [h0]) hp
  simp only [h0, List.nil_append] at h1 h2 h3 h4
  have hcomp : ∀ f, Loadable lk (PluginFiles locs) f → f ∈ st'.loaded ∧ f ∉ rest := by
    intro f hf
    induction hf with
    | step L f hf hL ho ih =>
      have hopen := hm L st'.loaded f (fun g hg => (ih g hg).1) ho
      have hnot : f ∉ rest := fun hr => by rw [h4 f hr] at hopen; cases hopen
      have := h1.symm.subset hf
      rcases List.mem_append.1 this with hx | hx
      · exact ⟨hx, hnot⟩
      · exact absurd hx hnot
  have hrest : ∀ f, f ∈ rest ↔ f ∈ PluginFiles locs ∧ ¬ Loadable lk (PluginFiles locs) f := by
    intro f
    constructor
    · intro hf; exact ⟨h2.subset hf, fun hl => (hcomp f hl).2 hf⟩
    · rintro ⟨hf, hl⟩
      rcases List.mem_append.1 (h1.symm.subset hf) with hx | hx
      · exact absurd (h3 f hx) hl
      · exact hx
  refine ⟨fun f => ⟨h3 f, fun hf => (hcomp f hf).1⟩, hrest, h1, h2, ?_⟩
  rw [Bool.or_eq_true, List.isEmpty_iff]
  refine or_congr_left ⟨?_, ?_⟩
  · rintro rfl f hf
    by_cases hl : Loadable lk (PluginFiles locs) f
    · exact hl
    · exact absurd ((hrest f).2 ⟨hf, hl⟩) (by simp)
  · intro hall
    cases rest with
    | nil => rfl
    | cons f fs =>
      have := (hrest f).1 List.mem_cons_self
      exact absurd (hall f this.1) this.2

example : SamplePlugins.linker.loadSubsystems SamplePlugins.fresh SamplePlugins.locs false =
    some (true, [], ⟨[s "lib/a", s "lib/b"],
      [(s "Radio", .plugin (s "lib/b") (s "Radio")), (s "Modem", .plugin (s "lib/b") (s "Modem")),
       (s "Audio", .plugin (s "lib/a") (s "Audio")), (s "Virtual", .virtual)], false⟩) := by decide
example : (SamplePlugins.linker.loadSubsystems SamplePlugins.fresh SamplePlugins.badLocs false).map (fun r => (r.1, r.2.1, r.2.2.loaded)) =
    some (false, [s "lib/c"], [s "lib/a", s "lib/b"]) := by decide

/-- **C80** (order).  Two documents naming the same files in any order and any grouping load the same plugins with the same
result. -/
theorem C80_order_free (lk : Linker) (hm : MoreOpens lk) (st : PluginState) (h0 : st.loaded = []) (locs locs' : List PluginLocation)
    (hsame : ∀ f, f ∈ PluginFiles locs ↔ f ∈ PluginFiles locs')
    (hq : ∀ f ∈ PluginFiles locs, lk.throws f = false) (fallback ok ok' : Bool) (rest rest' : List Str) (st1 st2 : PluginState)
    (h : lk.loadSubsystems st locs fallback = some (ok, rest, st1))
    (h' : lk.loadSubsystems st locs' fallback = some (ok', rest', st2)) :
    ok = ok' ∧ ∀ f, f ∈ st1.loaded ↔ f ∈ st2.loaded := by
  have hl : ∀ {l l' : List Str}, (∀ f, f ∈ l → f ∈ l') → ∀ f, Loadable lk l f → Loadable lk l' f := by
    intro l l' hs f hf
    induction hf with
    | step L f hf hL ho ih => exact .step L f (hs f hf) ih ho
  obtain ⟨a1, -, -, -, a2⟩ := C80_exact_partial lk hm st h0 locs hq fallback ok rest st1 h
  obtain ⟨b1, -, -, -, b2⟩ := C80_exact_partial lk hm st h0 locs' (fun f hf => hq f ((hsame f).2 hf)) fallback ok' rest' st2 h'
  have hll : ∀ f, Loadable lk (PluginFiles locs) f ↔ Loadable lk (PluginFiles locs') f :=
    fun f => ⟨hl (fun f => (hsame f).1) f, hl (fun f => (hsame f).2) f⟩
  refine ⟨?_, fun f => (a1 f).trans ((hll f).trans (b1 f).symm)⟩
  rw [Bool.eq_iff_iff, a2, b2]
  refine or_congr_left ⟨fun hx f hf => (hll f).1 (hx f ((hsame f).2 hf)), fun hx f hf => (hll f).2 (hx f ((hsame f).1 hf))⟩

/-- **C80** (builders).  After the loading, a subsystem of a type that one loaded plugin registers is built by that plugin; a type that no
loaded plugin registers is built as virtual if it is `Virtual` or with the fallback, and else refused. -/
theorem C80_builders (lk : Linker) (st : PluginState) (h0 : st.loaded = []) (locs : List PluginLocation)
    (fallback ok : Bool) (rest : List Str) (st' : PluginState) (h : lk.loadSubsystems st locs fallback = some (ok, rest, st')) (ty : Str) :
    (∀ f ∈ st'.loaded, ty ∈ lk.types f → (∀ g ∈ st'.loaded, ty ∈ lk.types g → g = f) →
      st'.builderOf ty = some (.plugin f ty)) ∧
    ((∀ f ∈ st'.loaded, ty ∉ lk.types f) → st.fallback = false →
      st'.builderOf ty = if ty = s "Virtual" ∨ fallback = true then some .virtual else none) := by
  obtain ⟨rfl, hp⟩ := loadSubsystems_passes h
  obtain ⟨⟨pre, mem, hl, hb, hpre⟩, hfb⟩ := Linker.passes_sound (lk := lk) (init := [])
    (st := { st with builders := [(s "Virtual", .virtual)], fallback := st.fallback || fallback }) _
    ⟨[], [], by simp [h0], rfl, by simp⟩ hp
  simp only [List.nil_append] at hl hb hpre hfb
  unfold PluginState.builderOf
  rw [hb, List.find?_append, hl]
  constructor
  · intro f hf ht hu
    cases hfind : pre.find? (fun e => e.1 == ty) with
    | none =>
      have := List.find?_eq_none.1 hfind (ty, .plugin f ty) ((hpre _).2 ⟨f, hf, ty, ht, rfl⟩)
      simp at this
    | some e =>
      obtain ⟨g, hg, ty', ht', he⟩ := (hpre e).1 (List.mem_of_find?_eq_some hfind)
      have hty := List.find?_some hfind
      subst he
      simp only [beq_iff_eq] at hty
      subst hty
      rw [hu g hg ht']
      rfl
  · intro hno hst
    have hfind : pre.find? (fun e => e.1 == ty) = none := by
      rw [List.find?_eq_none]
      intro e he
      obtain ⟨g, hg, ty', ht', rfl⟩ := (hpre e).1 he
      simp only [beq_iff_eq]
      rintro rfl
      exact hno g hg ht'
    rw [hfind, Option.none_or, hfb, hst, Bool.false_or]
    by_cases hv : ty = s "Virtual"
    · subst hv
      simp only [true_or, if_true]
      rfl
    · have : List.find? (fun e => e.1 == ty) [(s "Virtual", Builder.virtual)] = none := by
        rw [List.find?_eq_none]
        intro e he
        obtain rfl := List.mem_singleton.1 he
        simpa using fun hx => hv hx.symm
      rw [this]
      simp only [hv, false_or]

example : ∃ ok rest st', SamplePlugins.linker.loadSubsystems SamplePlugins.fresh SamplePlugins.locs false = some (ok, rest, st') ∧
    st'.builderOf (s "Modem") = some (.plugin (s "lib/b") (s "Modem")) ∧ st'.builderOf (s "Virtual") = some .virtual ∧
    st'.builderOf (s "Unknown") = none := ⟨_, _, _, rfl, by decide, by decide, by decide⟩

/-- **C80** fails for entry points that throw: their libraries stay in memory, and another plugin that opens with them is reported as
impossible to load. -/
theorem C80_not_loaded_after_throw :
    ∃ (lk : Linker) (locs : List PluginLocation) (rest : List Str) (st' : PluginState), MoreOpens lk ∧
      lk.loadSubsystems SamplePlugins.fresh locs false = some (false, rest, st') ∧
      s "a" ∈ rest ∧ lk.opens st'.loaded (s "a") = true ∧ lk.throws (s "a") = false := by
  refine ⟨⟨fun L f => f == s "b" || L.contains (s "b"), fun _ => [], fun f => f == s "b"⟩, [⟨[], [s "a", s "b"]⟩], [s "a", s "b"],
    ⟨[s "b"], [(s "Virtual", .virtual)], false⟩, ?_, by decide, by decide, by decide, by decide⟩
  intro L L' f h ho
  simp only [Bool.or_eq_true, List.contains_iff_mem] at ho ⊢
  exact ho.imp_right fun h2 => h _ h2

/-- **C80** fails for a second loading: the fallback of an earlier one stays, although it is no longer asked for. -/
theorem C80_fallback_stays (lk : Linker) (st : PluginState) (locs locs' : List PluginLocation) (ok ok' : Bool) (rest rest' : List Str)
    (st1 st2 : PluginState) (h : lk.loadSubsystems st locs true = some (ok, rest, st1))
    (h' : lk.loadSubsystems st1 locs' false = some (ok', rest', st2)) (ty : Str) : st2.builderOf ty ≠ none := by
  have hfb : ∀ {st st' : PluginState} {locs : List PluginLocation} {fb ok : Bool} {rest : List Str},
      lk.loadSubsystems st locs fb = some (ok, rest, st') → st'.fallback = (st.fallback || fb) := by
    intro st st' locs fb ok rest h
    have hp := (loadSubsystems_passes h).2
    exact (Linker.passes_sound (lk := lk) (init := st.loaded) _
      (st := { st with builders := [(s "Virtual", .virtual)], fallback := st.fallback || fb }) ⟨[], [], by simp, rfl, by simp⟩ hp).2
  have e1 := hfb h
  have e2 := hfb h'
  rw [e1] at e2
  simp only [Bool.or_true, Bool.or_false] at e2
  unfold PluginState.builderOf
  split
  · simp
  · simp [e2]

/-- **C80** (files).  The files are the names of each location after its folder. -/
theorem C80_files (x : SXml) (f : Str) :
    f ∈ (PluginLocation.ofXml x).files ↔
      ∃ c ∈ x.children, f = (match x.attr (s "Folder") with
        | none => c.nameAttr
        | some [] => c.nameAttr
        | some (a :: folder) => (a :: folder) ++ s "/" ++ c.nameAttr) := by
  unfold PluginLocation.files PluginLocation.ofXml
  rw [List.map_map, List.mem_map]
  refine exists_congr fun c => and_congr_right fun _ => ?_
  simp only [Function.comp]
  rcases x.attr (s "Folder") with _ | _ | ⟨a, folder⟩ <;> simp [eq_comm]

example : (PluginLocation.ofXml (.mk (s "Location") [(s "Folder", s "lib")] [.mk (s "Plugin") [(s "Name", s "a")] []])).files = [s "lib/a"] := by
  decide

end PF
