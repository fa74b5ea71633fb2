import Verif.Spec.ShowMapping
import Verif.Props.Mapping
import Verif.Props.Listing

/-!
# The mapping shown of an element (C101)
-/

namespace PF
open Spec

theorem Commas_append (as bs : List Str) : Commas (as ++ bs) =
    if as = [] then Commas bs else if bs = [] then Commas as else Commas as ++ s ", " ++ Commas bs := by
  induction as with
  | nil => simp
  | cons a as ih =>
    cases as with
    | nil =>
      cases bs with
      | nil => simp
      | cons b bs => simp [Commas]
    | cons a' as =>
      have e : (a :: a' :: as) ++ bs = a :: a' :: (as ++ bs) := rfl
      rw [e, Commas]
      have e' : a' :: (as ++ bs) = (a' :: as) ++ bs := rfl
      rw [e', ih]
      by_cases hb : bs = []
      · simp [hb, Commas]
      · simp [hb, Commas]

theorem Commas_nil_iff {ts : List Str} (h : ∀ t ∈ ts, t ≠ []) : Commas ts = [] ↔ ts = [] := by
  cases ts with
  | nil => simp [Commas]
  | cons t ts =>
    have ht := h t (by simp)
    cases ts with
    | nil => simpa [Commas] using ht
    | cons u us => simp [Commas, ht]

/-- Lists of texts joined, then joined again without the empty ones, are the texts joined. -/
theorem Commas_flatten {ls : List (List Str)} (h : ∀ l ∈ ls, ∀ t ∈ l, t ≠ []) :
    Commas ((ls.map Commas).filter (· ≠ [])) = Commas ls.flatten := by
  induction ls with
  | nil => rfl
  | cons l ls ih =>
    have ih := ih fun l' hl' => h l' (by simp [hl'])
    have hl := h l (by simp)
    have hrest : ((ls.map Commas).filter (· ≠ [])) = [] ↔ ls.flatten = [] := by
      rw [List.filter_eq_nil_iff, List.flatten_eq_nil_iff]
      constructor
      · intro g l' hl'
        have := g (Commas l') (List.mem_map_of_mem hl')
        simp only [ne_eq, decide_not, Bool.not_eq_eq_eq_not, Bool.not_true, decide_eq_false_iff_not, not_not] at this
        exact (Commas_nil_iff (h l' (by simp [hl']))).1 this
      · intro g x hx
        obtain ⟨l', hl', rfl⟩ := List.mem_map.1 hx
        simp [g l' hl', Commas]
    rw [List.map_cons, List.flatten_cons, Commas_append]
    by_cases h0 : l = []
    · subst h0
      simpa [Commas] using ih
    · have h1 : Commas l ≠ [] := fun g => h0 ((Commas_nil_iff hl).1 g)
      rw [List.filter_cons_of_pos (by simpa using h1), if_neg h0]
      by_cases h2 : ls.flatten = []
      · rw [if_pos h2, hrest.2 h2]; rfl
      · rw [if_neg h2, ← ih]
        have h3 : ((ls.map Commas).filter (· ≠ [])) ≠ [] := fun g => h2 (hrest.1 g)
        have := Commas_append [Commas l] ((ls.map Commas).filter (· ≠ []))
        rw [if_neg (by simp), if_neg h3] at this
        exact this

theorem bindingText_ne (b : Str × Str) : BindingText b ≠ [] := by
  unfold BindingText
  have : s ":" ≠ [] := by decide
  simp [this]

theorem formattedMapping_eq (ms : List MData) : formattedMapping ms = Commas (ms.reverse.flatten.map BindingText) := by
  unfold formattedMapping
  rw [joinCommas_eq]
  have e1 : ms.reverse.map MData.asString = (ms.reverse.map fun m => m.map BindingText).map Commas := by
    rw [List.map_map]
    apply List.map_congr_left
    intro m _
    simp only [MData.asString, joinCommas_eq, Function.comp]
    rfl
  rw [e1, Commas_flatten, List.map_flatten]
  intro l hl t ht
  obtain ⟨m, -, rfl⟩ := List.mem_map.1 hl
  obtain ⟨b, -, rfl⟩ := List.mem_map.1 ht
  exact bindingText_ne b

theorem formatList_eq (d : MapDef) (p : Pos) : d.formatList p = Commas ((BindingsTo d p).map BindingText) := by
  unfold MapDef.formatList BindingsTo
  rw [joinCommas_eq]
  have e1 : ((List.range (p.length + 1)).map fun n => formattedMapping (d.maps (p.take n))) =
      ((List.range (p.length + 1)).map fun n => (d.maps (p.take n)).reverse.flatten.map BindingText).map Commas := by
    rw [List.map_map]
    apply List.map_congr_left
    intro n _
    exact formattedMapping_eq _
  rw [e1, Commas_flatten, List.flatMap, List.map_flatten, List.map_map]
  · rfl
  · intro l hl t ht
    obtain ⟨n, -, rfl⟩ := List.mem_map.1 hl
    obtain ⟨b, -, rfl⟩ := List.mem_map.1 ht
    exact bindingText_ne b

theorem creatorKey_of_asks {d : MapDef} {p : Pos} {c : Nat} {v : Str} (h : Asks d p c v) :
    ∃ cr, d.creators[c]? = some cr ∧ d.creatorKey p = .ok cr.key := by
  obtain ⟨cr, h1, h2, h3⟩ := h
  refine ⟨cr, h1, ?_⟩
  unfold MapDef.creatorKey
  have : d.creators.find? (fun cr => (d.get p cr.key).isSome) = some cr := by
    rw [List.find?_eq_some_iff_getElem]
    obtain ⟨hc, he⟩ := List.getElem?_eq_some_iff.1 h1
    refine ⟨by simp [h2], c, hc, he, ?_⟩
    intro j hj
    have := h3 j d.creators[j] hj (List.getElem?_eq_getElem (by omega))
    simp [this]
  rw [this]

/-- An element that has an object has a binding. -/
theorem bindings_of_asks {d : MapDef} {p : Pos} {c : Nat} {v : Str} (h : Asks d p c v) : BindingsTo d p ≠ [] := by
  obtain ⟨cr, -, h2, -⟩ := h
  obtain ⟨pre, m, post, g1, g2, -⟩ := (C42_lookup_chain d p cr.key v).1 h2
  intro hno
  unfold BindingsTo at hno
  rw [List.flatMap_eq_nil_iff] at hno
  have := hno p.length (by simp)
  rw [List.take_length, List.flatten_eq_nil_iff] at this
  have hm := this m (by rw [g1]; simp)
  subst hm
  simp [MData.getValue] at g2

/-- C101: `showMapping` of an element of a subsystem that has been mapped lists the bindings that hold for the element, from
those of the subsystem down to its own; if the element has an object, the key of the creator of that object comes last, with
the value that the object shows. -/
theorem C101_shown {root sub sub' : Elem} {subs : Nat → MappedSub} {path : Str} {i : Nat} {p : Pos}
    (hl : root.locate path = some (i :: p)) (h32 : (subs i).defs.contextKeys.length ≤ 32) (hn : NoSyncer sub)
    (hm : sub.mapSubsystem (subs i).defs = .ok (sub', (subs i).objs)) :
    (∀ o ∈ (subs i).objs, o.pos = p → ∃ cr, (subs i).defs.creators[o.creator]? = some cr ∧
      root.showMapping subs path =
        .ok (Commas ((BindingsTo (subs i).defs p).map BindingText ++ [BindingText (cr.key, (subs i).shown o)]))) ∧
    ((∀ o ∈ (subs i).objs, o.pos ≠ p) →
      root.showMapping subs path = .ok (Commas ((BindingsTo (subs i).defs p).map BindingText))) := by
  obtain ⟨hobj, hnd⟩ := C43_objects _ h32 sub sub' hn _ hm
  constructor
  · intro o ho hp
    have ha := ((hobj p o.creator o.value).1 ⟨o, ho, hp, rfl, rfl⟩).2
    obtain ⟨cr, h1, h2⟩ := creatorKey_of_asks ha
    refine ⟨cr, h1, ?_⟩
    have hf : (subs i).objs.find? (fun o => o.pos == p) = some o := by
      cases hf : (subs i).objs.find? (fun o => o.pos == p) with
      | none => exact absurd hp (by simpa using List.find?_eq_none.1 hf o ho)
      | some o' =>
        have hp' : o'.pos = p := by simpa using List.find?_some hf
        have ho' := List.mem_of_find?_eq_some hf
        rw [List.inj_on_of_nodup_map hnd ho' ho (by rw [hp, hp'])]
    have hb := bindings_of_asks ha
    unfold Elem.showMapping MappedSub.mappingText MappedSub.objectText
    rw [hl]
    simp only [hf, h2, Out.bind, formatList_eq]
    have hb' : (BindingsTo (subs i).defs p).map BindingText ≠ [] := by simpa using hb
    have ht : cr.key ++ s ":" ++ (subs i).shown o ≠ [] := bindingText_ne (cr.key, (subs i).shown o)
    rw [if_pos ht, Commas_append, if_neg hb', if_neg (by simp)]
    simp only [Commas, BindingText, List.append_assoc]
  · intro hno
    have hf : (subs i).objs.find? (fun o => o.pos == p) = none := by
      rw [List.find?_eq_none]
      intro o ho
      simpa using hno o ho
    unfold Elem.showMapping MappedSub.mappingText MappedSub.objectText
    rw [hl]
    simp [hf, Out.bind, formatList_eq]

/-- C101: it is an error exactly when the path leads to no element, or to the system class. -/
theorem C101_refused {root : Elem} {subs : Nat → MappedSub} {path : Str} :
    root.showMapping subs path = .err ↔ root.locate path = none ∨ root.locate path = some [] := by
  have hno : ∀ (m : MappedSub) (p : Pos), m.mappingText p ≠ .err := by
    intro m p
    unfold MappedSub.mappingText MappedSub.objectText MapDef.creatorKey
    cases m.objs.find? (fun o => o.pos == p) with
    | none => simp [Out.bind]
    | some o =>
      cases m.defs.creators.find? (fun cr => (m.defs.get p cr.key).isSome) <;> simp [Out.bind]
  unfold Elem.showMapping
  split
  · rename_i h; simp [h]
  · rename_i h; simp [h]
  · rename_i i p h
    simp [h, hno]

/-- C101: the program does not stop on an assertion: that of a subsystem which has been mapped holds. -/
theorem C101_safe {root : Elem} {subs : Nat → MappedSub} {path : Str}
    (hm : ∀ i p, root.locate path = some (i :: p) → (subs i).defs.contextKeys.length ≤ 32 ∧
      ∃ sub sub', NoSyncer sub ∧ sub.mapSubsystem (subs i).defs = .ok (sub', (subs i).objs)) :
    root.showMapping subs path ≠ .abort := by
  cases hl : root.locate path with
  | none => simp [Elem.showMapping, hl]
  | some q =>
    cases q with
    | nil => simp [Elem.showMapping, hl]
    | cons i p =>
      obtain ⟨h32, sub, sub', hn, h⟩ := hm i p hl
      obtain ⟨h1, h2⟩ := C101_shown hl h32 hn h
      by_cases ho : ∃ o ∈ (subs i).objs, o.pos = p
      · obtain ⟨o, ho, hp⟩ := ho
        obtain ⟨cr, -, h3⟩ := h1 o ho hp
        simp [h3]
      · rw [h2 fun o ho' hp => ho ⟨o, ho', hp⟩]
        simp

/-! ## The sample -/

namespace Sample

/-- The sample subsystem once mapped; its objects show their values with the card and the device. -/
def mapped : MappedSub :=
  ⟨mdef, match msub.mapSubsystem mdef with | .ok r => r.2 | _ => [],
    fun o => match formattedObjectValue o.value 0 2 o.ctx with | .ok t => t | _ => []⟩

/-- The sample subsystem in a system class. -/
def mappedRoot : Elem := .mk (s "Sys") (.group (s "SystemClass")) none [msub]

example : (mappedRoot.locate (s "/Sys/sub/comp/vol") = some [0, 0, 0] ∧ mapped.defs.contextKeys.length ≤ 32 ∧ NoSyncer msub ∧
    ∃ sub', msub.mapSubsystem mapped.defs = .ok (sub', mapped.objs)) ∧
    mappedRoot.showMapping (fun _ => mapped) (s "/Sys/sub/comp/vol") =
      .ok (s "Card:0, Unused:, Device:1, Control:'Vol %1 %2', Control:Vol 0 1") ∧
    mappedRoot.showMapping (fun _ => mapped) (s "/Sys/sub/comp") = .ok (s "Card:0, Unused:, Device:1") ∧
    mappedRoot.showMapping (fun _ => mapped) (s "/Sys/sub") = .ok (s "Card:0") ∧
    mappedRoot.showMapping (fun _ => mapped) (s "/Sys") = .err :=
  ⟨⟨by decide +kernel, by decide, msub_noSyncer, _, rfl⟩, by decide +kernel⟩

end Sample

end PF
