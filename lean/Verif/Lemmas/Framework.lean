import Verif.Spec.Framework
import Verif.Lemmas.StructureAccept

/-! # Lemmas on the start from files -/

namespace PF
open PF.Spec

theorem Load.bind_ok {α β : Type} {x : Load α} {f : α → Load β} {b : β} :
    x.bind f = .ok b ↔ ∃ a, x = .ok a ∧ f a = .ok b := by
  cases x <;> simp [Load.bind]

theorem Out.load_ok {α : Type} {x : Out α} {a : α} : x.load = .ok a ↔ x = .ok a := by
  cases x <;> simp [Out.load]

theorem Run.load_ok {α : Type} {x : Run α} {a : α} : Run.load x = .ok a ↔ x = some (.ok a) := by
  cases x with
  | none => simp [Run.load]
  | some x => simp [Run.load, Out.load_ok]

theorem populate_ok {d : Disk} {validate : Bool} {tag uri : Str} {x : SXml} :
    d.populate validate tag uri = .ok x ↔ IsDoc d validate tag uri x := by
  unfold Disk.populate IsDoc
  cases d.doc uri with
  | none => simp
  | some y =>
    simp only [Option.some.injEq]
    by_cases h : (validate && !d.valid uri) = true
    · rw [if_pos h]
      simp only [Bool.and_eq_true, Bool.not_eq_true'] at h
      simp [h]
    · rw [if_neg h]
      have h' : validate = true → d.valid uri = true := by
        intro hv; cases hu : d.valid uri
        · exact absurd (by simp [hv, hu]) h
        · rfl
      by_cases ht : y.tag = tag
      · rw [if_neg (not_not.2 ht)]
        simp only [Out.ok.injEq]
        exact ⟨fun e => ⟨e, e ▸ ht, h'⟩, fun e => e.1⟩
      · rw [if_pos ht]
        simp only [reduceCtorEq, false_iff]
        rintro ⟨rfl, h2, -⟩
        exact ht h2

/-! ## Attributes -/

theorem convertBool_iff {t : Str} {b : Bool} : convertBool t = some b ↔
    (t ∈ [s "0", s "false", s "FALSE"] ∧ b = false) ∨ (t ∈ [s "1", s "true", s "TRUE"] ∧ b = true) := by
  have key : ∀ t, t ∈ [s "0", s "false", s "FALSE"] → t ∉ [s "1", s "true", s "TRUE"] := by
    intro t ht
    simp only [List.mem_cons, List.not_mem_nil, or_false] at ht
    rcases ht with rfl | rfl | rfl <;> decide
  have h0 : (t = s "0" ∨ t = s "FALSE" ∨ t = s "false") ↔ t ∈ [s "0", s "false", s "FALSE"] := by
    simp only [List.mem_cons, List.not_mem_nil, or_false]
    constructor <;> (rintro (h | h | h) <;> simp [h])
  have h1 : (t = s "1" ∨ t = s "TRUE" ∨ t = s "true") ↔ t ∈ [s "1", s "true", s "TRUE"] := by
    simp only [List.mem_cons, List.not_mem_nil, or_false]
    constructor <;> (rintro (h | h | h) <;> simp [h])
  unfold convertBool
  by_cases ha : t ∈ [s "0", s "false", s "FALSE"]
  · rw [if_pos (h0.2 ha)]
    simp only [Option.some.injEq, ha, key t ha, true_and, false_and, or_false]
    exact eq_comm
  · rw [if_neg (fun h => ha (h0.1 h))]
    by_cases hb : t ∈ [s "1", s "true", s "TRUE"]
    · rw [if_pos (h1.2 hb)]
      simp only [Option.some.injEq, ha, hb, true_and, false_and, false_or]
      exact eq_comm
    · rw [if_neg (fun h => hb (h1.1 h))]
      simp [ha, hb]

theorem boolAttr_iff {x : SXml} {name : Str} {b : Bool} :
    (match x.attr name with
      | none => Out.ok false
      | some t => match convertBool t with
        | some b => .ok b
        | none => .err) = .ok b ↔ BoolAttr x name b := by
  unfold BoolAttr
  cases ha : x.attr name with
  | none => simp [eq_comm]
  | some t =>
    simp only [reduceCtorEq, false_and, Option.some.injEq, exists_eq_left', false_or]
    rw [← convertBool_iff]
    cases convertBool t <;> simp

theorem convertTo_unsigned {t : Str} {n : Nat} {bits : Nat} :
    convertTo false bits t = some (n : Int) ↔ UnsignedText t n ∧ n < 2 ^ bits := by
  refine ⟨fun h => ?_, fun h => h.1.convert h.2⟩
  rw [convertTo_iff] at h
  obtain ⟨h, hb⟩ := h
  simp only [Bool.false_eq_true, if_false] at hb
  refine ⟨?_, by omega⟩
  rcases h with ⟨k, hk, e⟩ | ⟨u, k, rfl, hk, e⟩ | ⟨u, k, hs, _⟩ | ⟨u, k, rfl, hk, e⟩
  · obtain rfl : n = k := by omega
    exact .dec hk
  · obtain rfl : n = k := by omega
    exact .plus hk
  · exact absurd hs (by decide)
  · obtain rfl : n = k := by omega
    exact .hex hk

theorem portAttr_iff {x : SXml} {n : Int} :
    x.num (s "ServerPort") false 16 0 = .ok n ↔ ∃ p : Nat, n = p ∧ PortAttr x p := by
  unfold PortAttr SXml.num
  cases ha : x.attr (s "ServerPort") with
  | none =>
    simp only [Out.ok.injEq, true_and, reduceCtorEq, false_and, exists_false, or_false, exists_eq_right]
    constructor
    · rintro rfl; rfl
    · intro h; exact h.symm
  | some t =>
    simp only [reduceCtorEq, false_and, Option.some.injEq, exists_eq_left', false_or]
    constructor
    · intro h
      cases hc : convertTo false 16 t with
      | none => simp [hc] at h
      | some k =>
        simp only [hc, Out.ok.injEq] at h; subst h
        have h0 := (convertTo_plain hc).2
        simp only [Bool.false_eq_true, if_false] at h0
        obtain ⟨p, rfl⟩ : ∃ p : Nat, k = p := ⟨k.toNat, by omega⟩
        obtain ⟨h1, h2⟩ := convertTo_unsigned.1 hc
        exact ⟨p, rfl, h1, h2⟩
    · rintro ⟨p, rfl, h1, h2⟩
      rw [convertTo_unsigned.2 ⟨h1, h2⟩]

theorem fwAttrs_ok {x : SXml} {a : Str × Bool × Nat} :
    fwAttrs x = .ok a ↔ a.1 = (x.attr (s "SystemClassName")).getD [] ∧ BoolAttr x (s "TuningAllowed") a.2.1 ∧ PortAttr x a.2.2 := by
  obtain ⟨n, b, p⟩ := a
  unfold fwAttrs
  rw [Out.bind_ok]
  simp only [Out.bind_ok, Out.ok.injEq, Prod.mk.injEq]
  constructor
  · rintro ⟨b', hb, k, hk, rfl, rfl, rfl⟩
    obtain ⟨p', rfl, hp⟩ := portAttr_iff.1 hk
    exact ⟨rfl, boolAttr_iff.1 hb, by simpa using hp⟩
  · rintro ⟨rfl, hb, hp⟩
    exact ⟨b, boolAttr_iff.2 hb, p, portAttr_iff.2 ⟨p, rfl, hp⟩, rfl, rfl, by simp⟩

/-! ## Elements of the configuration -/

theorem loadFwItem_eq (x : SXml) : loadFwItem x =
    if x.tag = s "Location" then .ok (.location x.nameAttr (PluginLocation.ofXml x))
    else if x.tag = s "StructureDescriptionFileLocation" ∨ x.tag = s "ConfigurableDomainsFileLocation" then
      if pathAttr x = [] then .err else .ok (.file x.nameAttr x.tag (pathAttr x))
    else if x.tag = s "SubsystemPlugins" ∨ x.tag = s "SettingsConfiguration" then
      (loadFwItems x.children).bind fun is => .ok (.group x.nameAttr x.tag is)
    else if x.tag = s "ParameterFrameworkConfiguration" then
      (fwAttrs x).bind fun _ => (loadFwItems x.children).bind fun is => .ok (.group [] x.tag is)
    else .err := by
  cases x
  rw [loadFwItem]
  rfl

theorem loadFwItems_ok {xs : List SXml} {is : List FwItem} :
    loadFwItems xs = .ok is ↔ List.Forall₂ (fun x i => loadFwItem x = .ok i) xs is := by
  induction xs generalizing is with
  | nil => simp [loadFwItems, eq_comm]
  | cons x xs ih =>
    simp only [loadFwItems, Out.bind_ok, Out.ok.injEq, List.forall₂_cons_left_iff, ih]
    constructor
    · rintro ⟨i, hi, is', his, rfl⟩; exact ⟨i, is', hi, his, rfl⟩
    · rintro ⟨i, is', hi, his, rfl⟩; exact ⟨i, hi, is', his, rfl⟩

/-- What an item tells of its element. -/
structure ItemOf (x : SXml) (i : FwItem) : Prop where
  kind : i.kind = x.tag
  called : i.pathName = calledAs x
  path : ∀ p, i.path = some p ↔
    (x.tag = s "StructureDescriptionFileLocation" ∨ x.tag = s "ConfigurableDomainsFileLocation") ∧ p = pathAttr x
  group : ∀ n k cs, i = .group n k cs → k = x.tag ∧ loadFwItems x.children = .ok cs
  isGroup : x.tag = s "SubsystemPlugins" ∨ x.tag = s "SettingsConfiguration" → ∃ n k cs, i = .group n k cs
  location : ∀ n l, i = .location n l → x.tag = s "Location" ∧ l = PluginLocation.ofXml x
  isLocation : x.tag = s "Location" → ∃ n l, i = .location n l

theorem loadFwItem_spec {x : SXml} {i : FwItem} (h : loadFwItem x = .ok i) : ItemOf x i := by
  rw [loadFwItem_eq] at h
  have hcall : ∀ (n k : Str), k = x.tag → n = x.nameAttr → x.tag ≠ s "ParameterFrameworkConfiguration" →
      (if n ≠ [] then n else k) = calledAs x := by
    rintro n k rfl rfl hne
    unfold calledAs
    by_cases h : x.nameAttr = []
    · simp [h]
    · simp [h, hne]
  split at h
  · rename_i ht
    cases h
    exact ⟨ht.symm, hcall _ _ ht.symm rfl (by rw [ht]; decide), by
        have h1 : ¬ (x.tag = s "StructureDescriptionFileLocation" ∨ x.tag = s "ConfigurableDomainsFileLocation") := by
          rw [ht]; decide
        intro p; simp [FwItem.path, h1],
      by simp, fun e => absurd e (by rw [ht]; decide), by rintro n l ⟨⟩; exact ⟨ht, rfl⟩, fun _ => ⟨_, _, rfl⟩⟩
  rename_i n1
  split at h
  · rename_i ht
    split at h
    · cases h
    cases h
    refine ⟨rfl, hcall _ _ rfl rfl (by rcases ht with ht | ht <;> rw [ht] <;> decide), ?_, by simp, ?_, by simp, fun e => absurd e n1⟩
    · intro p; simp only [FwItem.path, Option.some.injEq, ht, true_and]; exact eq_comm
    · exact fun e => absurd e (by rcases ht with ht | ht <;> rw [ht] <;> decide)
  rename_i n2
  split at h
  · rename_i ht
    rw [Out.bind_ok] at h
    obtain ⟨is, his, h⟩ := h
    cases h
    refine ⟨rfl, hcall _ _ rfl rfl (by rcases ht with ht | ht <;> rw [ht] <;> decide), ?_, ?_, fun _ => ⟨_, _, _, rfl⟩, by simp,
      fun e => absurd e n1⟩
    · intro p; simp [FwItem.path, n2]
    · rintro n k cs ⟨⟩; exact ⟨rfl, his⟩
  rename_i n3
  split at h
  · rename_i ht
    simp only [Out.bind_ok] at h
    obtain ⟨_, _, is, his, h⟩ := h
    cases h
    refine ⟨rfl, ?_, ?_, ?_, fun e => absurd e n3, by simp, fun e => absurd e n1⟩
    · simp [FwItem.pathName, FwItem.name, FwItem.kind, calledAs, ht]
    · intro p; simp [FwItem.path, n2]
    · rintro n k cs ⟨⟩; exact ⟨rfl, his⟩
  · cases h

theorem loadFwItem_understood {x : SXml} {i : FwItem} (h : loadFwItem x = .ok i) : Understood x := by
  revert i
  induction x using SXml.rec (motive_2 := fun xs => ∀ is, loadFwItems xs = .ok is → ∀ c ∈ xs, Understood c) with
  | mk t as cs ih =>
    intro i h
    rw [loadFwItem_eq] at h
    split at h
    · exact .location ‹_›
    split at h
    · rename_i ht
      split at h
      · cases h
      · exact .file ht ‹_›
    split at h
    · rw [Out.bind_ok] at h
      obtain ⟨is, his, -⟩ := h
      exact .group ‹_› (ih is his)
    split at h
    · simp only [Out.bind_ok] at h
      obtain ⟨a, ha, is, his, -⟩ := h
      obtain ⟨-, h1, h2⟩ := fwAttrs_ok.1 ha
      exact .nested ‹_› h1 h2 (ih is his)
    · cases h
  | nil => rename_i hc; simp at hc
  | cons x xs ih1 ih2 =>
    rename_i is h c hc
    rw [loadFwItems_ok, List.forall₂_cons_left_iff] at h
    obtain ⟨i, is', hi, his, rfl⟩ := h
    rcases List.mem_cons.1 hc with rfl | hc
    · exact ih1 hi
    · exact ih2 is' (loadFwItems_ok.2 his) c hc

theorem loadFwItems_of {xs : List SXml} (h : ∀ c ∈ xs, ∃ i, loadFwItem c = .ok i) : ∃ is, loadFwItems xs = .ok is := by
  induction xs with
  | nil => exact ⟨[], by simp [loadFwItems]⟩
  | cons x xs ih =>
    obtain ⟨i, hi⟩ := h x (by simp)
    obtain ⟨is, his⟩ := ih fun c hc => h c (by simp [hc])
    exact ⟨i :: is, by simp [loadFwItems, hi, his, Out.bind]⟩

theorem Spec.Understood.load {x : SXml} (h : Understood x) : ∃ i, loadFwItem x = .ok i := by
  induction h with
  | location ht => exact ⟨_, by rw [loadFwItem_eq, if_pos ht]⟩
  | file ht hp =>
    rename_i x
    refine ⟨.file x.nameAttr x.tag (pathAttr x), ?_⟩
    rw [loadFwItem_eq, if_neg (by rcases ht with ht | ht <;> rw [ht] <;> decide), if_pos ht, if_neg hp]
  | group ht hc ih =>
    obtain ⟨is, his⟩ := loadFwItems_of ih
    rename_i x
    refine ⟨.group x.nameAttr x.tag is, ?_⟩
    rw [loadFwItem_eq, if_neg (by rcases ht with ht | ht <;> rw [ht] <;> decide),
      if_neg (by rcases ht with ht | ht <;> rw [ht] <;> decide), if_pos ht, his]
    rfl
  | nested ht h1 h2 hc ih =>
    obtain ⟨is, his⟩ := loadFwItems_of ih
    rename_i x allowed port
    have ha : fwAttrs x = .ok ((x.attr (s "SystemClassName")).getD [], allowed, port) := fwAttrs_ok.2 ⟨rfl, h1, h2⟩
    refine ⟨.group [] x.tag is, ?_⟩
    rw [loadFwItem_eq, if_neg (by rw [ht]; decide), if_neg (by rw [ht]; decide), if_neg (by rw [ht]; decide), if_pos ht, ha, his]
    rfl

theorem loadFwItems_iff {xs : List SXml} : (∃ is, loadFwItems xs = .ok is) ↔ ∀ c ∈ xs, Understood c := by
  refine ⟨?_, fun h => loadFwItems_of fun c hc => (h c hc).load⟩
  rintro ⟨is, h⟩ c hc
  induction xs generalizing is with
  | nil => simp at hc
  | cons x xs ih =>
    rw [loadFwItems_ok, List.forall₂_cons_left_iff] at h
    obtain ⟨i, is', hi, his, rfl⟩ := h
    rcases List.mem_cons.1 hc with rfl | hc
    · exact loadFwItem_understood hi
    · exact ih is' (loadFwItems_ok.2 his) hc

/-- The first item with a property is that of the first element with a property that means the same. -/
theorem find_items {P : FwItem → Bool} {Q : SXml → Prop} (hPQ : ∀ x i, loadFwItem x = .ok i → (P i = true ↔ Q x))
    {xs : List SXml} {is : List FwItem} (h : loadFwItems xs = .ok is) :
    (is.find? P = none ↔ ∀ x ∈ xs, ¬ Q x) ∧ ∀ i, is.find? P = some i ↔ ∃ x, First Q xs x ∧ loadFwItem x = .ok i := by
  rw [loadFwItems_ok] at h
  induction h with
  | nil => simp [First]
  | cons hi hr ih =>
    rename_i x i xs is
    rw [List.find?_cons]
    by_cases hp : P i = true
    · have hq := (hPQ x i hi).1 hp
      simp only [hp, reduceCtorEq, false_iff, Option.some.injEq]
      refine ⟨fun h => h x (by simp) hq, fun j => ⟨?_, ?_⟩⟩
      · rintro rfl; exact ⟨x, ⟨[], xs, rfl, hq, by simp⟩, hi⟩
      · rintro ⟨y, ⟨pre, post, e, hy, hpre⟩, hj⟩
        cases pre with
        | nil =>
          simp only [List.nil_append, List.cons.injEq] at e
          obtain ⟨rfl, -⟩ := e
          exact Out.ok.inj (hi.symm.trans hj)
        | cons z pre =>
          simp only [List.cons_append, List.cons.injEq] at e
          obtain ⟨rfl, -⟩ := e
          exact absurd hq (hpre x (by simp))
    · have hq : ¬ Q x := fun h => hp ((hPQ x i hi).2 h)
      simp only [Bool.not_eq_true] at hp
      simp only [hp]
      refine ⟨by rw [ih.1]; simp [hq], fun j => ?_⟩
      rw [ih.2]
      constructor
      · rintro ⟨y, ⟨pre, post, rfl, hy, hpre⟩, hj⟩
        refine ⟨y, ⟨x :: pre, post, rfl, hy, ?_⟩, hj⟩
        intro z hz
        rcases List.mem_cons.1 hz with rfl | hz
        · exact hq
        · exact hpre z hz
      · rintro ⟨y, ⟨pre, post, e, hy, hpre⟩, hj⟩
        cases pre with
        | nil =>
          simp only [List.nil_append, List.cons.injEq] at e
          obtain ⟨rfl, -⟩ := e
          exact absurd hy hq
        | cons z pre =>
          simp only [List.cons_append, List.cons.injEq] at e
          obtain ⟨rfl, rfl⟩ := e
          exact ⟨y, ⟨pre, post, rfl, hy, fun z hz => hpre z (by simp [hz])⟩, hj⟩

theorem findKind_spec {xs : List SXml} {is : List FwItem} (h : loadFwItems xs = .ok is) (kind : Str) :
    (findKind is kind = none ↔ ∀ x ∈ xs, x.tag ≠ kind) ∧
    ∀ i, findKind is kind = some i ↔ ∃ x, First (fun c => c.tag = kind) xs x ∧ loadFwItem x = .ok i :=
  find_items (Q := fun c => c.tag = kind) (fun x i hi => by rw [beq_iff_eq, (loadFwItem_spec hi).kind]) h

theorem findItem_spec {xs : List SXml} {is : List FwItem} (h : loadFwItems xs = .ok is) (name : Str) :
    (findItem is name = none ↔ ∀ x ∈ xs, calledAs x ≠ name) ∧
    ∀ i, findItem is name = some i ↔ ∃ x, First (fun c => calledAs c = name) xs x ∧ loadFwItem x = .ok i :=
  find_items (Q := fun c => calledAs c = name) (fun x i hi => by rw [beq_iff_eq, (loadFwItem_spec hi).called]) h

theorem First.load {P : SXml → Prop} {xs : List SXml} {x : SXml} {is : List FwItem} (hf : First P xs x)
    (h : loadFwItems xs = .ok is) : ∃ i, loadFwItem x = .ok i := by
  obtain ⟨pre, post, rfl, -, -⟩ := hf
  exact (loadFwItems_iff.1 ⟨is, h⟩ x (by simp)).load

theorem castLocations_ok {xs : List SXml} {is : List FwItem} (h : loadFwItems xs = .ok is) {ls : List PluginLocation} :
    castLocations is = .ok ls ↔ (∀ x ∈ xs, x.tag = s "Location") ∧ ls = xs.map PluginLocation.ofXml := by
  rw [loadFwItems_ok] at h
  induction h generalizing ls with
  | nil => simp [castLocations, eq_comm]
  | cons hi hr ih =>
    rename_i x i xs is
    have sp := loadFwItem_spec hi
    by_cases ht : x.tag = s "Location"
    · obtain ⟨n, l, rfl⟩ := sp.isLocation ht
      obtain ⟨-, rfl⟩ := sp.location _ _ rfl
      simp only [castLocations, Load.bind_ok, ih, Load.ok.injEq, List.mem_cons, forall_eq_or_imp, ht, true_and, List.map_cons]
      constructor
      · rintro ⟨ls', ⟨h1, rfl⟩, rfl⟩; exact ⟨h1, rfl⟩
      · rintro ⟨h1, rfl⟩; exact ⟨_, ⟨h1, rfl⟩, rfl⟩
    · have : castLocations (i :: is) = .stopped := by
        cases i with
        | location n l => exact absurd (sp.location _ _ rfl).1 ht
        | file _ _ _ => rfl
        | group _ _ _ => rfl
      rw [this]
      simp [ht]

theorem pluginLocations_ok {xs : List SXml} {is : List FwItem} (h : loadFwItems xs = .ok is) {ls : List PluginLocation} :
    pluginLocations is = .ok ls ↔ ∃ p, First (fun c => calledAs c = s "SubsystemPlugins") xs p ∧ p.tag = s "SubsystemPlugins" ∧
      (∀ l ∈ p.children, l.tag = s "Location") ∧ ls = p.children.map PluginLocation.ofXml := by
  have hf := findItem_spec h (s "SubsystemPlugins")
  unfold pluginLocations
  constructor
  · intro hl
    cases hi : findItem is (s "SubsystemPlugins") with
    | none => rw [hi] at hl; cases hl
    | some i =>
      rw [hi] at hl
      obtain ⟨p, hp, hpi⟩ := (hf.2 i).1 hi
      cases i with
      | file _ _ _ => cases hl
      | location _ _ => cases hl
      | group n k cs =>
        obtain ⟨rfl, hcs⟩ := (loadFwItem_spec hpi).group _ _ _ rfl
        simp only at hl
        split at hl
        · rename_i ht
          obtain ⟨h1, h2⟩ := (castLocations_ok hcs).1 hl
          exact ⟨p, hp, ht, h1, h2⟩
        · cases hl
  · rintro ⟨p, hp, ht, h1, h2⟩
    obtain ⟨i, hi⟩ := First.load hp h
    rw [(hf.2 i).2 ⟨p, hp, hi⟩]
    have sp := loadFwItem_spec hi
    obtain ⟨n, k, cs, rfl⟩ := sp.isGroup (.inl ht)
    obtain ⟨rfl, hcs⟩ := sp.group _ _ _ rfl
    simp only [ht, if_true]
    exact (castLocations_ok hcs).2 ⟨h1, h2⟩

/-! ## The structure -/

theorem Run.bind_some {α β : Type} (a : α) (f : α → Run β) : Run.bind (some (.ok a)) f = f a := rfl

/-- The subsystems of several files are those of the document with the files put in. -/
theorem loadSubsystemFiles_inlined {d : Disk} {validate : Bool} {base : Str} {rd : Reader} {fuel : Nat} {plugins : Str → Option Plugin}
    {xs ys : List SXml} (h : Inlined d validate base xs ys) (first : Nat) :
    loadSubsystemFiles d validate base rd fuel plugins first xs = loadSubsystems rd fuel plugins first ys := by
  induction h generalizing first with
  | nil => rfl
  | keep ht _ ih =>
    rename_i x xs ys _
    unfold loadSubsystemFiles loadSubsystems
    have : d.include validate base x = .ok x := by unfold Disk.include; rw [if_neg ht]
    rw [this, Run.bind_some]
    simp only [ih]
    rfl
  | file ht hu hd _ ih =>
    rename_i x xs u y ys _
    unfold loadSubsystemFiles loadSubsystems
    have : d.include validate base x = .ok y := by
      unfold Disk.include
      rw [if_pos ht]
      simp only [pathAttr] at hu
      rw [hu]
      exact populate_ok.2 hd
    rw [this, Run.bind_some]
    simp only [ih]
    rfl

/-- What is loaded has all its inclusions resolved. -/
theorem loadSubsystemFiles_ok {d : Disk} {validate : Bool} {base : Str} {rd : Reader} {fuel : Nat} {plugins : Str → Option Plugin}
    {xs : List SXml} {first : Nat} {es : List Elem}
    (h : loadSubsystemFiles d validate base rd fuel plugins first xs = some (.ok es)) : ∃ ys, Inlined d validate base xs ys := by
  induction xs generalizing first es with
  | nil => exact ⟨[], .nil⟩
  | cons x xs ih =>
    unfold loadSubsystemFiles at h
    simp only [Run.bind_ok, Option.some.injEq] at h
    obtain ⟨y, hy, h⟩ := h
    have hrest : ∃ ys, Inlined d validate base xs ys := by
      split at h
      · split at h
        · cases h
        · simp only [Run.bind_ok, Option.some.injEq] at h
          obtain ⟨_, _, _, _, es', h', _⟩ := h
          exact ih h'
      · split at h <;> cases h
    obtain ⟨ys, hys⟩ := hrest
    unfold Disk.include at hy
    split at hy
    · rename_i ht
      split at hy
      · cases hy
      · rename_i u hu
        exact ⟨y :: ys, .file ht hu (populate_ok.1 hy) hys⟩
    · cases hy
      exact ⟨x :: ys, .keep ‹_› hys⟩

theorem loadSystemFile_ok {d : Disk} {validate : Bool} {rd : Reader} {fuel : Nat} {plugins : Str → Option Plugin}
    {name uri : Str} {root : Elem} :
    loadSystemFile d validate rd fuel plugins name uri = .ok root ↔
    ∃ sys ys, IsDoc d validate (s "SystemClass") uri sys ∧ Inlined d validate uri sys.children ys ∧
      loadSystem rd fuel plugins name (withChildren sys ys) = some (.ok root) := by
  unfold loadSystemFile loadSystem
  simp only [Load.bind_ok, Out.load_ok, Run.load_ok, populate_ok, Run.bind_ok, withChildren, SXml.children, Load.ok.injEq,
    Option.some.injEq, Out.ok.injEq]
  constructor
  · rintro ⟨sys, hs, es, hes, rfl⟩
    obtain ⟨ys, hys⟩ := loadSubsystemFiles_ok hes
    exact ⟨sys, ys, hs, hys, es, by rw [← loadSubsystemFiles_inlined hys]; exact hes, rfl⟩
  · rintro ⟨sys, ys, hs, hys, es, hes, rfl⟩
    exact ⟨sys, hs, es, by rw [loadSubsystemFiles_inlined hys]; exact hes, rfl⟩

theorem loadStructure_ok {d : Disk} {validate : Bool} {rd : Reader} {fuel : Nat} {plugins : Str → Option Plugin} {uri : Str}
    {c : FwConfig} {xs : List SXml} (h : loadFwItems xs = .ok c.items) {root : Elem} :
    loadStructure d validate rd fuel plugins uri c = .ok root ↔
    ∃ l u sys ys, First (fun c => c.tag = s "StructureDescriptionFileLocation") xs l ∧ d.uri uri (pathAttr l) = some u ∧
      IsDoc d validate (s "SystemClass") u sys ∧ Inlined d validate u sys.children ys ∧
      loadSystem rd fuel plugins c.className (withChildren sys ys) = some (.ok root) := by
  have hf := findKind_spec h (s "StructureDescriptionFileLocation")
  unfold loadStructure
  constructor
  · intro hl
    split at hl
    · cases hl
    · rename_i i hi
      obtain ⟨l, hl1, hl2⟩ := (hf.2 i).1 hi
      split at hl
      · cases hl
      · rename_i p hp
        obtain ⟨-, rfl⟩ := ((loadFwItem_spec hl2).path p).1 hp
        split at hl
        · cases hl
        · rename_i u hu
          obtain ⟨sys, ys, h1, h2, h3⟩ := loadSystemFile_ok.1 hl
          exact ⟨l, u, sys, ys, hl1, hu, h1, h2, h3⟩
  · rintro ⟨l, u, sys, ys, hl, hu, h1, h2, h3⟩
    obtain ⟨i, hi⟩ := First.load hl h
    rw [(hf.2 i).2 ⟨l, hl, hi⟩]
    have ht : l.tag = s "StructureDescriptionFileLocation" := by obtain ⟨_, _, _, h, _⟩ := hl; exact h
    simp only [((loadFwItem_spec hi).path _).2 ⟨.inl ht, rfl⟩, hu]
    exact loadSystemFile_ok.2 ⟨sys, ys, h1, h2, h3⟩

/-! ## The settings -/

theorem fileSettings_iff {d : Disk} {validate : Bool} {u : Str} {st : Settings} :
    (match d.domains u with
      | none => Load.ok Settings.unusable
      | some x => if validate && !d.valid u then .ok .unusable else .ok (.doc x)) = .ok st ↔ FileSettings d validate u st := by
  unfold FileSettings
  cases hd : d.domains u with
  | none => cases st <;> simp
  | some x =>
    simp only
    cases validate <;> cases hv : d.valid u <;> cases st <;> simp

theorem findSettings_ok {d : Disk} {validate : Bool} {uri : Str} {cfg : SXml} {c : FwConfig}
    (h : loadFwItems cfg.children = .ok c.items) {st : Settings} :
    findSettings d validate uri c = .ok st ↔ DeclaredSettings d validate uri cfg st := by
  have hf := findKind_spec h (s "SettingsConfiguration")
  constructor
  · intro hs
    unfold findSettings at hs
    split at hs
    · rename_i hn
      cases hs
      exact .absent (hf.1.1 hn)
    · rename_i n k cs hi
      obtain ⟨g, hg, hgi⟩ := (hf.2 _).1 hi
      obtain ⟨-, hcs⟩ := (loadFwItem_spec hgi).group _ _ _ rfl
      have hf2 := findKind_spec hcs (s "ConfigurableDomainsFileLocation")
      split at hs
      · rename_i hn
        cases hs
        exact .noFile hg (hf2.1.1 hn)
      · rename_i i hi2
        obtain ⟨l, hl, hli⟩ := (hf2.2 _).1 hi2
        split at hs
        · cases hs
        · rename_i p hp
          obtain ⟨-, rfl⟩ := ((loadFwItem_spec hli).path p).1 hp
          split at hs
          · cases hs
          · rename_i u hu
            exact .file hg hl hu (fileSettings_iff.1 hs)
    · cases hs
  · intro hs
    have grp : ∀ g, First (fun c => c.tag = s "SettingsConfiguration") cfg.children g → ∃ n k cs,
        findKind c.items (s "SettingsConfiguration") = some (.group n k cs) ∧ loadFwItems g.children = .ok cs := by
      intro g hg
      obtain ⟨i, hi⟩ := First.load hg h
      have ht : g.tag = s "SettingsConfiguration" := by obtain ⟨_, _, _, h, _⟩ := hg; exact h
      obtain ⟨n, k, cs, rfl⟩ := (loadFwItem_spec hi).isGroup (.inr ht)
      exact ⟨n, k, cs, (hf.2 _).2 ⟨g, hg, hi⟩, ((loadFwItem_spec hi).group _ _ _ rfl).2⟩
    cases hs with
    | absent hn =>
      unfold findSettings
      rw [hf.1.2 hn]
    | noFile hg hn =>
      obtain ⟨n, k, cs, hk, hcs⟩ := grp _ hg
      unfold findSettings
      rw [hk]
      simp only [(findKind_spec hcs (s "ConfigurableDomainsFileLocation")).1.2 hn]
    | file hg hl hu hfs =>
      rename_i g l u
      obtain ⟨n, k, cs, hk, hcs⟩ := grp _ hg
      obtain ⟨i, hi⟩ := First.load hl hcs
      have ht : l.tag = s "ConfigurableDomainsFileLocation" := by obtain ⟨_, _, _, h, _⟩ := hl; exact h
      unfold findSettings
      rw [hk]
      simp only [((findKind_spec hcs (s "ConfigurableDomainsFileLocation")).2 i).2 ⟨l, hl, hi⟩,
        ((loadFwItem_spec hi).path _).2 ⟨.inr ht, rfl⟩, hu]
      exact fileSettings_iff.2 hfs

/-! ## The start -/

theorem loadConfiguration_ok {d : Disk} {validate : Bool} {uri : Str} {c : FwConfig} :
    loadConfiguration d validate uri = .ok c ↔
    ∃ cfg, IsDoc d validate (s "ParameterFrameworkConfiguration") uri cfg ∧ c.className = (cfg.attr (s "SystemClassName")).getD [] ∧
      BoolAttr cfg (s "TuningAllowed") c.allowed ∧ PortAttr cfg c.port ∧ loadFwItems cfg.children = .ok c.items := by
  unfold loadConfiguration
  simp only [Load.bind_ok, Out.load_ok, populate_ok]
  constructor
  · rintro ⟨x, hx, h⟩
    split at h
    · rename_i a ha
      simp only [Load.bind_ok, Out.load_ok, Load.ok.injEq] at h
      obtain ⟨is, his, rfl⟩ := h
      obtain ⟨h1, h2, h3⟩ := fwAttrs_ok.1 ha
      exact ⟨x, hx, h1, h2, h3, his⟩
    · cases h
  · rintro ⟨x, hx, h1, h2, h3, h4⟩
    refine ⟨x, hx, ?_⟩
    have ha : fwAttrs x = .ok (c.className, c.allowed, c.port) := fwAttrs_ok.2 ⟨h1, h2, h3⟩
    simp only [ha, Load.bind_ok, Out.load_ok, Load.ok.injEq]
    exact ⟨c.items, h4, rfl⟩

theorem loadPlugins_ok {w : World} {fail : Bool} {locs : List PluginLocation} {st : PluginState} :
    w.loadPlugins fail locs = .ok st ↔ ∃ rest, w.linker.loadSubsystems ⟨[], [], false⟩ locs (!fail) = some (true, rest, st) := by
  unfold World.loadPlugins
  cases w.linker.loadSubsystems ⟨[], [], false⟩ locs (!fail) with
  | none => simp
  | some r =>
    obtain ⟨ok, rest, st'⟩ := r
    cases ok <;> simp

theorem openPort_ok {w : World} {noRemote allowed : Bool} {n : Nat} {port : Option Nat} :
    w.openPort noRemote allowed n = .ok port ↔
      (allowed = true ∧ noRemote = false → port = some n ∧ w.listens n = true) ∧
      (¬ (allowed = true ∧ noRemote = false) → port = none) := by
  unfold World.openPort
  cases noRemote <;> cases allowed <;> cases w.listens n <;> cases port <;> simp <;> exact eq_comm

/-- The start, in terms of its parts. -/
theorem startFramework_ok {w : World} {pol : Policies} {uri : Str} {fuel : Nat} {cs : List Criterion} {r : Started} :
    startFramework w pol uri fuel cs = .ok r ↔
    ∃ c locs st root settings, loadConfiguration w.disk pol.validate uri = .ok c ∧ pluginLocations c.items = .ok locs ∧
      w.loadPlugins pol.failOnMissing locs = .ok st ∧
      loadStructure w.disk pol.validate w.rd fuel (w.plugins st) uri c = .ok root ∧
      findSettings w.disk pol.validate uri c = .ok settings ∧ r.env = ⟨⟨root, w.hw, w.rd⟩, c.allowed, w.addr⟩ ∧
      Mgr.start r.env pol.failOnSettings settings w.back cs = (.ok (), r.mgr) ∧
      w.openPort pol.noRemote c.allowed c.port = .ok r.port := by
  unfold startFramework
  simp only [Load.bind_ok]
  constructor
  · rintro ⟨c, h1, locs, h2, st, h3, root, h4, settings, h5, h⟩
    rcases hm : Mgr.start ⟨⟨root, w.hw, w.rd⟩, c.allowed, w.addr⟩ pol.failOnSettings settings w.back cs with ⟨(_ | _ | _), m⟩
    · rw [hm] at h
      simp only [Load.bind_ok, Load.ok.injEq] at h
      obtain ⟨port, h6, rfl⟩ := h
      exact ⟨c, locs, st, root, settings, h1, h2, h3, h4, h5, rfl, hm, h6⟩
    · rw [hm] at h; cases h
    · rw [hm] at h; cases h
  · rintro ⟨c, locs, st, root, settings, h1, h2, h3, h4, h5, he, hm, hp⟩
    refine ⟨c, h1, locs, h2, st, h3, root, h4, settings, h5, ?_⟩
    rw [← he, hm]
    simp only [Load.bind_ok, Load.ok.injEq]
    exact ⟨r.port, hp, rfl⟩

/-! ## More nested calls do not change a start -/

theorem loadSubsystems_mono {rd : Reader} {fuel fuel' : Nat} (hle : fuel ≤ fuel') {plugins : Str → Option Plugin} {first : Nat}
    {xs : List SXml} {r : Out (List Elem)} (h : loadSubsystems rd fuel plugins first xs = some r) :
    loadSubsystems rd fuel' plugins first xs = some r := by
  induction xs generalizing first r with
  | nil => exact h
  | cons x xs ih =>
    unfold loadSubsystems at h ⊢
    split
    · rename_i ht
      rw [if_pos ht] at h
      split
      · rename_i hp
        rw [hp] at h
        exact h
      · rename_i pl hp
        rw [hp] at h
        exact Run.bind_mono (fun _ => loadInstances_mono hle) (fun i r h => Run.bind_mono (fun _ h => h)
          (fun q r h => Run.bind_mono (fun _ h => ih h) (fun _ _ h => h) h) h) h
    · rename_i ht
      rw [if_neg ht] at h
      exact h

theorem loadSystem_mono {rd : Reader} {fuel fuel' : Nat} (hle : fuel ≤ fuel') {plugins : Str → Option Plugin} {name : Str}
    {x : SXml} {r : Out Elem} (h : loadSystem rd fuel plugins name x = some r) : loadSystem rd fuel' plugins name x = some r := by
  unfold loadSystem at h ⊢
  exact Run.bind_mono (fun _ => loadSubsystems_mono hle) (fun _ _ h => h) h

theorem loadStructure_mono {d : Disk} {validate : Bool} {rd : Reader} {fuel fuel' : Nat} (hle : fuel ≤ fuel')
    {plugins : Str → Option Plugin} {uri : Str} {c : FwConfig} {xs : List SXml} (hx : loadFwItems xs = .ok c.items) {root : Elem}
    (h : loadStructure d validate rd fuel plugins uri c = .ok root) : loadStructure d validate rd fuel' plugins uri c = .ok root := by
  rw [loadStructure_ok hx] at h ⊢
  obtain ⟨l, u, sys, ys, h1, h2, h3, h4, h5⟩ := h
  exact ⟨l, u, sys, ys, h1, h2, h3, h4, loadSystem_mono hle h5⟩

theorem startFramework_mono {w : World} {pol : Policies} {uri : Str} {fuel fuel' : Nat} (hle : fuel ≤ fuel') {cs : List Criterion}
    {r : Started} (h : startFramework w pol uri fuel cs = .ok r) : startFramework w pol uri fuel' cs = .ok r := by
  rw [startFramework_ok] at h ⊢
  obtain ⟨c, locs, st, root, settings, h1, h2, h3, h4, h5⟩ := h
  obtain ⟨_, _, _, _, _, hx⟩ := loadConfiguration_ok.1 h1
  exact ⟨c, locs, st, root, settings, h1, h2, h3, loadStructure_mono hle hx h4, h5⟩

theorem Spec.Inlined.unique {d : Disk} {validate : Bool} {base : Str} {xs ys zs : List SXml} (h : Inlined d validate base xs ys)
    (h' : Inlined d validate base xs zs) : ys = zs := by
  induction h generalizing zs with
  | nil => cases h'; rfl
  | keep ht _ ih =>
    cases h' with
    | keep _ h2 => rw [ih h2]
    | file ht' => exact absurd ht' ht
  | file ht hu hd _ ih =>
    cases h' with
    | keep ht' => exact absurd ht ht'
    | file _ hu' hd' h2 =>
      rw [hu, Option.some.injEq] at hu'
      subst hu'
      rw [ih h2, Option.some.inj (hd.1.symm.trans hd'.1)]

/-! ## Exceptions -/

theorem Load.bind_threw {α β : Type} {x : Load α} {f : α → Load β} :
    x.bind f = .threw ↔ x = .threw ∨ ∃ a, x = .ok a ∧ f a = .threw := by
  cases x <;> simp [Load.bind]

theorem Out.load_threw {α : Type} {x : Out α} : x.load ≠ .threw := by cases x <;> simp [Out.load]

theorem Run.load_threw {α : Type} {x : Run α} : Run.load x ≠ .threw := by
  cases x with
  | none => simp [Run.load]
  | some r => exact Out.load_threw

theorem castLocations_threw (is : List FwItem) : castLocations is ≠ .threw := by
  induction is with
  | nil => simp [castLocations]
  | cons i is ih => cases i <;> simp [castLocations, Load.bind_threw, ih]

theorem pluginLocations_threw (is : List FwItem) : pluginLocations is ≠ .threw := by
  unfold pluginLocations
  split
  · simp
  · split
    · exact castLocations_threw _
    · simp
  · simp

theorem loadPlugins_threw (w : World) (fail : Bool) (locs : List PluginLocation) : w.loadPlugins fail locs ≠ .threw := by
  unfold World.loadPlugins
  split
  · simp
  · split <;> simp

theorem loadStructure_threw (d : Disk) (validate : Bool) (rd : Reader) (fuel : Nat) (plugins : Str → Option Plugin) (uri : Str)
    (c : FwConfig) : loadStructure d validate rd fuel plugins uri c ≠ .threw := by
  unfold loadStructure
  split
  · simp
  · split
    · simp
    · split
      · simp
      · unfold loadSystemFile
        simp [Load.bind_threw, Out.load_threw, Run.load_threw]

theorem findSettings_threw (d : Disk) (validate : Bool) (uri : Str) (c : FwConfig) : findSettings d validate uri c ≠ .threw := by
  unfold findSettings
  split
  · simp
  · split
    · simp
    · split
      · simp
      · split
        · simp
        · split
          · simp
          · split <;> simp
  · simp

theorem startFramework_threw {w : World} {pol : Policies} {uri : Str} {fuel : Nat} {cs : List Criterion} :
    startFramework w pol uri fuel cs = .threw ↔ loadConfiguration w.disk pol.validate uri = .threw := by
  unfold startFramework
  rw [Load.bind_threw]
  refine or_iff_left ?_
  rintro ⟨c, -, h⟩
  rw [Load.bind_threw] at h
  rcases h with h | ⟨locs, -, h⟩
  · exact pluginLocations_threw _ h
  rw [Load.bind_threw] at h
  rcases h with h | ⟨st, -, h⟩
  · exact loadPlugins_threw _ _ _ h
  rw [Load.bind_threw] at h
  rcases h with h | ⟨root, -, h⟩
  · exact loadStructure_threw _ _ _ _ _ _ _ h
  rw [Load.bind_threw] at h
  rcases h with h | ⟨settings, -, h⟩
  · exact findSettings_threw _ _ _ _ h
  simp only at h
  split at h
  · rw [Load.bind_threw] at h
    rcases h with h | ⟨_, _, h⟩
    · unfold World.openPort at h
      split at h
      · split at h <;> cases h
      · cases h
    · cases h
  · cases h
  · cases h

theorem loadConfiguration_threw {d : Disk} {validate : Bool} {uri : Str} :
    loadConfiguration d validate uri = .threw ↔
    ∃ cfg, IsDoc d validate (s "ParameterFrameworkConfiguration") uri cfg ∧
      ¬ ((∃ b, BoolAttr cfg (s "TuningAllowed") b) ∧ ∃ n, PortAttr cfg n) := by
  unfold loadConfiguration
  simp only [Load.bind_threw, Out.load_threw, false_or, Out.load_ok, populate_ok]
  refine exists_congr fun x => and_congr_right fun _ => ?_
  constructor
  · rintro h ⟨⟨b, hb⟩, n, hn⟩
    have ha : fwAttrs x = .ok ((x.attr (s "SystemClassName")).getD [], b, n) := fwAttrs_ok.2 ⟨rfl, hb, hn⟩
    simp [ha, Load.bind_threw, Out.load_threw] at h
  · intro h
    split
    · rename_i a ha
      obtain ⟨_, h1, h2⟩ := fwAttrs_ok.1 ha
      exact absurd ⟨⟨_, h1⟩, _, h2⟩ h
    · rfl

end PF
