import Verif.Lemmas.StructureWF
import Verif.Props.Mapping

/-!
# Systems: names, sizes and syncers

Helper lemmas for Props/StructureWF.
-/

namespace PF

open Spec

variable {rd : Reader}

mutual
/-- The element without syncers. -/
def Elem.bare : Elem → Elem
  | .mk n k _ cs => .mk n k none (Elem.bareAll cs)
/-- The elements without syncers. -/
def Elem.bareAll : List Elem → List Elem
  | [] => []
  | c :: cs => c.bare :: Elem.bareAll cs
end

theorem Elem.bareAll_eq : ∀ cs : List Elem, Elem.bareAll cs = cs.map Elem.bare
  | [] => rfl
  | c :: cs => by simp [Elem.bareAll, Elem.bareAll_eq cs]

theorem Elem.shiftAll_eq (k : Nat) : ∀ cs : List Elem, Elem.shiftAll k cs = cs.map (Elem.shiftSyncers k)
  | [] => rfl
  | c :: cs => by simp [Elem.shiftAll, Elem.shiftAll_eq k cs]

mutual
theorem Elem.bare_shift (k : Nat) : ∀ e : Elem, (e.shiftSyncers k).bare = e.bare
  | .mk n kd sy cs => by simp [Elem.shiftSyncers, Elem.bare, Elem.bareAll_shift k cs]
theorem Elem.bareAll_shift (k : Nat) : ∀ cs : List Elem, Elem.bareAll (Elem.shiftAll k cs) = Elem.bareAll cs
  | [] => rfl
  | c :: cs => by simp [Elem.shiftAll, Elem.bareAll, Elem.bare_shift k c, Elem.bareAll_shift k cs]
end

/-- Same names, kinds and positions: same element without syncers. -/
theorem Elem.bare_eq : ∀ (e e' : Elem), (∀ p, e.at? p = none ↔ e'.at? p = none) →
    (∀ p f f', e.at? p = some f → e'.at? p = some f' → f'.name = f.name ∧ f'.kind = f.kind) →
    e'.bare = e.bare
  | .mk n k sy cs, .mk n' k' sy' cs', h1, h2 => by
    obtain ⟨ha, hb⟩ := h2 [] _ _ rfl rfl
    simp only [Elem.name, Elem.kind] at ha hb
    subst ha; subst hb
    simp only [Elem.bare, Elem.mk.injEq, true_and, Elem.bareAll_eq]
    apply List.ext_getElem?
    intro i
    simp only [List.getElem?_map]
    have hi := h1 [i]
    simp only [Elem.at?] at hi
    cases hc : cs[i]? with
    | none =>
      rw [hc] at hi
      cases hc' : cs'[i]? with
      | none => rfl
      | some c' => rw [hc'] at hi; simp at hi
    | some c =>
      rw [hc] at hi
      cases hc' : cs'[i]? with
      | none => rw [hc'] at hi; simp at hi
      | some c' =>
        have := List.sizeOf_lt_of_mem (List.mem_of_getElem? hc)
        simp only [Option.map_some, Option.some.injEq]
        refine Elem.bare_eq c c' (fun p => ?_) (fun p f f' hf hf' => ?_)
        · have := h1 (i :: p)
          simpa only [Elem.at?, hc, hc'] using this
        · exact h2 (i :: p) f f' (by simpa only [Elem.at?, hc] using hf)
            (by simpa only [Elem.at?, hc'] using hf')

theorem Elem.Each.of_bare {Q : Elem → Prop} (hQ : ∀ a b : Elem, a.bare = b.bare → Q a → Q b) {a : Elem}
    (h : a.Each Q) : ∀ b : Elem, a.bare = b.bare → b.Each Q := by
  induction h with
  | @mk n k sy cs h1 h2 ih =>
    intro b hb
    have hq := hQ _ b hb h1
    obtain ⟨n', k', sy', cs'⟩ := b
    simp only [Elem.bare, Elem.mk.injEq, true_and, Elem.bareAll_eq] at hb
    refine .mk hq (fun c' hc' => ?_)
    obtain ⟨i, hi⟩ := List.mem_iff_getElem?.1 hc'
    have := congrArg (·[i]?) hb.2.2
    simp only [List.getElem?_map, hi, Option.map_some, Option.map_eq_some_iff] at this
    obtain ⟨c, hc, he⟩ := this
    exact ih c (List.mem_of_getElem? hc) c' he

theorem Elem.bare_parts {a b : Elem} (h : a.bare = b.bare) : a.name = b.name ∧ a.kind = b.kind ∧
    a.children.map Elem.bare = b.children.map Elem.bare := by
  obtain ⟨n, k, sy, cs⟩ := a
  obtain ⟨n', k', sy', cs'⟩ := b
  simpa only [Elem.bare, Elem.mk.injEq, true_and, Elem.bareAll_eq, Elem.name, Elem.kind, Elem.children] using h

theorem bare_get {cs cs' : List Elem} (h : cs.map Elem.bare = cs'.map Elem.bare) {i : Nat} {c' : Elem}
    (hc : cs'[i]? = some c') : ∃ c, cs[i]? = some c ∧ c.bare = c'.bare := by
  have := congrArg (·[i]?) h
  simp only [List.getElem?_map, hc, Option.map_some, Option.map_eq_some_iff] at this
  exact this

theorem bare_mem {cs cs' : List Elem} (h : cs.map Elem.bare = cs'.map Elem.bare) {c' : Elem}
    (hc : c' ∈ cs') : ∃ c ∈ cs, c.bare = c'.bare := by
  obtain ⟨i, hi⟩ := List.mem_iff_getElem?.1 hc
  obtain ⟨c, hc, he⟩ := bare_get h hi
  exact ⟨c, List.mem_of_getElem? hc, he⟩

theorem Elem.Local.of_bare (a b : Elem) (h : a.bare = b.bare) (ha : a.Local) : b.Local := by
  obtain ⟨-, hk, hc⟩ := Elem.bare_parts h
  obtain ⟨n, k, sy, cs⟩ := a
  obtain ⟨n', k', sy', cs'⟩ := b
  simp only [Elem.kind, Elem.children] at hk hc
  subst hk
  have hnil : cs = [] → cs' = [] := by
    rintro rfl
    simpa using hc.symm
  cases k with
  | group k =>
    intro c' hc' t
    obtain ⟨c, hcm, he⟩ := bare_mem hc hc'
    rw [← (Elem.bare_parts he).2.1]
    exact ha c hcm t
  | bitBlock size =>
    refine ⟨ha.1, fun c' hc' => ?_⟩
    obtain ⟨c, hcm, he⟩ := bare_mem hc hc'
    obtain ⟨nm, t, cy, rfl, h1, h2⟩ := ha.2 c hcm
    obtain ⟨n1, k1, s1, cs1⟩ := c'
    obtain ⟨h3, h4, h5⟩ := Elem.bare_parts he
    simp only [Elem.kind, Elem.name, Elem.children, List.map_nil] at h3 h4 h5
    subst h3; subst h4
    rw [eq_comm, List.map_eq_nil_iff] at h5
    subst h5
    exact ⟨_, _, _, rfl, h1, h2⟩
  | scalar t => exact ⟨ha.1, hnil ha.2⟩
  | array t => exact ⟨ha.1, hnil ha.2⟩
  | string m => exact hnil ha
  | bit t => trivial

theorem Elem.FieldsHere.of_bare (a b : Elem) (h : a.bare = b.bare) (ha : a.FieldsHere) : b.FieldsHere := by
  obtain ⟨-, -, hc⟩ := Elem.bare_parts h
  intro i j c d t u hij hci hdj hct hdu
  obtain ⟨c', hc', he⟩ := bare_get hc hci
  obtain ⟨d', hd', he'⟩ := bare_get hc hdj
  exact ha i j c' d' t u hij hc' hd' ((Elem.bare_parts he).2.1.trans hct) ((Elem.bare_parts he').2.1.trans hdu)

theorem Elem.pathName_of_bare {a b : Elem} (h : a.bare = b.bare) : a.pathName = b.pathName := by
  obtain ⟨h1, h2, -⟩ := Elem.bare_parts h
  rw [Elem.pathName, Elem.pathName, h1, h2]

theorem Elem.NamesHere.of_bare (a b : Elem) (h : a.bare = b.bare) (ha : a.NamesHere) : b.NamesHere := by
  obtain ⟨-, -, hc⟩ := Elem.bare_parts h
  have : b.children.map Elem.pathName = a.children.map Elem.pathName := by
    apply List.ext_getElem?
    intro i
    simp only [List.getElem?_map]
    have := congrArg (·[i]?) hc
    simp only [List.getElem?_map] at this
    cases hb : b.children[i]? with
    | none =>
      rw [hb] at this
      simp only [Option.map_none, Option.map_eq_none_iff] at this
      simp [this]
    | some c =>
      rw [hb] at this
      simp only [Option.map_some, Option.map_eq_some_iff] at this
      obtain ⟨d, hd, he⟩ := this
      simp [hd, Elem.pathName_of_bare he]
  rw [Elem.NamesHere, this, ← Elem.pathName_of_bare h]
  exact ha

/-! ## Syncers -/

mutual
theorem IElem.elem_noSyncer : ∀ (i : IElem) p f, i.elem.at? p = some f → f.syncer = none
  | .mk n k ms cs, [], f, h => by
    simp only [IElem.elem, Elem.at?, Option.some.injEq] at h; subst h; rfl
  | .mk n k ms cs, j :: p, f, h => by
    simp only [IElem.elem, Elem.at?] at h
    split at h
    · cases h
    · rename_i c hc
      exact IElem.elems_noSyncer cs c (List.mem_of_getElem? hc) p f h
theorem IElem.elems_noSyncer : ∀ (is : List IElem) c, c ∈ IElem.elems is → ∀ p f, c.at? p = some f →
    f.syncer = none
  | [], c, hc, _, _, _ => by simp [IElem.elems] at hc
  | i :: is, c, hc, p, f, h => by
    simp only [IElem.elems, List.mem_cons] at hc
    rcases hc with rfl | hc
    · exact IElem.elem_noSyncer i p f h
    · exact IElem.elems_noSyncer is c hc p f h
end

theorem Elem.at?_shift (k : Nat) : ∀ (p : Pos) (e : Elem),
    (e.shiftSyncers k).at? p = (e.at? p).map (Elem.shiftSyncers k)
  | [], e => by simp [Elem.at?]
  | i :: p, .mk n kd sy cs => by
    simp only [Elem.shiftSyncers, Elem.at?, Elem.shiftAll_eq, List.getElem?_map]
    cases cs[i]? with
    | none => rfl
    | some c => simpa using Elem.at?_shift k p c

theorem Elem.syncer_shift (k : Nat) (e : Elem) : (e.shiftSyncers k).syncer = e.syncer.map (· + k) := by
  cases e; rfl

/-- What mapping does to the instances of a subsystem. -/
structure Mapped (first n : Nat) (i e : Elem) : Prop where
  bare : e.bare = i.bare
  range : ∀ p f id, e.at? p = some f → f.syncer = some id → first ≤ id ∧ id < first + n
  distinct : SyncersDistinct e
  notNested : e.SyncersNotNested

theorem mapInstances_ok {pl : Plugin} {first n : Nat} {i : IElem} {e : Elem}
    (h32 : ∀ keys cr, pl = .mapped keys cr → keys.length ≤ 32)
    (h : mapInstances pl first i = .ok (e, n)) : Mapped first n i.elem e := by
  cases pl with
  | virtual =>
    have hno := IElem.elem_noSyncer i
    simp only [mapInstances] at h
    cases hi : i.elem with
    | mk nm k sy cs =>
      rw [hi] at h hno
      simp only [Out.ok.injEq, Prod.mk.injEq] at h
      obtain ⟨rfl, rfl⟩ := h
      have hbelow : ∀ p f, p ≠ [] → (Elem.mk nm k (some first) cs).at? p = some f → f.syncer = none := by
        intro p f hp hf
        cases p with
        | nil => exact absurd rfl hp
        | cons j p => exact hno (j :: p) f (by simpa only [Elem.at?] using hf)
      have hroot : ∀ p f id, (Elem.mk nm k (some first) cs).at? p = some f → f.syncer = some id →
          p = [] ∧ id = first := by
        intro p f id hf hs
        by_cases hp : p = []
        · subst hp
          simp only [Elem.at?, Option.some.injEq] at hf; subst hf
          simp only [Elem.syncer, Option.some.injEq] at hs
          exact ⟨rfl, hs.symm⟩
        · rw [hbelow p f hp hf] at hs; cases hs
      refine ⟨by simp [Elem.bare], fun p f id hf hs => ?_, fun p q f g id hf hg hfs hgs => ?_,
        fun p q f g hf hg hq hs => ?_⟩
      · obtain ⟨-, rfl⟩ := hroot p f id hf hs; omega
      · rw [(hroot p f id hf hfs).1, (hroot q g id hg hgs).1]
      · exact hbelow _ _ (by simp [hq]) hg
  | mapped keys cr =>
    simp only [mapInstances, Out.bind_ok, Out.ok.injEq, Prod.mk.injEq] at h
    obtain ⟨⟨e', os⟩, hm, rfl, rfl⟩ := h
    have hno : NoSyncer i.elem := IElem.elem_noSyncer i
    have hk : (MapDef.mk keys cr i.mapsAt).contextKeys.length ≤ 32 := h32 keys cr rfl
    obtain ⟨h1, h2⟩ := C43_syncers _ hk _ _ hno _ hm
    have hnest := C43_syncers_not_nested _ hk _ _ hno _ hm
    have hsync : ∀ p f id, (e'.shiftSyncers first).at? p = some f → f.syncer = some id →
        ∃ id', id = id' + first ∧ ∃ o, os[id']? = some o ∧ o.pos = p := by
      intro p f id hf hs
      rw [Elem.at?_shift, Option.map_eq_some_iff] at hf
      obtain ⟨f', hf', rfl⟩ := hf
      rw [Elem.syncer_shift, Option.map_eq_some_iff] at hs
      obtain ⟨id', hid, rfl⟩ := hs
      obtain ⟨g, hg⟩ := Option.ne_none_iff_exists'.1 (fun x => by rw [(h1 p).1 x] at hf'; cases hf')
      exact ⟨id', rfl, ((h2 p g f' hg hf').2.2.2 id').1 hid⟩
    refine ⟨?_, fun p f id hf hs => ?_, fun p q f g id hf hg hfs hgs => ?_, fun p q f g hf hg hq hs => ?_⟩
    · rw [Elem.bare_shift]
      exact Elem.bare_eq _ _ h1 (fun p f f' hf hf' => ⟨(h2 p f f' hf hf').1, (h2 p f f' hf hf').2.1⟩)
    · obtain ⟨id', rfl, o, ho, -⟩ := hsync p f id hf hs
      have := (List.getElem?_eq_some_iff.1 ho).1
      exact ⟨by omega, by simp only; omega⟩
    · obtain ⟨a, rfl, o, ho, rfl⟩ := hsync p f id hf hfs
      obtain ⟨b, hb, o', ho', rfl⟩ := hsync q g _ hg hgs
      obtain rfl : a = b := by omega
      rw [ho] at ho'; cases ho'; rfl
    · rw [Elem.at?_shift, Option.map_eq_some_iff] at hf hg
      obtain ⟨f', hf', rfl⟩ := hf
      obtain ⟨g', hg', rfl⟩ := hg
      rw [Elem.syncer_shift, hnest p q f' g' hf' hg' hq (by
        intro h; rw [Elem.syncer_shift, h] at hs; exact hs rfl)]
      rfl

/-- The subsystems of a system. -/
inductive LoadedSubs (rd : Reader) (fuel : Nat) (plugins : Str → Option Plugin) : Nat → List SXml → List Elem → Prop
  | nil {first} : LoadedSubs rd fuel plugins first [] []
  | cons {first n x xs pl i e es} : x.tag = s "Subsystem" → plugins ((x.attr (s "Type")).getD []) = some pl →
      loadInstances rd fuel x = some (.ok i) → mapInstances pl first i = .ok (e, n) →
      LoadedSubs rd fuel plugins (first + n) xs es → LoadedSubs rd fuel plugins first (x :: xs) (e :: es)

theorem loadSubsystems_ok {fuel : Nat} {plugins : Str → Option Plugin} : ∀ {xs : List SXml} {first : Nat}
    {es : List Elem}, loadSubsystems rd fuel plugins first xs = some (.ok es) →
    LoadedSubs rd fuel plugins first xs es
  | [], first, es, h => by
    simp only [loadSubsystems, Option.some.injEq, Out.ok.injEq] at h; subst h; exact .nil
  | x :: xs, first, es, h => by
    unfold loadSubsystems at h
    by_cases ht : x.tag = s "Subsystem"
    · rw [if_pos ht] at h
      cases hp : plugins ((x.attr (s "Type")).getD []) with
      | none => rw [hp] at h; simp at h
      | some pl =>
        rw [hp] at h
        simp only [Run.bind_ok, Option.some.injEq, Out.ok.injEq] at h
        obtain ⟨i, hi, ⟨e, n⟩, he, es', hes, rfl⟩ := h
        exact .cons ht hp hi he (loadSubsystems_ok hes)
    · rw [if_neg ht] at h
      split at h <;> simp at h

theorem LoadedSubs.mem {fuel : Nat} {plugins : Str → Option Plugin} {first : Nat} {xs : List SXml}
    {es : List Elem} (h : LoadedSubs rd fuel plugins first xs es) : es.length = xs.length ∧
    ∀ (j : Nat) e, es[j]? = some e → ∃ x pl i f n, xs[j]? = some x ∧ x.tag = s "Subsystem" ∧
      plugins ((x.attr (s "Type")).getD []) = some pl ∧ loadInstances rd fuel x = some (.ok i) ∧
      mapInstances pl f i = .ok (e, n) := by
  induction h with
  | nil => simp
  | @cons first n x xs pl i e es a b c d _ ih =>
    refine ⟨by simp [ih.1], fun j e' he => ?_⟩
    cases j with
    | zero =>
      simp only [List.getElem?_cons_zero, Option.some.injEq] at he; subst he
      exact ⟨x, pl, i, first, n, rfl, a, b, c, d⟩
    | succ j =>
      simp only [List.getElem?_cons_succ] at he
      simpa using ih.2 j e' he

/-- Syncers are numbered by subsystem. -/
theorem LoadedSubs.ranges {fuel : Nat} {plugins : Str → Option Plugin}
    (h32 : ∀ n keys cr, plugins n = some (.mapped keys cr) → keys.length ≤ 32) {first : Nat}
    {xs : List SXml} {es : List Elem} (h : LoadedSubs rd fuel plugins first xs es) :
    (∀ (j : Nat) e p f id, es[j]? = some e → e.at? p = some f → f.syncer = some id → first ≤ id) ∧
    (∀ (j : Nat) e p f id, es[j]? = some e → e.at? p = some f → f.syncer = some id →
      ∀ (j' : Nat) e' p' f', es[j']? = some e' → e'.at? p' = some f' → f'.syncer = some id → j = j') := by
  induction h with
  | nil => simp
  | @cons first n x xs pl i e es a b c d _ ih =>
    have hm := mapInstances_ok (fun keys cr hpl => h32 _ keys cr (hpl ▸ b)) d
    constructor
    · intro j e' p f id he hf hs
      cases j with
      | zero =>
        simp only [List.getElem?_cons_zero, Option.some.injEq] at he; subst he
        exact (hm.range p f id hf hs).1
      | succ j =>
        have := ih.1 j e' p f id (by simpa using he) hf hs
        omega
    · intro j e1 p f id he hf hs j' e2 p' f' he' hf' hs'
      cases j with
      | zero =>
        simp only [List.getElem?_cons_zero, Option.some.injEq] at he; subst he
        have h1 := (hm.range p f id hf hs).2
        cases j' with
        | zero => rfl
        | succ j' =>
          have := ih.1 j' e2 p' f' id (by simpa using he') hf' hs'
          omega
      | succ j =>
        have h1 := ih.1 j e1 p f id (by simpa using he) hf hs
        cases j' with
        | zero =>
          simp only [List.getElem?_cons_zero, Option.some.injEq] at he'; subst he'
          have := (hm.range p' f' id hf' hs').2
          omega
        | succ j' =>
          rw [ih.2 j e1 p f id (by simpa using he) hf hs j' e2 p' f' (by simpa using he') hf' hs']

end PF
