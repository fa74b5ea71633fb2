import Verif.Lemmas.MapTree
import Verif.Props.Text

/-! # C42, C43, C44: mapping data, mapping contexts, amendments -/

namespace PF
open PF.Spec

/-! ## C42 -/

/-- C42: every text is a mapping text, with exactly one list of bindings. -/
theorem C42_bindings_unique (t : Str) : ∃ bs, MappingText t bs ∧ ∀ bs', MappingText t bs' → bs' = bs := by
  obtain ⟨ps, hp⟩ := pieces_exists [','] t
  obtain ⟨bs, hb⟩ := fields_exists (ps.filter (· ≠ []))
  refine ⟨bs, ⟨ps, hp, hb⟩, ?_⟩
  rintro bs' ⟨ps', hp', hb'⟩
  rw [C41_pieces_unique [','] t ps' ps hp' hp] at hb'
  rw [fields_eq hb, fields_eq hb']

/-- C42: a mapping text is refused exactly when it binds a key twice; otherwise looking a key up gives
the value the text binds it to, and nothing else. -/
theorem C42_init (t : Str) (bs : List (Str × Str)) (h : MappingText t bs) :
    (MData.init t = none ↔ ¬ (bs.map (·.1)).Nodup) ∧
    ∀ m, MData.init t = some m → ∀ k v, m.getValue k = some v ↔ (k, v) ∈ bs := by
  obtain ⟨h1, h2⟩ := MData.init_spec h
  refine ⟨h1, fun m hm k v => ?_⟩
  obtain ⟨hp, _⟩ := h2 m hm
  have hn : (bs.map (·.1)).Nodup := by
    refine Classical.byContradiction (fun hn => ?_)
    rw [h1.2 hn] at hm; cases hm
  have hn' : (m.map (·.1)).Nodup := (hp.map _).nodup_iff.2 hn
  rw [MData.getValue_iff hn', hp.mem_iff]

/-- C42: the text "key1:value1,key2:value2,...", with keys that have no colon or comma and values that
have no comma, binds exactly these keys to these values. -/
theorem C42_written (bs : List (Str × Str)) (hk : ∀ b ∈ bs, ':' ∉ b.1 ∧ ',' ∉ b.1) (hv : ∀ b ∈ bs, ',' ∉ b.2) :
    MappingText (joinWith ',' (bs.map (fun b => b.1 ++ ':' :: b.2))) bs := by
  have hfree : ∀ w ∈ bs.map (fun b => b.1 ++ ':' :: b.2), ∀ c ∈ w, c ∉ [','] := by
    intro w hw c hc
    obtain ⟨b, hb, rfl⟩ := List.mem_map.1 hw
    simp only [List.mem_singleton]
    rintro rfl
    rcases List.mem_append.1 hc with h | h
    · exact (hk b hb).2 h
    · rcases List.mem_cons.1 h with h | h
      · revert h; decide
      · exact hv b hb h
  have hfields : ∀ bs' : List (Str × Str), (∀ b ∈ bs', ':' ∉ b.1) →
      Fields (bs'.map (fun b => b.1 ++ ':' :: b.2)) bs' := by
    intro bs' h
    induction bs' with
    | nil => exact .nil
    | cons b bs' ih =>
      exact .cons (.keyValue b.1 b.2 (h b (by simp))) (ih (fun x hx => h x (by simp [hx])))
  have hfilter : (bs.map (fun b => b.1 ++ ':' :: b.2)).filter (· ≠ []) = bs.map (fun b => b.1 ++ ':' :: b.2) := by
    rw [List.filter_eq_self]
    intro w hw
    obtain ⟨b, _, rfl⟩ := List.mem_map.1 hw
    simp
  by_cases hne : bs = []
  · subst hne
    exact ⟨[[]], .last [] (by simp), by simpa using Fields.nil⟩
  · refine ⟨_, pieces_join [','] ',' (by simp) _ (by simpa using hne) hfree, ?_⟩
    rw [hfilter]
    exact hfields bs (fun b hb => (hk b hb).1)

/-- C42: the mapping data is listed in increasing order of the keys, and the listing has exactly the
bindings of the text. -/
theorem C42_listing (t : Str) (bs : List (Str × Str)) (h : MappingText t bs) (m : MData)
    (hm : MData.init t = some m) :
    ∃ l : List (Str × Str), l.Perm bs ∧ l.Pairwise (fun a b => strLt a.1 b.1 = true) ∧
      m.asString = joinTexts (s ", ") (l.map (fun b => b.1 ++ s ":" ++ b.2)) :=
  ⟨m, ((MData.init_spec h).2 m hm).1, ((MData.init_spec h).2 m hm).2, rfl⟩

/-- C42: the mapping text that an element shows lists the bindings of its own mapping data last, after
those of its type and of the extended types, the furthest first; those without binding are left out. -/
theorem C42_shown (own : MData) (inherited : List MData) :
    formattedMapping (own :: inherited) =
      (if own = [] then formattedMapping inherited
       else if formattedMapping inherited = [] then own.asString
       else formattedMapping inherited ++ s ", " ++ own.asString) := by
  have hjoin : ∀ (ts : List Str) (t : Str), joinTexts (s ", ") (ts ++ [t]) =
      if ts = [] then t else joinTexts (s ", ") ts ++ s ", " ++ t := by
    intro ts t
    induction ts with
    | nil => rfl
    | cons u us ih =>
      rw [if_neg (by simp)]
      cases us with
      | nil => simp [joinTexts]
      | cons w ws =>
        simp only [List.cons_append, joinTexts] at ih ⊢
        rw [ih, if_neg (by simp)]
        simp
  have hown : own.asString = [] ↔ own = [] := by
    constructor
    · intro h
      match own, h with
      | [], _ => rfl
      | [b], h => simp [MData.asString, joinTexts, s] at h
      | b :: c :: r, h => simp [MData.asString, joinTexts, s] at h
    · rintro rfl; rfl
  have hnil : ∀ ts : List Str, (∀ t ∈ ts, t ≠ []) → (joinTexts (s ", ") ts = [] ↔ ts = []) := by
    intro ts h
    match ts, h with
    | [], _ => simp [joinTexts]
    | [t], h => simp [joinTexts, h t (by simp)]
    | t :: u :: r, h => simp [joinTexts, s]
  unfold formattedMapping
  simp only [List.reverse_cons, List.map_append, List.filter_append, List.map_cons, List.map_nil]
  by_cases ho : own = []
  · rw [if_pos ho]
    rw [List.filter_cons_of_neg (by simp [hown.2 ho])]
    simp
  · rw [if_neg ho, List.filter_cons_of_pos (by simpa using fun h => ho (hown.1 h)), List.filter_nil, hjoin]
    have := hnil ((inherited.reverse.map MData.asString).filter (· ≠ [])) (by
      intro t ht
      simpa using (List.mem_filter.1 ht).2)
    simp only [this]

example : formattedMapping [[(s "Own", s "1")], [], [(s "Base", s "2"), (s "Offset", s "3")]] =
    s "Base:2, Offset:3, Own:1" := by decide

/-- C42: an element's lookup goes through its own mapping data, then its type's, then the extended
types': the first that binds the key gives the value. -/
theorem C42_lookup_chain (d : MapDef) (p : Pos) (key v : Str) :
    d.get p key = some v ↔ ∃ pre m post, d.maps p = pre ++ m :: post ∧ m.getValue key = some v ∧
      ∀ x ∈ pre, x.getValue key = none := by
  unfold MapDef.get
  rw [List.findSome?_eq_some_iff]

/-- C42: a handle's lookup gives the value of the closest element, from the handle's own up to the
subsystem, that binds the key. -/
theorem C42_handle_lookup (d : MapDef) (p : Pos) (key v : Str) :
    d.handleGet p key = some v ↔ ∃ q, q <+: p ∧ d.get q key = some v ∧
      ∀ r, r <+: p → q.length < r.length → d.get r key = none := by
  unfold MapDef.handleGet
  have gen : ∀ n, n ≤ p.length → ((List.range (n + 1)).reverse.findSome? (fun n => d.get (p.take n) key) = some v ↔
      ∃ j, j ≤ n ∧ d.get (p.take j) key = some v ∧ ∀ i, j < i → i ≤ n → d.get (p.take i) key = none) := by
    intro n hn
    induction n with
    | zero =>
      simp only [Nat.zero_add, List.range_one, List.reverse_singleton, List.findSome?_singleton]
      constructor
      · intro h; exact ⟨0, Nat.le_refl _, h, fun i h1 h2 => by omega⟩
      · rintro ⟨j, hj, h, _⟩
        have : j = 0 := by omega
        subst this; exact h
    | succ n ih =>
      rw [List.range_succ, List.reverse_append, List.reverse_singleton, List.singleton_append,
        List.findSome?_cons]
      cases hg : d.get (p.take (n + 1)) key with
      | some w =>
        simp only [Option.some.injEq]
        constructor
        · rintro rfl; exact ⟨n + 1, Nat.le_refl _, hg, fun i h1 h2 => by omega⟩
        · rintro ⟨j, hj, h, hi⟩
          by_cases hjn : j = n + 1
          · subst hjn; rw [hg] at h; cases h; rfl
          · have := hi (n + 1) (by omega) (Nat.le_refl _)
            rw [hg] at this; cases this
      | none =>
        rw [ih (by omega)]
        constructor
        · rintro ⟨j, hj, h, hi⟩
          refine ⟨j, by omega, h, fun i h1 h2 => ?_⟩
          by_cases hin : i = n + 1
          · subst hin; exact hg
          · exact hi i h1 (by omega)
        · rintro ⟨j, hj, h, hi⟩
          have hjn : j ≠ n + 1 := by rintro rfl; rw [hg] at h; cases h
          exact ⟨j, by omega, h, fun i h1 h2 => hi i h1 (by omega)⟩
  rw [gen p.length (Nat.le_refl _)]
  constructor
  · rintro ⟨j, hj, h, hi⟩
    refine ⟨p.take j, List.take_prefix _ _, h, fun r hr hlt => ?_⟩
    rw [List.length_take, Nat.min_eq_left hj] at hlt
    have := hi r.length hlt hr.length_le
    rwa [← List.prefix_iff_eq_take.1 hr] at this
  · rintro ⟨q, hq, h, hi⟩
    refine ⟨q.length, hq.length_le, by rwa [← List.prefix_iff_eq_take.1 hq], fun i h1 h2 => ?_⟩
    exact hi _ (List.take_prefix _ _) (by rw [List.length_take, Nat.min_eq_left h2]; exact h1)

/-- Witnesses for C42: two bindings, the value keeps the second colon, empty elements are skipped. -/
example : MappingText (s "Card:0,,Path:a:b,Flag") [(s "Card", s "0"), (s "Path", s "a:b"), (s "Flag", [])] ∧
    MData.init (s "Card:0,,Path:a:b,Flag") = some [(s "Card", s "0"), (s "Flag", []), (s "Path", s "a:b")] ∧
    MData.init (s "Card:0,Card:0") = none := by
  refine ⟨⟨[s "Card:0", [], s "Path:a:b", s "Flag"], ?_, ?_⟩, by decide +kernel, by decide +kernel⟩
  · exact .cut (s "Card:0") ',' (s ",Path:a:b,Flag") _ (by decide) (by decide)
      (.cut [] ',' (s "Path:a:b,Flag") _ (by decide) (by decide)
        (.cut (s "Path:a:b") ',' (s "Flag") _ (by decide) (by decide) (.last (s "Flag") (by decide))))
  · exact .cons (.keyValue (s "Card") (s "0") (by decide)) (.cons (.keyValue (s "Path") (s "a:b") (by decide))
      (.cons (.keyOnly (s "Flag") (by decide)) .nil))

example : Sample.mdef.handleGet [0, 0] (s "Card") = some (s "0") ∧
    Sample.mdef.handleGet [0, 0] (s "Device") = some (s "1") ∧
    Sample.mdef.handleGet [1] (s "Device") = none := by decide +kernel

/-! ## C43 -/

/-- C43: a subsystem can be mapped exactly when all its elements that mapping gets to and that have
mapping data are mappable: in particular none sets an item that an element above it has set. -/
theorem C43_mapped_iff (d : MapDef) (h32 : d.contextKeys.length ≤ 32) (sub : Elem) (hn : NoSyncer sub) :
    (∃ r, sub.mapSubsystem d = .ok r) ↔
      ∀ p e, Reached d sub p → sub.at? p = some e → d.maps p ≠ [] → Mappable d p e := by
  obtain ⟨n, k, sy, cs⟩ := sub
  rw [← good_root]
  have h := mapSubsystem_spec h32 hn (d := d)
  constructor
  · rintro ⟨r, hr⟩
    exact Classical.byContradiction (fun hg => h.1 hg r hr)
  · intro hg
    obtain ⟨cs', os, heq, _⟩ := h.2 hg
    exact ⟨_, heq⟩

/-- C43: mapping creates one object for each element that it gets to and that asks for one, from the
creator it asks for and with its value, and no other object. -/
theorem C43_objects (d : MapDef) (h32 : d.contextKeys.length ≤ 32) (sub sub' : Elem) (hn : NoSyncer sub)
    (os : List SubObj) (h : sub.mapSubsystem d = .ok (sub', os)) :
    (∀ p c v, (∃ o ∈ os, o.pos = p ∧ o.creator = c ∧ o.value = v) ↔ Reached d sub p ∧ Asks d p c v) ∧
    (os.map (·.pos)).Nodup := by
  obtain ⟨n, k, sy, cs, cs', rfl, rfl, hg, hlen, hres⟩ := mapSubsystem_ok h32 hn h
  refine ⟨fun p c v => ?_, ?_⟩
  · constructor
    · rintro ⟨o, ho, rfl, rfl, rfl⟩
      obtain ⟨⟨f, hf⟩, hr, ha, _⟩ := hres.objs o ho
      exact ⟨(relReached_root hf).1 hr, ha⟩
    · rintro ⟨hr, ha⟩
      obtain ⟨f, hf⟩ := Option.ne_none_iff_exists'.1 hr.2.1
      have hl := inL_root.2 ⟨hr.1, hf⟩
      obtain ⟨o, ho, rfl⟩ := hres.all p f c v hl ((relReached_root hl).2 hr) ha
      obtain ⟨h1, h2⟩ := asks_unique (hres.objs o ho).2.2.1 ha
      exact ⟨o, ho, rfl, h1, h2⟩
  · refine List.pairwise_iff_getElem.2 (fun i j hi hj hij he => ?_)
    rw [List.length_map] at hi hj
    have hj' := hj
    rw [List.getElem_map, List.getElem_map] at he
    obtain ⟨⟨f, hf⟩, _⟩ := hres.objs _ (List.getElem_mem hi)
    obtain ⟨f', hf'⟩ := hres.same2 _ f hf
    have h1 := (hres.sync _ f' hf' i).2 ⟨by omega, _, by simp, rfl⟩
    have h2 := (hres.sync _ f' hf' j).2 ⟨by omega, _, by simp, he.symm⟩
    rw [h1] at h2
    simp at h2
    omega

/-- C43: a context item set on an element is visible to that element and to its descendants, and to
them only: the item that an object gets has the value `v` exactly when the object's element or one
above it binds the item's key to `v`. -/
theorem C43_visible (d : MapDef) (h32 : d.contextKeys.length ≤ 32) (sub sub' : Elem) (hn : NoSyncer sub)
    (os : List SubObj) (h : sub.mapSubsystem d = .ok (sub', os)) (o : SubObj) (ho : o ∈ os) (i : Nat)
    (key : Str) (hk : d.contextKeys[i]? = some key) (v : Str) :
    o.ctx.getItem i = .ok v ↔ ∃ q, q <+: o.pos ∧ d.get q key = some v := by
  obtain ⟨n, k, sy, cs, cs', rfl, rfl, hg, hlen, hres⟩ := mapSubsystem_ok h32 hn h
  obtain ⟨⟨f, hf⟩, hr, _, hctx⟩ := hres.objs o ho
  rw [← bound_iff (good_root.1 hg) ((relReached_root (n := n) (k := k) (sy := sy) hf).1 hr)
    (List.mem_of_getElem? hk) v, hctx]
  simp only [MCtx.getItem, MapDef.ctxOf, List.getElem?_map, hk, Option.map_some]
  cases d.bound o.pos key <;> simp

/-- C43: when mapping succeeds, no context item is set twice along the branch of an element that
mapping gets to. -/
theorem C43_set_once (d : MapDef) (h32 : d.contextKeys.length ≤ 32) (sub sub' : Elem) (hn : NoSyncer sub)
    (os : List SubObj) (h : sub.mapSubsystem d = .ok (sub', os)) (p q r : Pos) (hp : Reached d sub p)
    (key : Str) (hk : key ∈ d.contextKeys) (hq : q <+: p) (hr : r <+: p) (hgq : d.get q key ≠ none)
    (hgr : d.get r key ≠ none) : q = r := by
  obtain ⟨n, k, sy, cs, cs', rfl, rfl, hg, hlen, hres⟩ := mapSubsystem_ok h32 hn h
  exact bound_once (good_root.1 hg) hp hk hq hr hgq hgr

/-- C43: after mapping, the elements are those of before; the syncer of an element is the object
created for it. -/
theorem C43_syncers (d : MapDef) (h32 : d.contextKeys.length ≤ 32) (sub sub' : Elem) (hn : NoSyncer sub)
    (os : List SubObj) (h : sub.mapSubsystem d = .ok (sub', os)) :
    (∀ p, sub.at? p = none ↔ sub'.at? p = none) ∧
    ∀ p e e', sub.at? p = some e → sub'.at? p = some e' →
      e'.name = e.name ∧ e'.kind = e.kind ∧ e'.children.length = e.children.length ∧
      ∀ id, e'.syncer = some id ↔ ∃ o, os[id]? = some o ∧ o.pos = p := by
  obtain ⟨n, k, sy, cs, cs', rfl, rfl, hg, hlen, hres⟩ := mapSubsystem_ok h32 hn h
  constructor
  · intro p
    by_cases hp : p = []
    · subst hp; simp [Elem.at?]
    · constructor
      · intro hx
        refine Classical.byContradiction (fun hy => ?_)
        obtain ⟨f', hf'⟩ := Option.ne_none_iff_exists'.1 hy
        obtain ⟨f, hf, _⟩ := hres.same1 p f' (inL_root.2 ⟨hp, hf'⟩)
        rw [(inL_root (n := n) (k := k) (sy := sy).1 hf).2] at hx; cases hx
      · intro hx
        refine Classical.byContradiction (fun hy => ?_)
        obtain ⟨f, hf⟩ := Option.ne_none_iff_exists'.1 hy
        obtain ⟨f', hf'⟩ := hres.same2 p f (inL_root.2 ⟨hp, hf⟩)
        rw [(inL_root (n := n) (k := k) (sy := sy).1 hf').2] at hx; cases hx
  · intro p e e' he he'
    by_cases hp : p = []
    · subst hp
      simp only [Elem.at?, Option.some.injEq] at he he'
      subst he; subst he'
      refine ⟨rfl, rfl, hlen, fun id => ?_⟩
      have : sy = none := hn [] _ rfl
      subst this
      simp only [Elem.syncer, reduceCtorEq, false_iff]
      rintro ⟨o, ho, hpos⟩
      obtain ⟨⟨f, hf⟩, _⟩ := hres.objs o (List.mem_of_getElem? ho)
      exact (inL_strict hf).2 hpos
    · have hl' := (inL_root (n := n) (k := k) (sy := sy)).2 ⟨hp, he'⟩
      obtain ⟨f, hf, h1, h2, h3⟩ := hres.same1 p e' hl'
      have : f = e := by
        have := (inL_root (n := n) (k := k) (sy := sy).1 hf).2
        rw [he] at this; cases this; rfl
      subst this
      refine ⟨h1, h2, h3, fun id => ?_⟩
      rw [hres.sync p e' hl' id]
      simp

/-- C43 (and the hypothesis of C52): after mapping, no element with a syncer is below another one with
a syncer. -/
theorem C43_syncers_not_nested (d : MapDef) (h32 : d.contextKeys.length ≤ 32) (sub sub' : Elem)
    (hn : NoSyncer sub) (os : List SubObj) (h : sub.mapSubsystem d = .ok (sub', os)) :
    sub'.SyncersNotNested := by
  intro p q e f he hf hq hsy
  obtain ⟨hnone, hboth⟩ := C43_syncers d h32 sub sub' hn os h
  have hobj := (C43_objects d h32 sub sub' hn os h).1
  obtain ⟨e0, he0⟩ := Option.ne_none_iff_exists'.1 (fun x => by rw [(hnone p).1 x] at he; cases he)
  obtain ⟨f0, hf0⟩ := Option.ne_none_iff_exists'.1 (fun x => by rw [(hnone (p ++ q)).1 x] at hf; cases hf)
  obtain ⟨id, hid⟩ := Option.ne_none_iff_exists'.1 hsy
  obtain ⟨o, ho, hpos⟩ := ((hboth p e0 e he0 he).2.2.2 id).1 hid
  cases hf' : f.syncer with
  | none => rfl
  | some id' =>
    exfalso
    obtain ⟨o', ho', hpos'⟩ := ((hboth (p ++ q) f0 f hf0 hf).2.2.2 id').1 hf'
    obtain ⟨hr1, ha1⟩ := (hobj _ _ _).1 ⟨o, List.mem_of_getElem? ho, hpos, rfl, rfl⟩
    obtain ⟨hr2, _⟩ := (hobj _ _ _).1 ⟨o', List.mem_of_getElem? ho', hpos', rfl, rfl⟩
    exact hr2.2.2 p (List.prefix_append _ _) (by simpa using hq) hr1.1 ⟨_, _, ha1⟩

/-- C43: asking a context for an item by key finds an item exactly when one was set with that key,
but returns the *key*, whatever value the item was given. -/
theorem C43_by_key_partial (c : MCtx) (key : Str) :
    ((∃ v, some ⟨key, v⟩ ∈ c) → c.getItemByKey key = some key) ∧
    ((¬ ∃ v, some ⟨key, v⟩ ∈ c) → c.getItemByKey key = none) := by
  unfold MCtx.getItemByKey
  constructor
  · rintro ⟨v, hv⟩
    cases hf : c.find? (fun o => match o with | some x => x.key == key | none => false) with
    | none =>
      have := List.find?_eq_none.1 hf _ hv
      simp at this
    | some o =>
      have := List.find?_some hf
      cases o with
      | none => simp at this
      | some x => simp at this; simp [this]
  · intro hnone
    cases hf : c.find? (fun o => match o with | some x => x.key == key | none => false) with
    | none => rfl
    | some o =>
      have h1 := List.find?_some hf
      have h2 := List.mem_of_find?_eq_some hf
      cases o with
      | none => simp at h1
      | some x =>
        simp only [beq_iff_eq] at h1
        exact absurd ⟨x.item, by rw [← h1]; exact h2⟩ hnone

/-- C43, the last clause is false of the code: an item set to "0" under the key "Card" is reported as
"Card". -/
theorem C43_by_key_wrong : ∃ (c c' : MCtx) (key v : Str), c.setItem 0 key v = .ok c' ∧
    c'.getItem 0 = .ok v ∧ c'.getItemByKey key ≠ some v :=
  ⟨[none], [some ⟨s "Card", s "0"⟩], s "Card", s "0", by decide +kernel⟩

/-- C43: setting an item of a context gives it the value and changes no other item; it is refused
exactly when the item has a value. -/
theorem C43_set_item (c : MCtx) (i : Nat) (hi : i < c.length) (key v : Str) :
    (c.setItem i key v = .err ↔ ∃ w, c.getItem i = .ok w) ∧
    ∀ c', c.setItem i key v = .ok c' → c'.getItem i = .ok v ∧ ∀ j, j ≠ i → c'.getItem j = c.getItem j := by
  unfold MCtx.setItem MCtx.iSet MCtx.getItem
  rw [List.getElem?_eq_getElem hi]
  cases hx : c[i] with
  | none =>
    simp only [Option.isSome_none, Out.bind, Bool.false_eq_true, ite_false, reduceCtorEq, exists_false,
      Out.ok.injEq, true_and]
    rintro c' rfl
    refine ⟨by simp [hi], fun j hj => ?_⟩
    rw [List.getElem?_set_ne (Ne.symm hj)]
  | some x => simp [Out.bind]

namespace Sample

theorem msub_noSyncer : NoSyncer msub := by
  intro p f h
  match p with
  | [] => simp only [Elem.at?, Option.some.injEq] at h; subst h; rfl
  | [0] | [1] | [0, 0] | [0, 1] | [0, 2] | [0, 1, 0] | [0, 1, 1] =>
    simp [msub, block, Elem.at?] at h; subst h; rfl
  | (n + 2) :: _ => simp [msub, Elem.at?] at h
  | 1 :: _ :: _ => simp [msub, Elem.at?] at h
  | 0 :: (n + 3) :: _ => simp [msub, Elem.at?] at h
  | 0 :: 0 :: _ :: _ => simp [msub, Elem.at?] at h
  | 0 :: 2 :: _ :: _ => simp [msub, Elem.at?] at h
  | 0 :: 1 :: (n + 2) :: _ => simp [msub, block, Elem.at?] at h
  | 0 :: 1 :: 0 :: _ :: _ => simp [msub, block, Elem.at?] at h
  | 0 :: 1 :: 1 :: _ :: _ => simp [msub, block, Elem.at?] at h

/-- The sample subsystem is mapped: four objects; those of the component's parameters see the card and
the device, that of the other parameter sees the card only. -/
example : mdef.contextKeys.length ≤ 32 ∧ ∃ sub' os, msub.mapSubsystem mdef = .ok (sub', os) ∧
    os.map (fun o => (o.pos, o.creator, o.ctx.getItem 0, o.ctx.iSet 1)) =
      [([0, 0], 0, .ok (s "0"), .ok true), ([0, 1], 0, .ok (s "0"), .ok true),
       ([0, 2], 1, .ok (s "0"), .ok true), ([1], 1, .ok (s "0"), .ok false)] :=
  ⟨by decide, _, _, rfl, by decide +kernel⟩

/-- The same subsystem with the device set a second time below the component: refused. -/
example : (match msub.mapSubsystem { mdef with maps := fun p => if p = [0, 0] then [[(s "Control", []), (s "Device", s "2")]] else mmaps p } with
    | .err => true | _ => false) = true := by decide +kernel

end Sample

/-! ## C44 -/

/-- C44: with `nb` (from 1 to 9) amendment keys that are items of the context, formatting terminates
and gives the text in which every `%n` whose item is set is replaced by the item's value, up to the
first one that cannot be replaced. -/
theorem C44_format (first nb : Nat) (ctx : MCtx) (h1 : 1 ≤ nb) (h9 : nb ≤ 9) (hl : first + nb ≤ ctx.length)
    (t r : Str) :
    formatMappingValue t first nb ctx = .ok r ↔ Amended (amendment first nb ctx) t r := by
  unfold formatMappingValue
  rw [if_pos ⟨by omega, h9⟩]
  constructor
  · intro h
    obtain ⟨r', hr'⟩ := amended_exists (amendment first nb ctx) t.length t (Nat.le_refl _)
    rw [formatMapping_of_amended hl hr'] at h
    cases h
    exact hr'
  · exact formatMapping_of_amended hl

/-- C44: formatting always has a result. -/
theorem C44_terminates (first nb : Nat) (ctx : MCtx) (h1 : 1 ≤ nb) (h9 : nb ≤ 9)
    (hl : first + nb ≤ ctx.length) (t : Str) : ∃ r, formatMappingValue t first nb ctx = .ok r := by
  obtain ⟨r, hr⟩ := amended_exists (amendment first nb ctx) t.length t (Nat.le_refl _)
  exact ⟨r, (C44_format first nb ctx h1 h9 hl t r).2 hr⟩

/-- C44: a value between quotes is formatted without its quotes, one without a quote as it is. -/
theorem C44_quotes (first nb : Nat) (ctx : MCtx) (t : Str) :
    (∀ c, formattedObjectValue ('\'' :: t ++ [c]) first nb ctx = formatMappingValue t first nb ctx) ∧
    (t.head? ≠ some '\'' → formattedObjectValue t first nb ctx = formatMappingValue t first nb ctx) := by
  constructor
  · intro c
    unfold formattedObjectValue
    simp
  · intro h
    unfold formattedObjectValue
    simp [h]

/-- Outside of these bounds the program stops or reads outside of the context: ten amendment keys, or
an amendment key past the last item. -/
theorem C44_out_of_bounds : formatMappingValue (s "a") 0 10 [none] = .abort ∧
    formatMappingValue (s "%2") 0 2 [none] = .abort := by decide +kernel

/-- Witness for C44: the first two are replaced, the third item is not set, and what follows stays. -/
example : formatMappingValue (s "Vol %2-%1 %3 %1") 0 3
    [some ⟨s "Card", s "0"⟩, some ⟨s "Device", s "%1"⟩, none] = .ok (s "Vol %1-0 %3 %1") := by decide +kernel

end PF
