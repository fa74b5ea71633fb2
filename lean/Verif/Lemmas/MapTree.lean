import Verif.Lemmas.Mapping

/-! # Lemmas on the mapping of a subsystem -/

namespace PF
open PF.Spec

/-! ## Contexts -/

/-- The value that the elements from the subsystem down to `p` bind `key` to. -/
def MapDef.bound (d : MapDef) (p : Pos) (key : Str) : Option Str :=
  (List.range (p.length + 1)).findSome? (fun n => d.get (p.take n) key)

theorem findSome?_congr' {α β : Type} {l : List α} {f g : α → Option β} (h : ∀ x ∈ l, f x = g x) :
    l.findSome? f = l.findSome? g := by
  induction l with
  | nil => rfl
  | cons a l ih =>
    simp only [List.findSome?_cons, h a (by simp), ih (fun x hx => h x (by simp [hx]))]

theorem MapDef.bound_nil (d : MapDef) (key : Str) : d.bound [] key = d.get [] key := by
  cases h : d.get [] key <;> simp [MapDef.bound, List.range_succ, h]

theorem MapDef.bound_concat (d : MapDef) (p : Pos) (i : Nat) (key : Str) :
    d.bound (p ++ [i]) key = (d.bound p key).or (d.get (p ++ [i]) key) := by
  unfold MapDef.bound
  rw [List.length_append, List.length_singleton, List.range_succ (n := p.length + 1),
    List.findSome?_append]
  have h1 : (List.range (p.length + 1)).findSome? (fun n => d.get ((p ++ [i]).take n) key)
      = (List.range (p.length + 1)).findSome? (fun n => d.get (p.take n) key) := by
    refine findSome?_congr' (fun n hn => ?_)
    have hn : n < p.length + 1 := List.mem_range.1 hn
    rw [List.take_append_of_le_length (by omega)]
  rw [h1]
  have h2 : (p ++ [i]).take (p.length + 1) = p ++ [i] := by
    rw [List.take_of_length_le]; simp
  simp [h2]

theorem MapDef.bound_none (d : MapDef) (p : Pos) (key : Str) :
    d.bound p key = none ↔ ∀ q, q <+: p → d.get q key = none := by
  unfold MapDef.bound
  rw [List.findSome?_eq_none_iff]
  constructor
  · intro h q hq
    have := h q.length (List.mem_range.2 (by have := hq.length_le; omega))
    rwa [← List.prefix_iff_eq_take.1 hq] at this
  · intro h n _
    exact h _ (List.take_prefix _ _)

theorem MapDef.bound_some {d : MapDef} {p : Pos} {key v : Str} (h : d.bound p key = some v) :
    ∃ q, q <+: p ∧ d.get q key = some v := by
  obtain ⟨n, _, h⟩ := List.exists_of_findSome?_eq_some h
  exact ⟨_, List.take_prefix _ _, h⟩

/-- The context that the elements from the subsystem down to `p` make. -/
def MapDef.ctxOf (d : MapDef) (p : Pos) : MCtx :=
  d.contextKeys.map (fun k => (d.bound p k).map (CtxItem.mk k))

theorem handleContextFrom_spec (d : MapDef) (p : Pos) (f : Str → Option Str) (keys : List Str) (pre : MCtx) :
    handleContextFrom d p pre.length keys (pre ++ keys.map (fun k => (f k).map (CtxItem.mk k))) =
      if ∀ k ∈ keys, d.get p k = none ∨ f k = none then
        .ok (pre ++ keys.map (fun k => ((f k).or (d.get p k)).map (CtxItem.mk k)))
      else .err := by
  induction keys generalizing pre with
  | nil => simp [handleContextFrom]
  | cons key keys ih =>
    simp only [handleContextFrom]
    have hstep : ∀ o : Option CtxItem,
        handleContextFrom d p (pre.length + 1) keys (pre ++ o :: keys.map (fun k => (f k).map (CtxItem.mk k)))
        = if ∀ k ∈ keys, d.get p k = none ∨ f k = none then
            .ok (pre ++ o :: keys.map (fun k => ((f k).or (d.get p k)).map (CtxItem.mk k)))
          else .err := by
      intro o
      have := ih (pre ++ [o])
      simpa using this
    cases hg : d.get p key with
    | none =>
      simp only [List.map_cons]
      rw [hstep]
      simp [hg]
    | some v =>
      simp only [List.map_cons, MCtx.setItem, MCtx.iSet]
      rw [List.getElem?_append_right (Nat.le_refl _)]
      simp only [Nat.sub_self, List.getElem?_cons_zero, Out.bind]
      cases hf : f key with
      | some w => simp [hg, hf]
      | none =>
        simp only [Option.map_none, Option.isSome_none, Bool.false_eq_true, ite_false]
        rw [List.set_append_right _ _ (Nat.le_refl _)]
        simp only [Nat.sub_self, List.set_cons_zero]
        rw [hstep]
        simp [hg, hf]

theorem handleMappingContext_spec (d : MapDef) (p : Pos) (i : Nat) :
    handleMappingContext d (p ++ [i]) (d.ctxOf p) =
      if ∀ k ∈ d.contextKeys, d.get (p ++ [i]) k = none ∨ d.bound p k = none then
        .ok (d.ctxOf (p ++ [i]))
      else .err := by
  have := handleContextFrom_spec d (p ++ [i]) (d.bound p) d.contextKeys []
  simpa [handleMappingContext, MapDef.ctxOf, MapDef.bound_concat] using this

theorem handleMappingContext_fresh (d : MapDef) :
    handleMappingContext d [] (MCtx.fresh d.contextKeys.length) = .ok (d.ctxOf []) := by
  have := handleContextFrom_spec d [] (fun _ => none) d.contextKeys []
  simp only [List.length_nil, List.nil_append, Option.map_none, or_true, implies_true, ite_true,
    Option.none_or] at this
  have hrep : (d.contextKeys.map fun _ => (none : Option CtxItem)) = MCtx.fresh d.contextKeys.length := by
    simp [MCtx.fresh, List.map_const']
  rw [hrep] at this
  simp [handleMappingContext, this, MapDef.ctxOf, MapDef.bound_nil]

theorem ctxOf_length (d : MapDef) (p : Pos) : (d.ctxOf p).length = d.contextKeys.length := by
  simp [MapDef.ctxOf]

theorem ctxOf_iSet (d : MapDef) (p : Pos) {i : Nat} {key : Str} (h : d.contextKeys[i]? = some key) :
    (d.ctxOf p).iSet i = .ok (d.bound p key).isSome := by
  simp [MCtx.iSet, MapDef.ctxOf, h]

theorem itemAt_iff (d : MapDef) (p : Pos) {i : Nat} {key : Str} (h : d.contextKeys[i]? = some key) :
    (∃ w, ItemAt d p i w) ↔ (d.bound p key).isSome = true := by
  constructor
  · rintro ⟨w, key', q, hk, hq, hg⟩
    rw [h] at hk; cases hk
    cases hb : d.bound p key with
    | some _ => rfl
    | none => rw [(MapDef.bound_none d p key).1 hb q hq] at hg; cases hg
  · intro hb
    obtain ⟨v, hv⟩ := Option.isSome_iff_exists.1 hb
    obtain ⟨q, hq, hg⟩ := MapDef.bound_some hv
    exact ⟨v, key, q, h, hq, hg⟩

/-! ## Creators -/

theorem checkAncestors_spec (d : MapDef) (p : Pos) (mask : BitVec 32) (n k : Nat)
    (h32 : d.contextKeys.length ≤ 32) (hn : k + n = d.contextKeys.length) :
    ((∀ i, k ≤ i → i < k + n → mask.getLsbD i = true → ∃ w, ItemAt d p i w) →
      checkAncestors mask (d.ctxOf p) n k = .ok ()) ∧
    ((¬ ∀ i, k ≤ i → i < k + n → mask.getLsbD i = true → ∃ w, ItemAt d p i w) →
      checkAncestors mask (d.ctxOf p) n k = .err) := by
  induction n generalizing k with
  | zero =>
    refine ⟨fun _ => rfl, fun h => absurd (fun i h1 h2 => ?_) h⟩
    omega
  | succ n ih =>
    obtain ⟨ih1, ih2⟩ := ih (k + 1) (by omega)
    have hk : ¬ 32 ≤ k := by omega
    have hlt : k < d.contextKeys.length := by omega
    have hkey : d.contextKeys[k]? = some d.contextKeys[k] := List.getElem?_eq_getElem hlt
    simp only [checkAncestors, hk, ite_false]
    by_cases hm : mask.getLsbD k = true
    · simp only [hm, ite_true, ctxOf_iSet d p hkey, Out.bind]
      by_cases hb : (d.bound p d.contextKeys[k]).isSome = true
      · simp only [hb, ite_true]
        refine ⟨fun h => ih1 (fun i h1 h2 => h i (by omega) (by omega)), fun h => ih2 (fun h' => h ?_)⟩
        intro i h1 h2 h3
        by_cases hik : i = k
        · subst hik; exact (itemAt_iff d p hkey).2 hb
        · exact h' i (by omega) (by omega) h3
      · simp only [hb]
        refine ⟨fun h => absurd ((itemAt_iff d p hkey).1 (h k (by omega) (by omega) hm)) hb, fun _ => rfl⟩
    · simp only [hm]
      refine ⟨fun h => ih1 (fun i h1 h2 => h i (by omega) (by omega)), fun h => ih2 (fun h' => h ?_)⟩
      intro i h1 h2 h3
      by_cases hik : i = k
      · subst hik; exact absurd h3 hm
      · exact h' i (by omega) (by omega) h3

theorem findCreator_none {d : MapDef} {p : Pos} {fp : Nat} {c : MCtx} {i : Nat} {crs : List Creator}
    (h : ∀ cr ∈ crs, d.get p cr.key = none) : findCreator d p fp c i crs = .ok none := by
  induction crs generalizing i with
  | nil => rfl
  | cons cr crs ih =>
    simp only [findCreator, h cr (by simp)]
    exact ih (fun x hx => h x (by simp [hx]))

theorem findCreator_some {d : MapDef} {p : Pos} {fp : Nat} {c : MCtx} {i j : Nat} {crs : List Creator}
    {cr : Creator} {v : Str} (hj : crs[j]? = some cr) (hv : d.get p cr.key = some v)
    (hb : ∀ (k : Nat) (cr' : Creator), k < j → crs[k]? = some cr' → d.get p cr'.key = none) :
    findCreator d p fp c i crs =
      (checkAncestors cr.ancestorMask c d.contextKeys.length 0).bind fun _ =>
        if cr.maxSize < fp then .err else .ok (some (i + j, v)) := by
  induction crs generalizing i j with
  | nil => simp at hj
  | cons x crs ih =>
    cases j with
    | zero =>
      simp only [List.getElem?_cons_zero, Option.some.injEq] at hj
      subst hj
      simp [findCreator, hv]
    | succ j =>
      have hx := hb 0 x (by omega) (by simp)
      simp only [findCreator, hx]
      rw [ih (i := i + 1) (j := j) (by simpa using hj) (fun k cr' hk hc => hb (k + 1) cr' (by omega) (by simpa using hc))]
      rw [Nat.add_right_comm, Nat.add_assoc]

theorem asks_unique {d : MapDef} {p : Pos} {c c' : Nat} {v v' : Str} (h : Asks d p c v)
    (h' : Asks d p c' v') : c = c' ∧ v = v' := by
  obtain ⟨cr, h1, h2, h3⟩ := h
  obtain ⟨cr', h1', h2', h3'⟩ := h'
  have hcc : c = c' := by
    rcases Nat.lt_trichotomy c c' with hlt | heq | hlt
    · rw [h3' c cr hlt h1] at h2; cases h2
    · exact heq
    · rw [h3 c' cr' hlt h1'] at h2'; cases h2'
  subst hcc
  rw [h1] at h1'; cases h1'
  rw [h2] at h2'; cases h2'
  exact ⟨rfl, rfl⟩

theorem asks_or_none (d : MapDef) (p : Pos) :
    (∃ c v, Asks d p c v) ∨ ∀ cr ∈ d.creators, d.get p cr.key = none := by
  unfold Asks
  generalize d.creators = crs
  induction crs with
  | nil => right; simp
  | cons cr crs ih =>
    cases hg : d.get p cr.key with
    | some v => exact .inl ⟨0, v, cr, by simp, hg, by intro j _ hj; omega⟩
    | none =>
      rcases ih with ⟨c, v, cr', h1, h2, h3⟩ | h
      · refine .inl ⟨c + 1, v, cr', by simpa using h1, h2, ?_⟩
        intro j x hj hx
        cases j with
        | zero => simp at hx; subst hx; exact hg
        | succ j => exact h3 j x (by omega) (by simpa using hx)
      · refine .inr (fun x hx => ?_)
        rcases List.mem_cons.1 hx with rfl | hx
        · exact hg
        · exact h x hx

theorem asks_has {d : MapDef} {p : Pos} {c : Nat} {v : Str} (h : Asks d p c v) : d.has p = true := by
  obtain ⟨cr, _, h2, _⟩ := h
  unfold MapDef.get at h2
  unfold MapDef.has
  cases hm : d.maps p with
  | nil => simp [hm] at h2
  | cons _ _ => rfl

theorem strict_prefix_concat {p q : Pos} {i : Nat} : (q <+: p ++ [i] ∧ q ≠ p ++ [i]) ↔ q <+: p := by
  rw [List.prefix_concat_iff]
  constructor
  · rintro ⟨h | h, hne⟩
    · exact absurd h hne
    · exact h
  · intro h
    refine ⟨.inr h, fun e => ?_⟩
    have := h.length_le
    rw [e] at this
    simp at this
    omega

/-! ## One element -/

theorem once_iff (d : MapDef) (p : Pos) (i : Nat) :
    (∀ k ∈ d.contextKeys, d.get (p ++ [i]) k = none ∨ d.bound p k = none) ↔
    ∀ key ∈ d.contextKeys, ∀ v, d.get (p ++ [i]) key = some v →
      ∀ q, q <+: p ++ [i] → q ≠ p ++ [i] → d.get q key = none := by
  constructor
  · intro h key hk v hv q hq hne
    rcases h key hk with h | h
    · rw [h] at hv; cases hv
    · exact (MapDef.bound_none d p key).1 h q (strict_prefix_concat.1 ⟨hq, hne⟩)
  · intro h key hk
    cases hg : d.get (p ++ [i]) key with
    | none => exact .inl rfl
    | some v =>
      refine .inr ((MapDef.bound_none d p key).2 (fun q hq => ?_))
      have := strict_prefix_concat (i := i).2 hq
      exact h key hk v hg q this.1 this.2

theorem mapBegin_bad {d : MapDef} {p : Pos} {i : Nat} {e : Elem} {st : MapSt} {rest : List MCtx}
    (h32 : d.contextKeys.length ≤ 32)
    (hst : st.stack = d.ctxOf p :: rest) (hbad : ¬ Mappable d (p ++ [i]) e) :
    ∀ r, mapBegin d (p ++ [i]) e st ≠ .ok r := by
  intro r hr
  unfold mapBegin at hr
  rw [hst] at hr
  simp only [handleMappingContext_spec] at hr
  by_cases honce : ∀ k ∈ d.contextKeys, d.get (p ++ [i]) k = none ∨ d.bound p k = none
  case neg => simp [honce, Out.bind] at hr
  rw [if_pos honce] at hr
  simp only [Out.bind] at hr
  cases hm : e.kind.mustCreate with
  | none => simp [hm] at hr
  | some must =>
    simp only [hm] at hr
    have hnb : ∀ t, e.kind ≠ .bit t := by
      intro t ht; rw [ht] at hm; simp [EKind.mustCreate] at hm
    rcases asks_or_none d (p ++ [i]) with ⟨c, v, ha⟩ | hnone
    · obtain ⟨cr, h1, h2, h3⟩ := id ha
      rw [findCreator_some h1 h2 h3] at hr
      have hca := checkAncestors_spec d (p ++ [i]) cr.ancestorMask d.contextKeys.length 0 h32 (by omega)
      by_cases hanc : ∀ j, 0 ≤ j → j < 0 + d.contextKeys.length → cr.ancestorMask.getLsbD j = true →
          ∃ w, ItemAt d (p ++ [i]) j w
      · rw [hca.1 hanc] at hr
        simp only [Out.bind] at hr
        by_cases hsz : cr.maxSize < e.footprint
        · simp [hsz] at hr
        · refine hbad ⟨hnb, (once_iff d p i).1 honce, ?_, fun _ => ⟨c, v, ha⟩⟩
          intro c' v' cr' ha' hcr'
          obtain ⟨rfl, rfl⟩ := asks_unique ha ha'
          rw [h1] at hcr'; cases hcr'
          exact ⟨fun j hj hm => hanc j (by omega) (by omega) hm, by omega⟩
      · rw [hca.2 hanc] at hr
        simp [Out.bind] at hr
    · rw [findCreator_none hnone] at hr
      simp only at hr
      have hna : ¬ ∃ c v, Asks d (p ++ [i]) c v := by
        rintro ⟨c, v, cr, h1, h2, _⟩
        rw [hnone cr (List.mem_of_getElem? h1)] at h2; cases h2
      cases must with
      | true => simp at hr
      | false =>
        refine hbad ⟨hnb, (once_iff d p i).1 honce, ?_, ?_⟩
        · intro c v _ ha _; exact absurd ⟨c, v, ha⟩ hna
        · intro hk
          cases he : e.kind with
          | group k => exact absurd he (hk k)
          | _ => rw [he] at hm; simp [EKind.mustCreate] at hm

theorem Spec.Mappable.mustCreate {d : MapDef} {p : Pos} {e : Elem} (h : Mappable d p e) :
    ∃ must, e.kind.mustCreate = some must := by
  cases he : e.kind with
  | bit t => exact absurd he (h.notBit t)
  | _ => exact ⟨_, rfl⟩

theorem mapBegin_asks {d : MapDef} {p : Pos} {i : Nat} {e : Elem} {st : MapSt} {rest : List MCtx}
    (h32 : d.contextKeys.length ≤ 32) (hst : st.stack = d.ctxOf p :: rest)
    (hm : Mappable d (p ++ [i]) e) (hsy : e.syncer = none) {c : Nat} {v : Str}
    (ha : Asks d (p ++ [i]) c v) :
    mapBegin d (p ++ [i]) e st = .ok (⟨d.ctxOf (p ++ [i]) :: st.stack,
      st.objs ++ [⟨p ++ [i], c, v, d.ctxOf (p ++ [i])⟩]⟩, some st.objs.length) := by
  unfold mapBegin
  obtain ⟨must, hmust⟩ := hm.mustCreate
  obtain ⟨cr, h1, h2, h3⟩ := id ha
  have hca := checkAncestors_spec d (p ++ [i]) cr.ancestorMask d.contextKeys.length 0 h32 (by omega)
  obtain ⟨hf1, hf2⟩ := hm.fit c v cr ha h1
  rw [hst]
  simp only [handleMappingContext_spec, if_pos ((once_iff d p i).2 hm.once), Out.bind, hmust]
  rw [findCreator_some h1 h2 h3, hca.1 (fun j _ hj hb => hf1 j (by omega) hb)]
  simp [Out.bind, Nat.not_lt.2 hf2, hsy]

theorem mapBegin_none {d : MapDef} {p : Pos} {i : Nat} {e : Elem} {st : MapSt} {rest : List MCtx}
    (hst : st.stack = d.ctxOf p :: rest)
    (hm : Mappable d (p ++ [i]) e) (hna : ¬ ∃ c v, Asks d (p ++ [i]) c v) :
    mapBegin d (p ++ [i]) e st = .ok (⟨d.ctxOf (p ++ [i]) :: st.stack, st.objs⟩, none) := by
  unfold mapBegin
  have hnone := (asks_or_none d (p ++ [i])).resolve_left hna
  have hgroup : e.kind.mustCreate = some false := by
    cases he : e.kind with
    | group k => rfl
    | _ => exact absurd (hm.asks (by simp [he])) hna
  rw [hst]
  simp only [handleMappingContext_spec, if_pos ((once_iff d p i).2 hm.once), Out.bind, hgroup,
    findCreator_none hnone, Bool.false_eq_true, ite_false]

/-! ## The tree -/

/-- A set of elements with their positions. -/
abbrev Region := Pos → Elem → Prop

/-- The element `e` at `p` and all that is below it. -/
def inE (p : Pos) (e : Elem) : Region := fun q f => ∃ q', q = p ++ q' ∧ e.at? q' = some f

/-- The elements `cs`, children number `i`, `i + 1`, ... of the one at `p`, and all that is below. -/
def inL (p : Pos) (i : Nat) (cs : List Elem) : Region :=
  fun q f => ∃ (j : Nat) (c : Elem) (q' : Pos), q = p ++ (i + j) :: q' ∧ cs[j]? = some c ∧ c.at? q' = some f

theorem inL_nil {p i q f} : ¬ inL p i [] q f := by rintro ⟨j, c, q', _, h, _⟩; simp at h

theorem inL_cons {p i c cs q f} : inL p i (c :: cs) q f ↔ inE (p ++ [i]) c q f ∨ inL p (i + 1) cs q f := by
  constructor
  · rintro ⟨j, c', q', rfl, hj, hf⟩
    cases j with
    | zero => simp only [List.getElem?_cons_zero, Option.some.injEq] at hj; subst hj; exact .inl ⟨q', by simp, hf⟩
    | succ j => exact .inr ⟨j, c', q', by rw [Nat.add_assoc, Nat.add_comm 1], by simpa using hj, hf⟩
  · rintro (⟨q', rfl, hf⟩ | ⟨j, c', q', rfl, hj, hf⟩)
    · exact ⟨0, c, q', by simp, by simp, hf⟩
    · exact ⟨j + 1, c', q', by rw [Nat.add_assoc, Nat.add_comm 1], by simpa using hj, hf⟩

theorem inE_mk {p n k sy cs q f} :
    inE p (.mk n k sy cs) q f ↔ (q = p ∧ f = .mk n k sy cs) ∨ inL p 0 cs q f := by
  constructor
  · rintro ⟨q', rfl, hf⟩
    cases q' with
    | nil => simp only [Elem.at?, Option.some.injEq] at hf; exact .inl ⟨by simp, hf.symm⟩
    | cons j q' =>
      rw [Elem.at?_cons] at hf
      simp only [Elem.children] at hf
      cases hc : cs[j]? with
      | none => simp [hc] at hf
      | some c => simp only [hc, Option.bind_some] at hf; exact .inr ⟨j, c, q', by simp, hc, hf⟩
  · rintro (⟨rfl, rfl⟩ | ⟨j, c, q', rfl, hj, hf⟩)
    · exact ⟨[], by simp, rfl⟩
    · refine ⟨j :: q', by simp, ?_⟩
      rw [Elem.at?_cons]
      simp [Elem.children, hj, hf]

theorem inL_strict {p i cs q f} (h : inL p i cs q f) : p <+: q ∧ q ≠ p := by
  obtain ⟨j, c, q', rfl, _, _⟩ := h
  refine ⟨List.prefix_append _ _, fun e => ?_⟩
  have := congrArg List.length e
  simp at this

theorem sep {p i c cs q f r g} (h : inE (p ++ [i]) c q f) (h' : inL p (i + 1) cs r g) :
    ¬ r <+: q ∧ ¬ q <+: r := by
  obtain ⟨q', rfl, _⟩ := h
  obtain ⟨j, c', r', rfl, _, _⟩ := h'
  rw [List.append_assoc, List.singleton_append]
  constructor <;> intro h <;> have := (List.cons_prefix_cons.1 ((List.prefix_append_right_inj _).1 h)).1 <;> omega

/-- No element of the region strictly above `q` asks for an object. -/
def RelReached (d : MapDef) (R : Region) (q : Pos) : Prop :=
  ∀ r g, R r g → r <+: q → r ≠ q → ¬ ∃ c v, Asks d r c v

/-- All the elements of the region that mapping gets to can be mapped. -/
def GoodRegion (d : MapDef) (R : Region) : Prop :=
  ∀ q f, R q f → RelReached d R q → d.has q = true → Mappable d q f

/-- What mapping does to a region: the objects and the syncers. -/
structure Res (d : MapDef) (R R' : Region) (base : Nat) (os : List SubObj) : Prop where
  objs : ∀ o ∈ os, (∃ f, R o.pos f) ∧ RelReached d R o.pos ∧ Asks d o.pos o.creator o.value ∧
    o.ctx = d.ctxOf o.pos
  all : ∀ q f c v, R q f → RelReached d R q → Asks d q c v → ∃ o ∈ os, o.pos = q
  same1 : ∀ q f', R' q f' → ∃ f, R q f ∧ f'.name = f.name ∧ f'.kind = f.kind ∧
    f'.children.length = f.children.length
  same2 : ∀ q f, R q f → ∃ f', R' q f'
  sync : ∀ q f', R' q f' → ∀ id, f'.syncer = some id ↔ base ≤ id ∧ ∃ o, os[id - base]? = some o ∧ o.pos = q

/-- No element of the region has a syncer. -/
def Bare (R : Region) : Prop := ∀ q f, R q f → f.syncer = none

theorem relReached_left {d p i c cs q f} (h : inE (p ++ [i]) c q f) :
    RelReached d (inL p i (c :: cs)) q ↔ RelReached d (inE (p ++ [i]) c) q := by
  constructor
  · intro hr r g hg; exact hr r g (inL_cons.2 (.inl hg))
  · intro hr r g hg hp hne
    rcases inL_cons.1 hg with hg | hg
    · exact hr r g hg hp hne
    · exact absurd hp (sep h hg).1

theorem relReached_right {d p i c cs q f} (h : inL p (i + 1) cs q f) :
    RelReached d (inL p i (c :: cs)) q ↔ RelReached d (inL p (i + 1) cs) q := by
  constructor
  · intro hr r g hg; exact hr r g (inL_cons.2 (.inr hg))
  · intro hr r g hg hp hne
    rcases inL_cons.1 hg with hg | hg
    · exact absurd hp (sep hg h).2
    · exact hr r g hg hp hne

theorem good_cons {d p i c cs} :
    GoodRegion d (inL p i (c :: cs)) ↔ GoodRegion d (inE (p ++ [i]) c) ∧ GoodRegion d (inL p (i + 1) cs) := by
  constructor
  · intro h
    exact ⟨fun q f hq hr => h q f (inL_cons.2 (.inl hq)) ((relReached_left hq).2 hr),
      fun q f hq hr => h q f (inL_cons.2 (.inr hq)) ((relReached_right hq).2 hr)⟩
  · rintro ⟨h1, h2⟩ q f hq hr
    rcases inL_cons.1 hq with hq | hq
    · exact h1 q f hq ((relReached_left hq).1 hr)
    · exact h2 q f hq ((relReached_right hq).1 hr)

theorem res_cons {d p i c c' cs cs' base os1 os2}
    (h1 : Res d (inE (p ++ [i]) c) (inE (p ++ [i]) c') base os1)
    (h2 : Res d (inL p (i + 1) cs) (inL p (i + 1) cs') (base + os1.length) os2) :
    Res d (inL p i (c :: cs)) (inL p i (c' :: cs')) base (os1 ++ os2) := by
  refine ⟨?_, ?_, ?_, ?_, ?_⟩
  · intro o ho
    rcases List.mem_append.1 ho with ho | ho
    · obtain ⟨⟨f, hf⟩, hr, rest⟩ := h1.objs o ho
      exact ⟨⟨f, inL_cons.2 (.inl hf)⟩, (relReached_left hf).2 hr, rest⟩
    · obtain ⟨⟨f, hf⟩, hr, rest⟩ := h2.objs o ho
      exact ⟨⟨f, inL_cons.2 (.inr hf)⟩, (relReached_right hf).2 hr, rest⟩
  · intro q f c v hq hr ha
    rcases inL_cons.1 hq with hq | hq
    · obtain ⟨o, ho, he⟩ := h1.all q f c v hq ((relReached_left hq).1 hr) ha
      exact ⟨o, List.mem_append.2 (.inl ho), he⟩
    · obtain ⟨o, ho, he⟩ := h2.all q f c v hq ((relReached_right hq).1 hr) ha
      exact ⟨o, List.mem_append.2 (.inr ho), he⟩
  · intro q f' hq
    rcases inL_cons.1 hq with hq | hq
    · obtain ⟨f, hf, rest⟩ := h1.same1 q f' hq
      exact ⟨f, inL_cons.2 (.inl hf), rest⟩
    · obtain ⟨f, hf, rest⟩ := h2.same1 q f' hq
      exact ⟨f, inL_cons.2 (.inr hf), rest⟩
  · intro q f hq
    rcases inL_cons.1 hq with hq | hq
    · obtain ⟨f', hf⟩ := h1.same2 q f hq
      exact ⟨f', inL_cons.2 (.inl hf)⟩
    · obtain ⟨f', hf⟩ := h2.same2 q f hq
      exact ⟨f', inL_cons.2 (.inr hf)⟩
  · intro q f' hq id
    rcases inL_cons.1 hq with hq | hq
    · rw [h1.sync q f' hq id]
      refine and_congr_right (fun hb => exists_congr (fun o => ?_))
      by_cases hlt : id - base < os1.length
      · rw [List.getElem?_append_left hlt]
      · rw [List.getElem?_append_right (by omega)]
        constructor
        · rintro ⟨ho, _⟩
          rw [List.getElem?_eq_none (by omega)] at ho; cases ho
        · rintro ⟨ho, he⟩
          obtain ⟨⟨g, hg⟩, _⟩ := h2.objs o (List.mem_of_getElem? ho)
          rw [he] at hg
          exact absurd (List.prefix_refl q) (sep hq hg).1
    · rw [h2.sync q f' hq id]
      constructor
      · rintro ⟨hb, o, ho, he⟩
        refine ⟨by omega, o, ?_, he⟩
        rw [List.getElem?_append_right (by omega)]
        rwa [Nat.sub_sub]
      · rintro ⟨hb, o, ho, he⟩
        by_cases hlt : id - base < os1.length
        · rw [List.getElem?_append_left hlt] at ho
          obtain ⟨⟨g, hg⟩, _⟩ := h1.objs o (List.mem_of_getElem? ho)
          rw [he] at hg
          exact absurd (List.prefix_refl q) (sep hg hq).1
        · rw [List.getElem?_append_right (by omega), Nat.sub_sub] at ho
          exact ⟨by omega, o, ho, he⟩

theorem relReached_inner {d p n k sy cs q f} (h : inL p 0 cs q f) (hna : ¬ ∃ c v, Asks d p c v) :
    RelReached d (inE p (.mk n k sy cs)) q ↔ RelReached d (inL p 0 cs) q := by
  constructor
  · intro hr r g hg; exact hr r g (inE_mk.2 (.inr hg))
  · intro hr r g hg hp hne
    rcases inE_mk.1 hg with ⟨rfl, _⟩ | hg
    · exact hna
    · exact hr r g hg hp hne

theorem relReached_top {d p e} : RelReached d (inE p e) p := by
  rintro r g ⟨q', rfl, _⟩ hp hne
  have := hp.length_le
  rw [List.length_append] at this
  have h0 : q' = [] := List.length_eq_zero_iff.1 (by omega)
  subst h0
  simp at hne

theorem good_mk {d p n k sy cs} (hna : ¬ ∃ c v, Asks d p c v) :
    GoodRegion d (inE p (.mk n k sy cs)) ↔
      (d.has p = true → Mappable d p (.mk n k sy cs)) ∧ GoodRegion d (inL p 0 cs) := by
  constructor
  · intro h
    exact ⟨h p _ (inE_mk.2 (.inl ⟨rfl, rfl⟩)) relReached_top,
      fun q f hq hr => h q f (inE_mk.2 (.inr hq)) ((relReached_inner hq hna).2 hr)⟩
  · rintro ⟨h1, h2⟩ q f hq hr
    rcases inE_mk.1 hq with ⟨rfl, rfl⟩ | hq
    · exact h1
    · exact h2 q f hq ((relReached_inner hq hna).1 hr)

theorem res_mk {d p n k cs cs' base os} (hna : ¬ ∃ c v, Asks d p c v)
    (h : Res d (inL p 0 cs) (inL p 0 cs') base os) (hlen : cs'.length = cs.length) :
    Res d (inE p (.mk n k none cs)) (inE p (.mk n k none cs')) base os := by
  refine ⟨?_, ?_, ?_, ?_, ?_⟩
  · intro o ho
    obtain ⟨⟨f, hf⟩, hr, rest⟩ := h.objs o ho
    exact ⟨⟨f, inE_mk.2 (.inr hf)⟩, (relReached_inner hf hna).2 hr, rest⟩
  · intro q f c v hq hr ha
    rcases inE_mk.1 hq with ⟨rfl, _⟩ | hq
    · exact absurd ⟨c, v, ha⟩ hna
    · exact h.all q f c v hq ((relReached_inner hq hna).1 hr) ha
  · intro q f' hq
    rcases inE_mk.1 hq with ⟨rfl, rfl⟩ | hq
    · exact ⟨_, inE_mk.2 (.inl ⟨rfl, rfl⟩), rfl, rfl, hlen⟩
    · obtain ⟨f, hf, rest⟩ := h.same1 q f' hq
      exact ⟨f, inE_mk.2 (.inr hf), rest⟩
  · intro q f hq
    rcases inE_mk.1 hq with ⟨rfl, rfl⟩ | hq
    · exact ⟨_, inE_mk.2 (.inl ⟨rfl, rfl⟩)⟩
    · obtain ⟨f', hf⟩ := h.same2 q f hq
      exact ⟨f', inE_mk.2 (.inr hf)⟩
  · intro q f' hq id
    rcases inE_mk.1 hq with ⟨rfl, rfl⟩ | hq
    · simp only [Elem.syncer, reduceCtorEq, false_iff]
      rintro ⟨_, o, ho, he⟩
      obtain ⟨⟨f, hf⟩, _⟩ := h.objs o (List.mem_of_getElem? ho)
      exact (inL_strict hf).2 he
    · exact h.sync q f' hq id

theorem res_object {d p n k cs base c v} (hb : Bare (inE p (.mk n k none cs))) (ha : Asks d p c v) :
    Res d (inE p (.mk n k none cs)) (inE p (.mk n k (some base) cs)) base [⟨p, c, v, d.ctxOf p⟩] := by
  refine ⟨?_, ?_, ?_, ?_, ?_⟩
  · intro o ho
    simp only [List.mem_singleton] at ho
    subst ho
    exact ⟨⟨_, inE_mk.2 (.inl ⟨rfl, rfl⟩)⟩, relReached_top, ha, rfl⟩
  · intro q f c' v' hq hr ha'
    rcases inE_mk.1 hq with ⟨rfl, _⟩ | hq
    · exact ⟨_, List.mem_singleton.2 rfl, rfl⟩
    · exact absurd ⟨c, v, ha⟩ (hr p _ (inE_mk.2 (.inl ⟨rfl, rfl⟩)) (inL_strict hq).1 (inL_strict hq).2.symm)
  · intro q f' hq
    rcases inE_mk.1 hq with ⟨rfl, rfl⟩ | hq
    · exact ⟨_, inE_mk.2 (.inl ⟨rfl, rfl⟩), rfl, rfl, rfl⟩
    · exact ⟨f', inE_mk.2 (.inr hq), rfl, rfl, rfl⟩
  · intro q f hq
    rcases inE_mk.1 hq with ⟨rfl, rfl⟩ | hq
    · exact ⟨_, inE_mk.2 (.inl ⟨rfl, rfl⟩)⟩
    · exact ⟨f, inE_mk.2 (.inr hq)⟩
  · intro q f' hq id
    rcases inE_mk.1 hq with ⟨rfl, rfl⟩ | hq
    · simp only [Elem.syncer, Option.some.injEq]
      constructor
      · rintro rfl; exact ⟨Nat.le_refl _, ⟨q, c, v, d.ctxOf q⟩, by simp, rfl⟩
      · rintro ⟨h1, o, ho, _⟩
        have : id - base < 1 := by
          have := (List.getElem?_eq_some_iff.1 ho).1
          simpa using this
        omega
    · rw [hb q f' (inE_mk.2 (.inr hq))]
      simp only [reduceCtorEq, false_iff]
      rintro ⟨_, o, ho, he⟩
      have := List.mem_of_getElem? ho
      simp only [List.mem_singleton] at this
      subst this
      exact (inL_strict hq).2 he.symm

theorem not_has_not_asks {d : MapDef} {p : Pos} (h : ¬ d.has p = true) : ¬ ∃ c v, Asks d p c v := by
  rintro ⟨c, v, ha⟩; exact h (asks_has ha)

theorem ctxOf_not_has {d : MapDef} {p : Pos} {i : Nat} (h : ¬ d.has (p ++ [i]) = true) :
    d.ctxOf (p ++ [i]) = d.ctxOf p := by
  have hg : ∀ k, d.get (p ++ [i]) k = none := by
    intro k
    unfold MapDef.has at h
    unfold MapDef.get
    cases hm : d.maps (p ++ [i]) with
    | nil => rfl
    | cons _ _ => simp [hm] at h
  simp [MapDef.ctxOf, MapDef.bound_concat, hg]

mutual
theorem mapElem_spec (d : MapDef) (h32 : d.contextKeys.length ≤ 32) (e : Elem) (p : Pos) (i : Nat)
    (st : MapSt) (rest : List MCtx) (hst : st.stack = d.ctxOf p :: rest) (hb : Bare (inE (p ++ [i]) e)) :
    (¬ GoodRegion d (inE (p ++ [i]) e) → ∀ r, e.mapElem d (p ++ [i]) st ≠ .ok r) ∧
    (GoodRegion d (inE (p ++ [i]) e) → ∃ e' os,
      e.mapElem d (p ++ [i]) st = .ok (e', ⟨st.stack, st.objs ++ os⟩) ∧
      Res d (inE (p ++ [i]) e) (inE (p ++ [i]) e') st.objs.length os) := by
  match e, hb with
  | .mk n k sy cs, hb =>
    have hsy : sy = none := hb (p ++ [i]) _ (inE_mk.2 (.inl ⟨rfl, rfl⟩))
    subst hsy
    have hbL : Bare (inL (p ++ [i]) 0 cs) := fun q f hq => hb q f (inE_mk.2 (.inr hq))
    by_cases hh : d.has (p ++ [i]) = true
    · simp only [Elem.mapElem, hh, ite_true]
      by_cases hm : Mappable d (p ++ [i]) (.mk n k none cs)
      · by_cases ha : ∃ c v, Asks d (p ++ [i]) c v
        · obtain ⟨c, v, ha⟩ := ha
          rw [mapBegin_asks h32 hst hm rfl ha]
          refine ⟨fun hbad => absurd ?_ hbad, fun _ => ⟨_, _, rfl, res_object hb ha⟩⟩
          intro q f hq hr _
          rcases inE_mk.1 hq with ⟨rfl, rfl⟩ | hq
          · exact hm
          · exact absurd ⟨c, v, ha⟩ (hr _ _ (inE_mk.2 (.inl ⟨rfl, rfl⟩)) (inL_strict hq).1 (inL_strict hq).2.symm)
        · rw [mapBegin_none hst hm ha]
          simp only [Out.bind]
          have ih := mapAll_spec d h32 cs (p ++ [i]) 0 ⟨d.ctxOf (p ++ [i]) :: st.stack, st.objs⟩ st.stack rfl hbL
          constructor
          · intro hbad r hr
            have hbad' : ¬ GoodRegion d (inL (p ++ [i]) 0 cs) := fun hg => hbad ((good_mk ha).2 ⟨fun _ => hm, hg⟩)
            have := ih.1 hbad'
            cases hx : Elem.mapAll d cs (p ++ [i]) 0 ⟨d.ctxOf (p ++ [i]) :: st.stack, st.objs⟩ with
            | ok q => exact this q hx
            | err => simp [hx] at hr
            | abort => simp [hx] at hr
          · intro hg
            obtain ⟨cs', os, heq, hlen, hres⟩ := ih.2 ((good_mk ha).1 hg).2
            exact ⟨.mk n k none cs', os, by rw [heq]; rfl, res_mk ha hres hlen⟩
      · have hbeg := mapBegin_bad h32 hst hm
        constructor
        · intro _ r hr
          cases hx : mapBegin d (p ++ [i]) (.mk n k none cs) st with
          | ok q => exact hbeg q hx
          | err => simp [hx, Out.bind] at hr
          | abort => simp [hx, Out.bind] at hr
        · intro hg
          exact absurd (hg _ _ (inE_mk.2 (.inl ⟨rfl, rfl⟩)) relReached_top hh) hm
    · simp only [Elem.mapElem, hh]
      have hna := not_has_not_asks hh
      have ih := mapAll_spec d h32 cs (p ++ [i]) 0 st rest (by rw [ctxOf_not_has hh, hst]) hbL
      constructor
      · intro hbad r hr
        have hbad' : ¬ GoodRegion d (inL (p ++ [i]) 0 cs) :=
          fun hg => hbad ((good_mk hna).2 ⟨fun h => absurd h hh, hg⟩)
        have := ih.1 hbad'
        cases hx : Elem.mapAll d cs (p ++ [i]) 0 st with
        | ok q => exact this q hx
        | err => simp [hx, Out.bind] at hr
        | abort => simp [hx, Out.bind] at hr
      · intro hg
        obtain ⟨cs', os, heq, hlen, hres⟩ := ih.2 ((good_mk hna).1 hg).2
        exact ⟨.mk n k none cs', os, by rw [heq]; rfl, res_mk hna hres hlen⟩
theorem mapAll_spec (d : MapDef) (h32 : d.contextKeys.length ≤ 32) (cs : List Elem) (p : Pos) (i : Nat)
    (st : MapSt) (rest : List MCtx) (hst : st.stack = d.ctxOf p :: rest) (hb : Bare (inL p i cs)) :
    (¬ GoodRegion d (inL p i cs) → ∀ r, Elem.mapAll d cs p i st ≠ .ok r) ∧
    (GoodRegion d (inL p i cs) → ∃ cs' os,
      Elem.mapAll d cs p i st = .ok (cs', ⟨st.stack, st.objs ++ os⟩) ∧ cs'.length = cs.length ∧
      Res d (inL p i cs) (inL p i cs') st.objs.length os) := by
  match cs, hb with
  | [], _ =>
    refine ⟨fun h => absurd (fun q f hq => absurd hq inL_nil) h, fun _ => ⟨[], [], by simp [Elem.mapAll], rfl, ?_⟩⟩
    exact ⟨by simp, fun q f c v hq => absurd hq inL_nil, fun q f hq => absurd hq inL_nil,
      fun q f hq => absurd hq inL_nil, fun q f hq => absurd hq inL_nil⟩
  | c :: cs, hb =>
    have hbc : Bare (inE (p ++ [i]) c) := fun q f hq => hb q f (inL_cons.2 (.inl hq))
    have hbcs : Bare (inL p (i + 1) cs) := fun q f hq => hb q f (inL_cons.2 (.inr hq))
    have ihc := mapElem_spec d h32 c p i st rest hst hbc
    simp only [Elem.mapAll]
    by_cases hg1 : GoodRegion d (inE (p ++ [i]) c)
    · obtain ⟨c', os1, heq, hres⟩ := ihc.2 hg1
      have ihcs := mapAll_spec d h32 cs p (i + 1) ⟨st.stack, st.objs ++ os1⟩ rest hst hbcs
      rw [heq]
      simp only [Out.bind]
      constructor
      · intro hbad r hr
        have := ihcs.1 (fun hg2 => hbad (good_cons.2 ⟨hg1, hg2⟩))
        cases hx : Elem.mapAll d cs p (i + 1) ⟨st.stack, st.objs ++ os1⟩ with
        | ok q => exact this q hx
        | err => simp [hx] at hr
        | abort => simp [hx] at hr
      · intro hg
        obtain ⟨cs', os2, heq2, hlen, hres2⟩ := ihcs.2 (good_cons.1 hg).2
        refine ⟨c' :: cs', os1 ++ os2, by rw [heq2]; simp, by simp [hlen], res_cons hres ?_⟩
        simpa using hres2
    · constructor
      · intro _ r hr
        have := ihc.1 hg1
        cases hx : Elem.mapElem d c (p ++ [i]) st with
        | ok q => exact this q hx
        | err => simp [hx, Out.bind] at hr
        | abort => simp [hx, Out.bind] at hr
      · intro hg; exact absurd (good_cons.1 hg).1 hg1
end

/-! ## The subsystem -/

theorem inL_root {n k sy cs q f} : inL [] 0 cs q f ↔ q ≠ [] ∧ (Elem.mk n k sy cs).at? q = some f := by
  have h := inE_mk (p := []) (n := n) (k := k) (sy := sy) (cs := cs) (q := q) (f := f)
  have hE : inE [] (.mk n k sy cs) q f ↔ (Elem.mk n k sy cs).at? q = some f := by
    constructor
    · rintro ⟨q', rfl, h⟩; exact h
    · intro h; exact ⟨q, by simp, h⟩
  rw [hE] at h
  constructor
  · intro hl; exact ⟨(inL_strict hl).2, h.2 (.inr hl)⟩
  · rintro ⟨hne, hat⟩
    rcases h.1 hat with ⟨e, _⟩ | hl
    · exact absurd e hne
    · exact hl

theorem at?_prefix {e : Elem} {p q : Pos} (h : e.at? p ≠ none) (hq : q <+: p) : ∃ f, e.at? q = some f := by
  obtain ⟨r, rfl⟩ := hq
  rw [Elem.at?_append] at h
  cases hx : e.at? q with
  | none => simp [hx] at h
  | some f => exact ⟨f, rfl⟩

theorem relReached_root {d n k sy cs q f} (h : inL [] 0 cs q f) :
    RelReached d (inL [] 0 cs) q ↔ Reached d (.mk n k sy cs) q := by
  have hq := (inL_root (n := n) (k := k) (sy := sy)).1 h
  constructor
  · intro hr
    refine ⟨hq.1, by rw [hq.2]; simp, fun r hp hne h0 => ?_⟩
    obtain ⟨g, hg⟩ := at?_prefix (e := .mk n k sy cs) (by rw [hq.2]; simp) hp
    exact hr r g (inL_root.2 ⟨h0, hg⟩) hp hne
  · rintro ⟨_, _, hr⟩ r g hg hp hne
    exact hr r hp hne ((inL_root (n := n) (k := k) (sy := sy)).1 hg).1

theorem good_root {d n k sy cs} : GoodRegion d (inL [] 0 cs) ↔
    ∀ p e, Reached d (.mk n k sy cs) p → (Elem.mk n k sy cs).at? p = some e → d.maps p ≠ [] → Mappable d p e := by
  have hhas : ∀ p, d.has p = true ↔ d.maps p ≠ [] := by
    intro p; unfold MapDef.has; cases d.maps p <;> simp
  constructor
  · intro h p e hr he hm
    have hl := inL_root.2 ⟨hr.1, he⟩
    exact h p e hl ((relReached_root hl).2 hr) ((hhas p).2 hm)
  · intro h p e hl hr hm
    exact h p e ((relReached_root hl).1 hr) (inL_root.1 hl).2 ((hhas p).1 hm)

/-- What a successful mapping gives. -/
theorem mapSubsystem_spec {d : MapDef} (h32 : d.contextKeys.length ≤ 32) {n k sy cs}
    (hn : NoSyncer (.mk n k sy cs)) :
    (¬ GoodRegion d (inL [] 0 cs) → ∀ r, (Elem.mk n k sy cs).mapSubsystem d ≠ .ok r) ∧
    (GoodRegion d (inL [] 0 cs) → ∃ cs' os, (Elem.mk n k sy cs).mapSubsystem d = .ok (.mk n k sy cs', os) ∧
      cs'.length = cs.length ∧ Res d (inL [] 0 cs) (inL [] 0 cs') 0 os) := by
  have hb : Bare (inL [] 0 cs) := fun q f hq => hn q f (inL_root.1 hq).2
  have h := mapAll_spec d h32 cs [] 0 ⟨[d.ctxOf []], []⟩ [] rfl hb
  simp only [Elem.mapSubsystem, handleMappingContext_fresh]
  constructor
  · intro hbad r hr
    have := h.1 hbad
    cases hx : Elem.mapAll d cs [] 0 ⟨[d.ctxOf []], []⟩ with
    | ok q => exact this q hx
    | err => simp [hx, Out.bind] at hr
    | abort => simp [hx, Out.bind] at hr
  · intro hg
    obtain ⟨cs', os, heq, hlen, hres⟩ := h.2 hg
    exact ⟨cs', os, by rw [heq]; simp [Out.bind], hlen, hres⟩

theorem mapSubsystem_ok {d : MapDef} (h32 : d.contextKeys.length ≤ 32) {sub sub' : Elem} {os : List SubObj}
    (hn : NoSyncer sub) (h : sub.mapSubsystem d = .ok (sub', os)) :
    ∃ n k sy cs cs', sub = .mk n k sy cs ∧ sub' = .mk n k sy cs' ∧ GoodRegion d (inL [] 0 cs) ∧
      cs'.length = cs.length ∧ Res d (inL [] 0 cs) (inL [] 0 cs') 0 os := by
  obtain ⟨n, k, sy, cs⟩ := sub
  have hs := mapSubsystem_spec h32 hn (d := d)
  by_cases hg : GoodRegion d (inL [] 0 cs)
  · obtain ⟨cs', os', heq, hlen, hres⟩ := hs.2 hg
    rw [heq] at h
    simp only [Out.ok.injEq, Prod.mk.injEq] at h
    obtain ⟨rfl, rfl⟩ := h
    exact ⟨n, k, sy, cs, cs', rfl, rfl, hg, hlen, hres⟩
  · exact absurd h (hs.1 hg _)

theorem get_has {d : MapDef} {p : Pos} {key : Str} (h : d.get p key ≠ none) : d.maps p ≠ [] := by
  intro hm; exact h (by simp [MapDef.get, hm])

/-- Along the branch of a reached element of a mapped subsystem, a context key is bound once. -/
theorem bound_once {d : MapDef} {sub : Elem} {p : Pos}
    (hg : ∀ p e, Reached d sub p → sub.at? p = some e → d.maps p ≠ [] → Mappable d p e)
    (hp : Reached d sub p) {key : Str} (hk : key ∈ d.contextKeys) {q r : Pos} (hq : q <+: p) (hr : r <+: p)
    (hgq : d.get q key ≠ none) (hgr : d.get r key ≠ none) : q = r := by
  have main : ∀ q r : Pos, q <+: p → r <+: p → d.get q key ≠ none → d.get r key ≠ none → q.length ≤ r.length → q = r := by
    intro q r hq hr hgq hgr hlen
    have hqr : q <+: r := List.prefix_of_prefix_length_le hq hr hlen
    by_cases hne : q = r
    · exact hne
    · exfalso
      have hr0 : r ≠ [] := by
        rintro rfl
        exact hne (List.prefix_nil.1 hqr)
      have hreach : Reached d sub r := by
        obtain ⟨f, hf⟩ := at?_prefix hp.2.1 hr
        refine ⟨hr0, by rw [hf]; simp, fun x hx hxr hx0 => ?_⟩
        refine hp.2.2 x (hx.trans hr) (fun e => ?_) hx0
        subst e
        exact hxr (hx.eq_of_length_le hr.length_le)
      obtain ⟨f, hf⟩ := at?_prefix hp.2.1 hr
      obtain ⟨v, hv⟩ := Option.ne_none_iff_exists'.1 hgr
      exact hgq ((hg r f hreach hf (get_has hgr)).once key hk v hv q hqr hne)
  rcases Nat.le_total q.length r.length with h | h
  · exact main q r hq hr hgq hgr h
  · exact (main r q hr hq hgr hgq h).symm

theorem bound_iff {d : MapDef} {sub : Elem} {p : Pos}
    (hg : ∀ p e, Reached d sub p → sub.at? p = some e → d.maps p ≠ [] → Mappable d p e)
    (hp : Reached d sub p) {key : Str} (hk : key ∈ d.contextKeys) (v : Str) :
    d.bound p key = some v ↔ ∃ q, q <+: p ∧ d.get q key = some v := by
  constructor
  · exact MapDef.bound_some
  · rintro ⟨q, hq, hv⟩
    cases hb : d.bound p key with
    | none => rw [(MapDef.bound_none d p key).1 hb q hq] at hv; cases hv
    | some w =>
      obtain ⟨r, hr, hw⟩ := MapDef.bound_some hb
      have := bound_once hg hp hk hq hr (by simp [hv]) (by simp [hw])
      subst this
      rw [hv] at hw
      exact hw.symm

end PF
