import Verif.Spec.Mapping
import Verif.Lemmas.Tokenizer
import Verif.Lemmas.Tree

/-! # Lemmas on mapping data, contexts and amendments -/

namespace PF
open PF.Spec

/-! ## Mapping data -/

theorem cutColon_none {k : Str} (h : ':' ∉ k) : cutColon k = (k, []) := by
  induction k with
  | nil => rfl
  | cons c t ih =>
    have hc : c ≠ ':' := fun e => h (by simp [e])
    have ht : ':' ∉ t := fun e => h (by simp [e])
    simp [cutColon, hc, ih ht]

theorem cutColon_some {k : Str} (v : Str) (h : ':' ∉ k) : cutColon (k ++ ':' :: v) = (k, v) := by
  induction k with
  | nil => simp [cutColon]
  | cons c t ih =>
    have hc : c ≠ ':' := fun e => h (by simp [e])
    have ht : ':' ∉ t := fun e => h (by simp [e])
    simp [cutColon, hc, ih ht]

theorem cutColon_field {t k v : Str} (h : Field t k v) : cutColon t = (k, v) := by
  cases h with
  | keyValue _ _ h => exact cutColon_some v h
  | keyOnly _ h => exact cutColon_none h

theorem field_cutColon (t : Str) : Field t (cutColon t).1 (cutColon t).2 := by
  induction t with
  | nil => exact .keyOnly [] (by simp)
  | cons c t ih =>
    by_cases hc : c = ':'
    · subst hc
      have h := Field.keyValue [] t (by simp)
      simpa [cutColon] using h
    · simp only [cutColon, hc, ite_false]
      generalize (cutColon t).1 = k at ih
      generalize (cutColon t).2 = v at ih
      cases ih with
      | keyValue _ _ h =>
        exact Field.keyValue (c :: k) v (by simp only [List.mem_cons, not_or]; exact ⟨fun e => hc e.symm, h⟩)
      | keyOnly _ h =>
        exact Field.keyOnly (c :: t) (by simp only [List.mem_cons, not_or]; exact ⟨fun e => hc e.symm, h⟩)

theorem fields_exists (ts : List Str) : ∃ bs, Fields ts bs := by
  induction ts with
  | nil => exact ⟨[], .nil⟩
  | cons t ts ih => obtain ⟨bs, h⟩ := ih; exact ⟨_, .cons (field_cutColon t) h⟩

theorem fields_eq {ts bs} (h : Fields ts bs) : bs = ts.map cutColon := by
  induction h with
  | nil => rfl
  | cons hf _ ih => simp [cutColon_field hf, ih]

theorem strLt_irrefl (a : Str) : strLt a a = false := by
  induction a with
  | nil => rfl
  | cons c t ih => simp [strLt, ih]

theorem strLt_trans {a b c : Str} (h1 : strLt a b = true) (h2 : strLt b c = true) : strLt a c = true := by
  induction a generalizing b c with
  | nil => cases c with
    | nil => cases b <;> simp [strLt] at h2
    | cons => rfl
  | cons x xs ih =>
    cases b with
    | nil => simp [strLt] at h1
    | cons y ys =>
      cases c with
      | nil => simp [strLt] at h2
      | cons z zs =>
        simp only [strLt] at h1 h2 ⊢
        by_cases hxy : x.toNat < y.toNat
        · by_cases hyz : y.toNat < z.toNat
          · simp [Nat.lt_trans hxy hyz]
          · simp only [hyz, ite_false] at h2
            split at h2
            · exact absurd h2 (by simp)
            · have : x.toNat < z.toNat := by omega
              simp [this]
        · simp only [hxy, ite_false] at h1
          split at h1
          · exact absurd h1 (by simp)
          · by_cases hyz : y.toNat < z.toNat
            · have : x.toNat < z.toNat := by omega
              simp [this]
            · simp only [hyz, ite_false] at h2
              split at h2
              · exact absurd h2 (by simp)
              · have h3 : ¬ x.toNat < z.toNat := by omega
                have h4 : ¬ z.toNat < x.toNat := by omega
                simp only [h3, h4, ite_false]
                exact ih h1 h2

theorem strLt_total {a b : Str} (h : strLt a b = false) (hne : a ≠ b) : strLt b a = true := by
  induction a generalizing b with
  | nil => cases b with
    | nil => exact absurd rfl hne
    | cons => simp [strLt] at h
  | cons x xs ih =>
    cases b with
    | nil => rfl
    | cons y ys =>
      simp only [strLt] at h ⊢
      by_cases hyx : y.toNat < x.toNat
      · simp [hyx]
      · by_cases hxy : x.toNat < y.toNat
        · simp [hxy] at h
        · simp only [hxy, hyx, ite_false] at h ⊢
          have hx : x = y := Char.toNat_inj.1 (by omega)
          exact ih h (fun e => hne (by rw [hx, e]))

theorem MData.insert_perm (m : MData) (k v : Str) : (m.insert k v).Perm ((k, v) :: m) := by
  induction m with
  | nil => exact List.Perm.refl _
  | cons b bs ih =>
    simp only [MData.insert]
    split
    · exact List.Perm.refl _
    · exact (List.Perm.cons b ih).trans (List.Perm.swap (k, v) b bs)

/-- The bindings are in increasing order of the keys. -/
def MData.Sorted (m : MData) : Prop := m.Pairwise (fun a b => strLt a.1 b.1 = true)

theorem MData.insert_sorted {m : MData} (hs : m.Sorted) {k v : Str} (hk : ∀ b ∈ m, b.1 ≠ k) :
    (m.insert k v).Sorted := by
  induction m with
  | nil => simp [MData.insert, MData.Sorted]
  | cons b bs ih =>
    have hb := List.pairwise_cons.1 hs
    simp only [MData.insert]
    split
    · rename_i hlt
      refine List.pairwise_cons.2 ⟨?_, hs⟩
      intro x hx
      rcases List.mem_cons.1 hx with rfl | hx
      · exact hlt
      · exact strLt_trans hlt (hb.1 x hx)
    · rename_i hlt
      refine List.pairwise_cons.2 ⟨?_, ih hb.2 (fun x hx => hk x (by simp [hx]))⟩
      intro x hx
      rcases List.mem_cons.1 ((MData.insert_perm bs k v).mem_iff.1 hx) with rfl | hx
      · exact strLt_total (by simpa using hlt) (fun e => hk b (by simp) e.symm)
      · exact hb.1 x hx

theorem MData.getValue_iff {m : MData} (hn : (m.map (·.1)).Nodup) (k v : Str) :
    m.getValue k = some v ↔ (k, v) ∈ m := by
  induction m with
  | nil => simp [MData.getValue]
  | cons b bs ih =>
    simp only [List.map_cons, List.nodup_cons] at hn
    by_cases hb : b.1 = k
    · have hnot : (k, v) ∉ bs := fun h => hn.1 (by rw [hb]; exact List.mem_map.2 ⟨_, h, rfl⟩)
      simp only [MData.getValue, List.find?_cons, hb, beq_self_eq_true, List.mem_cons, hnot, or_false,
        Option.map_some, Option.some.injEq]
      constructor
      · intro h; cases b; simp_all
      · intro h; cases b; simp_all
    · have := ih hn.2
      have hne : (b.1 == k) = false := by simp [hb]
      simp only [MData.getValue, List.find?_cons, hne, List.mem_cons] at this ⊢
      rw [this]
      constructor
      · exact .inr
      · rintro (h | h)
        · exact absurd (by rw [← h]) hb
        · exact h

theorem MData.getValue_none {m : MData} (k : Str) : m.getValue k = none ↔ ∀ b ∈ m, b.1 ≠ k := by
  simp [MData.getValue]

theorem MData.addAll_spec (ts : List Str) (m : MData) (hs : m.Sorted) (hn : (m.map (·.1)).Nodup) :
    (MData.addAll m ts = none ↔ ¬ ((m ++ ts.map cutColon).map (·.1)).Nodup) ∧
    ∀ m', MData.addAll m ts = some m' → m'.Perm (m ++ ts.map cutColon) ∧ m'.Sorted := by
  induction ts generalizing m with
  | nil => simp only [MData.addAll, List.map_nil, List.append_nil]; simp [hn, hs, List.Perm.refl]
  | cons t ts ih =>
    simp only [MData.addAll, MData.addValue]
    generalize hc : cutColon t = kv
    obtain ⟨k, v⟩ := kv
    cases hg : m.getValue k with
    | some w =>
      have hin : (k, w) ∈ m := (MData.getValue_iff hn k w).1 hg
      simp only [reduceCtorEq, false_implies, implies_true, and_true, true_iff]
      simp only [List.map_append, List.map_cons, hc]
      intro h
      exact (List.nodup_append.1 h).2.2 _ (List.mem_map.2 ⟨_, hin, rfl⟩) k (by simp) rfl
    | none =>
      have hk := (MData.getValue_none k).1 hg
      have hp := MData.insert_perm m k v
      have hs' := MData.insert_sorted hs hk (v := v)
      have hn' : ((m.insert k v).map (·.1)).Nodup := by
        rw [(hp.map _).nodup_iff]
        simp only [List.map_cons, List.nodup_cons]
        refine ⟨fun h => ?_, hn⟩
        obtain ⟨b, hb, he⟩ := List.mem_map.1 h
        exact hk b hb he
      have hperm : (m.insert k v ++ ts.map cutColon).Perm (m ++ (t :: ts).map cutColon) := by
        rw [List.map_cons, hc]
        exact (hp.append_right _).trans List.perm_middle.symm
      obtain ⟨h1, h2⟩ := ih _ hs' hn'
      refine ⟨?_, fun m' hm' => ⟨(h2 m' hm').1.trans hperm, (h2 m' hm').2⟩⟩
      rw [h1, (hperm.map _).nodup_iff]

theorem MData.init_spec {t : Str} {bs : List (Str × Str)} (h : MappingText t bs) :
    (MData.init t = none ↔ ¬ (bs.map (·.1)).Nodup) ∧
    ∀ m, MData.init t = some m → m.Perm bs ∧ m.Sorted := by
  obtain ⟨ps, hp, hf⟩ := h
  have := MData.addAll_spec (ps.filter (· ≠ [])) [] (by simp [MData.Sorted]) (by simp)
  rw [← fields_eq hf] at this
  simpa [MData.init, tokenize_true_of_pieces hp] using this

/-! ## Amendments -/

theorem formatMapping_no_percent (first nb : Nat) (ctx : MCtx) (pre rest : Str) (h : '%' ∉ pre) :
    formatMapping first nb ctx (pre ++ rest) =
      (formatMapping first nb ctx rest).bind fun t => .ok (pre ++ t) := by
  induction pre with
  | nil => simp only [List.nil_append]; cases formatMapping first nb ctx rest <;> rfl
  | cons c pre ih =>
    have hc : c ≠ '%' := fun e => h (by simp [e])
    have hpre : '%' ∉ pre := fun e => h (by simp [e])
    have ih := ih hpre
    cases hl : pre ++ rest with
    | nil =>
      have h1 : pre = [] := (List.append_eq_nil_iff.1 hl).1
      have h2 : rest = [] := (List.append_eq_nil_iff.1 hl).2
      subst h1; subst h2
      rfl
    | cons d t =>
      rw [List.cons_append, hl]
      simp only [formatMapping, hc, ite_false]
      rw [← hl, ih]
      cases formatMapping first nb ctx rest <;> rfl

theorem getItem_of_iSet {ctx : MCtx} {i : Nat} (h : ctx.iSet i = .ok true) :
    ∃ v, ctx.getItem i = .ok v := by
  unfold MCtx.iSet at h
  unfold MCtx.getItem
  split at h
  · cases h
  · rename_i o ho
    rw [ho]
    cases o with
    | none => simp at h
    | some x => exact ⟨_, rfl⟩

theorem iSet_lt {ctx : MCtx} {i : Nat} (h : i < ctx.length) : ctx.iSet i = .ok (ctx[i]'h).isSome := by
  simp [MCtx.iSet, List.getElem?_eq_getElem h]

theorem amendment_some {ctx : MCtx} {first nb n : Nat} {v : Str}
    (h : amendment first nb ctx n = some v) :
    1 ≤ n ∧ n ≤ nb ∧ ctx.iSet (first + n - 1) = .ok true ∧ ctx.getItem (first + n - 1) = .ok v := by
  unfold amendment at h
  split at h
  · rename_i hn
    refine ⟨hn.1, hn.2, ?_⟩
    unfold MCtx.iSet MCtx.getItem
    cases hg : ctx[first + n - 1]? with
    | none => simp [hg] at h
    | some o => cases o with
      | none => simp [hg] at h
      | some x => simp [hg] at h; simp [h]
  · simp at h

theorem amendment_none {ctx : MCtx} {first nb n : Nat} (hl : first + nb ≤ ctx.length)
    (h : amendment first nb ctx n = none) (h1 : 1 ≤ n) (h2 : n ≤ nb) :
    ctx.iSet (first + n - 1) = .ok false := by
  have hlt : first + n - 1 < ctx.length := by omega
  rw [iSet_lt hlt]
  unfold amendment at h
  rw [if_pos ⟨h1, h2⟩, List.getElem?_eq_getElem hlt] at h
  cases hx : ctx[first + n - 1] with
  | none => rfl
  | some x => simp [hx] at h

theorem formatMapping_of_amended {first nb : Nat} {ctx : MCtx} (hl : first + nb ≤ ctx.length)
    {t r : Str} (h : Amended (amendment first nb ctx) t r) : formatMapping first nb ctx t = .ok r := by
  induction h with
  | plain t h =>
    have := formatMapping_no_percent first nb ctx t [] h
    simpa [formatMapping, Out.bind] using this
  | replace pre rest v r n c h hc hv _ ih =>
    rw [formatMapping_no_percent first nb ctx pre _ h]
    obtain ⟨h1, h2, h3, h4⟩ := amendment_some hv
    have hn : c.toNat - '0'.toNat = n := by omega
    simp only [formatMapping, ite_true, hn]
    rw [if_pos ⟨by omega, h2⟩, h3]
    simp [Out.bind, ih, h4]
  | stop pre rest h hs =>
    rw [formatMapping_no_percent first nb ctx pre _ h]
    have : formatMapping first nb ctx ('%' :: rest) = .ok ('%' :: rest) := by
      cases rest with
      | nil => rfl
      | cons d rest =>
        simp only [formatMapping, ite_true]
        split
        · rename_i hd
          have := hs d (d.toNat - '0'.toNat) rfl (by omega)
          rw [amendment_none hl this (by omega) hd.2]
          rfl
        · rfl
    rw [this]; rfl

theorem amended_exists (item : Nat → Option Str) (n : Nat) (t : Str) (hn : t.length ≤ n) :
    ∃ r, Amended item t r := by
  induction n generalizing t with
  | zero =>
    have : t = [] := List.length_eq_zero_iff.1 (by omega)
    subst this; exact ⟨[], .plain [] (by simp)⟩
  | succ n ih =>
    by_cases hp : '%' ∈ t
    · obtain ⟨pre, rest, rfl, hpre⟩ := List.eq_append_cons_of_mem hp
      cases rest with
      | nil => exact ⟨_, .stop pre [] hpre (by simp)⟩
      | cons c rest =>
        by_cases hv : ∃ k v, c.toNat = '0'.toNat + k ∧ item k = some v
        · obtain ⟨k, v, hc, hv⟩ := hv
          obtain ⟨r, hr⟩ := ih rest (by simp at hn; omega)
          exact ⟨_, .replace pre rest v r k c hpre hc hv hr⟩
        · refine ⟨_, .stop pre (c :: rest) hpre ?_⟩
          intro c' k hc' hk
          simp only [List.head?_cons, Option.some.injEq] at hc'
          subst hc'
          cases hi : item k with
          | none => rfl
          | some v => exact absurd ⟨k, v, hk, hi⟩ hv
    · exact ⟨t, .plain t hp⟩

end PF
