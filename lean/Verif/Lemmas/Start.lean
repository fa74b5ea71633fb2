import Verif.Lemmas.Defaults
import Verif.Lemmas.ApplyExact
import Verif.Lemmas.Manager
import Verif.Lemmas.SyncExact
import Verif.Lemmas.XmlDeclares

/-! # Back synchronisation and start -/

namespace PF
open Spec

/-! ## What needs back synchronisation -/

/-- Elements that need back synchronisation exist, and none is inside another one. -/
structure NeedList (root : Elem) (L : List Pos) : Prop where
  at_ : ∀ q ∈ L, ∃ f, root.at? q = some f
  nodup : L.Nodup
  antichain : ∀ q ∈ L, ∀ r ∈ L, q <+: r → q = r

theorem aggregate_needList (root : Elem) (ok : Pos → Bool) : NeedList root (root.aggregate ok []).2 := by
  refine ⟨?_, aggregate_nodup _ _ _, ?_⟩
  · intro q hq
    obtain ⟨r, f, rfl, hf, _⟩ := (aggregate_mem ok [] root q).1 hq
    exact ⟨f, hf⟩
  · intro q hq r hr hqr
    obtain ⟨q', f, h1, hf, hc, _⟩ := (aggregate_mem ok [] root q).1 hq
    obtain ⟨r', g, h2, _, _, hmin⟩ := (aggregate_mem ok [] root r).1 hr
    simp only [List.nil_append] at h1 h2 hmin
    subst h1 h2
    exact Decidable.byContradiction fun hne => (hmin q f hqr hne hf).2 hc

/-- An element such that it, those above it and those below it all match is in or below a listed one. -/
theorem aggregate_covers {root f : Elem} {ok : Pos → Bool} {p : Pos} (hp : root.at? p = some f)
    (h : ∀ r, (r <+: p ∨ p <+: r) → ok r = true) : ∃ q ∈ (root.aggregate ok []).2, q <+: p := by
  have hcl : Clean ok p f := fun r _ _ => h (p ++ r) (.inr (List.prefix_append _ _))
  obtain ⟨q, hq, ⟨g, hg, hc⟩, hmin⟩ := shortest_prefix (fun q => ∃ g, root.at? q = some g ∧ Clean ok q g) p ⟨f, hp, hcl⟩
  refine ⟨q, (aggregate_mem ok [] root q).2 ⟨q, g, rfl, hg, hc, ?_⟩, hq⟩
  intro r' g' hr hne hg'
  exact ⟨h r' (.inl (hr.trans hq)), fun hcl => hmin r' hr hne ⟨g', hg', hcl⟩⟩

/-! ## Simulated back synchronisation -/

/-- Setting an element of the structure to its default values. -/
theorem setDefaults_at {root : Elem} (wf : root.WF) {q : Pos} {e : Elem} {o : Nat} (he : root.at? q = some e)
    (ho : root.offset 0 q = some o) {b : Board} (hb : b.length = root.footprint) :
    ∃ b', e.setDefaults o b = .ok b' ∧ b'.length = b.length ∧
      (∀ i, ¬ root.Owns q i → b'.bit i = b.bit i) ∧
      ∀ p f u, q <+: p → root.at? p = some f → root.offset 0 p = some u → f.kind.isParameter = true →
        SoundKind f.kind → (p = q → ∀ t, f.kind = .bit t → DefaultAt b u f.kind) → DefaultAt b' u f.kind := by
  rcases wf.at he with hwf | ⟨q0, i0, g0, size, nm, t, sy, rfl, _, _, _, rfl, _⟩
  · have hn := wf.extent_nested he ho
    have hne : ∀ t, e.kind ≠ .bit t := by cases hwf <;> simp [Elem.kind]
    have hx : e.extent o = (8 * o, 8 * (o + e.footprint)) := by
      unfold Elem.extent
      split
      · rename_i t ht; exact absurd ht (hne t)
      · rfl
    have hr : root.extent 0 = (0, 8 * root.footprint) := by
      have : ∀ t, root.kind ≠ .bit t := by cases wf <;> simp [Elem.kind]
      unfold Elem.extent
      split
      · rename_i t ht; exact absurd ht (this t)
      · simp
    rw [hx, hr] at hn
    simp only at hn
    obtain ⟨b', h1, h2, h3⟩ := Elem.setDefaults_spec hwf (b := b) (off := o) (by omega)
    refine ⟨b', h1, h2.1, ?_, ?_⟩
    · intro i hi
      refine h2.bits i ?_
      by_cases hlo : i < 8 * o
      · exact .inl hlo
      · refine .inr (Decidable.byContradiction fun hc => hi ⟨e, o, he, ho, ?_, ?_⟩)
        · rw [hx]; simp only; omega
        · rw [hx]; simp only; omega
    · rintro p f u ⟨r, rfl⟩ hp hu hpar hs _
      rw [Elem.at?_append, he, Option.bind_some] at hp
      rw [Elem.offset_append, he, ho] at hu
      exact h3 r f u hp hu hpar hs
  · refine ⟨b, by simp [Elem.setDefaults, EKind.setDefault], rfl, fun _ _ => rfl, ?_⟩
    rintro p f u ⟨r, rfl⟩ hp hu hpar hs hx
    rw [Elem.at?_append, he, Option.bind_some] at hp
    cases r with
    | nil =>
      simp only [Elem.at?, Option.some.injEq] at hp
      subst hp
      exact hx (by simp) t rfl
    | cons j r => simp [Elem.at?] at hp

theorem owns_unrelated {root : Elem} (wf : root.WF) (fd : root.FieldsDisjoint) {p q : Pos} (hu : Unrelated p q) {i : Nat}
    (hp : root.Owns p i) : ¬ root.Owns q i := by
  rintro ⟨g, u, hg, hu', h1, h2⟩
  obtain ⟨f, o, hf, ho, h3, h4⟩ := hp
  rcases wf.extent_disjoint fd hf hg ho hu' hu with h | h <;> omega

theorem DefaultAt.keep {root : Elem} {p : Pos} {f : Elem} {u : Nat} (hf : root.at? p = some f)
    (hu : root.offset 0 p = some u) {b b' : Board} (hl : b'.length = b.length)
    (h : ∀ i, root.Owns p i → b'.bit i = b.bit i) (hd : DefaultAt b u f.kind) : DefaultAt b' u f.kind :=
  PF.DefaultAt.congr (e := f) hl (fun i h1 h2 => h i ⟨f, u, hf, hu, h1, h2⟩) hd

/-- The simulated back synchronisation: it ends, changes only bits of the elements, and gives the
parameters in or below them their default values (a bit parameter by itself keeps its bits). -/
theorem backSimulated_spec {root : Elem} (wf : root.WF) (fd : root.FieldsDisjoint) {L : List Pos} (hL : NeedList root L)
    {b : Board} (hb : b.length = root.footprint) :
    ∃ b', root.backSimulated L b = .ok b' ∧ b'.length = root.footprint ∧
      (∀ i, (∀ q ∈ L, ¬ root.Owns q i) → b'.bit i = b.bit i) ∧
      ∀ p f u, (∃ q ∈ L, q <+: p) → root.at? p = some f → root.offset 0 p = some u → f.kind.isParameter = true →
        SoundKind f.kind → (∀ t, f.kind = .bit t → DefaultAt b u f.kind) → DefaultAt b' u f.kind := by
  induction L generalizing b with
  | nil => exact ⟨b, rfl, hb, fun _ _ => rfl, by simp⟩
  | cons q L ih =>
    obtain ⟨e, he⟩ := hL.at_ q (by simp)
    obtain ⟨o, ho⟩ := Elem.offset_of_at (off := 0) he
    obtain ⟨b1, h1, h2, h3, h4⟩ := setDefaults_at wf he ho hb
    have hL' : NeedList root L := ⟨fun r hr => hL.at_ r (by simp [hr]), (List.nodup_cons.1 hL.nodup).2,
      fun r hr r' hr' => hL.antichain r (by simp [hr]) r' (by simp [hr'])⟩
    obtain ⟨b2, h5, h6, h7, h8⟩ := ih hL' (b := b1) (by rw [h2, hb])
    refine ⟨b2, by simp only [Elem.backSimulated, he, ho, h1, Out.bind, h5], h6, ?_, ?_⟩
    · intro i hi
      rw [h7 i (fun r hr => hi r (by simp [hr])), h3 i (hi q (by simp))]
    · rintro p f u ⟨r, hr, hrp⟩ hf hu hpar hs hx
      have hunrel : ∀ r' ∈ q :: L, r' ≠ r → Unrelated p r' ∨ (p <+: r' ∧ r = r') := by
        intro r' hr' hne
        by_cases hp1 : p <+: r'
        · exact .inr ⟨hp1, hL.antichain r hr r' hr' (hrp.trans hp1)⟩
        · refine .inl ⟨hp1, fun hp2 => hne ?_⟩
          rcases List.prefix_or_prefix_of_prefix hrp hp2 with h | h
          · exact (hL.antichain r hr r' hr' h).symm
          · exact hL.antichain r' hr' r hr h
      rcases List.mem_cons.1 hr with rfl | hr1
      · have hd1 : DefaultAt b1 u f.kind := h4 p f u hrp hf hu hpar hs (fun _ => hx)
        refine PF.DefaultAt.keep hf hu (by rw [h6, h2, hb]) ?_ hd1
        intro i hi
        refine h7 i (fun r' hr' => ?_)
        have hne : r' ≠ r := fun h => (List.nodup_cons.1 hL.nodup).1 (h ▸ hr')
        rcases hunrel r' (by simp [hr']) hne with h | ⟨_, h⟩
        · exact owns_unrelated wf fd h hi
        · exact absurd h.symm hne
      · have hne : q ≠ r := fun h => (List.nodup_cons.1 hL.nodup).1 (h ▸ hr1)
        refine h8 p f u ⟨r, hr1, hrp⟩ hf hu hpar hs ?_
        intro t ht
        refine PF.DefaultAt.keep hf hu h2 ?_ (hx t ht)
        intro i hi
        refine h3 i ?_
        rcases hunrel q (by simp) hne with h | ⟨_, h⟩
        · exact owns_unrelated wf fd h hi
        · exact absurd h.symm hne

/-! ## Hardware back synchronisation -/

theorem findSyncer_some {x : Nat} {e : Elem} {p : Pos} (h : e.findSyncer x = some p) :
    ∃ f, e.at? p = some f ∧ f.syncer = some x := by
  cases e with | mk n k sy cs =>
  simp only [Elem.findSyncer] at h
  split at h
  · rename_i hs
    simp only [Option.some.injEq] at h
    subst h
    exact ⟨_, rfl, hs⟩
  · have key : ∀ (l : List Elem) (i : Nat) (p : Pos), (∀ c ∈ l, c ∈ cs) → Elem.findSyncerAll x i l = some p →
        ∃ (j : Nat) (c : Elem) (q : Pos), p = (i + j) :: q ∧ l[j]? = some c ∧ c.findSyncer x = some q := by
      intro l
      induction l with
      | nil => intro i p _ h; simp [Elem.findSyncerAll] at h
      | cons c l ih =>
        intro i p hm h
        simp only [Elem.findSyncerAll] at h
        split at h
        · rename_i q hq
          simp only [Option.some.injEq] at h
          exact ⟨0, c, q, by simp [← h], by simp, hq⟩
        · obtain ⟨j, d, q, h1, h2, h3⟩ := ih (i + 1) p (fun d hd => hm d (by simp [hd])) h
          exact ⟨j + 1, d, q, by rw [h1]; congr 1; omega, by simpa using h2, h3⟩
    obtain ⟨j, c, q, rfl, hc, hq⟩ := key cs 0 p (fun _ h => h) h
    obtain ⟨f, h1, h2⟩ := findSyncer_some hq
    refine ⟨f, ?_, h2⟩
    rw [Nat.zero_add, Elem.at?_cons]
    simp only [Elem.children, hc, Option.bind_some]
    exact h1
termination_by sizeOf e
decreasing_by
  subst_vars
  exact Elem.child_sizeOf hc

theorem findSyncer_exists {x : Nat} {e f : Elem} {p : Pos} (h : e.at? p = some f) (hs : f.syncer = some x) :
    ∃ q, e.findSyncer x = some q := by
  induction p generalizing e with
  | nil =>
    simp only [Elem.at?, Option.some.injEq] at h
    subst h
    cases e with | mk n k sy cs =>
    simp only [Elem.syncer] at hs
    exact ⟨[], by simp [Elem.findSyncer, hs]⟩
  | cons i p ih =>
    cases e with | mk n k sy cs =>
    rw [Elem.at?_cons] at h
    simp only [Elem.children] at h
    cases hc : cs[i]? with
    | none => simp [hc] at h
    | some c =>
      simp only [hc, Option.bind_some] at h
      obtain ⟨q, hq⟩ := ih h
      simp only [Elem.findSyncer]
      split
      · exact ⟨_, rfl⟩
      · have key : ∀ (l : List Elem) (i k : Nat), l[i]? = some c → ∃ q, Elem.findSyncerAll x k l = some q := by
          intro l
          induction l with
          | nil => simp
          | cons d l ih2 =>
            intro i k hi
            simp only [Elem.findSyncerAll]
            split
            · exact ⟨_, rfl⟩
            · rename_i hnone
              cases i with
              | zero => simp at hi; subst hi; rw [hq] at hnone; simp at hnone
              | succ i => exact ih2 i (k + 1) (by simpa using hi)
        exact key cs i 0 hc

theorem mem_backSyncers {root : Elem} {L : List Pos} {x : Nat} :
    x ∈ root.backSyncers L ↔ ∃ p ∈ L, x ∈ root.syncerSet p := by
  have key : ∀ (L : List Pos) (acc : SyncerSet), x ∈ L.foldl (fun acc p => SyncerSet.union acc (root.syncerSet p)) acc ↔
      x ∈ acc ∨ ∃ p ∈ L, x ∈ root.syncerSet p := by
    intro L
    induction L with
    | nil => simp
    | cons p L ih =>
      intro acc
      simp only [List.foldl_cons, ih, mem_union, List.mem_cons, exists_eq_or_imp, or_assoc]
  unfold Elem.backSyncers
  rw [key]
  simp

theorem backSyncers_sorted (root : Elem) (L : List Pos) : (root.backSyncers L).Pairwise (· < ·) := by
  have key : ∀ (L : List Pos) (acc : SyncerSet), acc.Pairwise (· < ·) →
      (L.foldl (fun acc p => SyncerSet.union acc (root.syncerSet p)) acc).Pairwise (· < ·) := by
    intro L
    induction L with
    | nil => intro acc h; exact h
    | cons p L ih => intro acc h; exact ih _ (union_sorted h)
  exact key L [] (by simp)

/-- One call of a syncer towards the blackboard. -/
theorem syncBack_spec {root : Elem} (wf : root.WF) (recv : Receive) {x : Nat} {q0 : Pos} {e0 : Elem} {o0 : Nat}
    (hfind : root.findSyncer x = some q0) (hq0 : root.at? q0 = some e0) (ho0 : root.offset 0 q0 = some o0) {b : Board}
    (hb : b.length = root.footprint) :
    ∃ b1, root.syncBack recv x b = .ok b1 ∧ b1.length = root.footprint ∧
      (∀ i, ¬ root.Owns q0 i → b1.bit i = b.bit i) ∧
      (recv x b = none → ∀ p f u, q0 <+: p → root.at? p = some f → root.offset 0 p = some u →
          f.kind.isParameter = true → SoundKind f.kind → (p = q0 → ∀ t, f.kind = .bit t → DefaultAt b u f.kind) → DefaultAt b1 u f.kind) ∧
      ∀ bs, recv x b = some bs → ∀ i,
          b1.bit i = if i < 8 * (o0 + bs.length) ∧ 8 * o0 ≤ i ∧ i < 8 * (o0 + e0.footprint) then Board.bit bs (i - 8 * o0)
            else b.bit i := by
  simp only [Elem.syncBack, hfind, hq0, ho0]
  cases hr : recv x b with
  | none =>
    obtain ⟨b1, h1, h2, h3, h4⟩ := setDefaults_at wf hq0 ho0 hb
    exact ⟨b1, h1, by rw [h2, hb], h3, fun _ => h4, by simp⟩
  | some bs =>
    have hroom : o0 + e0.footprint ≤ root.footprint := by
      rcases wf.at hq0 with hwf | ⟨p0, i0, g0, size, nm, t, sy, rfl, hg0, hwg, hk, rfl, _⟩
      · have hn := wf.extent_nested hq0 ho0
        have hne : ∀ t, e0.kind ≠ .bit t := by cases hwf <;> simp [Elem.kind]
        have hx : e0.extent o0 = (8 * o0, 8 * (o0 + e0.footprint)) := by
          unfold Elem.extent
          split
          · rename_i t ht; exact absurd ht (hne t)
          · rfl
        have hr : root.extent 0 = (0, 8 * root.footprint) := by
          have : ∀ t, root.kind ≠ .bit t := by cases wf <;> simp [Elem.kind]
          unfold Elem.extent
          split
          · rename_i t ht; exact absurd ht (this t)
          · simp
        rw [hx, hr] at hn
        simp only at hn
        omega
      · obtain ⟨og, hog⟩ := Elem.offset_of_at (off := 0) hg0
        have hn := wf.extent_nested hg0 hog
        have hx : g0.extent og = (8 * og, 8 * (og + g0.footprint)) := by simp [Elem.extent, hk]
        have hr : root.extent 0 = (0, 8 * root.footprint) := by
          have : ∀ t, root.kind ≠ .bit t := by cases wf <;> simp [Elem.kind]
          unfold Elem.extent
          split
          · rename_i t ht; exact absurd ht (this t)
          · simp
        rw [hx, hr] at hn
        simp only at hn
        rw [Elem.offset_append, hg0, hog] at ho0
        simp only [Option.bind_some, Elem.offset_cons] at ho0
        rw [Elem.at?_append, hg0, Option.bind_some, Elem.at?_single] at hq0
        simp only [hq0, Option.bind_some, Elem.offset, Option.some.injEq] at ho0
        rw [Elem.bitBlock_child_offset hwg hk hq0] at ho0
        simp only [Elem.footprint, EKind.ownSize]
        omega
    obtain ⟨b1, hw⟩ := Board.write_some (b := b) (off := o0) (bs := bs.take e0.footprint) (by
      simp only [List.length_take]; omega)
    have hl := Board.write_length hw
    have hbit : ∀ i, b1.bit i = if i < 8 * (o0 + bs.length) ∧ 8 * o0 ≤ i ∧ i < 8 * (o0 + e0.footprint) then Board.bit bs (i - 8 * o0)
          else b.bit i := by
      intro i
      rw [Board.write_bit hw]
      simp only [List.length_take]
      by_cases hin : i < 8 * (o0 + bs.length) ∧ 8 * o0 ≤ i ∧ i < 8 * (o0 + e0.footprint)
      · rw [if_pos (by omega), if_pos hin]
        refine Board.bit_of_byte' ?_ rfl
        rw [List.getElem?_take, if_pos (by omega)]
      · rw [if_neg (by omega), if_neg hin]
    refine ⟨b1, by simp [hw], by rw [hl.1, hb], ?_, by simp, ?_⟩
    · intro i hi
      rw [hbit, if_neg]
      rintro ⟨_, h2, h3⟩
      refine hi ⟨e0, o0, hq0, ho0, ?_⟩
      unfold Elem.extent
      split
      · rename_i t ht
        have : e0.footprint = 0 := by
          cases e0 with | mk n k sy cs =>
          simp only [Elem.kind] at ht; subst ht; simp [Elem.footprint, EKind.ownSize]
        omega
      · exact ⟨h2, h3⟩
    · intro bs' hbs'
      simp only [Option.some.injEq] at hbs'
      subst hbs'
      exact hbit

/-- The syncers of a set belong to elements, which own the bits they may write. -/
theorem syncBackAll_spec {root : Elem} (wf : root.WF) (fd : root.FieldsDisjoint) (nn : root.SyncersNotNested)
    (sd : SyncersDistinct root) (recv : Receive) {S : SyncerSet} (hnd : S.Nodup)
    (hS : ∀ x ∈ S, ∃ q e, root.at? q = some e ∧ e.syncer = some x) {b : Board} (hb : b.length = root.footprint) :
    ∃ b', root.syncBackAll recv S b = .ok b' ∧ b'.length = root.footprint ∧
      (∀ i, (∀ x ∈ S, ∀ q e, root.at? q = some e → e.syncer = some x → ¬ root.Owns q i) → b'.bit i = b.bit i) ∧
      ∀ x ∈ S, ∀ q e o, root.at? q = some e → e.syncer = some x → root.offset 0 q = some o →
        ∃ c : Board, c.length = root.footprint ∧ (∀ i, root.Owns q i → c.bit i = b.bit i) ∧
          (recv x c = none → ∀ p f u, q <+: p → root.at? p = some f → root.offset 0 p = some u →
            f.kind.isParameter = true → SoundKind f.kind → (p = q → ∀ t, f.kind = .bit t → DefaultAt b u f.kind) → DefaultAt b' u f.kind) ∧
          ∀ bs, recv x c = some bs → ∀ i, root.Owns q i →
            b'.bit i = if i < 8 * (o + bs.length) ∧ 8 * o ≤ i ∧ i < 8 * (o + e.footprint) then Board.bit bs (i - 8 * o)
              else b.bit i := by
  induction S generalizing b with
  | nil => exact ⟨b, rfl, hb, fun _ _ => rfl, by simp⟩
  | cons x S ih =>
    obtain ⟨q0, e0, hq0, hs0⟩ := hS x (by simp)
    obtain ⟨q1, hfind⟩ := findSyncer_exists hq0 hs0
    obtain ⟨e1, he1, hs1⟩ := findSyncer_some hfind
    have := sd _ _ _ _ x hq0 he1 hs0 hs1
    subst this
    rw [hq0] at he1
    have : e0 = e1 := Option.some.inj he1
    subst this
    obtain ⟨o0, ho0⟩ := Elem.offset_of_at (off := 0) hq0
    have hstep := syncBack_spec wf recv hfind hq0 ho0 hb
    obtain ⟨b1, h1, h2, h3, h4, h5⟩ := hstep
    obtain ⟨b2, k1, k2, k3, k4⟩ := ih (List.nodup_cons.1 hnd).2 (fun y hy => hS y (by simp [hy])) (b := b1) h2
    -- the elements of other syncers have no common bit with the one of `x`
    have hdisj : ∀ y ∈ S, ∀ q e, root.at? q = some e → e.syncer = some y → ∀ i, root.Owns q0 i → ¬ root.Owns q i := by
      intro y hy q e hq hs i hi
      have hne : q ≠ q0 := by
        rintro rfl
        rw [hq] at hq0
        have : e = e0 := Option.some.inj hq0
        subst this
        rw [hs] at hs0
        exact (List.nodup_cons.1 hnd).1 (Option.some.inj hs0 ▸ hy)
      refine owns_unrelated wf fd ⟨?_, ?_⟩ hi
      · rintro ⟨r, hr⟩
        have := nn q0 r e0 e hq0 (by rw [hr]; exact hq) (by rintro rfl; simp at hr; exact hne hr.symm) (by simp [hs0])
        rw [hs] at this; simp at this
      · rintro ⟨r, hr⟩
        have := nn q r e e0 hq (by rw [hr]; exact hq0) (by rintro rfl; simp at hr; exact hne hr) (by simp [hs])
        rw [hs0] at this; simp at this
    refine ⟨b2, by simp only [Elem.syncBackAll, h1, Out.bind, k1], k2, ?_, ?_⟩
    · intro i hi
      rw [k3 i (fun y hy => hi y (by simp [hy])), h3 i (hi x (by simp) q0 e0 hq0 hs0)]
    · intro y hy q e o hq hs ho
      rcases List.mem_cons.1 hy with rfl | hy'
      · have := sd _ _ _ _ y hq0 hq hs0 hs
        subst this
        rw [hq0] at hq
        have : e0 = e := Option.some.inj hq
        subst this
        rw [ho0] at ho
        have : o0 = o := Option.some.inj ho
        subst this
        have hkeep : ∀ i, root.Owns q0 i → b2.bit i = b1.bit i := fun i hi =>
          k3 i (fun z hz q' e' hq' hs' => hdisj z hz q' e' hq' hs' i hi)
        refine ⟨b, hb, fun _ _ => rfl, ?_, ?_⟩
        · intro hr p f u hp hf hu hpar hs' hx
          refine PF.DefaultAt.keep hf hu (by rw [k2, h2]) ?_ (h4 hr p f u hp hf hu hpar hs' hx)
          intro i hi
          refine hkeep i ?_
          obtain ⟨r, rfl⟩ := hp
          obtain ⟨f', u', hf', hu', l1, l2⟩ := hi
          have hf2 := hf'
          have hu2 := hu'
          rw [Elem.at?_append, hq0, Option.bind_some] at hf2
          rw [Elem.offset_append, hq0, ho0] at hu2
          rcases wf.at hq0 with hwf | ⟨p0, i0, g0, size, nm, t, sy, rfl, hg0, hwg, hk, rfl, _⟩
          · have hn := hwf.extent_nested hf2 hu2
            exact ⟨e0, o0, hq0, ho0, by omega, by omega⟩
          · cases r with
            | nil => rw [List.append_nil] at hf' hu'; exact ⟨f', u', hf', hu', l1, l2⟩
            | cons j r => simp [Elem.at?] at hf2
        · intro bs hr i hi
          rw [hkeep i hi]
          exact h5 bs hr i
      · obtain ⟨c, c1, c2, c3, c4⟩ := k4 y hy' q e o hq hs ho
        have hsame : ∀ i, root.Owns q i → b1.bit i = b.bit i := fun i hi =>
          h3 i (fun hx => hdisj y hy' q e hq hs i hx hi)
        refine ⟨c, c1, fun i hi => by rw [c2 i hi, hsame i hi], ?_, ?_⟩
        · intro hr p f u hp hf hu hpar hk hx
          refine c3 hr p f u hp hf hu hpar hk (fun hpq t ht => PF.DefaultAt.keep hf hu (by rw [h2, hb]) ?_ (hx hpq t ht))
          subst hpq
          exact hsame
        intro bs hr i hi
        rw [c4 bs hr i hi, hsame i hi]

/-! ## Back synchronisation ends -/

theorem backSimulated_total {root : Elem} (wf : root.WF) {L : List Pos} (hL : ∀ q ∈ L, ∃ f, root.at? q = some f)
    {b : Board} (hb : b.length = root.footprint) : ∃ b', root.backSimulated L b = .ok b' ∧ b'.length = root.footprint := by
  induction L generalizing b with
  | nil => exact ⟨b, rfl, hb⟩
  | cons q L ih =>
    obtain ⟨e, he⟩ := hL q (by simp)
    obtain ⟨o, ho⟩ := Elem.offset_of_at (off := 0) he
    obtain ⟨b1, h1, h2, _⟩ := setDefaults_at wf he ho hb
    obtain ⟨b2, h3, h4⟩ := ih (fun r hr => hL r (by simp [hr])) (b := b1) (by rw [h2, hb])
    exact ⟨b2, by simp only [Elem.backSimulated, he, ho, h1, Out.bind, h3], h4⟩

theorem syncBackAll_total {root : Elem} (wf : root.WF) (recv : Receive) {S : SyncerSet}
    (hS : ∀ x ∈ S, ∃ q e, root.at? q = some e ∧ e.syncer = some x) {b : Board} (hb : b.length = root.footprint) :
    ∃ b', root.syncBackAll recv S b = .ok b' ∧ b'.length = root.footprint := by
  induction S generalizing b with
  | nil => exact ⟨b, rfl, hb⟩
  | cons x S ih =>
    obtain ⟨q0, e0, hq0, hs0⟩ := hS x (by simp)
    obtain ⟨q1, hfind⟩ := findSyncer_exists hq0 hs0
    obtain ⟨e1, he1, hs1⟩ := findSyncer_some hfind
    obtain ⟨o1, ho1⟩ := Elem.offset_of_at (off := 0) he1
    obtain ⟨b1, h1, h2, _⟩ := syncBack_spec wf recv hfind he1 ho1 hb
    obtain ⟨b2, h3, h4⟩ := ih (fun y hy => hS y (by simp [hy])) h2
    exact ⟨b2, by simp only [Elem.syncBackAll, h1, Out.bind, h3], h4⟩

theorem backSyncers_owned {root : Elem} {L : List Pos} :
    ∀ x ∈ root.backSyncers L, ∃ q e, root.at? q = some e ∧ e.syncer = some x := by
  intro x hx
  obtain ⟨p, _, h⟩ := mem_backSyncers.1 hx
  obtain ⟨q, g, _, hg, hs⟩ := concerns_of_mem h
  exact ⟨q, g, hg, hs⟩

theorem backSync_total {root : Elem} (wf : root.WF) (back : BackSync) (ok : Pos → Bool) {b : Board}
    (hb : b.length = root.footprint) :
    ∃ b', back.sync root (root.aggregate ok []).2 b = .ok b' ∧ b'.length = root.footprint := by
  cases back with
  | simulated => exact backSimulated_total wf (aggregate_needList root ok).at_ hb
  | hardware recv => exact syncBackAll_total wf recv backSyncers_owned hb

/-! ## From the settings file to the first application -/

theorem FirstQualifying.map {cs : List Criterion} {l : List Config} {g : Config → Config} (hg : ∀ c ∈ l, c.Same (g c)) :
    (∃ c, FirstQualifying cs (l.map g) c) ↔ ∃ c, FirstQualifying cs l c := by
  have hq : ∀ c ∈ l, (Qualifies cs (g c) ↔ Qualifies cs c) := by
    intro c hc
    unfold Qualifies
    rw [(hg c hc).2.2]
  constructor
  · rintro ⟨c, pre, post, he, h1, h2⟩
    obtain ⟨pre0, l1, rfl, rfl, h3⟩ := List.map_eq_append_iff.1 he
    obtain ⟨c0, post0, rfl, rfl, rfl⟩ := List.map_eq_cons_iff.1 h3
    refine ⟨c0, pre0, post0, rfl, (hq c0 (by simp)).1 h1, ?_⟩
    intro x hx hqx
    exact h2 (g x) (List.mem_map.2 ⟨x, hx, rfl⟩) ((hq x (by simp [hx])).2 hqx)
  · rintro ⟨c, pre, post, rfl, h1, h2⟩
    refine ⟨g c, pre.map g, post.map g, by simp, (hq c (by simp)).2 h1, ?_⟩
    intro x hx hqx
    obtain ⟨y, hy, rfl⟩ := List.mem_map.1 hx
    exact h2 y hy ((hq y (by simp [hy])).1 hqx)

/-- The state before anything is loaded, with some content of the blackboard. -/
def St.blank (root : Elem) (cs : List Criterion) (main : Board) : St := { St.initial root cs with mem := ⟨main, []⟩ }

theorem St.blank_inv {root : Elem} {cs : List Criterion} {main : Board} (h : main.length = root.footprint) :
    (St.blank root cs main).Inv root := (St.Inv.initial root cs).withMain h

/-- What `loadSettingsFile` does, against an import. -/
theorem loadSettingsFile_doc {root : Elem} {rd : Reader} {cs : List Criterion} {x : Xml} {main : Board} :
    (St.blank root cs main).importDomains root rd true x =
      match (St.initial root cs).loadSettingsFile root rd (.doc x) with
      | (.ok _, st1) =>
        match mapAll (Domain.validate root main) st1.domains with
        | none => (.abort, St.blank root cs main)
        | some ds => (.ok (), { st1 with mem := { st1.mem with main := main }, domains := ds })
      | (o, _) => (o, St.blank root cs main) := by
  have h1 : (St.blank root cs main).deleteAllDomains.2 = St.blank root cs main := rfl
  have h2 : (St.initial root cs).deleteAllDomains.2 = St.initial root cs := rfl
  simp only [St.importDomains, St.loadSettingsFile, h1, h2]
  by_cases ht : x.tag = s "ConfigurableDomains"
  case neg => simp [ht]
  by_cases hn : root.name ≠ [] ∧ x.attrText (s "SystemClassName") ≠ root.name
  case pos => simp [ht, hn]
  simp only [ht, ne_eq, not_true_eq_false, if_false, if_neg hn]
  have e1 : (St.blank root cs main).criteria = cs := rfl
  have e2 : (St.blank root cs main).nextId = (St.initial root cs).nextId := rfl
  have e3 : (St.blank root cs main).attached = [] := rfl
  have e4 : (St.initial root cs).criteria = cs := rfl
  have e5 : (St.initial root cs).attached = [] := rfl
  rw [e1, e2, e3, e4, e5]
  rcases domainsFromXml root rd cs true x.children (St.initial root cs).nextId [] with ⟨ds, att, n⟩ | _ | _
  · simp only
    rfl
  · rfl
  · rfl

/-- The domains read from the settings file. -/
theorem loadSettingsFile_ok {root : Elem} (wf : root.WF) {rd : Reader} {cs : List Criterion} {x : Xml} {st1 : St}
    (h : (St.initial root cs).loadSettingsFile root rd (.doc x) = (.ok (), st1)) :
    st1.mem = ⟨root.mainBoard, []⟩ ∧ st1.criteria = cs ∧
    (∀ d ∈ st1.domains, d.Loading root ∧ RulesOK cs d.configs) ∧ (st1.domains.map Domain.id).Nodup ∧
    (∀ p i, (p, i) ∈ st1.attached ↔ ∃ d ∈ st1.domains, d.id = i ∧ p ∈ d.elems) ∧
    st1.domains.length = x.children.length ∧
    (root.FieldsDisjoint → ∀ (k : Nat) y d, x.children[k]? = some y → st1.domains[k]? = some d →
      (d.configs.map Config.name).Nodup → (∀ c ∈ d.configs, c.name ≠ []) →
      DeclaresSettings root rd none (settingsElems true y) d) := by
  have h2 : (St.initial root cs).deleteAllDomains.2 = St.initial root cs := rfl
  simp only [St.loadSettingsFile, h2] at h
  split at h
  · simp at h
  split at h
  · simp at h
  split at h
  · simp at h
  · simp at h
  rename_i ds att n hd
  simp only [Prod.mk.injEq, true_and] at h
  subst h
  obtain ⟨_, b2, b3, b4, b5, b6⟩ := domainsFromXml_spec wf (by simp [St.initial]) hd
  refine ⟨rfl, rfl, fun d hd => ⟨(b2 d hd).1, (b2 d hd).2.2.2.2⟩, b3, ?_, b5, ?_⟩
  · intro p i
    rw [b4]
    simp [St.initial]
  · intro fd k y d hy hdk hn hne
    obtain ⟨m, att0, aware, att1, m', f1, f2, f3⟩ := b6 k y d hy hdk
    have := Domain.fromXml_settings wf fd f1 f3 hn hne (g := fun c => c) (fun c _ => .refl c) none
      (by
        intro c hc p a ha
        exact ⟨a, ha, fun _ => rfl, fun hf => hf⟩)
    simpa using this

/-- A start: a state with the loaded domains, made valid from the back synchronised blackboard, then applied. -/
def StartMid (env : Env) (failOnError : Bool) (settings : Settings) (back : BackSync) (cs : List Criterion) : Prop :=
  ∃ (st1 : St) (main : Board) (mid : St), back.sync env.root (st1.needBackSync env.root) env.root.mainBoard = .ok main ∧
    main.length = env.root.footprint ∧
    st1.criteria = cs ∧ (∀ d ∈ st1.domains, d.Loading env.root ∧ RulesOK cs d.configs) ∧
    (st1.domains.map Domain.id).Nodup ∧
    (∀ p i, (p, i) ∈ st1.attached ↔ ∃ d ∈ st1.domains, d.id = i ∧ p ∈ d.elems) ∧
    mid.mem = ⟨main, []⟩ ∧ mid.criteria = cs ∧ mid.Inv env.root ∧
    St.start env failOnError settings back cs = mid.apply env.root env.hw true ∧
    (∃ gm : Domain → Domain, mid.domains = st1.domains.map gm ∧
      ∀ d ∈ st1.domains, ∃ g : Config → Config, gm d = { d with configs := d.configs.map g } ∧
        (∀ c ∈ d.configs, c.Same (g c)) ∧
        (∀ c ∈ d.configs, ∀ p a, c.area? p = some a → ∃ a', (g c).area? p = some a' ∧ (a.valid = true → a' = a) ∧
          (a.valid = false → ∀ i, env.root.Owns p i → a'.value env.root i = main.bit i))) ∧
    (env.root.FieldsDisjoint → ∀ x, settings = .doc x → ∀ (k : Nat) y d, x.children[k]? = some y → st1.domains[k]? = some d →
      (d.configs.map Config.name).Nodup → (∀ c ∈ d.configs, c.name ≠ []) →
      DeclaresSettings env.root env.rd none (settingsElems true y) d) ∧
    ((∃ x, settings = .doc x ∧ (St.blank env.root cs main).importDomains env.root env.rd true x = (.ok (), mid)) ∨
      ((∀ x, settings = .doc x → ((St.blank env.root cs main).importDomains env.root env.rd true x).1 = .err) ∧
        (settings ≠ .absent → failOnError = false) ∧ mid = St.blank env.root cs main))

/-- The two ways of a start: without domains, or with those of the document. -/
theorem St.start_mid {env : Env} (wf : env.root.WF) {failOnError : Bool} {settings : Settings} {back : BackSync}
    {cs : List Criterion} (hok : (St.start env failOnError settings back cs).1 = .ok ()) :
    StartMid env failOnError settings back cs := by
  -- without domains
  have none_ : ∀ main, back.sync env.root ((St.initial env.root cs).needBackSync env.root) env.root.mainBoard = .ok main →
      (St.initial env.root cs).finishStart env back = (St.blank env.root cs main).apply env.root env.hw true := by
    intro main hm
    have hm' : back.sync env.root ((St.initial env.root cs).needBackSync env.root) (St.initial env.root cs).mem.main = .ok main := hm
    simp only [St.finishStart, hm']
    rfl
  have hmb : env.root.mainBoard.length = env.root.footprint := by simp [Elem.mainBoard]
  have blank : (settings ≠ .absent → failOnError = false) →
      (∀ main : Board, main.length = env.root.footprint →
        ∀ x, settings = .doc x → ((St.blank env.root cs main).importDomains env.root env.rd true x).1 = .err) →
      St.start env failOnError settings back cs = (St.initial env.root cs).finishStart env back →
      StartMid env failOnError settings back cs := by
    intro h1 h2 h3
    obtain ⟨main, hm, hml⟩ := backSync_total wf back (St.initial env.root cs).noValidDomain hmb
    exact ⟨St.initial env.root cs, main, St.blank env.root cs main, hm, hml, rfl, by simp [St.initial], by simp [St.initial],
      by simp [St.initial], rfl, rfl, St.blank_inv hml, h3.trans (none_ main hm),
      ⟨id, rfl, by simp [St.initial]⟩, by simp [St.initial], .inr ⟨h2 main hml, h1, rfl⟩⟩
  cases settings with
  | absent => exact blank (by simp) (by simp) rfl
  | unusable =>
    cases failOnError with
    | true => simp [St.start, St.loadSettings, St.loadSettingsFile] at hok
    | false => exact blank (by simp) (by simp) rfl
  | doc x =>
    cases hl : (St.initial env.root cs).loadSettingsFile env.root env.rd (.doc x) with | mk o st1 =>
    cases o with
    | ok u =>
      obtain ⟨l1, l2, l3, l4, l5, l6, l7⟩ := loadSettingsFile_ok wf hl
      obtain ⟨main, hm, hml⟩ := backSync_total wf back st1.noValidDomain hmb
      have hm1 : back.sync env.root (st1.needBackSync env.root) st1.mem.main = .ok main := by rw [l1]; exact hm
      have himp := loadSettingsFile_doc (root := env.root) (rd := env.rd) (cs := cs) (x := x) (main := main)
      rw [hl] at himp
      simp only at himp
      have hst : St.start env failOnError (.doc x) back cs = st1.finishStart env back := by
        simp only [St.start, St.loadSettings, hl]
      have hkeep : ∀ d ∈ st1.domains, ∃ g : Config → Config,
          d.validate env.root main = some { d with configs := d.configs.map g } ∧ (∀ c ∈ d.configs, c.Same (g c)) ∧
          (∀ c ∈ d.configs, ∀ p a, c.area? p = some a → ∃ a', (g c).area? p = some a' ∧ (a.valid = true → a' = a) ∧
            (a.valid = false → ∀ i, env.root.Owns p i → a'.value env.root i = main.bit i)) := by
        intro d hd
        obtain ⟨g, h1, h2, _, h3, _⟩ := Domain.validate_spec wf (l3 d hd).1 hml
        exact ⟨g, h1, h2, h3⟩
      obtain ⟨gm, hgm, hgm'⟩ : ∃ gm : Domain → Domain, mapAll (Domain.validate env.root main) st1.domains =
          some (st1.domains.map gm) ∧ ∀ d ∈ st1.domains, d.validate env.root main = some (gm d) :=
        ⟨_, mapAll_total (fun d hd => by obtain ⟨g, h1, _⟩ := hkeep d hd; exact ⟨_, h1⟩), fun d hd => by
          obtain ⟨g, h1, _⟩ := hkeep d hd
          rw [h1]; rfl⟩
      rw [hgm] at himp
      simp only at himp
      have hinv := (St.blank_inv (cs := cs) hml).importDomains wf env.rd true x
      rw [himp] at hinv
      refine ⟨st1, main, { st1 with mem := { st1.mem with main := main }, domains := st1.domains.map gm }, hm, hml, l2, l3, l4, l5, ?_, l2, hinv, ?_, ?_, ?_, .inl ⟨x, rfl, himp⟩⟩
      · show ({ st1.mem with main := main } : Mem) = _
        rw [l1]
      · rw [hst]
        simp only [St.finishStart, hm1, hgm]
      · refine ⟨gm, rfl, fun d hd => ?_⟩
        obtain ⟨g, h1, h2, h3⟩ := hkeep d hd
        have := hgm' d hd
        rw [h1] at this
        simp only [Option.some.injEq] at this
        exact ⟨g, this.symm, h2, h3⟩
      · rintro fd y hy
        obtain rfl : x = y := by simpa using hy
        exact l7 fd
    | err =>
      have hst1 : st1 = St.initial env.root cs := by
        have h2 : (St.initial env.root cs).deleteAllDomains.2 = St.initial env.root cs := rfl
        simp only [St.loadSettingsFile, h2] at hl
        split at hl
        · exact (Prod.mk.inj hl).2.symm
        split at hl
        · exact (Prod.mk.inj hl).2.symm
        split at hl <;> simp at hl
        exact hl.symm
      subst hst1
      cases failOnError with
      | true => simp [St.start, St.loadSettings, hl] at hok
      | false =>
        refine blank (by simp) ?_ ?_
        · intro main _ y hy
          obtain rfl : x = y := by simpa using hy
          rw [loadSettingsFile_doc, hl]
        · simp [St.start, St.loadSettings, hl]
    | abort => simp [St.start, St.loadSettings, hl] at hok

/-- A configuration that the criteria select has settings that the file gives, for the element at `p` or one
above or below it. -/
def Fresh (st : St) (p : Pos) : Prop :=
  ∃ d ∈ st.domains, ∃ c, FirstQualifying st.criteria d.configs c ∧ ∃ q ∈ d.elems, (p <+: q ∨ q <+: p) ∧
    ∃ a, c.area? q = some a ∧ a.valid = true

/-- An element for which the file gives no settings that are selected, above it or below it, is in one that
needs back synchronisation. -/
theorem needBackSync_covers {root f : Elem} {st : St} {cs : List Criterion} (hcs : st.criteria = cs)
    (hr : ∀ d ∈ st.domains, RulesOK cs d.configs)
    (hatt : ∀ p i, (p, i) ∈ st.attached ↔ ∃ d ∈ st.domains, d.id = i ∧ p ∈ d.elems)
    (hid : (st.domains.map Domain.id).Nodup) {p : Pos} (hp : root.at? p = some f) (hs : ¬ Fresh st p) :
    ∃ q ∈ st.needBackSync root, q <+: p := by
  refine aggregate_covers hp (fun r hrp => ?_)
  simp only [St.noValidDomain, List.all_eq_true, Bool.not_eq_true', Bool.and_eq_false_iff]
  intro d hd
  refine Decidable.byContradiction fun hc => hs ?_
  simp only [not_or, Bool.not_eq_false] at hc
  obtain ⟨h1, h2⟩ := hc
  obtain ⟨d', hd', hi, hm⟩ := (hatt r d.id).1 (by simpa using h1)
  obtain rfl := nodup_map_inj hid hd' hd hi
  obtain ⟨o, ho, hoc⟩ := findApplicable_spec (hr d' hd)
  simp only [Domain.applicableValid, hcs, ho] at h2
  cases o with
  | none => simp at h2
  | some c =>
    simp only [Config.isValid, beq_iff_eq, Option.map_eq_some_iff] at h2
    exact ⟨d', hd, c, by rw [hcs]; exact (hoc c).1 rfl, r, hm, hrp.symm, h2⟩

theorem FirstQualifying.map_inv {cs : List Criterion} {l : List Config} {g : Config → Config}
    (hg : ∀ c ∈ l, c.Same (g c)) {c' : Config} (h : FirstQualifying cs (l.map g) c') :
    ∃ c, c' = g c ∧ FirstQualifying cs l c := by
  have hq : ∀ c ∈ l, Qualifies cs (g c) ↔ Qualifies cs c := fun c hc => by
    unfold Qualifies; rw [(hg c hc).2.2]
  obtain ⟨pre, post, he, h1, h2⟩ := h
  obtain ⟨pre0, rest, rfl, hpre, hrest⟩ := List.map_eq_append_iff.1 he
  obtain ⟨c, post0, rfl, rfl, rfl⟩ := List.map_eq_cons_iff.1 hrest
  refine ⟨c, rfl, pre0, post0, rfl, (hq c (by simp)).1 h1, ?_⟩
  intro x hx hqx
  exact h2 (g x) (by rw [← hpre]; exact List.mem_map.2 ⟨x, hx, rfl⟩) ((hq x (by simp [hx])).2 hqx)

/-- The start leaves the bits of an element for which the file gives no settings that are selected as the back
synchronisation made them. -/
theorem start_frame {env : Env} (wf : env.root.WF) (fd : env.root.FieldsDisjoint) {mid st1 : St} (inv : mid.Inv env.root)
    {cs : List Criterion} (h1 : st1.criteria = cs) (h2 : mid.criteria = cs) {gm : Domain → Domain} {main : Board}
    (hm : mid.mem.main = main) (hok : ∀ d ∈ st1.domains, d.Loading env.root)
    (hd : mid.domains = st1.domains.map gm)
    (hg : ∀ d ∈ st1.domains, ∃ g : Config → Config, gm d = { d with configs := d.configs.map g } ∧
        (∀ c ∈ d.configs, c.Same (g c)) ∧
        (∀ c ∈ d.configs, ∀ p a, c.area? p = some a → ∃ a', (g c).area? p = some a' ∧ (a.valid = true → a' = a) ∧
          (a.valid = false → ∀ i, env.root.Owns p i → a'.value env.root i = main.bit i)))
    {p : Pos} (hs : ¬ Fresh st1 p) {i : Nat} (hi : env.root.Owns p i) :
    (mid.apply env.root env.hw true).2.mem.main.bit i = main.bit i := by
  obtain ⟨as, b1, ss, as', ev, b2, k1, k2, k3, k4, k5, k6, k7⟩ :=
    applyDomains_trace wf env.hw true inv.good inv.rules inv.main (resyncSet_sorted env.root mid.asked)
  have hw2 := k3.append k7.written
  have hres : (mid.apply env.root env.hw true).2.mem.main = b2 := by simp only [St.apply, k1]
  rw [hres]
  have hv : ∀ a ∈ as ++ as', env.root.Owns a.elem i → a.value env.root i = main.bit i := by
    intro a' ha' hia
    have : ∃ d' ∈ mid.domains, ∃ c', Switches mid.criteria true d' c' ∧ a' ∈ c'.areas := by
      rcases List.mem_append.1 ha' with ha' | ha'
      · obtain ⟨d', hd', _, c', hc', hx⟩ := (k2.mem_iff a').1 ha'; exact ⟨d', hd', c', hc', hx⟩
      · obtain ⟨d', hd', _, c', hc', hx⟩ := (k6.mem_iff a').1 ha'; exact ⟨d', hd', c', hc', hx⟩
    obtain ⟨d', hd', c', hc', hx⟩ := this
    rw [hd] at hd'
    obtain ⟨d, hdm, rfl⟩ := List.mem_map.1 hd'
    obtain ⟨g, g1, g2, g3⟩ := hg d hdm
    have hgood := inv.good (gm d) (by rw [hd]; exact List.mem_map.2 ⟨d, hdm, rfl⟩)
    have hc'' := hc'.1
    rw [g1] at hc''
    obtain ⟨c, rfl, hc⟩ := FirstQualifying.map_inv g2 hc''
    have hcm : c ∈ d.configs := by obtain ⟨pre, post, he, _⟩ := hc; rw [he]; simp
    have okg := hgood.ok (g c) hc'.mem
    have hq : a'.elem ∈ d.elems := by
      have := (okg.mem _).1 (List.mem_map.2 ⟨a', hx, rfl⟩)
      rw [g1] at this
      exact this
    obtain ⟨a, ham, hae⟩ := List.mem_map.1 (((hok d hdm).ok c hcm).mem a'.elem |>.2 hq)
    have harea : c.area? a'.elem = some a := ((hok d hdm).ok c hcm).area_iff.2 ⟨ham, hae⟩
    obtain ⟨a'', x1, _, x3⟩ := g3 c hcm _ a harea
    have : a' = a'' := by
      have := okg.area_iff.2 ⟨hx, rfl⟩
      rw [x1] at this
      simpa using this.symm
    subst this
    cases hval : a.valid with
    | false => exact x3 hval i hia
    | true =>
      refine absurd ⟨d, hdm, c, by rw [h1, ← h2]; exact hc, a'.elem, hq, ?_, a, harea, hval⟩ hs
      refine Decidable.byContradiction fun hn => ?_
      exact owns_unrelated wf fd ⟨fun h => hn (.inl h), fun h => hn (.inr h)⟩ hi hia
  by_cases hex : ∃ a ∈ as ++ as', env.root.Owns a.elem i
  · exact hw2.value hv hex
  · rw [hw2.frame (fun a ha ho => hex ⟨a, ha, ho⟩), hm]

theorem start_length {env : Env} (wf : env.root.WF) {mid : St} (inv : mid.Inv env.root) :
    (mid.apply env.root env.hw true).2.mem.main.length = mid.mem.main.length :=
  (St.Inv.apply_frame wf inv true (o := (mid.apply env.root env.hw true).1) rfl).1

/-- What the file does not give is not selected in the state that is loaded. -/
theorem notSet_fresh {env : Env} (wf : env.root.WF) {settings : Settings} {mid st1 : St} (inv : mid.Inv env.root)
    {cs : List Criterion} (h1 : st1.criteria = cs) (h2 : mid.criteria = cs) {gm : Domain → Domain}
    (hok : ∀ d ∈ st1.domains, d.Loading env.root) (hd : mid.domains = st1.domains.map gm)
    (hg : ∀ d ∈ st1.domains, ∃ g : Config → Config, gm d = { d with configs := d.configs.map g } ∧
        (∀ c ∈ d.configs, c.Same (g c)))
    (hx : ∀ x, settings = .doc x → ∀ (k : Nat) y d, x.children[k]? = some y → st1.domains[k]? = some d →
      (d.configs.map Config.name).Nodup → (∀ c ∈ d.configs, c.name ≠ []) →
      DeclaresSettings env.root env.rd none (settingsElems true y) d) {p : Pos}
    (hs : NotSet env.root settings (mid.apply env.root env.hw true).2 p) : ¬ Fresh st1 p := by
  rintro ⟨d, hdm, c, hc, q, hq, hpq, a, ha, hav⟩
  obtain ⟨k, hk, rfl⟩ := List.mem_iff_getElem.1 hdm
  obtain ⟨g, g1, g2⟩ := hg _ hdm
  obtain ⟨b, log, hap, _⟩ := inv.apply_eq wf env.hw true
  rw [hap] at hs
  have hcm : c ∈ st1.domains[k].configs := by obtain ⟨pre, post, he, _⟩ := hc; rw [he]; simp
  have hcf : (gm st1.domains[k]).configs = st1.domains[k].configs.map g := by rw [g1]
  have hnm : (gm st1.domains[k]).configs.map Config.name = st1.domains[k].configs.map Config.name := by
    rw [hcf, List.map_map]
    exact List.map_congr_left fun c hc => (g2 c hc).2.1
  have := hs k (Domain.target mid.criteria true (gm st1.domains[k])) (by simp [hd, hk]) (by
      simp only [Spec.FirstQualifying.reset]
      show ∃ c, FirstQualifying mid.criteria (gm st1.domains[k]).configs c
      rw [h2, hcf]
      exact (FirstQualifying.map g2).2 ⟨c, by rw [← h1]; exact hc⟩)
    q (show q ∈ (gm st1.domains[k]).elems by rw [g1]; exact hq) hpq
  obtain ⟨n1, n2, x, y, path, rfl, hy, hpath, hnone⟩ := this
  have n1' : ((gm st1.domains[k]).configs.map Config.name).Nodup := n1
  have n2' : ∀ c ∈ (gm st1.domains[k]).configs, c.name ≠ [] := n2
  have hnone' : ∀ c ∈ (gm st1.domains[k]).configs, givenFor (settingsElems true y) c.name path = none := hnone
  have hback : ∀ c ∈ st1.domains[k].configs, g c ∈ (gm st1.domains[k]).configs ∧ (g c).name = c.name := fun c hc =>
    ⟨by rw [hcf]; exact List.mem_map.2 ⟨c, hc, rfl⟩, (g2 c hc).2.1⟩
  have hall : ∀ c ∈ st1.domains[k].configs, givenFor (settingsElems true y) c.name path = none := by
    intro c hc
    rw [← (hback c hc).2]
    exact hnone' _ (hback c hc).1
  obtain ⟨_, hdec⟩ := hx x rfl k y _ hy (List.getElem?_eq_getElem hk) (by rw [← hnm]; exact n1') (by
    intro c hc
    rw [← (hback c hc).2]
    exact n2' _ (hback c hc).1)
  obtain ⟨a', ha', hae, hm⟩ := hdec c hcm q hq path hpath
  rw [hall c hcm] at hm
  have hf : st1.domains[k].configs.find? (fun c' => (givenFor (settingsElems true y) c'.name path).isSome) = none := by
    rw [List.find?_eq_none]
    intro c' hc'
    rw [hall c' hc']
    simp
  simp only [hf, NotGiven] at hm
  have := ((hok _ hdm).ok c hcm).area_iff.2 ⟨ha', hae⟩
  rw [ha] at this
  simp only [Option.some.injEq] at this
  rw [this, hm] at hav
  simp at hav

/-- The bits of an element are among those of one above it. -/
theorem owns_below {root e : Elem} (wf : root.WF) {q p : Pos} (hqp : q <+: p) (he : root.at? q = some e) {i : Nat}
    (hi : root.Owns p i) : root.Owns q i := by
  obtain ⟨r, rfl⟩ := hqp
  obtain ⟨f', u', hf', hu', l1, l2⟩ := hi
  obtain ⟨o0, ho0⟩ := Elem.offset_of_at (off := 0) he
  have hf2 := hf'
  have hu2 := hu'
  rw [Elem.at?_append, he, Option.bind_some] at hf2
  rw [Elem.offset_append, he, ho0] at hu2
  rcases wf.at he with hwf | ⟨p0, i0, g0, size, nm, t, sy, rfl, hg0, hwg, hk, rfl, _⟩
  · have hn := hwf.extent_nested hf2 hu2
    exact ⟨e, o0, he, ho0, by omega, by omega⟩
  · cases r with
    | nil => rw [List.append_nil] at hf' hu'; exact ⟨f', u', hf', hu', l1, l2⟩
    | cons j r => simp [Elem.at?] at hf2

/-- Whether a document is accepted does not depend on the blackboard. -/
theorem St.importDomains_main {root : Elem} (wf : root.WF) {rd : Reader} {cs : List Criterion} {x : Xml}
    {main main' : Board} (h : main.length = root.footprint) (h' : main'.length = root.footprint) :
    ((St.blank root cs main).importDomains root rd true x).1 = ((St.blank root cs main').importDomains root rd true x).1 := by
  rw [loadSettingsFile_doc, loadSettingsFile_doc]
  cases hl : (St.initial root cs).loadSettingsFile root rd (.doc x) with | mk o st1 =>
  cases o with
  | ok u =>
    obtain ⟨_, _, l3, _⟩ := loadSettingsFile_ok wf hl
    have key : ∀ main : Board, main.length = root.footprint → ∃ ds, mapAll (Domain.validate root main) st1.domains = some ds := by
      intro main hm
      exact ⟨_, mapAll_total (fun d hd => by
        obtain ⟨g, h1, _⟩ := Domain.validate_spec wf (l3 d hd).1 hm
        exact ⟨_, h1⟩)⟩
    obtain ⟨ds, hd⟩ := key main h
    obtain ⟨ds', hd'⟩ := key main' h'
    simp only [hd, hd']
  | err => rfl
  | abort => rfl

theorem St.finishStart_ok {env : Env} (wf : env.root.WF) (back : BackSync) {st1 : St}
    (hm : st1.mem.main.length = env.root.footprint)
    (hmid : ∀ main : Board, main.length = env.root.footprint → ∃ ds, mapAll (Domain.validate env.root main) st1.domains = some ds ∧
      St.Inv env.root { st1 with mem := { st1.mem with main := main }, domains := ds }) :
    (st1.finishStart env back).1 = .ok () := by
  obtain ⟨main, h1, h2⟩ := backSync_total wf back st1.noValidDomain hm
  obtain ⟨ds, h3, h4⟩ := hmid main h2
  have h1' : back.sync env.root (st1.needBackSync env.root) st1.mem.main = .ok main := h1
  simp only [St.finishStart, h1', h3]
  obtain ⟨b, log, h5, _⟩ := h4.apply_eq wf env.hw true
  rw [h5]

theorem St.start_outcome {env : Env} (wf : env.root.WF) (failOnError : Bool) (settings : Settings) (back : BackSync)
    (cs : List Criterion) :
    (St.start env failOnError settings back cs).1 =
      match settings with
      | .absent => .ok ()
      | .unusable => if failOnError then .err else .ok ()
      | .doc x =>
        match ((St.initial env.root cs).importDomains env.root env.rd true x).1 with
        | .err => if failOnError then .err else .ok ()
        | r => r := by
  have hmb : env.root.mainBoard.length = env.root.footprint := by simp [Elem.mainBoard]
  have hblank : ((St.initial env.root cs).finishStart env back).1 = .ok () := by
    refine St.finishStart_ok wf back hmb (fun main hm => ⟨[], rfl, ?_⟩)
    exact St.blank_inv hm
  cases settings with
  | absent => exact hblank
  | unusable =>
    cases failOnError with
    | true => rfl
    | false => exact hblank
  | doc x =>
    have himp := loadSettingsFile_doc (root := env.root) (rd := env.rd) (cs := cs) (x := x) (main := env.root.mainBoard)
    have hb : St.blank env.root cs env.root.mainBoard = St.initial env.root cs := rfl
    rw [hb] at himp
    cases hl : (St.initial env.root cs).loadSettingsFile env.root env.rd (.doc x) with | mk o st1 =>
    rw [hl] at himp
    cases o with
    | ok u =>
      obtain ⟨l1, l2, l3, l4, l5⟩ := loadSettingsFile_ok wf hl
      have key : ∀ main : Board, main.length = env.root.footprint → ∃ ds, mapAll (Domain.validate env.root main) st1.domains = some ds ∧
          St.Inv env.root { st1 with mem := { st1.mem with main := main }, domains := ds } := by
        intro main hm
        have hds := mapAll_total (f := Domain.validate env.root main) (l := st1.domains) (fun d hd => by
          obtain ⟨g, h1, _⟩ := Domain.validate_spec wf (l3 d hd).1 hm
          exact ⟨_, h1⟩)
        refine ⟨_, hds, ?_⟩
        have hinv := (St.blank_inv (cs := cs) hm).importDomains wf env.rd true x
        rw [loadSettingsFile_doc, hl] at hinv
        simp only [hds] at hinv
        exact hinv
      have hfin := St.finishStart_ok wf back (by rw [l1]; exact hmb) key
      obtain ⟨ds, hds, _⟩ := key env.root.mainBoard hmb
      simp only [hds] at himp
      simp only [himp, St.start, St.loadSettings, hl, hfin]
    | err =>
      have hst1 : st1 = St.initial env.root cs := by
        have h2 : (St.initial env.root cs).deleteAllDomains.2 = St.initial env.root cs := rfl
        simp only [St.loadSettingsFile, h2] at hl
        split at hl
        · exact (Prod.mk.inj hl).2.symm
        split at hl
        · exact (Prod.mk.inj hl).2.symm
        split at hl <;> simp at hl
        exact hl.symm
      subst hst1
      simp only [himp, St.start, St.loadSettings, hl]
      cases failOnError with
      | true => rfl
      | false => exact hblank
    | abort => simp only [himp, St.start, St.loadSettings, hl]

end PF
