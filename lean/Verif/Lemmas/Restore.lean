import Verif.Lemmas.Config
import Verif.Lemmas.Syncers

/-! # Restoring areas, calling syncers -/

namespace PF

/-! ## Sets of syncers -/

theorem insert_sorted {x : Nat} {l : SyncerSet} (h : l.Pairwise (· < ·)) :
    (SyncerSet.insert x l).Pairwise (· < ·) := by
  induction l with
  | nil => simp [SyncerSet.insert]
  | cons y l ih =>
    rw [List.pairwise_cons] at h
    unfold SyncerSet.insert
    split
    · rename_i hxy
      refine List.Pairwise.cons ?_ (List.Pairwise.cons h.1 h.2)
      intro z hz
      rcases List.mem_cons.1 hz with rfl | hz
      · exact hxy
      · exact Nat.lt_trans hxy (h.1 z hz)
    · split
      · exact List.Pairwise.cons h.1 h.2
      · refine List.Pairwise.cons ?_ (ih h.2)
        intro z hz
        rcases (mem_syncerInsert x z l).1 hz with rfl | hz
        · omega
        · exact h.1 z hz

theorem union_sorted {a b : SyncerSet} (h : a.Pairwise (· < ·)) : (a.union b).Pairwise (· < ·) := by
  unfold SyncerSet.union
  induction b generalizing a with
  | nil => exact h
  | cons x b ih => exact ih (insert_sorted h)

theorem mem_union {a b : SyncerSet} {y : Nat} : y ∈ a.union b ↔ y ∈ a ∨ y ∈ b := by
  unfold SyncerSet.union
  induction b generalizing a with
  | nil => simp
  | cons x b ih =>
    rw [List.foldl_cons, ih, mem_syncerInsert, List.mem_cons]
    constructor
    · rintro ((h | h) | h)
      · exact .inr (.inl h)
      · exact .inl h
      · exact .inr (.inr h)
    · rintro (h | h | h)
      · exact .inl (.inr h)
      · exact .inl (.inl h)
      · exact .inr h

theorem fill_sorted_aux : ∀ n, (∀ e : Elem, sizeOf e ≤ n → ∀ acc : SyncerSet, acc.Pairwise (· < ·) →
      (e.fillFromDescendants acc).Pairwise (· < ·)) ∧
    (∀ cs : List Elem, sizeOf cs ≤ n → ∀ acc : SyncerSet, acc.Pairwise (· < ·) →
      (Elem.fillFromAll acc cs).Pairwise (· < ·)) := by
  intro n
  induction n with
  | zero => exact ⟨fun e h => by cases e; simp at h, fun cs h => by cases cs <;> simp at h⟩
  | succ n ih =>
    constructor
    · intro e h acc hs
      cases e with | mk nm k sy cs =>
      simp only [Elem.mk.sizeOf_spec] at h
      simp only [Elem.fillFromDescendants]
      split
      · exact insert_sorted hs
      · exact ih.2 cs (by omega) acc hs
    · intro cs h acc hs
      cases cs with
      | nil => simpa [Elem.fillFromAll] using hs
      | cons c cs =>
        simp only [List.cons.sizeOf_spec] at h
        simp only [Elem.fillFromAll]
        exact ih.2 cs (by omega) _ (ih.1 c (by omega) acc hs)

theorem syncerSet_sorted (root : Elem) (p : Pos) : (root.syncerSet p).Pairwise (· < ·) := by
  unfold Elem.syncerSet
  split
  · simp
  · split
    · exact (fill_sorted_aux _).1 _ (Nat.le_refl _) [] (by simp)
    · simp

theorem sorted_nodup {l : SyncerSet} (h : l.Pairwise (· < ·)) : l.Nodup :=
  h.imp (fun hab => Nat.ne_of_lt hab)

/-! ## Calling a set of syncers -/

theorem syncAll_log (hw : Hardware) (main : Board) (ss : SyncerSet) (log : List SyncEvent) :
    (syncAll hw main ss log).1 = log ++ ss.map (fun x => ⟨x, main⟩) := by
  induction ss generalizing log with
  | nil => simp [syncAll]
  | cons x ss ih => simp [syncAll, ih]

theorem syncAll_errors (hw : Hardware) (main : Board) (ss : SyncerSet) (log : List SyncEvent) :
    (syncAll hw main ss log).2 = (List.range ss.length).filterMap (fun k =>
      (ss[k]?).bind fun x => hw (log ++ (ss.take k).map (fun x => ⟨x, main⟩)) x main) := by
  induction ss generalizing log with
  | nil => simp [syncAll]
  | cons x ss ih =>
    simp only [syncAll, ih, List.length_cons]
    rw [List.range_succ_eq_map, List.filterMap_cons]
    have h2 : (List.filterMap (fun k => ((x :: ss)[k]?).bind fun y =>
          hw (log ++ ((x :: ss).take k).map (fun x => (⟨x, main⟩ : SyncEvent))) y main) ((List.range ss.length).map Nat.succ)) =
        List.filterMap (fun k => (ss[k]?).bind fun y =>
          hw (log ++ [⟨x, main⟩] ++ (ss.take k).map (fun x => (⟨x, main⟩ : SyncEvent))) y main) (List.range ss.length) := by
      rw [List.filterMap_map]
      congr 1
      funext k
      simp
    rw [h2]
    cases hx : hw log x main <;> simp [hx]

/-! ## Restoring -/

theorem restoreAreas_append (root : Elem) (hw : Hardware) (syncOf : Pos → Option SyncerSet) (bSync : Bool)
    (xs ys : List Area) (m : Mem) :
    restoreAreas root hw syncOf bSync (xs ++ ys) m =
      match restoreAreas root hw syncOf bSync xs m with
      | none => none
      | some (m1, e1) =>
        match restoreAreas root hw syncOf bSync ys m1 with
        | none => none
        | some (m2, e2) => some (m2, e1 ++ e2) := by
  induction xs generalizing m with
  | nil =>
    simp only [List.nil_append, restoreAreas]
    split <;> simp_all
  | cons a xs ih =>
    simp only [List.cons_append, restoreAreas]
    cases a.restore root m.main with
    | none => rfl
    | some main =>
      simp only
      split
      · cases syncOf a.elem with
        | none => rfl
        | some ss =>
          simp only [ih]
          cases restoreAreas root hw syncOf bSync xs _ with
          | none => rfl
          | some r =>
            simp only
            cases restoreAreas root hw syncOf bSync ys r.1 with
            | none => rfl
            | some r' => simp
      · exact ih _

/-- Effect of restoring areas on the main blackboard. -/
theorem restoreAreas_spec {root : Elem} (wf : root.WF) (hw : Hardware) {syncOf : Pos → Option SyncerSet}
    {bSync : Bool} {as : List Area} {m : Mem} (hs : ∀ a ∈ as, a.Sized root) (hv : ∀ a ∈ as, a.valid = true)
    (hso : bSync = true → ∀ a ∈ as, ∃ ss, syncOf a.elem = some ss)
    (hm : m.main.length = root.footprint) :
    ∃ m' errs, restoreAreas root hw syncOf bSync as m = some (m', errs) ∧ m'.main.length = root.footprint ∧
      (∀ i, (∀ a ∈ as, ¬ root.Owns a.elem i) → m'.main.bit i = m.main.bit i) ∧
      (∀ a ∈ as, ∀ i, root.Owns a.elem i → (∀ b ∈ as, root.Owns b.elem i → b.elem = a.elem) →
        (as.map Area.elem).Nodup → m'.main.bit i = a.value root i) ∧
      (bSync = false → m'.log = m.log ∧ errs = []) := by
  induction as generalizing m with
  | nil => exact ⟨m, [], rfl, hm, fun _ _ => rfl, by simp, fun _ => ⟨rfl, rfl⟩⟩
  | cons a as ih =>
    obtain ⟨b, hb, hbl, hb1, hb2⟩ := Area.restore_spec wf (hs a (by simp)) (hv a (by simp)) hm
    have hs' : ∀ a ∈ as, a.Sized root := fun x hx => hs x (by simp [hx])
    have hv' : ∀ a ∈ as, a.valid = true := fun x hx => hv x (by simp [hx])
    have hso' : bSync = true → ∀ a ∈ as, ∃ ss, syncOf a.elem = some ss := fun h x hx => hso h x (by simp [hx])
    have done : ∀ (lg : List SyncEvent) (m' : Mem) (errs : List Str),
        restoreAreas root hw syncOf bSync as ⟨b, lg⟩ = some (m', errs) → m'.main.length = root.footprint ∧
        (∀ i, (∀ a ∈ as, ¬ root.Owns a.elem i) → m'.main.bit i = b.bit i) ∧
        (∀ a ∈ as, ∀ i, root.Owns a.elem i → (∀ b ∈ as, root.Owns b.elem i → b.elem = a.elem) →
        (as.map Area.elem).Nodup → m'.main.bit i = a.value root i) →
        m'.main.length = root.footprint ∧
        (∀ i, (∀ x ∈ a :: as, ¬ root.Owns x.elem i) → m'.main.bit i = m.main.bit i) ∧
        (∀ x ∈ a :: as, ∀ i, root.Owns x.elem i → (∀ b ∈ a :: as, root.Owns b.elem i → b.elem = x.elem) →
          ((a :: as).map Area.elem).Nodup → m'.main.bit i = x.value root i) := by
      rintro lg m' errs h1 ⟨h2, h3, h4⟩
      refine ⟨h2, ?_, ?_⟩
      · intro i hi
        rw [h3 i (fun x hx => hi x (by simp [hx])), hb2 i (hi a (by simp))]
      · intro x hx i hi hu nd
        simp only [List.map_cons, List.nodup_cons, List.mem_map, not_exists, not_and] at nd
        rcases List.mem_cons.1 hx with rfl | hx
        · rw [h3 i (fun y hy ho => nd.1 y hy (hu y (by simp [hy]) ho)), hb1 i hi]
        · exact h4 x hx i hi (fun y hy => hu y (by simp [hy])) nd.2
    simp only [restoreAreas, hb]
    cases bSync with
    | false =>
      obtain ⟨m', errs, h1, h2, h3, h4, h5⟩ := ih (m := ⟨b, m.log⟩) hs' hv' hso' (by rw [← hm]; exact hbl)
      obtain ⟨g1, g2, g3⟩ := done _ m' errs h1 ⟨h2, h3, h4⟩
      exact ⟨m', errs, by simp only [Bool.false_eq_true, if_false]; exact h1, g1, g2, g3, fun h => h5 h⟩
    | true =>
      obtain ⟨ss, hss⟩ := hso rfl a (by simp)
      obtain ⟨m', errs, h1, h2, h3, h4, h5⟩ := ih (m := ⟨b, (syncAll hw b ss m.log).1⟩) hs' hv' hso'
        (by rw [← hm]; exact hbl)
      obtain ⟨g1, g2, g3⟩ := done _ m' errs h1 ⟨h2, h3, h4⟩
      refine ⟨m', (syncAll hw b ss m.log).2 ++ errs, ?_, g1, g2, g3, by simp⟩
      simp only [if_true, hss, h1]

end PF
