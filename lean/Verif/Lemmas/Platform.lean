import Verif.Spec.Platform
import Verif.Lemmas.Command
import Verif.Lemmas.CriterionText
import Verif.Lemmas.Framework
import Verif.Lemmas.Generator
import Verif.Lemmas.XmlDeclares

/-! # The platform connector: lemmas -/

namespace PF
open Spec

theorem called_iff {k : Criterion} {name : Str} : k.pathName = name ↔ Called k name := by
  unfold Criterion.pathName Called
  by_cases h : k.name = []
  · simp [h, eq_comm]
  · simp [h]

theorem findCriterion_is {cs : List Criterion} {name : Str} {i : Nat} :
    findCriterion cs name = some i ↔ ∃ k, IsCriterion cs name i k := by
  rw [findCriterion_iff]
  unfold IsCriterion
  simp only [called_iff]
  constructor
  · rintro ⟨⟨c, h1, h2⟩, h3⟩
    exact ⟨c, h1, h2, fun j hj k' hk hc => h3 j k' hj hk (called_iff.2 hc)⟩
  · rintro ⟨c, h1, h2, h3⟩
    exact ⟨⟨c, h1, h2⟩, fun j k' hj hk hc => h3 j hj k' hk (called_iff.1 hc)⟩

theorem findCriterion_none {cs : List Criterion} {name : Str} :
    findCriterion cs name = none ↔ ∀ k ∈ cs, ¬ Called k name := by
  unfold findCriterion
  rw [List.findIdx?_eq_none_iff]
  simp only [beq_eq_false_iff_ne, ne_eq, called_iff]

theorem pieces_glue {ds : List Char} {a b : Str} {ps qs : List Str} {d : Char} (hd : d ∈ ds) (h : Pieces ds a ps)
    (h' : Pieces ds b qs) : Pieces ds (a ++ d :: b) (ps ++ qs) := by
  induction h with
  | last w hw => exact .cut w d b qs hw hd h'
  | cut w d' rest ps hw hd' _ ih =>
    rw [List.append_assoc, List.cons_append, List.cons_append]
    exact .cut w d' _ _ hw hd' ih

theorem pieces_unique {ds : List Char} {t : Str} {ps qs : List Str} (h : Pieces ds t ps) (h' : Pieces ds t qs) : ps = qs := by
  by_cases ht : t = []
  · have key : ∀ {t ps}, Pieces ds t ps → t = [] → ps = [[]] := by
      intro t ps h ht
      cases h with
      | last => rw [ht]
      | cut w d rest ps hw hd h => simp at ht
    rw [key h ht, key h' ht]
  · exact (tokenize_false_of_pieces h ht).symm.trans (tokenize_false_of_pieces h' ht)

theorem lexicalState_pieces (w : Str) (ws : List Str) :
    ∃ ps, Pieces ['|'] (lexicalState (w :: ws)) ps ∧ ∀ x, x ∈ ps.filter (· ≠ []) ↔ Lists (w :: ws) x := by
  induction ws generalizing w with
  | nil =>
    obtain ⟨ps, h⟩ := pieces_exists ['|'] w
    refine ⟨ps, h, fun x => ?_⟩
    simp only [Lists, List.mem_filter, decide_eq_true_eq, List.mem_singleton, exists_eq_left]
    exact ⟨fun ⟨a, b⟩ => ⟨b, ps, h, a⟩, fun ⟨a, qs, hq, hx⟩ => ⟨pieces_unique hq h ▸ hx, a⟩⟩
  | cons v ws ih =>
    obtain ⟨ps, h⟩ := pieces_exists ['|'] w
    obtain ⟨qs, hq, hm⟩ := ih v
    refine ⟨ps ++ qs, pieces_glue (by simp) h hq, fun x => ?_⟩
    rw [List.filter_append, List.mem_append, hm]
    simp only [Lists, List.mem_filter, decide_eq_true_eq]
    constructor
    · rintro (⟨a, b⟩ | ⟨a, u, hu, rs, hr, hx⟩)
      · exact ⟨b, w, by simp, ps, h, a⟩
      · exact ⟨a, u, List.mem_cons_of_mem _ hu, rs, hr, hx⟩
    · rintro ⟨a, u, hu, rs, hr, hx⟩
      rcases List.mem_cons.1 hu with rfl | hu
      · exact .inl ⟨pieces_unique hr h ▸ hx, a⟩
      · exact .inr ⟨a, u, hu, rs, hr, hx⟩

theorem atomic_iff {t : CritType} (hf : Functional t) {l : Str} {v : BitVec 32} : t.atomic l = some v ↔ (l, v) ∈ t.map := by
  constructor
  · exact LitMap.mem_of_find
  · intro h
    unfold CritType.atomic
    cases hc : t.map.find l with
    | none => exact absurd h ((LitMap.find_none_iff _ _).mp hc _)
    | some w => rw [hf _ _ _ (LitMap.mem_of_find hc) h]

theorem orAll_some {t : CritType} (hf : Functional t) (ls : List Str) (acc v : BitVec 32) :
    t.orAll ls acc = some v ↔ (∀ x ∈ ls, ∃ n : BitVec 32, (x, n) ∈ t.map) ∧
      ∀ i, v.getLsbD i = true ↔ acc.getLsbD i = true ∨ ∃ x ∈ ls, ∃ n : BitVec 32, (x, n) ∈ t.map ∧ n.getLsbD i = true := by
  induction ls generalizing acc with
  | nil =>
    simp only [CritType.orAll, Option.some.injEq, List.not_mem_nil, false_and, exists_false, or_false, false_imp_iff, implies_true,
      true_and]
    constructor
    · rintro rfl; simp
    · intro h
      exact (BitVec.eq_of_getLsbD_eq fun i _ => by rw [Bool.eq_iff_iff]; exact h i).symm
  | cons l ls ih =>
    simp only [CritType.orAll]
    cases ha : t.atomic l with
    | none =>
      simp only [reduceCtorEq, false_iff]
      rintro ⟨h, -⟩
      obtain ⟨n, hn⟩ := h l (by simp)
      rw [(atomic_iff hf).2 hn] at ha
      cases ha
    | some n =>
      have hn := (atomic_iff hf).1 ha
      simp only [ih, List.forall_mem_cons, List.exists_mem_cons_iff, BitVec.getLsbD_or, Bool.or_eq_true]
      have e : ∀ i, (∃ n' : BitVec 32, (l, n') ∈ t.map ∧ n'.getLsbD i = true) ↔ n.getLsbD i = true := fun i =>
        ⟨fun ⟨n', h1, h2⟩ => hf _ _ _ h1 hn ▸ h2, fun h => ⟨n, hn, h⟩⟩
      simp only [e, or_assoc]
      exact ⟨fun ⟨a, b⟩ => ⟨⟨⟨n, hn⟩, a⟩, b⟩, fun ⟨a, b⟩ => ⟨a.2, b⟩⟩

theorem convertTo_nat {t : Str} {n : Int} (h : convertTo false 32 t = some n) : ∃ k : Nat, n = k := by
  rw [convertTo_iff] at h
  rcases h.1 with ⟨m, -, rfl⟩ | ⟨_, m, -, -, rfl⟩ | ⟨_, _, h, -⟩ | ⟨_, m, -, -, rfl⟩
  · exact ⟨m, rfl⟩
  · exact ⟨m, rfl⟩
  · cases h
  · exact ⟨m, rfl⟩

theorem numberWords_iff {w : Str} {ws : List Str} {n : Nat} : NumberWords (w :: ws) n ↔ convertTo false 32 w = some (n : Int) := by
  rw [convertTo_unsigned]
  constructor
  · rintro ⟨_, _, h, h1, h2⟩
    cases h
    exact ⟨h1, h2⟩
  · rintro ⟨h1, h2⟩
    exact ⟨w, ws, rfl, h1, h2⟩

/-- The state that words give to a criterion of a type. -/
def wordsState (t : CritType) (w : Str) (ws : List Str) : Option (BitVec 32) :=
  match convertTo false 32 w with
  | some n => some (BitVec.ofInt 32 n)
  | none => if t.inclusive = false ∧ ws ≠ [] then none else t.numerical (lexicalState (w :: ws))

theorem wordsState_iff {t : CritType} (hf : Functional t) (w : Str) (ws : List Str) (v : BitVec 32) :
    wordsState t w ws = some v ↔ StateWords t (w :: ws) v := by
  unfold wordsState StateWords
  simp only [numberWords_iff]
  cases hc : convertTo false 32 w with
  | some n =>
    obtain ⟨k, rfl⟩ := convertTo_nat hc
    simp only [Option.some.injEq, Int.natCast_inj, exists_eq_left', BitVec.ofInt_natCast]
    constructor
    · rintro rfl; exact .inl rfl
    · rintro (rfl | ⟨h, -⟩)
      · rfl
      · exact absurd rfl (h k)
  | none =>
    simp only [reduceCtorEq, not_false_eq_true, implies_true, true_and, false_and, exists_false, false_or]
    cases hi : t.inclusive with
    | false =>
      simp only [true_and, Bool.false_eq_true, false_and, or_false]
      cases ws with
      | nil =>
        simp only [ne_eq, not_true_eq_false, if_false, lexicalState, CritType.numerical, hi, Bool.false_eq_true, atomic_iff hf,
          List.cons.injEq, and_true, exists_eq_left']
      | cons v ws => simp
    | true =>
      simp only [Bool.true_eq_false, false_and, if_false, false_or, true_and, CritType.numerical, hi, if_true]
      obtain ⟨ps, hp, hm⟩ := lexicalState_pieces w ws
      rw [tokenize_true_of_pieces hp, orAll_some hf]
      simp only [hm, BitVec.getLsbD_zero, Bool.false_eq_true, false_or]

theorem platSetState_eq (p : PEnv) (cmd : Str) (c : Conn) (name w : Str) (ws : List Str) :
    platSetState p cmd c (name :: w :: ws) =
      match findCriterion c.criteria name with
      | none => (some (.failed, p.text cmd (name :: w :: ws)), c)
      | some i =>
        match c.criteria[i]? with
        | none => (none, c)
        | some k =>
          match wordsState k.type w ws with
          | none => (some (.failed, p.text cmd (name :: w :: ws)), c)
          | some v => (some (.done, []), c.setState i v) := by
  simp only [platSetState, wordsState]
  cases hf : findCriterion c.criteria name with
  | none => rfl
  | some i =>
    obtain ⟨k, hk, -, -⟩ := findCriterion_is.1 hf
    simp only [hk]
    cases convertTo false 32 w with
    | some n => rfl
    | none => 
      simp only
      split <;> rfl

theorem plat_names (p : PEnv) : (s "help" :: (platCommands p).map (·.name)).Nodup := by
  simp only [platCommands, platItem, List.map_cons, List.map_nil]
  decide +kernel

end PF
