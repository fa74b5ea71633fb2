import Verif.Lemmas.StringsEnd
import Verif.Lemmas.Start

/-! # Strings at the start -/

namespace PF
open Spec

theorem Board.byte_of_bits {b b' : Board} (hl : b'.length = b.length) {j : Nat}
    (h : ∀ i, 8 * j ≤ i → i < 8 * (j + 1) → b'.bit i = b.bit i) : b'[j]? = b[j]? := by
  by_cases hj : j < b.length
  · have hj' : j < b'.length := by omega
    rw [List.getElem?_eq_getElem hj, List.getElem?_eq_getElem hj']
    congr 1
    apply BitVec.eq_of_getLsbD_eq
    intro i hi
    have := h (8 * j + i) (by omega) (by omega)
    unfold Board.bit at this
    rw [show (8 * j + i) / 8 = j by omega, show (8 * j + i) % 8 = i by omega] at this
    simpa [List.getD_eq_getElem?_getD, hj, hj'] using this
  · rw [List.getElem?_eq_none (by omega), List.getElem?_eq_none (by omega)]

theorem getString_empty (c : Board) (off : Nat) : getString c off = .ok [] ↔ c[off]? = some 0#8 := by
  unfold getString Board.readString
  by_cases hlt : off < c.length
  · have h1 : c.drop off = c[off] :: c.drop (off + 1) := List.drop_eq_getElem_cons hlt
    rw [if_pos (by omega), h1]
    simp only [cString, List.getElem?_eq_getElem hlt, Option.some.injEq]
    by_cases hz : c[off] = 0#8
    · simp [hz]
    · simp only [hz, if_false, iff_false]
      cases cString (c.drop (off + 1)) <;> simp
  · have : c[off]? = none := by simp; omega
    rw [this]
    rw [if_neg (by omega)]; simp

/-- Strings still end after a simulated back synchronisation. -/
theorem backSimulated_ended {root : Elem} (wf : root.WF) (fd : root.FieldsDisjoint) {L : List Pos} (hL : NeedList root L)
    {b b' : Board} (hb : Ended root [] b) (h : root.backSimulated L b = .ok b') : Ended root [] b' := by
  obtain ⟨e, base, he, hbase, hl, hs⟩ := id hb
  simp only [Elem.offset, Option.some.injEq] at hbase
  subst hbase
  obtain rfl : root = e := by cases root; simpa [Elem.at?] using he
  rw [wf.areaSize_self] at hl
  obtain ⟨b2, h1, h2, h3, h4⟩ := backSimulated_spec wf fd hL hl
  obtain rfl : b' = b2 := by simpa using h.symm.trans h1
  refine ⟨root, 0, he, rfl, by rw [wf.areaSize_self, h2], fun p f n off _ hp hk ho => ?_⟩
  have hpar : f.kind.isParameter = true := by rw [hk]; rfl
  by_cases hc : ∃ q ∈ L, q <+: p
  · have := h4 p f off hc hp ho hpar (by rw [hk]; trivial) (fun t ht => by rw [hk] at ht; cases ht)
    rw [hk] at this
    change getString b' off = .ok [] at this
    exact ⟨off, by omega, by omega, (getString_empty b' off).1 this⟩
  · refine (hs p f n off (by simp) hp hk ho).same fun j j1 j2 => Board.byte_of_bits (by rw [h2, hl]) fun i i1 i2 => ?_
    refine h3 i fun q hq hqi => hc ⟨q, hq, ?_⟩
    have how : root.Owns p i := by
      refine ⟨f, off, hp, ho, ?_, ?_⟩
      · cases f; simp only [Elem.kind] at hk; subst hk
        simp only [Elem.extent, Elem.kind]; omega
      · cases f; simp only [Elem.kind] at hk; subst hk
        simp only [Elem.extent, Elem.kind, Elem.footprint, EKind.ownSize, stringSize]; omega
    refine Classical.byContradiction fun hqp => owns_unrelated wf fd ⟨fun hpq => hqp ?_, hqp⟩ how hqi
    obtain ⟨g, hg⟩ := hL.at_ q hq
    have := wf.param_leaf hp hpar hg hpq
    subst this
    exact List.prefix_refl _

/-- After a start with the simulated back synchronisation, every string ends, in the blackboard and in all settings. -/
theorem start_ended {env : Env} (wf : env.root.WF) (fd : env.root.FieldsDisjoint) {fail : Bool} {settings : Settings}
    {cs : List Criterion} (hok : (St.start env fail settings .simulated cs).1 = .ok ()) :
    (St.start env fail settings .simulated cs).2.Ended env.root := by
  obtain ⟨st1, main, mid, k0, hml, _, _, _, _, k1, _, _, k4, _, _, k5⟩ := St.start_mid wf hok
  have hmain : PF.Ended env.root [] main :=
    backSimulated_ended wf fd (aggregate_needList env.root _) (St.Ended.initial wf cs).main k0
  have hblank : (St.blank env.root cs main).Ended env.root := ⟨hmain, by simp [St.blank, St.initial]⟩
  have hmid : mid.Ended env.root := by
    rcases k5 with ⟨x, -, himp⟩ | ⟨-, -, rfl⟩
    · have := DomOp.step_fine (env := env) wf hblank (op := .importDomains true x) id
      simp only [DomOp.step, himp] at this
      exact this
    · exact hblank
  rw [k4]
  exact DomOp.step_fine (env := env) wf hmid (op := .apply true) id

end PF
