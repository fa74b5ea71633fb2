import Verif.Lemmas.XmlScalar
import Verif.Lemmas.TreeAccess
import Verif.Props.Tree

/-! Helper lemmas: export and import of settings in XML. -/

namespace PF

/-- The bytes a parameter reads and writes. -/
def EKind.room : EKind → Nat
  | .scalar t => t.size
  | .array t => t.footprint
  | .string m => m + 1
  | .bit t => t.blockSize
  | _ => 0

theorem readScalar_of_read {size : Nat} {b : Board} {off : Nat} {bs : List Byte} (h : b.read off size = some bs) :
    readScalar size b off = .ok (BitVec.ofNat 32 (decLE bs)) := by
  simp [readScalar, h]

theorem getElems_ok (t : ScalarType) (ctx : Ctx) (b : Board) (off n : Nat) (f : Nat → Str)
    (h : ∀ j, j < n → getScalarText t ctx b (off + j * t.size) = .ok (f j)) :
    getElems t ctx b off n = .ok ((List.range n).map f) := by
  induction n generalizing off f with
  | zero => rfl
  | succ n ih =>
    simp only [getElems]
    have h0 := h 0 (by omega)
    simp only [Nat.zero_mul, Nat.add_zero] at h0
    rw [h0]
    simp only [Out.bind]
    rw [ih (off + t.size) (fun j => f (j + 1)) (fun j hj => by
      have := h (j + 1) (by omega)
      rw [Nat.succ_mul, Nat.add_comm _ t.size, ← Nat.add_assoc] at this
      exact this)]
    simp [List.range_succ_eq_map, Function.comp_def]

theorem getElems_congr_texts (t : ScalarType) (ctx : Ctx) (b b' : Board) (off off' n : Nat)
    (h : ∀ j, j < n → getScalarText t ctx b' (off' + j * t.size) = getScalarText t ctx b (off + j * t.size)) :
    getElems t ctx b' off' n = getElems t ctx b off n := by
  induction n generalizing off off' with
  | zero => rfl
  | succ n ih =>
    simp only [getElems]
    have h0 := h 0 (by omega)
    simp only [Nat.zero_mul, Nat.add_zero] at h0
    rw [h0]
    rw [ih (off + t.size) (off' + t.size) (fun j hj => by
      have := h (j + 1) (by omega)
      rw [Nat.succ_mul, Nat.add_comm _ t.size, ← Nat.add_assoc, ← Nat.add_assoc] at this
      exact this)]

theorem strBytes_bytesStr (bs : List Byte) : strBytes (bytesStr bs) = bs := by
  unfold strBytes bytesStr
  rw [List.map_map]
  conv => rhs; rw [← List.map_id bs]
  apply List.map_congr_left
  intro c _
  have := c.isLt
  simp only [Function.comp_apply, id_eq]
  have hv : (c.toNat).isValidChar := by left; omega
  rw [Char.ofNat, dif_pos hv]
  apply BitVec.eq_of_toNat_eq
  simp only [BitVec.toNat_ofNat]
  show (Char.ofNatAux c.toNat hv).val.toNat % 2 ^ 8 = _
  simp only [Char.ofNatAux]
  show c.toNat % 2 ^ 8 = c.toNat
  omega

/-- The text of a parameter, set in another memory, gives the parameter the same settings there. -/
theorem EKind.Carried.carries {rd : Reader} (hrd : ReadsDecimals rd) {k : EKind}
    (hk : k.isParameter = true) (hbit : ∀ t, k = .bit t → t.WF) {ctx ctx' : Ctx} {b b' : Board} {off off' : Nat}
    (hraw : ctx.raw = true → ctx'.raw = true ∨ k.NonNegative b off) (hfx : k.hasValueSpace = true → ctx'.raw = ctx.raw)
    (room : off + k.room ≤ b.length) (room' : off' + k.room ≤ b'.length)
    (hc : k.Carried ctx b off) :
    ∃ w b'', getParamText ctx k b off 0 [] = .ok w ∧ setParamText rd ctx' k b' off' 0 [] w = (.ok (), b'') ∧
      (∀ c, getParamText c k b'' off' 0 [] = getParamText c k b off 0 []) ∧
      ∀ m, k = .string m → StringTerminated b'' off' m := by
  cases k with
  | group => simp [EKind.isParameter] at hk
  | bitBlock => simp [EKind.isParameter] at hk
  | scalar t =>
    simp only [EKind.room] at room room'
    obtain ⟨bs, hbs⟩ := Board.read_some room
    obtain ⟨w, v, h1, -, h3, h4⟩ := (hc.2 bs hbs).carries hrd hc.1 (fun h => (hraw h).imp_right fun h => h bs hbs)
      (fun e => hfx (by cases t <;> first | rfl | exact e.elim)) (Board.read_length hbs).1
    obtain ⟨b'', hw⟩ := writeScalar_ok v room'
    have hr := readScalar_writeScalar hw
    refine ⟨w, b'', ?_, ?_, fun c => ?_, by simp⟩
    · simp [getParamText, getScalarText, readScalar_of_read hbs, Out.bind, h1]
    · simp [setParamText, setScalarText, h3, hw, Out.withBoard]
    · simp only [getParamText, ne_eq, not_true_eq_false, if_false, Nat.not_lt_zero, Nat.sub_zero, getScalarText,
        readScalar_of_read hbs, hr, Out.bind]
      have := h4 c
      rwa [decLE_encLE, pow256] at this
  | array t =>
    simp only [EKind.room, ArrayType.footprint] at room room'
    obtain ⟨reg, sep, hall⟩ := hc
    have hsz : ∀ j, j < t.length → (j + 1) * t.elem.size ≤ t.elem.size * t.length := by
      intro j hj
      rw [Nat.mul_comm t.elem.size]
      exact Nat.mul_le_mul_right _ (by omega)
    have one : ∀ j, j < t.length → ∃ w v, getScalarText t.elem ctx b (off + j * t.elem.size) = .ok w ∧
        Separable w ∧ t.elem.fromText rd ctx' w = some v ∧
        ∀ c, t.elem.toText c (BitVec.ofNat 32 (decLE (encLE t.elem.size v.toNat))) =
          getScalarText t.elem c b (off + j * t.elem.size) := by
      intro j hj
      have := hsz j hj
      rw [Nat.succ_mul] at this
      obtain ⟨bs, hbs⟩ := Board.read_some (b := b) (off := off + j * t.elem.size) (size := t.elem.size) (by omega)
      obtain ⟨w, v, h1, h2, h3, h4⟩ := (hall j bs hj hbs).carries hrd reg
        (fun h => (hraw h).imp_right fun h => h j bs hj hbs)
        (fun e => hfx (by obtain ⟨el, n⟩ := t; cases el <;> first | rfl | exact e.elim)) (Board.read_length hbs).1
      refine ⟨w, v, ?_, h2 sep, h3, fun c => ?_⟩
      · simp [getScalarText, readScalar_of_read hbs, Out.bind, h1]
      · simp only [getScalarText, readScalar_of_read hbs, Out.bind]
        exact h4 c
    have hf : ∃ (f : Nat → Str) (g : Nat → BitVec 32), ∀ j, j < t.length →
        getScalarText t.elem ctx b (off + j * t.elem.size) = .ok (f j) ∧
        Separable (f j) ∧ t.elem.fromText rd ctx' (f j) = some (g j) ∧
        ∀ c, t.elem.toText c (BitVec.ofNat 32 (decLE (encLE t.elem.size (g j).toNat))) =
          getScalarText t.elem c b (off + j * t.elem.size) := by
      refine ⟨fun j => if h : j < t.length then (one j h).choose else [],
        fun j => if h : j < t.length then (one j h).choose_spec.choose else 0, fun j hj => ?_⟩
      simp only [hj, dif_pos]
      exact (one j hj).choose_spec.choose_spec
    obtain ⟨f, g, hfg⟩ := hf
    have hget := getElems_ok t.elem ctx b off t.length f (fun j hj => (hfg j hj).1)
    have htok : tokenize arrayDelimiters true (spaced ((List.range t.length).map f)) = (List.range t.length).map f := by
      by_cases h0 : t.length = 0
      · rw [h0]; rfl
      · rw [spaced_eq_joinWith]
        apply tokenize_arrayValues
        refine ⟨_, pieces_join _ ' ' (by decide) _ (by simp [h0]) (fun w hw => ?_), ?_⟩
        · obtain ⟨j, hj, rfl⟩ := List.mem_map.1 hw
          exact (hfg j (List.mem_range.1 hj)).2.1.2
        · symm
          rw [List.filter_eq_self]
          intro w hw
          obtain ⟨j, hj, rfl⟩ := List.mem_map.1 hw
          simpa using (hfg j (List.mem_range.1 hj)).2.1.1
    have hmap : ((List.range t.length).map f).map (fun tok => t.elem.fromText rd ctx' tok) =
        ((List.range t.length).map g).map some := by
      rw [List.map_map, List.map_map]
      apply List.map_congr_left
      intro j hj
      exact (hfg j (List.mem_range.1 hj)).2.2.1
    obtain ⟨b'', h1, h2, h3⟩ := setElems_ok t.elem.size ((List.range t.length).map g) b' off'
      (by simp; rw [Nat.mul_comm]; exact room')
    refine ⟨spaced ((List.range t.length).map f), b'', ?_, ?_, fun c => ?_, by simp⟩
    · simp [getParamText, arrayAccessGet, arrayIndex, getArrayText, hget, Out.bind]
    · simp only [setParamText, arrayAccessSet, arrayIndex, Nat.not_lt_zero, if_false, Nat.sub_zero, setArrayText,
        Option.getD_none, htok, Nat.zero_mul, Nat.add_zero, hmap, h1]
      simp
    · simp only [getParamText, arrayAccessGet, arrayIndex, Nat.not_lt_zero, if_false, Nat.sub_zero, getArrayText]
      rw [getElems_congr_texts t.elem c b b'' off off' t.length]
      intro j hj
      have hr := h3 j (g j) (by simp [hj])
      rw [← (hfg j hj).2.2.2 c]
      simp [getScalarText, readScalar_of_read hr, Out.bind]
  | string m =>
    simp only [EKind.room] at room room'
    obtain ⟨bs, hbs, h0⟩ := hc
    have hlen := (Board.read_length hbs).1
    have hg := C39_read_inside_partial m b off bs hbs h0
    generalize hw : bs.takeWhile (fun c => decide (c ≠ 0#8)) = w at hg
    have hle : w.length ≤ m := by
      have hlt : w.length < bs.length := by
        rw [← hw]
        clear hw hlen hbs hg w
        induction bs with
        | nil => simp at h0
        | cons c bs ih =>
          by_cases hc : c = 0#8
          · simp [hc]
          · have : 0#8 ∈ bs := by
              rcases List.mem_cons.1 h0 with h | h
              · exact absurd h.symm hc
              · exact h
            have ih := ih this
            rw [List.takeWhile_cons, if_pos (by simpa using hc), List.length_cons, List.length_cons]
            omega
      omega
    have hn0 : 0#8 ∉ w := by
      rw [← hw]
      intro hm
      have key : ∀ (l : List Byte) c, c ∈ l.takeWhile (fun c => decide (c ≠ 0#8)) → c ≠ 0#8 := by
        intro l c hc
        induction l with
        | nil => simp at hc
        | cons a l ih =>
          rw [List.takeWhile_cons] at hc
          split at hc
          · rename_i ha
            rcases List.mem_cons.1 hc with rfl | h
            · simpa using ha
            · exact ih h
          · simp at hc
      exact key _ _ hm rfl
    obtain ⟨b'', h1, h2⟩ := C39_exact m b' off' room' w hle hn0
    refine ⟨bytesStr w, b'', ?_, ?_, fun c => ?_, fun m' e => ?_⟩
    · simp [getParamText, hg, Out.bind]
    · simp [setParamText, strBytes_bytesStr, h1, Out.withBoard]
    · simp [getParamText, hg, h2]
    · simp only [EKind.string.injEq] at e
      subst e
      exact (C39_terminated m b' off' room').1 w b'' h1
  | bit t =>
    simp only [EKind.room] at room room'
    have wf := hbit t rfl
    obtain ⟨bs, hbs⟩ := Board.read_some room
    obtain ⟨out, h1, h2, -⟩ := C37_get_then_set t wf ctx b off bs hbs
    have hle := hc bs hbs
    obtain ⟨d, hd, hfd⟩ := BitType.readBlock_field wf hbs
    have h64 : bitField t.pos t.bits bs < 2 ^ 64 := by rw [← hfd]; exact (t.field d).isLt
    have hs := strtoull_cNumeral h2
    rw [if_pos h64] at hs
    have hu : (strtoull out).toNat = bitField t.pos t.bits bs := by
      rw [hs, BitVec.toNat_ofNat, Nat.mod_eq_of_lt h64]
    have hok := BitType.set_ok (t := t) (strtoull out) room'
    rw [hu, if_pos hle] at hok
    obtain ⟨b'', hb''⟩ := hok
    obtain ⟨-, -, cs, cs', -, e2, e3, -⟩ := BitType.set_effect wf hb''
    obtain ⟨d', hd', hfd'⟩ := BitType.readBlock_field wf e2
    refine ⟨out, b'', ?_, ?_, fun c => ?_, by simp⟩
    · simp [getParamText, h1]
    · simp only [setParamText, ne_eq, not_true_eq_false, if_false, Nat.not_lt_zero, Nat.sub_zero, setBitText]
      show (t.set (t.fromNum (strtoull out)) b' off').withBoard b' = _
      rw [hb'']; rfl
    · simp only [getParamText, ne_eq, not_true_eq_false, if_false, Nat.not_lt_zero, Nat.sub_zero, getBitText, hd, hd',
        Out.bind]
      have : t.field d' = t.field d := by
        apply BitVec.eq_of_toNat_eq
        rw [hfd, hfd', e3, hu]
      simp [BitType.toText, this]

end PF
