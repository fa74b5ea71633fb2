import Verif.Lemmas.StringArray
import Verif.Props.Integer

/-!
# String and array parameters (C39, C40)
-/

namespace PF
open Spec

/-! ## Strings -/

/-- **C39** (accepted strings, read back, frame).  A string is accepted exactly when its length is at
most the maximum length.  Then what is read back is the string up to its first NUL character, and only
bytes of the parameter (maximum length and one) changed.  A refused string is an error. -/
theorem C39_set_then_get (maxLength : Nat) (b : Board) (off : Nat)
    (room : off + (maxLength + 1) ≤ b.length) (t : List Byte) :
    if t.length ≤ maxLength then
      ∃ b', setString maxLength b off t = .ok b' ∧ SameOutside b b' off (maxLength + 1) ∧
        getString b' off = .ok (t.takeWhile (fun c => decide (c ≠ 0#8)))
    else setString maxLength b off t = .err := by
  unfold setString stringSize
  split
  · rename_i hle
    rw [if_neg (by omega)]
    obtain ⟨b', hb⟩ := Board.write_some (b := b) (off := off) (bs := t ++ [0#8]) (by simp; omega)
    have hw := Board.write_length hb
    refine ⟨b', by simp [Board.writeString, hb], ⟨hw.1, ?_⟩, ?_⟩
    · intro i hi
      rw [Board.write_getElem? hb, if_neg]
      simp; omega
    · unfold getString Board.readString
      rw [if_pos (by omega)]
      unfold Board.write at hb
      rw [if_pos (by simp; omega)] at hb
      simp only [Option.some.injEq] at hb
      have : b'.drop off = t ++ 0#8 :: b.drop (off + (t ++ [0#8]).length) := by
        rw [← hb, List.append_assoc, List.drop_append_of_le_length (by simp; omega)]
        simp
      rw [this, cString_takeWhile]
  · rename_i hle
    rw [if_pos (by omega)]

example : setString 3 [1#8, 1#8, 1#8, 1#8, 1#8, 7#8] 1 [65#8, 66#8] = .ok [1#8, 65#8, 66#8, 0#8, 1#8, 7#8] ∧
    getString [1#8, 65#8, 66#8, 0#8, 1#8, 7#8] 1 = .ok [65#8, 66#8] ∧
    setString 3 [1#8, 1#8, 1#8, 1#8, 1#8, 7#8] 1 [65#8, 66#8, 67#8, 68#8] = .err := by decide

/-- **C39** (a string without NUL comes back whole). -/
theorem C39_exact (maxLength : Nat) (b : Board) (off : Nat) (room : off + (maxLength + 1) ≤ b.length)
    (t : List Byte) (hl : t.length ≤ maxLength) (h0 : 0#8 ∉ t) :
    ∃ b', setString maxLength b off t = .ok b' ∧ getString b' off = .ok t := by
  have h := C39_set_then_get maxLength b off room t
  rw [if_pos hl] at h
  obtain ⟨b', h1, _, h2⟩ := h
  refine ⟨b', h1, ?_⟩
  rw [h2]
  congr 1
  have key : ∀ (l : List Byte), 0#8 ∉ l → l.takeWhile (fun c => decide (c ≠ 0#8)) = l := by
    intro l hl
    induction l with
    | nil => rfl
    | cons c l ih =>
      simp only [List.mem_cons, not_or] at hl
      have : c ≠ 0#8 := fun e => hl.1 e.symm
      simp only [List.takeWhile_cons, this, ne_eq, not_false_eq_true, decide_true, if_true, List.cons.injEq, true_and]
      exact ih hl.2
  exact key t h0

/-- The bytes of a string parameter hold a NUL. -/
def Terminated (maxLength : Nat) (b : Board) (off : Nat) : Prop :=
  ∃ bs, b.read off (maxLength + 1) = some bs ∧ 0#8 ∈ bs

/-- **C39** (reads stay inside), when the bytes of the parameter hold a NUL: what is read is the bytes
of the parameter up to the first NUL, whatever follows in memory.  Missing: bytes without NUL, which
the raw byte interface can store (`C39_unterminated_reads_outside`). -/
theorem C39_read_inside_partial (maxLength : Nat) (b : Board) (off : Nat) (bs : List Byte)
    (hr : b.read off (maxLength + 1) = some bs) (h0 : 0#8 ∈ bs) :
    getString b off = .ok (bs.takeWhile (fun c => decide (c ≠ 0#8))) := by
  have hl := Board.read_length hr
  unfold getString Board.readString
  rw [if_pos (by omega)]
  unfold Board.read at hr
  rw [if_pos (by omega)] at hr
  simp only [Option.some.injEq] at hr
  have : b.drop off = bs ++ (b.drop off).drop (maxLength + 1) := by
    rw [← hr, List.take_append_drop]
  rw [this, cString_cons_of_mem _ _ h0]

example : Board.read [65#8, 0#8, 66#8] 0 2 = some [65#8, 0#8] := by decide

/-- **C39** (a NUL is always there): setting a string and resetting to the default leave a NUL in the
bytes of the parameter, a fresh (zeroed) memory has one, and writes outside the parameter keep it. -/
theorem C39_terminated (maxLength : Nat) (b : Board) (off : Nat) (room : off + (maxLength + 1) ≤ b.length) :
    (∀ t b', setString maxLength b off t = .ok b' → Terminated maxLength b' off) ∧
    (∀ b', setStringDefault b off = .ok b' → Terminated maxLength b' off) ∧
    (∀ n, off + (maxLength + 1) ≤ n → Terminated maxLength (List.replicate n 0#8) off) ∧
    (∀ b' off' size, SameOutside b b' off' size →
      off + (maxLength + 1) ≤ off' ∨ off' + size ≤ off → Terminated maxLength b off →
      Terminated maxLength b' off) := by
  have key : ∀ (t : List Byte) b', t.length ≤ maxLength → b.writeString off t = some b' →
      Terminated maxLength b' off := by
    intro t b' hl hw
    have hlen := Board.write_length hw
    obtain ⟨bs, hbs⟩ := Board.read_some (b := b') (off := off) (size := maxLength + 1) (by omega)
    refine ⟨bs, hbs, ?_⟩
    have hg := Board.read_getElem? hbs t.length (by omega)
    rw [Board.write_getElem? hw, if_pos (by simp)] at hg
    simp at hg
    exact List.mem_of_getElem? hg
  refine ⟨?_, ?_, ?_, ?_⟩
  · intro t b' h
    unfold setString stringSize at h
    split at h
    · simp at h
    · split at h
      · rename_i hlt _ b'' hw
        simp only [Out.ok.injEq] at h; subst h
        exact key t _ (by omega) hw
      · simp at h
  · intro b' h
    unfold setStringDefault at h
    split at h
    · rename_i b'' hw
      simp only [Out.ok.injEq] at h; subst h
      exact key [] _ (by simp) hw
    · simp at h
  · intro n hn
    refine ⟨List.replicate (maxLength + 1) 0#8, ?_, by simp⟩
    unfold Board.read
    rw [if_pos (by simpa using hn)]
    simp only [List.drop_replicate, List.take_replicate, Option.some.injEq]
    congr 1; omega
  · rintro b' off' size hs hd ⟨bs, hr, h0⟩
    refine ⟨bs, ?_, h0⟩
    rw [← hr]
    apply Board.read_congr hs.1
    intro i h1 h2
    exact hs.2 i (by omega)

/-- Bytes without NUL, stored through the raw byte interface, make a read run into the next parameter
(here a parameter of maximum length 1 followed by another one) or outside the memory. -/
theorem C39_unterminated_reads_outside :
    (∃ b, Board.write [0#8, 0#8, 67#8, 0#8] 0 [65#8, 66#8] = some b ∧
      getString b 0 = .ok [65#8, 66#8, 67#8]) ∧
    (∃ b, Board.write [0#8, 0#8] 0 [65#8, 66#8] = some b ∧ getString b 0 = .abort) :=
  ⟨⟨_, rfl, by decide⟩, ⟨_, rfl, by decide⟩⟩

/-! ## Arrays -/

/-- Three 8-bit integers. -/
def sampleArray : ArrayType := { elem := .int sampleInt8, length := 3 }

/-- The value texts in a text: its pieces between blanks and commas, without the empty ones. -/
def ArrayValues (text : Str) (toks : List Str) : Prop :=
  ∃ ps, Pieces ([' ', '\n', '\r', '\t', Char.ofNat 11, Char.ofNat 12, ',']) text ps ∧
    toks = ps.filter (· ≠ [])

theorem tokenize_arrayValues {text : Str} {toks : List Str} (h : ArrayValues text toks) :
    tokenize arrayDelimiters true text = toks := by
  obtain ⟨ps, h1, rfl⟩ := h
  exact tokenize_true_of_pieces h1

/-- **C40** (text set from an index).  When the values fit in the array from the start index and each
would be accepted by a scalar parameter of the element type, the set succeeds; each element set then
holds the bytes a scalar parameter would hold, and nothing else changed. -/
theorem C40_set_values (rd : Reader) (t : ArrayType) (ctx : Ctx) (b : Board) (start off : Nat)
    (room : off + t.length * t.elem.size ≤ b.length) (text : Str) (toks : List Str)
    (ht : ArrayValues text toks) (hfit : start + toks.length ≤ t.length)
    (hacc : ∀ tok ∈ toks, ∃ v, t.elem.fromText rd ctx tok = some v) :
    ∃ b', setArrayText rd t ctx b start off text = (.ok (), b') ∧
      SameOutside b b' (off + start * t.elem.size) (toks.length * t.elem.size) ∧
      ∀ j tok, toks[j]? = some tok → ∃ bj,
        setScalarText rd t.elem ctx b (off + (start + j) * t.elem.size) tok = .ok bj ∧
        b'.read (off + (start + j) * t.elem.size) t.elem.size =
          bj.read (off + (start + j) * t.elem.size) t.elem.size := by
  have hmap : ∃ vs : List (BitVec 32), toks.map (fun tok => t.elem.fromText rd ctx tok) = vs.map some := by
    clear hfit ht
    induction toks with
    | nil => exact ⟨[], rfl⟩
    | cons k ks ih =>
      obtain ⟨v, hv⟩ := hacc k (by simp)
      obtain ⟨vs, hvs⟩ := ih (fun x hx => hacc x (by simp [hx]))
      exact ⟨v :: vs, by simp [hv, hvs]⟩
  obtain ⟨vs, hvs⟩ := hmap
  have hlen : vs.length = toks.length := by
    have := congrArg List.length hvs; simpa using this.symm
  have hmul : (start + toks.length) * t.elem.size ≤ t.length * t.elem.size :=
    Nat.mul_le_mul_right _ hfit
  rw [Nat.add_mul] at hmul
  obtain ⟨b', h1, h2, h3⟩ := setElems_ok t.elem.size vs b (off + start * t.elem.size)
    (by rw [hlen]; omega)
  refine ⟨b', ?_, by rwa [hlen] at h2, ?_⟩
  · unfold setArrayText
    simp only [tokenize_arrayValues ht]
    rw [if_neg (by omega), hvs, h1]
  · intro j tok hj
    have hv : ∃ v, vs[j]? = some v ∧ t.elem.fromText rd ctx tok = some v := by
      have := congrArg (fun l => l[j]?) hvs
      simp only [List.getElem?_map, hj, Option.map_some] at this
      cases hvj : vs[j]? with
      | none => rw [hvj] at this; simp at this
      | some v => rw [hvj] at this; simp at this; exact ⟨v, rfl, this⟩
    obtain ⟨v, hvj, htok⟩ := hv
    have hjlt : j < toks.length := (List.getElem?_eq_some_iff.1 hj).1
    have hmul2 : (start + j + 1) * t.elem.size ≤ t.length * t.elem.size :=
      Nat.mul_le_mul_right _ (by omega)
    rw [Nat.add_mul, Nat.one_mul] at hmul2
    obtain ⟨bj, hbj⟩ := writeScalar_ok (size := t.elem.size) (b := b)
      (off := off + (start + j) * t.elem.size) v (by omega)
    refine ⟨bj, by simp [setScalarText, htok, hbj], ?_⟩
    have e := h3 j v hvj
    rw [show off + start * t.elem.size + j * t.elem.size = off + (start + j) * t.elem.size by
      rw [Nat.add_mul]; omega] at e
    rw [e]
    unfold writeScalar at hbj
    split at hbj
    · rename_i b'' hw
      simp only [Out.ok.injEq] at hbj; subst hbj
      have := Board.read_write_same hw
      rw [encLE_length] at this
      exact this.symm
    · simp at hbj

example : ArrayValues (s "1, -2 3") [s "1", s "-2", s "3"] := by
  refine ⟨[s "1", [], s "-2", s "3"], ?_, by decide⟩
  exact .cut (s "1") ',' _ _ (by decide) (by decide) (.cut [] ' ' _ _ (by decide) (by decide)
    (.cut (s "-2") ' ' (s "3") _ (by decide) (by decide) (.last (s "3") (by decide))))

example : setArrayText .none sampleArray ⟨false, false⟩ [9#8, 0#8, 0#8, 0#8, 9#8] 0 1 (s "1, -2 3") =
    (.ok (), [9#8, 1#8, 0xFE#8, 3#8, 9#8]) := by decide

/-- **C40** (every text reads as some list of values). -/
theorem C40_values_exist (text : Str) : ∃ toks, ArrayValues text toks := by
  obtain ⟨ps, h⟩ := pieces_exists [' ', '\n', '\r', '\t', Char.ofNat 11, Char.ofNat 12, ','] text
  exact ⟨_, ps, h, rfl⟩

/-- **C40** (too many values): refused, memory unchanged. -/
theorem C40_too_many_refused (rd : Reader) (t : ArrayType) (ctx : Ctx) (b : Board) (start off : Nat)
    (text : Str) (toks : List Str) (ht : ArrayValues text toks) (h : t.length < start + toks.length) :
    setArrayText rd t ctx b start off text = (.err, b) := by
  unfold setArrayText
  simp only [tokenize_arrayValues ht]
  rw [if_pos (by omega)]

/-- **C40** (an invalid value): the set is refused; the values before the first invalid one stay set,
all the rest of the memory is unchanged.  So nothing changes when the first value is the invalid one.
Missing: the memory should not change at all (`C40_partial_write`). -/
theorem C40_invalid_refused_partial (rd : Reader) (t : ArrayType) (ctx : Ctx) (b : Board)
    (start off : Nat) (room : off + t.length * t.elem.size ≤ b.length) (text : Str)
    (good rest : List Str) (bad : Str) (ht : ArrayValues text (good ++ bad :: rest))
    (hfit : start + (good ++ bad :: rest).length ≤ t.length)
    (hacc : ∀ tok ∈ good, ∃ v, t.elem.fromText rd ctx tok = some v)
    (hbad : t.elem.fromText rd ctx bad = none) :
    ∃ b', setArrayText rd t ctx b start off text = (.err, b') ∧
      SameOutside b b' (off + start * t.elem.size) (good.length * t.elem.size) ∧
      (good = [] → b' = b) := by
  have hmap : ∃ vs : List (BitVec 32), good.map (fun tok => t.elem.fromText rd ctx tok) = vs.map some := by
    clear hfit ht
    induction good with
    | nil => exact ⟨[], rfl⟩
    | cons k ks ih =>
      obtain ⟨v, hv⟩ := hacc k (by simp)
      obtain ⟨vs, hvs⟩ := ih (fun x hx => hacc x (by simp [hx]))
      exact ⟨v :: vs, by simp [hv, hvs]⟩
  obtain ⟨vs, hvs⟩ := hmap
  have hlen : vs.length = good.length := by
    have := congrArg List.length hvs; simpa using this.symm
  simp only [List.length_append, List.length_cons] at hfit
  have hmul : (start + good.length) * t.elem.size ≤ t.length * t.elem.size :=
    Nat.mul_le_mul_right _ (by omega)
  rw [Nat.add_mul] at hmul
  obtain ⟨b', h1, h2, h3⟩ := setElems_ok t.elem.size vs b (off + start * t.elem.size)
    (by rw [hlen]; omega)
  refine ⟨b', ?_, by rwa [hlen] at h2, ?_⟩
  · unfold setArrayText
    simp only [tokenize_arrayValues ht]
    rw [if_neg (by simp; omega), List.map_append, hvs, setElems_append _ _ _ _ _ _ h1]
    simp only [List.map_cons, hbad, setElems]
  · rintro rfl
    have : vs = [] := by simpa using hlen
    subst this
    simp [setElems] at h1
    exact h1.symm

/-- A refused set leaves the first values changed: the whole of C40 does not hold. -/
theorem C40_partial_write :
    setArrayText .none sampleArray ⟨false, false⟩ [9#8, 9#8, 9#8] 0 0 (s "1 2 abc") =
      (.err, [1#8, 2#8, 9#8]) := by decide

/-- **C40** (access by path).  Without further path item the whole array is set; with an index within
the array, the values are set from this element; an index out of range, an item that is no number, or
an item after the index is refused without change. -/
theorem C40_access_by_index (rd : Reader) (t : ArrayType) (ctx : Ctx) (b : Board)
    (off base : Nat) (hb : base ≤ off) (text item : Str) (n : Nat) (hn : Numeral 10 item n)
    (rest : List Str) (extra : Str) (hlen : t.length < 2 ^ 64) :
    arrayAccessSet rd t ctx b off base [] text = setArrayText rd t ctx b 0 (off - base) text ∧
    (n < t.length →
      arrayAccessSet rd t ctx b off base [item] text = setArrayText rd t ctx b n (off - base) text) ∧
    (t.length ≤ n → arrayAccessSet rd t ctx b off base (item :: rest) text = (.err, b)) ∧
    arrayAccessSet rd t ctx b off base (item :: extra :: rest) text = (.err, b) := by
  have hbig : 2 ^ 64 ≤ n → streamSize item = none := by
    intro h
    match item, hn.chars.1, hn.ne, hn with
    | c :: r, _, hne, hn =>
      have h1 := hne c (by simp)
      have e : (c :: r : Str).dropWhile (fun c => decide (c ∈ cSpaces)) = c :: r := by
        simp [List.dropWhile, h1.1]
      have e2 : splitSign (c :: r) = (false, c :: r) := by
        unfold splitSign
        split
        · rename_i heq; simp at heq; exact absurd heq.1 h1.2.1
        · rename_i heq; simp at heq; exact absurd heq.1 h1.2.2.1
        · rfl
      unfold streamSize
      simp only [e, e2, digitPrefix_of_numeral hn, parseNat_of_numeral hn]
      rw [if_pos h]
  refine ⟨?_, ?_, ?_, ?_⟩
  · simp [arrayAccessSet, arrayIndex]; omega
  · intro h
    have : ¬ off < base := by omega
    have h' : ¬ t.length ≤ n := by omega
    simp [arrayAccessSet, arrayIndex, streamSize_numeral hn (by omega), this, h']
  · intro h
    by_cases h64 : n < 2 ^ 64
    · simp [arrayAccessSet, arrayIndex, streamSize_numeral hn h64, h]
    · simp [arrayAccessSet, arrayIndex, hbig (by omega)]
  · by_cases h64 : n < 2 ^ 64
    · by_cases hl : t.length ≤ n <;>
        simp [arrayAccessSet, arrayIndex, streamSize_numeral hn h64, hl]
    · simp [arrayAccessSet, arrayIndex, hbig (by omega)]

example : Numeral 10 (s "2") 2 ∧ arrayAccessSet .none sampleArray ⟨false, false⟩
    [9#8, 9#8, 9#8] 4 4 [s "2"] (s "5") = (.ok (), [9#8, 9#8, 5#8]) :=
  ⟨.single ⟨by decide, by decide⟩, by decide⟩

/-- A path item that starts with a number is taken as this number. -/
theorem C40_index_garbage_accepted :
    arrayAccessSet .none sampleArray ⟨false, false⟩ [9#8, 9#8, 9#8] 0 0 [s "2nd"] (s "5") =
      (.ok (), [9#8, 9#8, 5#8]) := by decide

/-- **C40** (whole array read).  Reading the array gives the texts of its elements, each as a scalar
parameter at its place would be read, separated by single spaces. -/
theorem C40_get_values (t : ArrayType) (ctx : Ctx) (b : Board) (off base : Nat) (hb : base ≤ off)
    (ws : List Str) (hl : ws.length = t.length)
    (hw : ∀ j w, ws[j]? = some w → getScalarText t.elem ctx b (off - base + j * t.elem.size) = .ok w) :
    arrayAccessGet t ctx b off base [] = .ok (joinWith ' ' ws) := by
  have := (getElems_iff t.elem ctx b (off - base) t.length ws).2 ⟨hl, hw⟩
  have hb' : ¬ off < base := by omega
  simp [arrayAccessGet, arrayIndex, hb', getArrayText, this, Out.bind, spaced_eq_joinWith]

/-- **C40** (one element read), when the context has no base offset. -/
theorem C40_get_index_partial (t : ArrayType) (ctx : Ctx) (b : Board) (off : Nat) (item : Str) (n : Nat)
    (hn : Numeral 10 item n) (h : n < t.length) (hlen : t.length < 2 ^ 64) :
    arrayAccessGet t ctx b off 0 [item] = getScalarText t.elem ctx b (off + n * t.elem.size) := by
  have : ¬ t.length ≤ n := by omega
  simp [arrayAccessGet, arrayIndex, streamSize_numeral hn (by omega), this]

/-- With a base offset (an array inside the element of a configuration), reading one element looks at
the wrong place: here element 0 of an array at offset 2 of an area that starts at 2. -/
theorem C40_get_index_ignores_base :
    arrayAccessSet .none sampleArray ⟨false, false⟩ [0#8, 0#8, 0#8] 2 2 [s "0"] (s "7") =
      (.ok (), [7#8, 0#8, 0#8]) ∧
    arrayAccessGet sampleArray ⟨false, false⟩ [7#8, 0#8, 0#8] 2 2 [s "0"] = .ok (s "0") ∧
    arrayAccessGet sampleArray ⟨false, false⟩ [7#8, 0#8, 0#8] 2 2 [s "1"] = .abort := by decide

/-- **C40** (round trip).  When the text of each element is a value text (not empty, no blank or
comma) that a scalar parameter accepts without changing its memory, setting the whole array to the
text read changes nothing. -/
theorem C40_get_then_set (rd : Reader) (t : ArrayType) (ctx ctx' : Ctx) (b : Board) (off : Nat)
    (room : off + t.length * t.elem.size ≤ b.length) (ws : List Str) (hl : ws.length = t.length)
    (hget : ∀ j w, ws[j]? = some w → getScalarText t.elem ctx b (off + j * t.elem.size) = .ok w)
    (hfree : ∀ w ∈ ws, w ≠ [] ∧
      ∀ c ∈ w, c ∉ [' ', '\n', '\r', '\t', Char.ofNat 11, Char.ofNat 12, ','])
    (hset : ∀ j w, ws[j]? = some w →
      setScalarText rd t.elem ctx' b (off + j * t.elem.size) w = .ok b) :
    ∃ text, getArrayText t ctx b off = .ok text ∧
      setArrayText rd t ctx' b 0 off text = (.ok (), b) := by
  refine ⟨joinWith ' ' ws, ?_, ?_⟩
  · have := (getElems_iff t.elem ctx b off t.length ws).2 ⟨hl, hget⟩
    simp [getArrayText, this, Out.bind, spaced_eq_joinWith]
  · by_cases hne : ws = []
    · subst hne
      simp at hl
      simp [joinWith, setArrayText, tokenize, setElems]
    · have hv : ArrayValues (joinWith ' ' ws) ws := by
        refine ⟨ws, pieces_join _ ' ' (by decide) ws hne (fun w hw => (hfree w hw).2), ?_⟩
        symm
        rw [List.filter_eq_self]
        intro w hw
        simpa using (hfree w hw).1
      have hacc : ∀ tok ∈ ws, ∃ v, t.elem.fromText rd ctx' tok = some v := by
        intro tok hm
        obtain ⟨j, hj⟩ := List.getElem?_of_mem hm
        have := hset j tok hj
        unfold setScalarText at this
        split at this
        · simp at this
        · rename_i v hv; exact ⟨v, hv⟩
      obtain ⟨b', h1, h2, h3⟩ := C40_set_values rd t ctx' b 0 off room _ ws hv (by omega) hacc
      rw [h1]
      congr 1
      apply List.ext_getElem?
      intro i
      by_cases hi : off ≤ i ∧ i < off + ws.length * t.elem.size
      · have hs : 0 < t.elem.size := by
          rcases Nat.eq_zero_or_pos t.elem.size with h | h
          · rw [h] at hi; omega
          · exact h
        have hj : (i - off) / t.elem.size < ws.length := by
          rw [Nat.div_lt_iff_lt_mul hs]; omega
        obtain ⟨bj, hbj, hr⟩ := h3 ((i - off) / t.elem.size) ws[(i - off) / t.elem.size]
          (List.getElem?_eq_getElem hj)
        rw [Nat.zero_add] at hbj hr
        rw [hset _ _ (List.getElem?_eq_getElem hj)] at hbj
        simp only [Out.ok.injEq] at hbj; subst hbj
        have hdm := Nat.div_add_mod (i - off) t.elem.size
        have hmod := Nat.mod_lt (i - off) hs
        have hmc := Nat.mul_comm t.elem.size ((i - off) / t.elem.size)
        have hbound : ((i - off) / t.elem.size + 1) * t.elem.size ≤ t.length * t.elem.size :=
          Nat.mul_le_mul_right _ (by omega)
        rw [Nat.add_mul, Nat.one_mul] at hbound
        obtain ⟨bs, hbs⟩ := Board.read_some (b := b)
          (off := off + (i - off) / t.elem.size * t.elem.size) (size := t.elem.size) (by omega)
        have g1 := Board.read_getElem? hbs ((i - off) % t.elem.size) hmod
        rw [hbs] at hr
        have g2 := Board.read_getElem? hr ((i - off) % t.elem.size) hmod
        rw [g1] at g2
        have e : off + (i - off) / t.elem.size * t.elem.size + (i - off) % t.elem.size = i := by omega
        rw [e] at g2
        exact g2.symm
      · exact h2.2 i (by omega)

/-- **C40** for arrays of integers: whatever the memory holds, the text read from the array has one
numeral per element, and when all the elements are within the declared range setting it changes
nothing. -/
theorem C40_integer_round_trip (rd : Reader) (it : IntType) (wf : it.WF) (n : Nat) (ctx ctx' : Ctx)
    (b : Board) (off : Nat) (room : off + n * it.size ≤ b.length)
    (hin : ∀ j bs, j < n → b.read (off + j * it.size) it.size = some bs →
      it.min ≤ memValue it.signed bs ∧ memValue it.signed bs ≤ it.max) :
    ∃ text, getArrayText ⟨.int it, n⟩ ctx b off = .ok text ∧
      setArrayText rd ⟨.int it, n⟩ ctx' b 0 off text = (.ok (), b) := by
  have one : ∀ j, j < n → ∃ w, getScalarText (.int it) ctx b (off + j * it.size) = .ok w ∧
      (∃ m, Denotes it.signed it.bits w m) ∧
      setScalarText rd (.int it) ctx' b (off + j * it.size) w = .ok b := by
    intro j hj
    have hb : (j + 1) * it.size ≤ n * it.size := Nat.mul_le_mul_right _ (by omega)
    rw [Nat.add_mul, Nat.one_mul] at hb
    obtain ⟨bs, hbs⟩ := Board.read_some (b := b) (off := off + j * it.size) (size := it.size) (by omega)
    obtain ⟨w, h1, h2, h3⟩ := C33_get_then_set rd it wf ctx ctx' b (off + j * it.size) bs hbs
    rw [if_pos (hin j bs hj hbs)] at h3
    exact ⟨w, h1, ⟨_, h2⟩, h3⟩
  have hws : ∃ ws : List Str, ws.length = n ∧ ∀ (j : Nat) w, ws[j]? = some w →
      getScalarText (.int it) ctx b (off + j * it.size) = .ok w ∧
      (∃ m, Denotes it.signed it.bits w m) ∧
      setScalarText rd (.int it) ctx' b (off + j * it.size) w = .ok b := by
    clear room hin
    induction n with
    | zero => exact ⟨[], rfl, by simp⟩
    | succ n ih =>
      obtain ⟨ws, hl, hw⟩ := ih (fun j hj => one j (by omega))
      obtain ⟨w, h⟩ := one n (by omega)
      refine ⟨ws ++ [w], by simp [hl], ?_⟩
      intro j x hj
      rw [List.getElem?_append] at hj
      split at hj
      · exact hw j x hj
      · rename_i hlt
        have : j - ws.length = 0 := by
          rcases Nat.eq_zero_or_pos (j - ws.length) with h | h
          · exact h
          · rw [List.getElem?_eq_none (by simp; omega)] at hj; simp at hj
        have : j = n := by omega
        subst this
        simp [hl] at hj
        subst hj
        exact h
  obtain ⟨ws, hl, hw⟩ := hws
  have key : ∀ p ∈ digitTable, p.1 ∉ [' ', '\n', '\r', '\t', Char.ofNat 11, Char.ofNat 12, ','] := by decide
  have hnum : ∀ {base : Nat} {u : Str} {k : Nat}, Numeral base u k →
      ∀ c ∈ u, c ∉ [' ', '\n', '\r', '\t', Char.ofNat 11, Char.ofNat 12, ','] := by
    intro base u k h c hc
    obtain ⟨d, hd⟩ := h.chars.2 c hc
    exact key _ hd.2
  apply C40_get_then_set rd ⟨.int it, n⟩ ctx ctx' b off room ws hl
  · exact fun j w hj => (hw j w hj).1
  · intro w hm
    obtain ⟨j, hj⟩ := List.getElem?_of_mem hm
    obtain ⟨-, ⟨m, hd⟩, -⟩ := hw j w hj
    cases hd with
    | dec h => exact ⟨h.chars.1, hnum h⟩
    | plus h => exact ⟨by simp, by rw [List.forall_mem_cons]; exact ⟨by decide, hnum h⟩⟩
    | minus _ h => exact ⟨by simp, by rw [List.forall_mem_cons]; exact ⟨by decide, hnum h⟩⟩
    | hexUnsigned _ h => exact ⟨by simp, by
        rw [List.forall_mem_cons, List.forall_mem_cons]; exact ⟨by decide, by decide, hnum h⟩⟩
    | hexPositive _ h _ => exact ⟨by simp, by
        rw [List.forall_mem_cons, List.forall_mem_cons]; exact ⟨by decide, by decide, hnum h⟩⟩
    | hexNegative _ h _ _ => exact ⟨by simp, by
        rw [List.forall_mem_cons, List.forall_mem_cons]; exact ⟨by decide, by decide, hnum h⟩⟩
  · exact fun j w hj => (hw j w hj).2.2

example : getArrayText sampleArray ⟨true, true⟩ [9#8, 1#8, 0xFE#8, 3#8, 9#8] 1 = .ok (s "0x01 0xFE 0x03") ∧
    setArrayText .none sampleArray ⟨false, false⟩ [9#8, 1#8, 0xFE#8, 3#8, 9#8] 0 1 (s "0x01 0xFE 0x03") =
      (.ok (), [9#8, 1#8, 0xFE#8, 3#8, 9#8]) := by decide +kernel

/-- **C40** (typed access).  When every value of a list of the array's length is accepted and converts
to a raw value that fits in an element, the set succeeds, changes only the array, and reading gives
back the conversions of the same raw values; a list of another length is an assertion failure; and a
refused value stops the set. -/
theorem C40_typed_set_then_get {α β : Type} (t : ArrayType) (conv : α → Option (BitVec 32))
    (back : BitVec 32 → β) (b : Board) (off : Nat) (room : off + t.length * t.elem.size ≤ b.length)
    (vals : List α) (raws : List (BitVec 32)) (hl : vals.length = t.length)
    (hacc : vals.map conv = raws.map some) (hfit : ∀ v ∈ raws, v.toNat < 2 ^ (8 * t.elem.size)) :
    ∃ b', setArrayTyped t conv b off vals = (.ok (), b') ∧
      SameOutside b b' off (t.length * t.elem.size) ∧
      getElemsTyped t.elem.size back b' off t.length = .ok (raws.map back) := by
  have hrl : raws.length = t.length := by
    have := congrArg List.length hacc; simp at this; omega
  obtain ⟨b', h1, h2, h3⟩ := setElems_ok t.elem.size raws b off (by rw [hrl]; exact room)
  refine ⟨b', ?_, by rwa [hrl] at h2, ?_⟩
  · unfold setArrayTyped
    rw [if_neg (by simp [hl]), hacc, h1]
  · rw [← hrl]
    apply getElemsTyped_ok
    intro j v hj
    unfold readScalar
    rw [h3 j v hj]
    simp only [decLE_encLE, Out.ok.injEq]
    rw [pow256, Nat.mod_eq_of_lt (hfit v (List.mem_of_getElem? hj))]
    simp

example : ∃ b', setArrayTyped sampleArray sampleInt8.fromInt [0#8, 0#8, 0#8] 0 [1#32, 2#32, 3#32] = (.ok (), b') ∧
    getElemsTyped 1 sampleInt8.toInt b' 0 3 = .ok [1#32, 2#32, 3#32] := ⟨_, rfl, by decide⟩

end PF
