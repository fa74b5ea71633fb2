import Verif.Spec.Message
import Verif.Lemmas.Bytes

/-! # Lemmas on the remote protocol -/

namespace PF
open PF.Spec

theorem encLE_four (n : Nat) : encLE 4 n = le32 n := by
  simp [encLE, le32, Nat.div_div_eq_div_mul]

theorem le32_length (n : Nat) : (le32 n).length = 4 := rfl

theorem decLE_le32 {n : Nat} (h : n < 2 ^ 32) : decLE (le32 n) = n := by
  rw [← encLE_four, decLE_encLE, Nat.mod_eq_of_lt (by simpa using h)]

theorem checksum_eq (id : Byte) (data : List Byte) :
    checksum id data = BitVec.ofNat 8 (byteSum (id :: data)) := by
  have h : ∀ (data : List Byte) (a : Byte), data.foldl (· + ·) a = BitVec.ofNat 8 (a.toNat + byteSum data) := by
    intro data
    induction data with
    | nil => intro a; simp [byteSum]
    | cons b bs ih =>
      intro a
      rw [List.foldl_cons, ih]
      apply BitVec.eq_of_toNat_eq
      simp only [BitVec.toNat_add, BitVec.toNat_ofNat, byteSum]
      omega
  rw [checksum, h]; rfl

theorem sendBytes_eq (id : Byte) (data : List Byte) : sendBytes id data = frame id data := by
  unfold sendBytes frame
  rw [encLE_four, checksum_eq]
  rfl

theorem sockRead_full {n : Nat} {st : List Byte} (h : n ≤ st.length) :
    sockRead n st = (n, st.take n, st.drop n) := by
  unfold sockRead
  rw [List.length_take, Nat.min_eq_left h, Nat.sub_eq_zero_of_le h]
  simp

theorem sockRead_append {n : Nat} {a b : List Byte} (h : a.length = n) :
    sockRead n (a ++ b) = (n, a, b) := by
  rw [sockRead_full (by simp; omega)]
  subst h
  simp

/-- Reception of a stream that has at least a header. -/
theorem receiveFrame_long (b0 b1 s0 s1 s2 s3 id : Byte) (tail : List Byte) :
    receiveFrame (b0 :: b1 :: s0 :: s1 :: s2 :: s3 :: id :: tail) =
      if decLE [b0, b1] ≠ syncWord then .error
      else if decLE [s0, s1, s2, s3] = 0 then .abort
      else if decLE [s0, s1, s2, s3] = 1 then .error
      else if tail.length ≤ decLE [s0, s1, s2, s3] - 1 then .error
      else if tail.getD (decLE [s0, s1, s2, s3] - 1) 0#8 ≠ checksum id (tail.take (decLE [s0, s1, s2, s3] - 1)) then .error
      else .success (id, tail.take (decLE [s0, s1, s2, s3] - 1)) (tail.drop (decLE [s0, s1, s2, s3])) := by
  unfold receiveFrame
  rw [sockRead_full (n := 2) (by simp)]
  simp only [List.take_succ_cons, List.take_zero, List.drop_succ_cons, List.drop_zero, show ¬ (2 = 0) by decide, ite_false]
  split
  · rfl
  rw [sockRead_full (n := 4) (by simp), sockRead_full (n := 1) (by simp)]
  simp only [List.take_succ_cons, List.take_zero, List.drop_succ_cons, List.drop_zero, show ¬ (4 = 0) by decide, ite_false,
    Nat.one_ne_zero, List.headD_cons]
  generalize decLE [s0, s1, s2, s3] = n
  by_cases h0 : n = 0
  · simp [h0]
  simp only [h0, ite_false]
  by_cases h1 : n = 1
  · simp [h1, sockRead]
  simp only [h1, ite_false]
  by_cases h2 : tail.length ≤ n - 1
  · simp only [h2, ite_true]
    have hd : (sockRead (n - 1) tail).2.2 = [] := by simp [sockRead, h2]
    rw [hd]
    simp [sockRead]
  · simp only [h2, ite_false]
    rw [sockRead_full (n := n - 1) (by omega)]
    simp only
    rw [sockRead_full (n := 1) (by simp; omega)]
    have hn : ¬ n - 1 = 0 := by omega
    simp only [hn, ite_false, Nat.one_ne_zero]
    have hg : (tail.drop (n - 1)).take 1 = [tail.getD (n - 1) 0#8] := by
      rw [List.getD, List.getElem?_eq_getElem (by omega : n - 1 < tail.length),
        List.drop_eq_getElem_cons (by omega : n - 1 < tail.length)]
      rfl
    rw [hg, List.drop_drop]
    have hs : n - 1 + 1 = n := by omega
    simp [hs]

/-- A stream that ends before the end of a header gives no message. -/
theorem receiveFrame_short (st : List Byte) (h : st.length < 7) :
    receiveFrame st = if st = [] then .peerDisconnected else .error := by
  match st, h with
  | [], _ => rfl
  | [a], _ => 
    have : ¬ decLE [a, 0#8] = syncWord := by
      have := a.isLt; simp only [decLE, syncWord]; simp; omega
    simp [receiveFrame, sockRead, this]
  | [a, b], _ => simp [receiveFrame, sockRead]
  | [a, b, c], _ => simp [receiveFrame, sockRead]
  | [a, b, c, d], _ => simp [receiveFrame, sockRead]
  | [a, b, c, d, e], _ => simp [receiveFrame, sockRead]
  | [a, b, c, d, e, f], _ => simp [receiveFrame, sockRead]
  | a :: b :: c :: d :: e :: f :: g :: t, h => simp at h; omega

theorem frame_cons (id : Byte) (data rest : List Byte) :
    frame id data ++ rest = 0xBE#8 :: 0xBA#8 :: BitVec.ofNat 8 (1 + data.length) ::
      BitVec.ofNat 8 ((1 + data.length) / 256) :: BitVec.ofNat 8 ((1 + data.length) / 65536) ::
      BitVec.ofNat 8 ((1 + data.length) / 16777216) :: id ::
      (data ++ BitVec.ofNat 8 (byteSum (id :: data)) :: rest) := by
  simp [frame, le32]

theorem receiveFrame_frame (id : Byte) (data rest : List Byte) (hne : data ≠ []) (hl : data.length + 1 < 2 ^ 32) :
    receiveFrame (frame id data ++ rest) = .success (id, data) rest := by
  have hpos : data.length ≠ 0 := fun h => hne (List.length_eq_zero_iff.1 h)
  rw [frame_cons, receiveFrame_long]
  have hdec := decLE_le32 (n := 1 + data.length) (by omega)
  unfold le32 at hdec
  rw [hdec]
  have h3 : ¬ decLE [0xBE#8, 0xBA#8] ≠ syncWord := by decide
  have h0 : ¬ 1 + data.length = 0 := by omega
  have h1 : ¬ 1 + data.length = 1 := by omega
  have hs : 1 + data.length - 1 = data.length := by omega
  simp only [h3, h0, h1, hs, ite_false]
  rw [checksum_eq]
  simp [List.getD, Nat.add_comm 1]

theorem le32_decLE (a b c d : Byte) : le32 (decLE [a, b, c, d]) = [a, b, c, d] := by
  have := encLE_decLE [a, b, c, d]
  simp only [List.length_cons, List.length_nil, Nat.zero_add, Nat.reduceAdd] at this
  rw [← encLE_four, this]

theorem receiveFrame_success {st : List Byte} {id : Byte} {data rest : List Byte}
    (h : receiveFrame st = .success (id, data) rest) :
    st = frame id data ++ rest ∧ data ≠ [] ∧ data.length + 1 < 2 ^ 32 := by
  match st, h with
  | b0 :: b1 :: s0 :: s1 :: s2 :: s3 :: id' :: tail, h =>
    rw [receiveFrame_long] at h
    have hlt : decLE [s0, s1, s2, s3] < 2 ^ 32 := by simpa using decLE_lt [s0, s1, s2, s3]
    have hle := le32_decLE s0 s1 s2 s3
    generalize hn : decLE [s0, s1, s2, s3] = n at *
    split at h
    · cases h
    rename_i hs
    split at h
    · cases h
    split at h
    · cases h
    split at h
    · cases h
    split at h
    · cases h
    rename_i h0 h1 h2 h3
    simp only [Recv.success.injEq, Prod.mk.injEq] at h
    obtain ⟨⟨rfl, rfl⟩, rfl⟩ := h
    have hlen : (tail.take (n - 1)).length = n - 1 := by simp; omega
    refine ⟨?_, fun hx => ?_, by omega⟩
    · rw [frame_cons, hlen]
      have hn1 : 1 + (n - 1) = n := by omega
      rw [hn1]
      have hb : b0 = 0xBE#8 ∧ b1 = 0xBA#8 := by
        have := Classical.not_not.1 hs
        simp only [decLE, syncWord] at this
        have h0 := b0.isLt; have h1 := b1.isLt
        constructor <;> apply BitVec.eq_of_toNat_eq <;> simp <;> omega
      obtain ⟨rfl, rfl⟩ := hb
      unfold le32 at hle
      simp only [List.cons.injEq] at hle
      obtain ⟨e0, e1, e2, e3, _⟩ := hle
      rw [e0, e1, e2, e3]
      congr 7
      have hc := Classical.not_not.1 h3
      rw [← checksum_eq, ← hc]
      rw [List.getD, List.getElem?_eq_getElem (by omega : n - 1 < tail.length), Option.getD_some]
      have : tail.drop n = tail.drop (n - 1 + 1) := by rw [Nat.sub_add_cancel (by omega)]
      rw [this, ← List.drop_eq_getElem_cons, List.take_append_drop]
    · have := congrArg List.length hx
      rw [hlen] at this
      simp at this
      omega
  | [], h => rw [receiveFrame_short _ (by simp)] at h; simp at h
  | [_], h => rw [receiveFrame_short _ (by simp)] at h; simp at h
  | [_, _], h => rw [receiveFrame_short _ (by simp)] at h; simp at h
  | [_, _, _], h => rw [receiveFrame_short _ (by simp)] at h; simp at h
  | [_, _, _, _], h => rw [receiveFrame_short _ (by simp)] at h; simp at h
  | [_, _, _, _, _], h => rw [receiveFrame_short _ (by simp)] at h; simp at h
  | [_, _, _, _, _, _], h => rw [receiveFrame_short _ (by simp)] at h; simp at h

/-! ## Texts -/

theorem readString_texts {t : BText} {data : List Byte} (ht : t.length < 2 ^ 32) :
    readString (le32 t.length ++ t ++ data) = .ok (cText t, data) := by
  unfold readString
  have h4 : (le32 t.length ++ t ++ data).take 4 = le32 t.length := by
    rw [List.append_assoc, List.take_left' (le32_length _)]
  have hd : (le32 t.length ++ t ++ data).drop 4 = t ++ data := by
    rw [List.append_assoc, List.drop_left' (le32_length _)]
  rw [h4, hd, decLE_le32 ht]
  have h1 : ¬ (le32 t.length ++ t ++ data).length < 4 := by simp [le32_length]
  rw [if_neg h1]
  simp

theorem readString_ok {data : List Byte} {x : BText × List Byte} (h : readString data = .ok x) :
    ∃ t, t.length < 2 ^ 32 ∧ data = le32 t.length ++ t ++ x.2 ∧ x.1 = cText t := by
  unfold readString at h
  split at h
  · cases h
  split at h
  · cases h
  rename_i h1 h2
  simp only [Out.ok.injEq] at h
  subst h
  match data, h1 with
  | a :: b :: c :: d :: rest, _ =>
    simp only [List.take_succ_cons, List.take_zero, List.drop_succ_cons, List.drop_zero] at h2 ⊢
    have hlt : decLE [a, b, c, d] < 2 ^ 32 := by simpa using decLE_lt [a, b, c, d]
    have hlen : (rest.take (decLE [a, b, c, d])).length = decLE [a, b, c, d] := by simp; omega
    refine ⟨_, by rw [hlen]; exact hlt, ?_, rfl⟩
    rw [hlen, le32_decLE, List.append_assoc, List.take_append_drop]
    rfl
  | [], h1 => simp at h1
  | [_], h1 => simp at h1
  | [_, _], h1 => simp at h1
  | [_, _, _], h1 => simp at h1

theorem readString_abort {data : List Byte} (h : ∀ x, readString data ≠ .ok x) : readString data = .abort := by
  unfold readString at h ⊢
  split
  · rfl
  · split
    · rfl
    · rename_i h1 h2
      rw [if_neg h1, if_neg h2] at h
      exact absurd rfl (h _)

theorem readStrings_texts {ts : List BText} {data : List Byte} (h : Texts ts data) (n : Nat)
    (hn : data.length ≤ n) : readStrings n data = .ok (ts.map cText) := by
  induction h generalizing n with
  | nil => cases n <;> rfl
  | cons t ts data ht _ ih =>
    have hne : ∃ b bs, le32 t.length ++ t ++ data = b :: bs := ⟨_, _, rfl⟩
    obtain ⟨b, bs, hb⟩ := hne
    cases n with
    | zero => rw [hb] at hn; simp at hn
    | succ n =>
      have hr := readString_texts (t := t) (data := data) ht
      rw [hb] at hr ⊢
      simp only [readStrings, hr, Out.bind]
      have hlen := congrArg List.length hb
      simp only [List.length_append, le32_length, List.length_cons] at hlen
      rw [hb] at hn
      simp only [List.length_cons] at hn
      rw [ih n (by omega)]
      rfl

theorem readStrings_ok {n : Nat} {data : List Byte} {xs : List BText} (h : readStrings n data = .ok xs) :
    ∃ ts, Texts ts data ∧ xs = ts.map cText := by
  induction n generalizing data xs with
  | zero =>
    cases data with
    | nil => simp [readStrings] at h; subst h; exact ⟨[], .nil, rfl⟩
    | cons => simp [readStrings] at h
  | succ n ih =>
    cases data with
    | nil => simp [readStrings] at h; subst h; exact ⟨[], .nil, rfl⟩
    | cons b bs =>
      simp only [readStrings] at h
      cases hr : readString (b :: bs) with
      | err => simp [hr, Out.bind] at h
      | abort => simp [hr, Out.bind] at h
      | ok x =>
        rw [hr] at h
        simp only [Out.bind] at h
        cases hx : readStrings n x.2 with
        | err => simp [hx] at h
        | abort => simp [hx] at h
        | ok ys =>
          rw [hx] at h
          simp only [Out.ok.injEq] at h
          subst h
          obtain ⟨ts, ht, rfl⟩ := ih hx
          obtain ⟨t, hlt, hd, hx1⟩ := readString_ok hr
          refine ⟨t :: ts, ?_, by simp [hx1]⟩
          rw [hd]
          exact .cons t ts x.2 hlt ht

theorem readStrings_notErr (n : Nat) (data : List Byte) : readStrings n data ≠ .err := by
  induction n generalizing data with
  | zero => cases data <;> simp [readStrings]
  | succ n ih =>
    cases data with
    | nil => simp [readStrings]
    | cons b bs =>
      simp only [readStrings]
      cases hr : readString (b :: bs) with
      | err => unfold readString at hr; split at hr; cases hr; split at hr <;> cases hr
      | abort => simp [Out.bind]
      | ok x =>
        simp only [Out.bind]
        have := ih x.2
        cases hx : readStrings n x.2 with
        | err => exact absurd hx this
        | abort => simp
        | ok ys => simp

theorem collectRequest_texts {t : BText} {ts : List BText} {data : List Byte} (h : Texts (t :: ts) data) :
    collectRequest data = .ok ⟨trim (cText t), ts.map (fun x => trim (cText x))⟩ := by
  cases h with
  | cons _ _ data ht h =>
    unfold collectRequest
    rw [readString_texts ht]
    simp only [Out.bind]
    rw [readStrings_texts h _ (Nat.le_refl _)]
    simp [List.map_map, Function.comp_def]

theorem collectRequest_ok {data : List Byte} {r : Request} (h : collectRequest data = .ok r) :
    ∃ t ts, Texts (t :: ts) data := by
  unfold collectRequest at h
  cases hr : readString data with
  | err => simp [hr, Out.bind] at h
  | abort => simp [hr, Out.bind] at h
  | ok x =>
    rw [hr] at h
    simp only [Out.bind] at h
    cases hx : readStrings x.2.length x.2 with
    | err => simp [hx] at h
    | abort => simp [hx] at h
    | ok ys =>
      obtain ⟨ts, ht, _⟩ := readStrings_ok hx
      obtain ⟨t, hlt, hd, _⟩ := readString_ok hr
      exact ⟨t, ts, by rw [hd]; exact .cons t ts x.2 hlt ht⟩

theorem writeStrings_texts {ts : List BText} (h : ∀ t ∈ ts, t.length < 2 ^ 32) :
    ∃ data, writeStrings ts = .ok data ∧ Texts ts data ∧ data.length = textsSize ts := by
  induction ts with
  | nil => exact ⟨[], rfl, .nil, rfl⟩
  | cons t ts ih =>
    obtain ⟨data, hd, ht, hl⟩ := ih (fun x hx => h x (by simp [hx]))
    refine ⟨le32 t.length ++ t ++ data, ?_, .cons t ts data (h t (by simp)) ht, ?_⟩
    · simp [writeStrings, writeString, h t (by simp), Out.bind, hd, encLE_four]
    · simp [textsSize, le32_length, hl, Nat.add_assoc]

theorem textsSize_mem {ts : List BText} {t : BText} (h : t ∈ ts) : t.length ≤ textsSize ts := by
  induction ts with
  | nil => simp at h
  | cons x ts ih =>
    rcases List.mem_cons.1 h with rfl | h
    · simp only [textsSize]; omega
    · have := ih h; simp only [textsSize]; omega

theorem cText_noNul {t : BText} (h : NoNul t) : cText t = t := by
  unfold cText
  unfold NoNul at h
  induction t with
  | nil => rfl
  | cons a t ih =>
    rw [List.mem_cons, not_or] at h
    have ha : a ≠ 0#8 := fun e => h.1 e.symm
    simp only [List.takeWhile_cons, ne_eq, ha, not_false_eq_true, decide_true, ite_true, List.cons.injEq, true_and]
    exact ih h.2

theorem isSpace_iff (b : Byte) : b ∈ trimDelimiters ↔ IsSpace b := by
  simp [trimDelimiters, IsSpace]

theorem dropWhile_eq_self_of_head {α : Type} {l : List α} {p : α → Bool}
    (h : ∀ b, l.head? = some b → p b = false) : l.dropWhile p = l := by
  cases l with
  | nil => rfl
  | cons a l => simp [h a rfl]

theorem trim_trimmed {t : BText} (h : Trimmed t) : trim t = t := by
  unfold trim
  have h1 : t.reverse.dropWhile (fun c => decide (c ∈ trimDelimiters)) = t.reverse := by
    apply dropWhile_eq_self_of_head
    intro b hb
    rw [List.head?_reverse] at hb
    have := h.2 b hb
    rw [← isSpace_iff] at this
    simpa using this
  rw [h1, List.reverse_reverse]
  apply dropWhile_eq_self_of_head
  intro b hb
  have := h.1 b hb
  rw [← isSpace_iff] at this
  simpa using this

theorem dropWhile_split {α : Type} (p : α → Bool) (l : List α) :
    ∃ pre, l = pre ++ l.dropWhile p ∧ (∀ x ∈ pre, p x = true) ∧ ∀ b, (l.dropWhile p).head? = some b → p b = false := by
  induction l with
  | nil => exact ⟨[], rfl, by simp, by simp⟩
  | cons a l ih =>
    by_cases ha : p a = true
    · obtain ⟨pre, h1, h2, h3⟩ := ih
      refine ⟨a :: pre, ?_, ?_, ?_⟩
      · simp only [List.dropWhile_cons, ha, ite_true, List.cons_append, ← h1]
      · intro x hx
        rcases List.mem_cons.1 hx with rfl | hx
        · exact ha
        · exact h2 x hx
      · simpa only [List.dropWhile_cons, ha, ite_true] using h3
    · refine ⟨[], by simp [ha], by simp, ?_⟩
      simp [ha]

theorem trim_spec (t : BText) : ∃ pre post, t = pre ++ trim t ++ post ∧ (∀ b ∈ pre, IsSpace b) ∧
    (∀ b ∈ post, IsSpace b) ∧ Trimmed (trim t) := by
  obtain ⟨post, h1, h2, h3⟩ := dropWhile_split (fun c => decide (c ∈ trimDelimiters)) t.reverse
  generalize hcut : (t.reverse.dropWhile (fun c => decide (c ∈ trimDelimiters))) = cut at *
  obtain ⟨pre, g1, g2, g3⟩ := dropWhile_split (fun c => decide (c ∈ trimDelimiters)) cut.reverse
  have htrim : trim t = cut.reverse.dropWhile (fun c => decide (c ∈ trimDelimiters)) := by
    unfold trim; rw [hcut]
  rw [← htrim] at g1 g3
  have ht : t = cut.reverse ++ post.reverse := by
    have := congrArg List.reverse h1
    simpa using this
  refine ⟨pre, post.reverse, by rw [← g1]; exact ht, ?_, ?_, ?_, ?_⟩
  · intro b hb; rw [← isSpace_iff]; simpa using g2 b hb
  · intro b hb; rw [← isSpace_iff]; simpa using h2 b (List.mem_reverse.1 hb)
  · intro b hb; rw [← isSpace_iff]; simpa using g3 b hb
  · intro b hb
    have hne : trim t ≠ [] := by rintro he; rw [he] at hb; simp at hb
    have : cut.head? = some b := by
      rw [← List.getLast?_reverse, g1, List.getLast?_append, hb]; rfl
    rw [← isSpace_iff]; simpa using h3 b this

/-! ## Corrupted frames -/

theorem foldl_set (l : List Byte) (init : Byte) (k : Nat) (b : Byte) (hk : k < l.length) :
    (l.set k b).foldl (· + ·) init = l.foldl (· + ·) (init + (b - l[k])) := by
  induction l generalizing init k with
  | nil => simp at hk
  | cons a l ih =>
    cases k with
    | zero => simp only [List.set_cons_zero, List.foldl_cons, List.getElem_cons_zero]; congr 1; bv_omega
    | succ k =>
      simp only [List.set_cons_succ, List.foldl_cons, List.getElem_cons_succ]
      rw [ih (init + a) k (by simpa using hk)]
      congr 1
      rw [BitVec.add_assoc, BitVec.add_assoc, BitVec.add_comm a]

theorem foldl_init (l : List Byte) (init : Byte) : l.foldl (· + ·) init = init + l.foldl (· + ·) 0#8 := by
  induction l generalizing init with
  | nil => simp
  | cons a l ih => simp only [List.foldl_cons]; rw [ih, ih (0#8 + a)]; simp [BitVec.add_assoc]

theorem foldl_init_inj (l : List Byte) (a b : Byte) (h : l.foldl (· + ·) a = l.foldl (· + ·) b) : a = b := by
  rw [foldl_init l a, foldl_init l b] at h
  exact (BitVec.add_left_inj _).1 h

theorem receiveFrame_bad_checksum (id c : Byte) (data rest : List Byte) (hne : data ≠ []) (hl : data.length + 1 < 2 ^ 32)
    (hc : c ≠ checksum id data) :
    receiveFrame (0xBE#8 :: 0xBA#8 :: BitVec.ofNat 8 (1 + data.length) ::
      BitVec.ofNat 8 ((1 + data.length) / 256) :: BitVec.ofNat 8 ((1 + data.length) / 65536) ::
      BitVec.ofNat 8 ((1 + data.length) / 16777216) :: id :: (data ++ c :: rest)) = .error := by
  have hpos : data.length ≠ 0 := fun h => hne (List.length_eq_zero_iff.1 h)
  rw [receiveFrame_long]
  have hdec := decLE_le32 (n := 1 + data.length) (by omega)
  unfold le32 at hdec
  rw [hdec]
  have h3 : ¬ decLE [0xBE#8, 0xBA#8] ≠ syncWord := by decide
  have h0 : ¬ 1 + data.length = 0 := by omega
  have h1 : ¬ 1 + data.length = 1 := by omega
  have hs : 1 + data.length - 1 = data.length := by omega
  simp only [h3, h0, h1, hs, ite_false]
  simp [List.getD, hc]

theorem syncWord_bytes {b0 b1 : Byte} (h : decLE [b0, b1] = syncWord) : b0 = 0xBE#8 ∧ b1 = 0xBA#8 := by
  simp only [decLE, syncWord] at h
  have h0 := b0.isLt; have h1 := b1.isLt
  constructor <;> apply BitVec.eq_of_toNat_eq <;> simp <;> omega

theorem receiveFrame_bad_sync {b0 b1 : Byte} (rest : List Byte) (h : ¬ (b0 = 0xBE#8 ∧ b1 = 0xBA#8)) :
    receiveFrame (b0 :: b1 :: rest) = .error := by
  have hs : decLE [b0, b1] ≠ syncWord := fun he => h (syncWord_bytes he)
  unfold receiveFrame
  rw [sockRead_full (n := 2) (by simp)]
  simp [hs]

theorem frame_length (id : Byte) (data : List Byte) : (frame id data).length = data.length + 8 := by
  simp [frame, le32_length]; omega

end PF
