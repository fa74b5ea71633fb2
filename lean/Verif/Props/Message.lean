import Verif.Lemmas.Message

/-! # Properties of the remote protocol (C45, C46) -/

namespace PF
open Spec

/-! ## C45: messages arrive as they were sent -/

/-- **C45 (requests).**  A request whose texts have no NUL and no white space at their ends, and whose
size fits in 32 bits, is sent as bytes that any receiver reads back as the same request, whatever
follows on the connection. -/
theorem C45_request_round_trip (r : Request) (h : Carried r) :
    ∃ bytes, r.send = .ok bytes ∧ ∀ rest, receiveRequest (bytes ++ rest) = .success r rest := by
  obtain ⟨hall, hsize⟩ := h
  obtain ⟨data, hw, ht, hl⟩ := writeStrings_texts (ts := r.command :: r.arguments)
    (fun t ht => by have := textsSize_mem ht; omega)
  refine ⟨sendBytes 0#8 data, by simp [Request.send, hw, Out.bind], fun rest => ?_⟩
  have hne : data ≠ [] := by
    rintro rfl
    simp [textsSize] at hl
    omega
  unfold receiveRequest
  rw [sendBytes_eq, receiveFrame_frame _ _ _ hne (by omega)]
  simp only [Recv.collect, collectRequest_texts ht]
  congr 1
  cases r with
  | mk c as =>
    congr 1
    · have := hall c (by simp)
      rw [cText_noNul this.1, trim_trimmed this.2]
    · have : as.map (fun x => trim (cText x)) = as.map id := by
        apply List.map_congr_left
        intro x hx
        have := hall x (by simp [hx])
        simp [cText_noNul this.1, trim_trimmed this.2]
      rw [this, List.map_id]

/-- The request `setTuningMode on`. -/
example : Carried ⟨[0x73#8, 0x65#8, 0x74#8], [[0x6F#8, 0x6E#8], []]⟩ := by
  refine ⟨?_, by decide⟩
  intro t ht
  simp only [List.mem_cons, List.not_mem_nil, or_false] at ht
  rcases ht with rfl | rfl | rfl <;> refine ⟨by unfold NoNul; decide, ?_, ?_⟩ <;> intro b hb <;> simp at hb <;> subst hb <;>
    unfold IsSpace <;> decide

/-- **C45 (answers).**  The same for answers, with their status; the text is not trimmed. -/
theorem C45_answer_round_trip (a : Answer) (h : CarriedAnswer a) :
    ∃ bytes, a.send = .ok bytes ∧ ∀ rest, receiveAnswer (bytes ++ rest) = .success a rest := by
  obtain ⟨hn, hsize⟩ := h
  obtain ⟨data, hw, ht, hl⟩ := writeStrings_texts (ts := [a.text]) (fun t ht => by simp at ht; subst ht; omega)
  refine ⟨sendBytes (if a.success then 1#8 else 2#8) data, by simp [Answer.send, hw, Out.bind], fun rest => ?_⟩
  simp only [textsSize] at hl
  have hne : data ≠ [] := by rintro rfl; simp at hl; omega
  unfold receiveAnswer
  rw [sendBytes_eq, receiveFrame_frame _ _ _ hne (by omega)]
  cases ht with
  | cons _ _ d hlt hd =>
    cases hd
    simp only [Recv.collect, collectAnswer, readString_texts hlt, Out.bind, cText_noNul hn]
    cases a with
    | mk s t => cases s <;> simp

example : CarriedAnswer ⟨true, [0x20#8, 0x44#8, 10#8]⟩ := by unfold CarriedAnswer NoNul; decide

/-- **C45 (construction).**  Arguments are kept in the order in which they are added, each without the
white space at its ends. -/
theorem C45_built (c : BText) (as : List BText) :
    as.foldl Request.addArgument (Request.new c) = ⟨c, as.map trim⟩ := by
  have : ∀ (r : Request), as.foldl Request.addArgument r = ⟨r.command, r.arguments ++ as.map trim⟩ := by
    induction as with
    | nil => intro r; cases r; simp
    | cons a as ih => intro r; simp [ih, Request.addArgument]
  rw [this]; simp [Request.new]

/-- **C45 (trimming).**  Trimming removes white space only, at the ends only, and all of it. -/
theorem C45_trim (t : BText) : ∃ pre post, t = pre ++ trim t ++ post ∧ (∀ b ∈ pre, IsSpace b) ∧
    (∀ b ∈ post, IsSpace b) ∧ Trimmed (trim t) := trim_spec t

/-- **C45 (NUL).**  Hence a request built with any argument that has no NUL arrives with the argument
trimmed, when the command is itself trimmed. -/
theorem C45_built_round_trip (c : BText) (as : List BText) (hc : NoNul c ∧ Trimmed c)
    (has : ∀ a ∈ as, NoNul a) (hsize : textsSize (c :: as) + 1 < 2 ^ 32) :
    ∃ bytes, (as.foldl Request.addArgument (Request.new c)).send = .ok bytes ∧
      ∀ rest, receiveRequest (bytes ++ rest) = .success ⟨c, as.map trim⟩ rest := by
  rw [C45_built]
  apply C45_request_round_trip
  have hle : ∀ t : BText, (trim t).length ≤ t.length := by
    intro t
    obtain ⟨pre, post, h, _⟩ := trim_spec t
    have := congrArg List.length h
    simp only [List.length_append] at this
    omega
  refine ⟨?_, ?_⟩
  · intro t ht
    rcases List.mem_cons.1 ht with rfl | ht
    · exact hc
    · obtain ⟨a, ha, rfl⟩ := List.mem_map.1 ht
      obtain ⟨pre, post, h, _, _, htr⟩ := trim_spec a
      refine ⟨fun h0 => has a ha ?_, htr⟩
      rw [h]; simp [h0]
  · have : ∀ l : List BText, textsSize (l.map trim) ≤ textsSize l := by
      intro l
      induction l with
      | nil => simp
      | cons a l ih => have := hle a; simp only [List.map_cons, textsSize]; omega
    have := this as
    simp only [textsSize] at hsize ⊢
    omega

/-- The property is false without the hypotheses: a NUL cuts a text … -/
theorem C45_nul_cuts : ∃ (r r' : Request) (bytes : List Byte), r.send = .ok bytes ∧
    receiveRequest bytes = .success r' [] ∧ r' ≠ r :=
  ⟨⟨[0x61#8], [[0x62#8, 0#8, 0x63#8]]⟩, ⟨[0x61#8], [[0x62#8]]⟩, _, rfl, by decide +kernel, by decide⟩

/-- … and a command with a space at its end arrives without it. -/
theorem C45_command_trimmed : ∃ (c : BText) (r' : Request) (bytes : List Byte), (Request.new c).send = .ok bytes ∧
    receiveRequest bytes = .success r' [] ∧ r' ≠ Request.new c :=
  ⟨[0x61#8, 0x20#8], ⟨[0x61#8], []⟩, _, rfl, by decide +kernel, by decide⟩

/-- **C45 (session).**  A server that is sent requests one after the other handles them once each, in
order, and the client reads the answers in the same order; the connection ends when the client closes
it, or when a request stops the program.  `handle` stands for the command handler, whatever it does. -/
theorem C45_session {σ : Type} (handle : σ → Request → Option Answer × σ)
    (hans : ∀ x r a, (handle x r).1 = some a → CarriedAnswer a)
    (rs : List Request) (hrs : ∀ r ∈ rs, Carried r) (bs : List Byte) (hbs : requestBytes rs bs) (x : σ) (fuel : Nat)
    (hf : rs.length < fuel) :
    ∃ out, serve handle fuel x bs = ((handleAll handle x rs).1, out, (handleAll handle x rs).2.2) ∧
      answerBytes (handleAll handle x rs).2.1 out := by
  induction rs generalizing x bs fuel with
  | nil =>
    cases fuel with
    | zero => omega
    | succ n =>
      simp only [requestBytes] at hbs
      subst hbs
      refine ⟨[], rfl, ?_⟩
      show receiveAnswer [] = _
      rfl
  | cons r rs ih =>
    cases fuel with
    | zero => omega
    | succ n =>
      obtain ⟨a, b, ha, hb, rfl⟩ := hbs
      obtain ⟨bytes, hsend, hrecv⟩ := C45_request_round_trip r (hrs r (by simp))
      rw [ha] at hsend
      simp only [Out.ok.injEq] at hsend
      subst hsend
      cases hh : (handle x r).1 with
      | none =>
        refine ⟨[], ?_, ?_⟩
        · simp only [serve, hrecv b, hh, handleAll, Option.map]
        · simp only [handleAll, hh]
          show receiveAnswer [] = _
          rfl
      | some ans =>
        obtain ⟨out1, hs1, hr1⟩ := C45_answer_round_trip ans (hans x r ans hh)
        obtain ⟨out2, hs2, hr2⟩ := ih (fun r' hr' => hrs r' (by simp [hr'])) b hb (handle x r).2 n
          (by simp at hf; omega)
        refine ⟨out1 ++ out2, ?_, ?_⟩
        · simp only [serve, hrecv b, hh, Option.map, hs1, hs2, handleAll]
        · simp only [handleAll, hh]
          exact ⟨out2, hr1 out2, hr2⟩

/-- Two requests counted by the handler, which answers with an empty text. -/
example : ∃ bs, requestBytes [⟨[0x61#8], []⟩, ⟨[0x62#8], [[0x63#8]]⟩] bs ∧
    (serve (fun (n : Nat) _ => (some (⟨true, []⟩ : Answer), n + 1)) 3 0 bs).1 = 2 :=
  ⟨_, ⟨_, _, rfl, ⟨_, _, rfl, rfl, rfl⟩, rfl⟩, by decide +kernel⟩

/-- **C45 (termination).**  The loop of the server needs no more rounds than there are bytes: the bound
used in the model is immaterial. -/
theorem C45_serve_terminates {σ : Type} (handle : σ → Request → Option Answer × σ) (st : List Byte) (x : σ)
    (n m : Nat) (hn : st.length < n) (hm : st.length < m) : serve handle n x st = serve handle m x st := by
  induction n generalizing st x m with
  | zero => omega
  | succ n ih =>
    cases m with
    | zero => omega
    | succ m =>
      simp only [serve]
      cases hr : receiveRequest st with
      | abort => rfl
      | peerDisconnected => rfl
      | error => rfl
      | success r rest =>
        simp only
        have hlt : rest.length < st.length := by
          unfold receiveRequest at hr
          cases hf : receiveFrame st with
          | peerDisconnected => simp [hf, Recv.collect] at hr
          | error => simp [hf, Recv.collect] at hr
          | abort => simp [hf, Recv.collect] at hr
          | success p rest' =>
            obtain ⟨hst, _, _⟩ := receiveFrame_success hf
            rw [hf] at hr
            simp only [Recv.collect] at hr
            cases hc : collectRequest p.2 with
            | err => simp [hc] at hr
            | abort => simp [hc] at hr
            | ok r' =>
              simp only [hc, Recv.success.injEq] at hr
              rw [← hr.2, hst]
              simp [frame_length]
        rw [ih rest (handle x r).2 m (by omega) (by omega)]

/-! ## C46: corrupted messages -/

/-- **C46 (what is accepted).**  A message is received exactly when the stream begins with a whole,
well-formed frame: sync word, size, identifier, data, and their checksum; and what is received is what
the frame holds, the rest of the stream being left. -/
theorem C46_accepts_iff (st : List Byte) (id : Byte) (data rest : List Byte) :
    receiveFrame st = .success (id, data) rest ↔
      st = frame id data ++ rest ∧ data ≠ [] ∧ data.length + 1 < 2 ^ 32 := by
  constructor
  · exact receiveFrame_success
  · rintro ⟨rfl, h1, h2⟩
    exact receiveFrame_frame id data rest h1 h2

/-- **C46 (one byte).**  A frame of which one byte of the sync word, the identifier, the data or the
checksum has been changed is refused. -/
theorem C46_corrupted (id : Byte) (data rest : List Byte) (hne : data ≠ []) (hl : data.length + 1 < 2 ^ 32)
    (i : Nat) (hi : i < 2 ∨ (6 ≤ i ∧ i < (frame id data).length)) (b : Byte) (hb : (frame id data)[i]? ≠ some b) :
    receiveFrame ((frame id data).set i b ++ rest) = .error := by
  have hf := frame_cons id data []
  rw [List.append_nil] at hf
  rw [frame_length] at hi
  rw [hf] at hb ⊢
  match i, hi with
  | 0, _ =>
    simp only [List.set_cons_zero, List.cons_append]
    apply receiveFrame_bad_sync
    rintro ⟨rfl, _⟩
    simp at hb
  | 1, _ =>
    simp only [List.set_cons_succ, List.set_cons_zero, List.cons_append]
    apply receiveFrame_bad_sync
    rintro ⟨_, rfl⟩
    simp at hb
  | 2, hi => omega
  | 3, hi => omega
  | 4, hi => omega
  | 5, hi => omega
  | 6, _ =>
    simp only [List.set_cons_succ, List.set_cons_zero, List.cons_append, List.append_assoc, List.nil_append]
    apply receiveFrame_bad_checksum _ _ _ _ hne hl
    rw [← checksum_eq]
    intro he
    have := foldl_init_inj data id b he
    subst this
    simp at hb
  | k + 7, hi =>
    simp only [List.set_cons_succ, List.cons_append]
    simp only [List.getElem?_cons_succ] at hb
    by_cases hk : k < data.length
    · rw [List.set_append_left _ _ hk, List.append_assoc, List.cons_append, List.nil_append]
      rw [List.getElem?_append_left hk, List.getElem?_eq_getElem hk] at hb
      have hlen : data.length = (data.set k b).length := by simp
      rw [hlen]
      apply receiveFrame_bad_checksum
      · intro h0; rw [h0] at hlen; simp at hlen; exact hne hlen
      · rw [← hlen]; exact hl
      · rw [← checksum_eq]
        unfold checksum
        rw [foldl_set _ _ _ _ hk]
        intro he
        have := foldl_init_inj data _ _ he
        apply hb
        congr 1
        have h2 : id + 0#8 = id + (b - data[k]) := by simpa using this
        have h3 := (BitVec.add_right_inj _).1 h2
        have h4 : data[k] = b - data[k] + data[k] := by rw [← h3]; simp
        rw [h4]
        exact BitVec.sub_add_cancel _ _
    · have : k = data.length := by omega
      subst this
      rw [List.set_append_right _ _ (Nat.le_refl _), Nat.sub_self, List.set_cons_zero, List.append_assoc,
        List.cons_append, List.nil_append]
      apply receiveFrame_bad_checksum _ _ _ _ hne hl
      rintro rfl
      rw [checksum_eq] at hb
      simp at hb

example : receiveFrame (frame 0#8 [1#8, 0#8, 0#8, 0#8, 0x61#8]) = .success (0#8, [1#8, 0#8, 0#8, 0#8, 0x61#8]) [] ∧
    receiveFrame ((frame 0#8 [1#8, 0#8, 0#8, 0#8, 0x61#8]).set 11 0x62#8) = .error := by decide +kernel

/-- **C46 (sync word).**  A stream that does not begin with the sync word is refused. -/
theorem C46_sync_word (b0 b1 : Byte) (rest : List Byte) (h : ¬ (b0 = 0xBE#8 ∧ b1 = 0xBA#8)) :
    receiveRequest (b0 :: b1 :: rest) = .error ∧ receiveAnswer (b0 :: b1 :: rest) = .error := by
  unfold receiveRequest receiveAnswer
  rw [receiveFrame_bad_sync rest h]
  exact ⟨rfl, rfl⟩

/-- **C46 (interruption).**  If the connection ends in the middle of a frame, nothing is received. -/
theorem C46_truncated (id : Byte) (data st : List Byte) (hl : data.length + 1 < 2 ^ 32)
    (hp : st <+: frame id data) (hst : st ≠ frame id data) :
    receiveFrame st = if st = [] then .peerDisconnected else .error := by
  by_cases h7 : st.length < 7
  · exact receiveFrame_short st h7
  obtain ⟨more, hm⟩ := hp
  have hml : more ≠ [] := by rintro rfl; rw [List.append_nil] at hm; exact hst hm
  have hf := frame_cons id data []
  rw [List.append_nil, ← hm] at hf
  match st, h7 with
  | b0 :: b1 :: s0 :: s1 :: s2 :: s3 :: id' :: tail, _ =>
    simp only [List.cons_append, List.cons.injEq] at hf
    obtain ⟨rfl, rfl, rfl, rfl, rfl, rfl, rfl, ht⟩ := hf
    rw [receiveFrame_long]
    have hdec := decLE_le32 (n := 1 + data.length) (by omega)
    unfold le32 at hdec
    rw [hdec]
    have hlen := congrArg List.length ht
    have : more.length ≠ 0 := fun h => hml (List.length_eq_zero_iff.1 h)
    simp only [List.length_append, List.length_cons, List.length_nil] at hlen
    have h3 : ¬ decLE [0xBE#8, 0xBA#8] ≠ syncWord := by decide
    have h0 : ¬ 1 + data.length = 0 := by omega
    have hle : tail.length ≤ 1 + data.length - 1 := by omega
    simp only [h3, h0, hle, ite_false, ite_true, ite_self]
    simp
  | [], h => simp at h
  | [_], h => simp at h
  | [_, _], h => simp at h
  | [_, _, _], h => simp at h
  | [_, _, _, _], h => simp at h
  | [_, _, _, _, _], h => simp at h
  | [_, _, _, _, _, _], h => simp at h

example : receiveFrame ((frame 0#8 [1#8, 0#8, 0#8, 0#8, 0x61#8]).take 9) = .error := by decide +kernel

/-- **C46 (requests).**  A request is received exactly when the stream begins with a frame whose data is
made of texts, each after its length; it is made of these texts, each cut at its first NUL and trimmed. -/
theorem C46_request_iff (st : List Byte) (r : Request) (rest : List Byte) :
    receiveRequest st = .success r rest ↔
      ∃ id data t ts, st = frame id data ++ rest ∧ data.length + 1 < 2 ^ 32 ∧ Texts (t :: ts) data ∧
        r = ⟨trim (cText t), ts.map (fun x => trim (cText x))⟩ := by
  constructor
  · intro h
    unfold receiveRequest at h
    cases hf : receiveFrame st with
    | peerDisconnected => simp [hf, Recv.collect] at h
    | error => simp [hf, Recv.collect] at h
    | abort => simp [hf, Recv.collect] at h
    | success p rest' =>
      obtain ⟨hst, _, hl⟩ := receiveFrame_success hf
      rw [hf] at h
      simp only [Recv.collect] at h
      cases hc : collectRequest p.2 with
      | err => simp [hc] at h
      | abort => simp [hc] at h
      | ok r' =>
        simp only [hc, Recv.success.injEq] at h
        obtain ⟨rfl, rfl⟩ := h
        obtain ⟨t, ts, ht⟩ := collectRequest_ok hc
        rw [collectRequest_texts ht] at hc
        simp only [Out.ok.injEq] at hc
        exact ⟨p.1, p.2, t, ts, hst, hl, ht, hc.symm⟩
  · rintro ⟨id, data, t, ts, rfl, hl, ht, rfl⟩
    have hne : data ≠ [] := by
      cases ht with
      | cons _ _ d hlt hd => simp [le32]
    unfold receiveRequest
    rw [receiveFrame_frame _ _ _ hne hl]
    simp only [Recv.collect, collectRequest_texts ht]

/-- **C46 (what escapes).**  The reception of a request fails in a way that is not reported, by an
assertion or an access outside of the data, or by an exception that is not caught, exactly on two kinds
of streams: those whose size field is 0, and whole frames with a correct checksum whose data is not made
of texts.  The property wants neither. -/
theorem C46_abort_iff_partial (st : List Byte) :
    receiveRequest st = .abort ↔
      (∃ id rest, st = [0xBE#8, 0xBA#8, 0#8, 0#8, 0#8, 0#8, id] ++ rest) ∨
      (∃ id data rest, st = frame id data ++ rest ∧ data ≠ [] ∧ data.length + 1 < 2 ^ 32 ∧
        ¬ ∃ t ts, Texts (t :: ts) data) := by
  have habort : ∀ data, (¬ ∃ t ts, Texts (t :: ts) data) ↔ ∀ r, collectRequest data ≠ .ok r := by
    intro data
    constructor
    · intro h r hr; exact h (collectRequest_ok hr)
    · rintro h ⟨t, ts, ht⟩; exact h _ (collectRequest_texts ht)
  constructor
  · intro h
    unfold receiveRequest at h
    cases hf : receiveFrame st with
    | peerDisconnected => simp [hf, Recv.collect] at h
    | error => simp [hf, Recv.collect] at h
    | success p rest' =>
      obtain ⟨hst, hne, hl⟩ := receiveFrame_success hf
      refine .inr ⟨p.1, p.2, rest', hst, hne, hl, ?_⟩
      rw [habort]
      intro r hr
      rw [hf] at h
      simp [Recv.collect, hr] at h
    | abort =>
      by_cases h7 : st.length < 7
      · rw [receiveFrame_short st h7] at hf
        split at hf <;> cases hf
      · match st, h7 with
        | b0 :: b1 :: s0 :: s1 :: s2 :: s3 :: id :: tail, _ =>
          rw [receiveFrame_long] at hf
          split at hf
          · cases hf
          rename_i hs
          obtain ⟨rfl, rfl⟩ := syncWord_bytes (Classical.not_not.1 hs)
          split at hf
          · rename_i h0
            have := le32_decLE s0 s1 s2 s3
            rw [h0] at this
            simp only [le32, List.cons.injEq] at this
            obtain ⟨rfl, rfl, rfl, rfl, _⟩ := this
            exact .inl ⟨id, tail, rfl⟩
          · split at hf
            · cases hf
            split at hf
            · cases hf
            split at hf <;> cases hf
        | [], h => simp at h
        | [_], h => simp at h
        | [_, _], h => simp at h
        | [_, _, _], h => simp at h
        | [_, _, _, _], h => simp at h
        | [_, _, _, _, _], h => simp at h
        | [_, _, _, _, _, _], h => simp at h
  · rintro (⟨id, rest, rfl⟩ | ⟨id, data, rest, rfl, hne, hl, hno⟩)
    · unfold receiveRequest
      simp only [List.cons_append, List.nil_append]
      rw [receiveFrame_long]
      have h3 : ¬ decLE [0xBE#8, 0xBA#8] ≠ syncWord := by decide
      have h0 : decLE [0#8, 0#8, 0#8, 0#8] = 0 := by decide
      simp [h3, h0, Recv.collect]
    · unfold receiveRequest
      rw [receiveFrame_frame _ _ _ hne hl]
      rw [habort] at hno
      simp only [Recv.collect]

/-- A whole frame, with a correct checksum, that announces a text longer than its data: the reception
reads outside of the frame.  This contradicts the property. -/
theorem C46_reads_outside : ∃ data, receiveRequest (frame 0#8 data) = .abort ∧
    receiveFrame (frame 0#8 data) = .success (0#8, data) [] :=
  ⟨[9#8, 0#8, 0#8, 0#8, 0x61#8], by decide +kernel⟩

/-- The size is not covered by the checksum: a frame with one byte of its size changed can be accepted
as another message, that nobody sent. -/
theorem C46_size_unprotected : ∃ (r r' : Request) (bytes : List Byte) (rest : List Byte), r.send = .ok bytes ∧
    receiveRequest (bytes.set 2 5#8) = .success r' rest ∧ r' ≠ r :=
  ⟨⟨[], [[]]⟩, ⟨[], []⟩, _, [0#8, 0#8, 0#8, 0#8], rfl, by decide +kernel, by decide⟩

end PF
