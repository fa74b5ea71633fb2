import Verif.Spec.PluginObject
import Verif.Lemmas.Start
import Verif.Lemmas.Access
import Verif.Props.Start

/-! # C91: the objects of plugins -/

namespace PF
open Spec

/-! ## The code on a tape and on a blackboard -/

theorem Spec.OnTape.length {c : PlugCode} {old new mem : List Byte} {r : Option Str} (h : OnTape c old new r mem) :
    mem.length = old.length + new.length := by
  induction h with
  | done r old new => simp
  | read hl _ ih => simp only [List.length_append] at *; omega
  | write hl _ ih => simp only [List.length_append] at *; omega

theorem Spec.OnTape.unique {c : PlugCode} {old new mem mem' : List Byte} {r r' : Option Str} (h : OnTape c old new r mem)
    (h' : OnTape c old new r' mem') : r = r' ∧ mem = mem' := by
  induction h generalizing r' mem' with
  | done r old new => cases h'; exact ⟨rfl, rfl⟩
  | @read n k old bs new mem r hl _ ih =>
    generalize hnew : bs ++ new = all at h'
    cases h' with
    | @read _ _ _ bs' new' _ _ hl' h'' =>
      obtain ⟨rfl, rfl⟩ := List.append_inj hnew (hl.trans hl'.symm)
      exact ih h''
  | @write bs k old was new mem r hl _ ih =>
    generalize hnew : was ++ new = all at h'
    cases h' with
    | @write _ _ _ was' new' _ _ hl' h'' =>
      obtain ⟨rfl, rfl⟩ := List.append_inj hnew (hl.trans hl'.symm)
      exact ih h''

theorem read_middle {L M R : Board} {off : Nat} (h : L.length = off) : Board.read (L ++ M ++ R) off M.length = some M := by
  unfold Board.read
  subst h
  rw [if_pos (by simp), List.append_assoc, List.drop_left, List.take_left]

theorem write_middle {L M R : Board} {off : Nat} {bs : List Byte} (h : L.length = off) (hM : M.length = bs.length) :
    Board.write (L ++ M ++ R) off bs = some (L ++ bs ++ R) := by
  unfold Board.write
  subst h
  rw [if_pos (by simp; omega), ← hM, show L.length + M.length = (L ++ M).length by simp, List.drop_left,
    List.append_assoc L M R, List.take_left]

theorem Spec.OnTape.run {c : PlugCode} {old new mem : List Byte} {r : Option Str} (h : OnTape c old new r mem) (L R : Board) :
    c.run L.length old.length (L ++ old ++ new ++ R) = .ok (r, L ++ mem ++ R) := by
  induction h with
  | done r old new => simp [PlugCode.run]
  | @read n k old bs new mem r hl _ ih =>
    have := read_middle (L := L ++ old) (M := bs) (R := new ++ R) (off := L.length + old.length) (by simp)
    rw [hl] at this
    simp only [PlugCode.run]
    rw [show L ++ old ++ (bs ++ new) ++ R = L ++ old ++ bs ++ (new ++ R) by simp, this]
    simp only
    rw [show L ++ old ++ bs ++ (new ++ R) = L ++ (old ++ bs) ++ new ++ R by simp, ← ih]
    simp [hl]
  | @write bs k old was new mem r hl _ ih =>
    have := write_middle (L := L ++ old) (M := was) (R := new ++ R) (off := L.length + old.length) (by simp) hl
    simp only [PlugCode.run]
    rw [show L ++ old ++ (was ++ new) ++ R = L ++ old ++ was ++ (new ++ R) by simp, this]
    simp only
    rw [show L ++ old ++ bs ++ (new ++ R) = L ++ (old ++ bs) ++ new ++ R by simp, ← ih]
    simp

/-- **C91 (end).**  Code that never goes over more bytes than its element has ends, on any memory of the element, in one way. -/
theorem C91_ends (c : PlugCode) (n : Nat) (h : Confined n c) (mem : List Byte) (hm : mem.length = n) :
    ∃ r mem', OnTape c [] mem r mem' ∧ mem'.length = n ∧ ∀ r2 mem2, OnTape c [] mem r2 mem2 → r2 = r ∧ mem2 = mem' := by
  have key : ∀ (c : PlugCode) (n : Nat), Confined n c → ∀ old new : List Byte, new.length = n → ∃ r mem', OnTape c old new r mem' := by
    intro c n h
    induction h with
    | done n r => exact fun old new _ => ⟨r, _, .done r old new⟩
    | @read n m k _ ih =>
      intro old new hl
      obtain ⟨r, mem', h⟩ := ih (new.take m) (by simp; omega) (old ++ new.take m) (new.drop m) (by simp; omega)
      refine ⟨r, mem', ?_⟩
      rw [← List.take_append_drop m new]
      exact .read (by simp; omega) h
    | @write n bs k _ ih =>
      intro old new hl
      obtain ⟨r, mem', h⟩ := ih (old ++ bs) (new.drop bs.length) (by simp; omega)
      refine ⟨r, mem', ?_⟩
      rw [← List.take_append_drop bs.length new]
      exact .write (by simp; omega) h
  obtain ⟨r, mem', h'⟩ := key c n h [] mem hm
  exact ⟨r, mem', h', by rw [h'.length]; simpa using hm, fun r2 mem2 h2 => h2.unique h'⟩

theorem room_at {root : Elem} (wf : root.WF) {q0 : Pos} {e0 : Elem} {o0 : Nat} (hq0 : root.at? q0 = some e0)
    (ho0 : root.offset 0 q0 = some o0) : o0 + e0.footprint ≤ root.footprint := by
  have hr : root.extent 0 = (0, 8 * root.footprint) := by
    have : ∀ t, root.kind ≠ .bit t := by cases wf <;> simp [Elem.kind]
    unfold Elem.extent
    split
    · rename_i t ht; exact absurd ht (this t)
    · simp
  rcases wf.at hq0 with hwf | ⟨p0, i0, g0, size, nm, t, sy, rfl, hg0, hwg, hk, rfl, _⟩
  · have hn := wf.extent_nested hq0 ho0
    have hne : ∀ t, e0.kind ≠ .bit t := by cases hwf <;> simp [Elem.kind]
    have hx : e0.extent o0 = (8 * o0, 8 * (o0 + e0.footprint)) := by
      unfold Elem.extent
      split
      · rename_i t ht; exact absurd ht (hne t)
      · rfl
    rw [hx, hr] at hn
    simp only at hn
    omega
  · obtain ⟨og, hog⟩ := Elem.offset_of_at (off := 0) hg0
    have hn := wf.extent_nested hg0 hog
    have hx : g0.extent og = (8 * og, 8 * (og + g0.footprint)) := by simp [Elem.extent, hk]
    rw [hx, hr] at hn
    simp only at hn
    rw [Elem.offset_append, hg0, hog] at ho0
    simp only [Option.bind_some, Elem.offset_cons] at ho0
    rw [Elem.at?_append, hg0, Option.bind_some, Elem.at?_single] at hq0
    simp only [hq0, Option.bind_some, Elem.offset, Option.some.injEq] at ho0
    rw [Elem.bitBlock_child_offset hwg hk hq0] at ho0
    simp only [Elem.footprint, EKind.ownSize]
    omega

theorem split_board {b : Board} {off n : Nat} {mem : List Byte} (h : b.read off n = some mem) :
    b = b.take off ++ mem ++ b.drop (off + n) ∧ (b.take off).length = off ∧ mem.length = n := by
  have hl := Board.read_length h
  unfold Board.read at h
  split at h
  · rename_i hr
    cases h
    refine ⟨?_, by simp; omega, by simp; omega⟩
    rw [List.append_assoc, ← List.drop_drop, List.take_append_drop, List.take_append_drop]
  · cases h

theorem tape_board {c : PlugCode} {b : Board} {off n : Nat} {mem mem' : List Byte} {r : Option Str} (h : b.read off n = some mem)
    (ht : OnTape c [] mem r mem') :
    ∃ b', c.run off 0 b = .ok (r, b') ∧ b'.read off n = some mem' ∧ SameOutside b b' off n := by
  obtain ⟨hb, hL, hm⟩ := split_board h
  have hrun := ht.run (b.take off) (b.drop (off + n))
  have hl : mem'.length = n := by rw [ht.length]; simpa using hm
  rw [hL, List.append_nil, ← hb] at hrun
  refine ⟨_, hrun, ?_, ?_, fun i hi => ?_⟩
  · have := read_middle (L := b.take off) (M := mem') (R := b.drop (off + n)) hL
    rwa [hl] at this
  · conv => rhs; rw [hb]
    simp [hl, hm]
  · have key : ∀ m : List Byte, m.length = n → (b.take off ++ m ++ b.drop (off + n))[i]? =
        if i < off then (b.take off)[i]? else (b.drop (off + n))[i - (off + n)]? := by
      intro m hml
      rcases hi with hi | hi
      · rw [if_pos hi, List.append_assoc, List.getElem?_append_left (by omega)]
      · rw [if_neg (by omega), List.getElem?_append_right (by simp only [List.length_append]; omega)]
        congr 1
        simp only [List.length_append]
        omega
    rw [key mem' hl]
    conv => rhs; rw [hb]
    exact (key mem hm).symm

/-- **C91 (own memory).**  The code of an object, if on the memory of its element alone it ends with `r` and leaves `mem'`, does the same
on the blackboard, wherever the element is and whatever is around it: only the bytes of the element are read, and only they change. -/
theorem C91_own_memory (c : PlugCode) (b : Board) (off n : Nat) (mem mem' : List Byte) (r : Option Str)
    (h : b.read off n = some mem) (ht : OnTape c [] mem r mem') :
    ∃ b', c.run off 0 b = .ok (r, b') ∧ b'.read off n = some mem' ∧ SameOutside b b' off n := tape_board h ht

/-! ## Towards the hardware -/

theorem readsOnly_run {c : PlugCode} (h : ReadsOnly c) {off idx : Nat} {b b' : Board} {r : Option Str}
    (hr : c.run off idx b = .ok (r, b')) : b' = b := by
  induction h generalizing idx with
  | done r => simp only [PlugCode.run, Out.ok.injEq, Prod.mk.injEq] at hr; exact hr.2.symm
  | @read n k _ ih =>
    simp only [PlugCode.run] at hr
    split at hr
    · exact ih _ hr
    · cases hr

/-- **C91 (sending).**  A synchronisation towards the hardware by code that only reads, and no more than its element, never stops the
program nor changes the blackboard; what it answers depends on the memory of the element alone: it is the same for all blackboards
in which this memory is the same.  When the subsystem is not alive, the code is not called and the synchronisation fails. -/
theorem C91_send (root : Elem) (wf : root.WF) (p : Pos) (e : Elem) (he : root.at? p = some e) (o : PlugObj) (hr : ReadsOnly o.send)
    (hc : Confined e.footprint o.send) (b : Board) (hb : b.length = root.footprint) :
    ∃ mem, MemoryOf root p b mem ∧ ∃ r, o.sync root p false b = .ok (r, b) ∧
      (o.alive = true → OnTape o.send [] mem r mem) ∧ (o.alive = false → r ≠ none) ∧
      ∀ root' p' b', MemoryOf root' p' b' mem → o.sync root' p' false b' = .ok (r, b') := by
  obtain ⟨off, ho⟩ := Elem.offset_of_at (off := 0) he
  have hroom := room_at wf he ho
  obtain ⟨mem, hmem⟩ := Board.read_some (b := b) (off := off) (size := e.footprint) (by omega)
  have hl := (split_board hmem).2.2
  refine ⟨mem, ⟨e, off, he, ho, hmem⟩, ?_⟩
  cases ha : o.alive with
  | false =>
    have key : ∀ root' p' b', MemoryOf root' p' b' mem → o.sync root' p' false b' = .ok (some (s "Susbsystem not alive"), b') := by
      rintro root' p' b' ⟨e', off', he', ho', -⟩
      simp [PlugObj.sync, he', ho', ha]
    exact ⟨_, key root p b ⟨e, off, he, ho, hmem⟩, by simp, by simp, key⟩
  | true =>
    obtain ⟨r, mem', ht, -, -⟩ := C91_ends o.send _ hc mem hl
    have key : ∀ root' p' b', MemoryOf root' p' b' mem → o.sync root' p' false b' = .ok (r, b') ∧ mem' = mem := by
      rintro root' p' b' ⟨e', off', he', ho', hmem'⟩
      obtain ⟨b'', h1, h2, -⟩ := tape_board hmem' ht
      obtain rfl := readsOnly_run hr h1
      refine ⟨?_, Option.some.inj (h2.symm.trans hmem')⟩
      cases r <;> simp [PlugObj.sync, he', ho', ha, PlugObj.access, h1]
    have h0 := key root p b ⟨e, off, he, ho, hmem⟩
    exact ⟨r, h0.1, fun _ => by rw [← h0.2]; exact h0.2 ▸ ht, by simp, fun root' p' b' h => (key root' p' b' h).1⟩

/-! ## From the hardware -/

/-- **C91 (receiving).**  A synchronisation from the hardware by code that goes over no more than its element never stops the program and
only changes the memory of the element.  If it succeeds, the memory is what the code makes of it; if it fails, or the subsystem is
not alive, all parameters of the element have their default values, whatever the code wrote before. -/
theorem C91_receive (root : Elem) (wf : root.WF) (p : Pos) (e : Elem) (he : root.at? p = some e) (hne : ∀ t, e.kind ≠ .bit t)
    (o : PlugObj) (hc : Confined e.footprint o.receive) (b : Board) (hb : b.length = root.footprint) :
    ∃ mem r b', MemoryOf root p b mem ∧ o.sync root p true b = .ok (r, b') ∧ b'.length = b.length ∧
      (∀ i, ¬ root.Owns p i → b'.bit i = b.bit i) ∧
      (o.alive = true → ∃ mem', OnTape o.receive [] mem r mem' ∧ (r = none → MemoryOf root p b' mem')) ∧
      (o.alive = false → r ≠ none) ∧
      (r ≠ none → ∀ q f, p <+: q → root.at? q = some f → f.kind.isParameter = true → SoundKind f.kind → HoldsDefault root b' q) := by
  obtain ⟨off, ho⟩ := Elem.offset_of_at (off := 0) he
  have hroom := room_at wf he ho
  obtain ⟨mem, hmem⟩ := Board.read_some (b := b) (off := off) (size := e.footprint) (by omega)
  have hl := (split_board hmem).2.2
  have hx : e.extent off = (8 * off, 8 * (off + e.footprint)) := by
    unfold Elem.extent
    split
    · rename_i t ht; exact absurd ht (hne t)
    · rfl
  have hout : ∀ {b1 : Board}, SameOutside b b1 off e.footprint → ∀ i, ¬ root.Owns p i → b1.bit i = b.bit i := by
    intro b1 h1 i hi
    have : i / 8 < off ∨ off + e.footprint ≤ i / 8 := by
      apply Classical.byContradiction
      intro h
      refine hi ⟨e, off, he, ho, ?_, ?_⟩ <;> rw [hx] <;> simp only <;> omega
    simp only [Board.bit, List.getD_eq_getElem?_getD, h1.2 _ this]
  have hfail : ∀ {b1 : Board} {t : Str}, SameOutside b b1 off e.footprint →
      ∃ b', (e.setDefaults off b1).bind (fun b'' => .ok (some t, b'')) = .ok (some t, b') ∧ b'.length = b.length ∧
        (∀ i, ¬ root.Owns p i → b'.bit i = b.bit i) ∧
        ∀ q f, p <+: q → root.at? q = some f → f.kind.isParameter = true → SoundKind f.kind → HoldsDefault root b' q := by
    intro b1 t h1
    obtain ⟨b', k1, k2, k3, k4⟩ := setDefaults_at wf he ho (b := b1) (by rw [h1.1, hb])
    refine ⟨b', by rw [k1]; rfl, by rw [k2, h1.1], fun i hi => (k3 i hi).trans (hout h1 i hi), fun q f hq hf hp hs => ?_⟩
    obtain ⟨u, hu⟩ := Elem.offset_of_at (off := 0) hf
    refine ⟨f, u, hf, hu, k4 q f u hq hf hu hp hs ?_⟩
    rintro rfl t ht
    rw [he] at hf
    cases hf
    exact absurd ht (hne t)
  cases ha : o.alive with
  | false =>
    obtain ⟨b', k1, k2, k3, k4⟩ := hfail (b1 := b) (t := s "Susbsystem not alive") ⟨rfl, fun _ _ => rfl⟩
    exact ⟨mem, _, b', ⟨e, off, he, ho, hmem⟩, by simp only [PlugObj.sync, he, ho, ha]; exact k1, k2, k3, by simp, by simp, fun _ => k4⟩
  | true =>
    obtain ⟨r, mem', ht, -, -⟩ := C91_ends o.receive _ hc mem hl
    obtain ⟨b1, h1, h2, h3⟩ := tape_board hmem ht
    cases r with
    | none =>
      exact ⟨mem, none, b1, ⟨e, off, he, ho, hmem⟩, by simp [PlugObj.sync, he, ho, ha, PlugObj.access, h1], h3.1, hout h3,
        fun _ => ⟨mem', ht, fun _ => ⟨e, off, he, ho, h2⟩⟩, by simp, by simp⟩
    | some t =>
      obtain ⟨b', k1, k2, k3, k4⟩ := hfail (t := t) h3
      refine ⟨mem, some t, b', ⟨e, off, he, ho, hmem⟩, ?_, k2, k3, fun _ => ⟨mem', ht, by simp⟩, by simp, fun _ => k4⟩
      simp only [PlugObj.sync, he, ho, ha, PlugObj.access, if_true, h1]; exact k1

/-- **C91 (received).**  When the synchronisation from the hardware succeeds, the blackboard is the one of `Elem.syncBack`, on which the
theorems about the start (C46, C82) rest, for the memory that the code made. -/
theorem C91_received (root : Elem) (p : Pos) (o : PlugObj) (ha : o.alive = true) (b : Board) (mem mem' : List Byte)
    (hm : MemoryOf root p b mem) (ht : OnTape o.receive [] mem none mem') (x : Nat) (hx : root.findSyncer x = some p) (recv : Receive)
    (hr : recv x b = some mem') : ∃ b', o.sync root p true b = .ok (none, b') ∧ root.syncBack recv x b = .ok b' := by
  obtain ⟨e, off, he, ho, hmem⟩ := hm
  obtain ⟨hb, hL, hl⟩ := split_board hmem
  have hrun := ht.run (b.take off) (b.drop (off + e.footprint))
  have hl' : mem'.length = e.footprint := by rw [ht.length]; simpa using hl
  rw [hL, List.append_nil, List.length_nil, ← hb] at hrun
  have hw := write_middle (L := b.take off) (M := mem) (R := b.drop (off + e.footprint)) (bs := mem') hL (by omega)
  rw [← hb] at hw
  refine ⟨b.take off ++ mem' ++ b.drop (off + e.footprint), by simp only [PlugObj.sync, he, ho, ha, PlugObj.access, if_true, hrun], ?_⟩
  have htake : mem'.take e.footprint = mem' := by rw [← hl', List.take_length]
  simp only [Elem.syncBack, hx, he, ho, hr, htake, hw]

/-- **C91 (nothing implemented).**  An object that implements nothing refuses to send, and when it receives leaves the blackboard as it
is, or sets the default values when the subsystem is not alive. -/
theorem C91_plain_object (root : Elem) (p : Pos) (e : Elem) (he : root.at? p = some e) (alive : Bool) (b : Board) :
    (∃ t, (PlugObj.plain alive).sync root p false b = .ok (some t, b)) ∧
      (alive = true → (PlugObj.plain alive).sync root p true b = .ok (none, b)) := by
  obtain ⟨off, ho⟩ := Elem.offset_of_at (off := 0) he
  cases alive <;> simp [PlugObj.sync, PlugObj.plain, PlugObj.access, PlugCode.run, he, ho]

/-! ## What the code makes of the bytes -/

/-- **C91 (plain integers).**  From the bytes of an integer parameter, or of an entry of an array of such, `toPlainInteger` makes
the number that the framework shows for them. -/
theorem C91_plain_integer (k : EKind) (t : IntType) (wf : t.WF) (hk : k = .scalar (.int t) ∨ ∃ u, k = .array u ∧ u.elem = .int t)
    (bs : List Byte) (hl : bs.length = t.size) :
    (t.signed = true → (k.toPlainInteger (BitVec.ofNat 32 (decLE bs))).toInt = memValue true bs) ∧
      (t.signed = false → ((k.toPlainInteger (BitVec.ofNat 32 (decLE bs))).toNat : Int) = memValue false bs) := by
  have key : ∀ v, k.toPlainInteger v = if t.signed then signExtend t.size v else v := by
    rcases hk with rfl | ⟨u, rfl, hu⟩
    · exact fun _ => rfl
    · intro v; simp only [EKind.toPlainInteger, hu]
  refine ⟨fun h => ?_, fun h => ?_⟩
  · rw [key, if_pos h, signExtend_decLE wf.size hl]
  · rw [key, if_neg (by simp [h]), toNat_decLE wf.size hl]
    simp [memValue]

/-! ## The skeleton -/

theorem skeletonSend_confined (size n : Nat) : Confined (size * n) (skeletonSend size n) := by
  induction n with
  | zero => exact .done _ _
  | succ n ih => rw [Nat.mul_succ, Nat.add_comm]; exact .read fun _ _ => ih

theorem skeletonReceive_confined (junk : List Byte) (n : Nat) : Confined (junk.length * n) (skeletonReceive junk n) := by
  induction n with
  | zero => exact .done _ _
  | succ n ih => rw [Nat.mul_succ, Nat.add_comm]; exact .write ih

theorem skeletonSend_readsOnly (size n : Nat) : ReadsOnly (skeletonSend size n) := by
  induction n with
  | zero => exact .done _
  | succ n ih => exact .read fun _ => ih

theorem skeletonSend_all (size n : Nat) (mem : List Byte) (hm : mem.length = size * n) : ReadsAll size (skeletonSend size n) mem := by
  induction n generalizing mem with
  | zero => obtain rfl := List.length_eq_zero_iff.1 (by simpa using hm); exact .done
  | succ n ih =>
    rw [Nat.mul_succ] at hm
    rw [← List.take_append_drop size mem]
    exact .read (by simp; omega) (ih _ (by simp; omega))

theorem skeletonReceive_tape (junk : List Byte) (n : Nat) (old mem : List Byte) (hm : mem.length = junk.length * n) :
    OnTape (skeletonReceive junk n) old mem none (old ++ (List.replicate n junk).flatten) := by
  induction n generalizing old mem with
  | zero =>
    obtain rfl := List.length_eq_zero_iff.1 (by simpa using hm)
    simpa [skeletonReceive] using OnTape.done none old []
  | succ n ih =>
    rw [Nat.mul_succ] at hm
    rw [← List.take_append_drop junk.length mem]
    refine .write (by simp; omega) ?_
    have := ih (old ++ junk) (mem.drop junk.length) (by simp; omega)
    simpa [List.replicate_succ] using this

/-- **C91 (the skeleton).**  The object of the skeleton, for a parameter or an array, reads every byte of it once, in order and in
pieces of the size of an entry, when it sends; it only reads, and ends well.  When it receives it goes over the same pieces, and
puts into each what was in its buffer, to which nothing was given. -/
theorem C91_skeleton (junk : Nat → List Byte) (hj : ∀ n, (junk n).length = n) (root : Elem) (wf : root.WF) (p : Pos) (e : Elem)
    (he : root.at? p = some e) (t : ScalarType) (n : Nat) (hs : Spec.Sound t)
    (hk : (e.kind = .scalar t ∧ n = 1) ∨ ∃ u, e.kind = .array u ∧ u.elem = t ∧ n = u.length) :
    ∃ o, skeletonObject junk e = some o ∧ o.alive = true ∧ ReadsOnly o.send ∧ Confined e.footprint o.send ∧
      Confined e.footprint o.receive ∧
      (∀ mem : List Byte, mem.length = e.footprint → ReadsAll t.size o.send mem) ∧
      ∀ mem : List Byte, mem.length = e.footprint → OnTape o.receive [] mem none (List.replicate n (junk t.size)).flatten := by
  have hpos : 0 < t.size := by
    cases t with
    | bool => simp [ScalarType.size]
    | int t => rcases hs.size with h | h | h <;> simp [ScalarType.size, h]
    | enum t => rcases hs with h | h | h <;> simp [ScalarType.size, h]
    | fixed t => rcases hs.size with h | h | h <;> simp [ScalarType.size, h]
    | float t => simp [ScalarType.size]
  have hfoot : e.footprint = t.size * n := by
    rcases wf.at he with hwf | ⟨_, _, _, _, _, t', _, _, _, _, _, rfl, _⟩
    · rcases hk with ⟨hk, rfl⟩ | ⟨u, hk, rfl, rfl⟩
      · cases hwf <;> simp_all [Elem.kind, Elem.footprint, EKind.ownSize]
      · cases hwf <;> simp_all [Elem.kind, Elem.footprint, EKind.ownSize, ArrayType.footprint, Nat.mul_comm]
    · rcases hk with ⟨hk, rfl⟩ | ⟨u, hk, rfl, rfl⟩ <;> simp [Elem.kind] at hk
  have hdiv : e.footprint / t.size = n := by rw [hfoot]; exact Nat.mul_div_cancel_left _ hpos
  refine ⟨⟨true, skeletonSend t.size n, skeletonReceive (junk t.size) n⟩, ?_, rfl, skeletonSend_readsOnly _ _, ?_, ?_, ?_, ?_⟩
  · rcases hk with ⟨hk, rfl⟩ | ⟨u, hk, rfl, rfl⟩
    · simp only [skeletonObject, hk, hdiv]; rw [if_neg (by omega)]
    · simp only [skeletonObject, hk, hdiv]; rw [if_neg (by omega)]
  · rw [hfoot]; exact skeletonSend_confined _ _
  · have := skeletonReceive_confined (junk t.size) n
    rwa [hj, ← hfoot] at this
  · intro mem hm; exact skeletonSend_all _ _ _ (hm.trans hfoot)
  · intro mem hm
    exact skeletonReceive_tape _ _ [] mem (by rw [hj, hm, hfoot])

/-! ## Cases -/

namespace SampleObject

/-- An object for the volume: it sends the volume unless its first byte is 0; when it receives, it writes a byte, and the other one
unless the volume was 0 before. -/
def volume (alive : Bool) : PlugObj :=
  ⟨alive, .read 2 fun bs => if bs.head? = some 0 then .done (some (s "silent")) else .done none,
    .write [0x2A] (.read 1 fun bs => if bs = [0] then .done (some (s "lost")) else .done none)⟩

def board : Board := [0x05, 0x01, 0xFF, 1, 1, 1, 0, 1, 1, 1]
def lost : Board := [0x05, 0x00, 0xFF, 1, 1, 1, 0, 1, 1, 1]

theorem sends (alive : Bool) : ReadsOnly (volume alive).send := by
  refine .read fun bs => ?_
  split <;> exact .done _

theorem sendsOwn (alive : Bool) : Confined 2 (volume alive).send := by
  refine .read (n := 0) (m := 2) fun bs _ => ?_
  split <;> exact .done _ _

theorem receivesOwn (alive : Bool) : Confined 2 (volume alive).receive := by
  refine .write (bs := [0x2A]) (n := 1) (.read (n := 0) (m := 1) fun bs _ => ?_)
  split <;> exact .done _ _

example : ∃ mem, MemoryOf Sample.root [0, 0, 0] board mem ∧ ∃ r, (volume true).sync Sample.root [0, 0, 0] false board = .ok (r, board) ∧
    ((volume true).alive = true → OnTape (volume true).send [] mem r mem) ∧ ((volume true).alive = false → r ≠ none) ∧
      ∀ root' p' b', MemoryOf root' p' b' mem → (volume true).sync root' p' false b' = .ok (r, b') :=
  C91_send Sample.root Sample.wf [0, 0, 0] _ rfl (volume true) (sends true) (sendsOwn true) board (by decide)

example : ∃ mem r b', MemoryOf Sample.root [0, 0, 0] lost mem ∧ (volume true).sync Sample.root [0, 0, 0] true lost = .ok (r, b') ∧
    b'.length = lost.length ∧ r ≠ none ∧ HoldsDefault Sample.root b' [0, 0, 0] := by
  obtain ⟨mem, r, b', h1, h2, h3, -, -, -, h4⟩ := C91_receive Sample.root Sample.wf [0, 0, 0] _ rfl (by simp [Elem.kind])
    (volume true) (receivesOwn true) lost (by decide)
  have hr : r ≠ none := by
    rintro rfl
    have : (volume true).sync Sample.root [0, 0, 0] true lost = .ok (some (s "lost"), [0x9C, 0xFF, 0xFF, 1, 1, 1, 0, 1, 1, 1]) := by
      decide +kernel
    rw [this] at h2
    simp at h2
  exact ⟨mem, r, b', h1, h2, h3, hr, h4 hr [0, 0, 0] _ (List.prefix_refl _) rfl rfl ⟨.inr (.inl rfl), by decide, by decide, by decide⟩⟩

/-- What the object does: it sends; it is refused when the first byte is 0, or when the subsystem is not alive; it receives;
and when this fails after a byte was written, the volume is at its default, -100. -/
example : (volume true).sync Sample.root [0, 0, 0] false board = .ok (none, board) ∧
    (volume true).sync Sample.root [0, 0, 0] false (0 :: board.tail) = .ok (some (s "silent"), 0 :: board.tail) ∧
    (volume false).sync Sample.root [0, 0, 0] false board = .ok (some (s "Susbsystem not alive"), board) ∧
    (volume true).sync Sample.root [0, 0, 0] true board = .ok (none, 0x2A :: board.tail) ∧
    (volume true).sync Sample.root [0, 0, 0] true lost = .ok (some (s "lost"), [0x9C, 0xFF, 0xFF, 1, 1, 1, 0, 1, 1, 1]) ∧
    (volume false).sync Sample.root [0, 0, 0] true board = .ok (some (s "Susbsystem not alive"), 0x9C :: 0xFF :: board.drop 2) := by
  refine ⟨?_, ?_, ?_, ?_, ?_, ?_⟩ <;> decide +kernel

example : ∃ b', (volume true).sync Sample.root [0, 0, 0] true board = .ok (none, b') ∧
    Sample.root.syncBack (fun _ _ => some [0x2A, 0x01]) 1 board = .ok b' :=
  C91_received Sample.root [0, 0, 0] (volume true) rfl board [0x05, 0x01] [0x2A, 0x01] ⟨_, 0, rfl, rfl, by decide⟩
    (.write (was := [0x05]) (new := [0x01]) rfl (.read (bs := [0x01]) (new := []) rfl (.done none [0x2A, 0x01] []))) 1
    (by decide +kernel) _ rfl

/-- The volume at -2, and the number that code makes of its bytes. -/
example : ((EKind.scalar Sample.int16).toPlainInteger (BitVec.ofNat 32 (decLE [0xFE, 0xFF]))).toInt = memValue true [0xFE, 0xFF] :=
  (C91_plain_integer _ ⟨true, 2, -100, 100⟩ ⟨.inr (.inl rfl), by decide, by decide, by decide⟩ (.inl rfl) [0xFE, 0xFF] rfl).1 rfl

def junk (n : Nat) : List Byte := List.replicate n 0x7F

example : ∃ o, skeletonObject junk (.mk (s "gains") (.array ⟨.bool, 2⟩) none []) = some o ∧
    OnTape o.receive [] [1, 1] none [0x7F, 0x7F] := by
  obtain ⟨o, h, -, -, -, -, -, h'⟩ := C91_skeleton junk (by simp [junk]) Sample.root Sample.wf [0, 0, 3] _ rfl .bool 2 trivial
    (.inr ⟨_, rfl, rfl, rfl⟩)
  exact ⟨o, h, h' [1, 1] rfl⟩

end SampleObject

/-- **C91 (negative).**  Code that goes over more bytes than its element has is not stopped: the one of the volume reads and changes the
bits behind it; a synchronisation with the hardware of one parameter changes others.  Only at the end of the blackboard is the
program stopped. -/
theorem C91_overrun : ∃ (root : Elem) (p : Pos) (b : Board), root.WF ∧ b.length = root.footprint ∧
    (∃ o b', PlugObj.sync root p o true b = .ok (none, b') ∧ ∃ i, ¬ root.Owns p i ∧ b'.bit i ≠ b.bit i) ∧
    (∃ o b' mem, MemoryOf root p b mem ∧ MemoryOf root p b' mem ∧ PlugObj.sync root p o false b = .ok (none, b) ∧
      ∃ t, PlugObj.sync root p o false b' = .ok (some t, b')) ∧
    ∃ o, PlugObj.sync root p o false b = .abort := by
  refine ⟨Sample.root, [0, 0, 0], SampleObject.board, Sample.wf, by decide, ?_, ?_, ?_⟩
  · refine ⟨⟨true, .done none, .write [1, 2, 3] (.done none)⟩, [1, 2, 3, 1, 1, 1, 0, 1, 1, 1], by decide +kernel, 20, ?_, by decide⟩
    rintro ⟨e, off, he, ho, h⟩
    obtain rfl : e = .mk (s "vol") (.scalar Sample.int16) (some 1) [] := (Option.some.inj he).symm
    obtain rfl : off = 0 := (Option.some.inj ho).symm
    revert h
    decide
  · exact ⟨⟨true, .read 3 fun bs => if bs[2]? = some 0 then .done (some (s "no")) else .done none, .done none⟩,
      [0x05, 0x01, 0, 1, 1, 1, 0, 1, 1, 1], [0x05, 0x01], ⟨_, 0, rfl, rfl, by decide⟩, ⟨_, 0, rfl, rfl, by decide⟩, by decide +kernel,
      s "no", by decide +kernel⟩
  · exact ⟨⟨true, .read 11 fun _ => .done none, .done none⟩, by decide +kernel⟩

/-- **C91 (negative).**  `toPlainInteger` extends the sign of integers only: for an enumeration of 8 bits whose value is -1, which is
declared, code gets 255. -/
theorem C91_enum_not_extended : ∃ (t : EnumType) (bs : List Byte), Spec.Sound (.enum t) ∧ bs.length = t.size ∧
    t.Declared (memValue true bs) ∧ ((EKind.scalar (.enum t)).toPlainInteger (BitVec.ofNat 32 (decLE bs))).toInt ≠ memValue true bs :=
  ⟨⟨1, [(s "off", 0xFFFFFFFF#32)]⟩, [0xFF], .inl rfl, rfl, ⟨(s "off", 0xFFFFFFFF#32), by simp, by decide⟩, by decide⟩

/-- **C91 (negative).**  The skeleton, as it is, puts bytes that nobody chose into the blackboard, and reports success: the volume gets a
value out of its range.  For a string, a component or a block it has no defined behaviour. -/
theorem C91_skeleton_junk : ∃ (junk : Nat → List Byte), (∀ n, (junk n).length = n) ∧
    (∃ e o b', Sample.root.at? [0, 0, 0] = some e ∧ skeletonObject junk e = some o ∧
      o.sync Sample.root [0, 0, 0] true SampleObject.board = .ok (none, b') ∧
      ∃ bs, MemoryOf Sample.root [0, 0, 0] b' bs ∧ 100 < memValue true bs) ∧
    ∃ p e, Sample.root.at? p = some e ∧ e.syncer ≠ none ∧ skeletonObject junk e = none :=
  ⟨SampleObject.junk, by simp [SampleObject.junk],
    ⟨_, ⟨true, skeletonSend 2 1, skeletonReceive [0x7F, 0x7F] 1⟩, [0x7F, 0x7F, 0xFF, 1, 1, 1, 0, 1, 1, 1], rfl, rfl, by decide +kernel,
      [0x7F, 0x7F], ⟨_, 0, rfl, rfl, by decide⟩, by decide⟩,
    [0, 0, 2], _, rfl, by simp [Elem.syncer], rfl⟩

end PF
