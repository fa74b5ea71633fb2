import Verif.Lemmas.Answer
import Verif.Lemmas.ConcurrentOps

/-! # The operations keep the ends of the strings -/

namespace PF
open Spec

/-- A string shares no byte with an element that does not hold it. -/
theorem Elem.WF.string_disjoint {e f g : Elem} (wf : e.WF) {p q : Pos} {a o u n : Nat}
    (hp : e.at? p = some f) (hk : f.kind = .string n) (hq : e.at? q = some g) (hop : e.offset a p = some o)
    (hoq : e.offset a q = some u) (hu : ¬ q <+: p) : o + (n + 1) ≤ u ∨ u + g.areaSize ≤ o := by
  induction p generalizing e q a with
  | nil =>
    have : ([] : Pos) = q := wf.param_leaf (p := []) (q := q) hp (by rw [hk]; rfl) hq (List.nil_prefix)
    exact absurd (by rw [← this]) hu
  | cons i p ih =>
    cases q with
    | nil => exact absurd (List.nil_prefix) hu
    | cons j q =>
      rw [Elem.at?_cons] at hp hq
      rw [Elem.offset_cons] at hop hoq
      cases hc : e.children[i]? with
      | none => simp [hc] at hp
      | some c =>
      cases hd : e.children[j]? with
      | none => simp [hd] at hq
      | some d =>
      simp only [hc, hd, Option.bind_some] at hp hq hop hoq
      by_cases hij : i = j
      · subst hij
        have : d = c := by simpa [hc] using hd.symm
        subst this
        rcases wf.child hc with ⟨hw, _⟩ | ⟨size, nm, t, sy, hk', rfl, h1, h2, h3⟩
        · exact ih hw hp hq hop hoq (fun h => hu (by simpa using h))
        · cases p with
          | nil =>
            simp only [Elem.at?, Option.some.injEq] at hp
            subst hp; simp [Elem.kind] at hk
          | cons => simp [Elem.at?] at hp
      · rcases wf.child hc with ⟨hwc, ⟨k, hk'⟩, hbc⟩ | ⟨size, nm, t, sy, hk', rfl, h1, h2, h3⟩
        · rcases wf.child hd with ⟨hwd, _, hbd⟩ | ⟨size, nm, t, sy, hk'', _⟩
          · have n1 := hwc.area_nested hp hop
            have n2 := hwd.area_nested hq hoq
            have hf : f.areaSize = n + 1 := by
              cases f with | mk nm k0 sy0 cs0 =>
              simp only [Elem.kind] at hk
              subst hk
              simp [Elem.areaSize, Elem.kind, Elem.footprint, EKind.ownSize, stringSize]
            rcases Nat.lt_or_gt_of_ne hij with hlt | hgt
            · have := Elem.footprints_take_mono e.children (show i + 1 ≤ j from hlt)
              rw [Elem.footprints_take_succ hc] at this
              left; omega
            · have := Elem.footprints_take_mono e.children (show j + 1 ≤ i from hgt)
              rw [Elem.footprints_take_succ hd] at this
              right; omega
          · rw [hk'] at hk''; cases hk''
        · cases p with
          | nil =>
            simp only [Elem.at?, Option.some.injEq] at hp
            subst hp; simp [Elem.kind] at hk
          | cons => simp [Elem.at?] at hp

theorem Elem.string_size {f : Elem} {n : Nat} (hk : f.kind = .string n) : f.areaSize = n + 1 := by
  cases f with | mk nm k0 sy0 cs0 =>
  simp only [Elem.kind] at hk
  subst hk
  simp [Elem.areaSize, Elem.kind, Elem.footprint, EKind.ownSize, stringSize]

/-- A memory with the settings of the element at `q`, in which every string ends. -/
def Ended (root : Elem) (q : Pos) (b : Board) : Prop :=
  ∃ e base, root.at? q = some e ∧ root.offset 0 q = some base ∧ b.length = e.areaSize ∧
    ∀ p f n off, q <+: p → root.at? p = some f → f.kind = .string n → root.offset 0 p = some off → Ends b (off - base) n

theorem Spec.Ends.same {b b' : Board} {off n : Nat} (h : Ends b off n) (hb : ∀ j, off ≤ j → j ≤ off + n → b'[j]? = b[j]?) :
    Ends b' off n := by
  obtain ⟨j, h1, h2, h3⟩ := h
  exact ⟨j, h1, h2, by rw [hb j h1 h2, h3]⟩

/-- Bytes written in the memory of an element: what was outside is as before; the strings that are written end. -/
theorem Ended.change {root : Elem} (wf : root.WF) {q : Pos} {b b' : Board} (h : Ended root q b) {r : Pos} {x : Elem} {base o : Nat}
    (hqr : q <+: r) (hb : root.offset 0 q = some base) (hx : root.at? r = some x) (ho : root.offset 0 r = some o)
    (hs : SameOutside b b' (o - base) x.areaSize)
    (hin : ∀ p f n off, r <+: p → root.at? p = some f → f.kind = .string n → root.offset 0 p = some off →
      Ends b (off - base) n → Ends b' (off - base) n) : Ended root q b' := by
  obtain ⟨e, base', he, hb', hl, hst⟩ := h
  rw [hb] at hb'
  cases hb'
  refine ⟨e, base, he, hb, by rw [hs.1, hl], fun p f n off hqp hp hk hoff => ?_⟩
  by_cases hrp : r <+: p
  · exact hin p f n off hrp hp hk hoff (hst p f n off hqp hp hk hoff)
  · refine Spec.Ends.same (hst p f n off hqp hp hk hoff) fun j h1 h2 => hs.2 j ?_
    have hd := wf.string_disjoint hp hk hx hoff ho hrp
    have h3 := wf.area_inside hqr he hx hb ho
    have h4 := wf.area_inside hqp he hp hb hoff
    omega

theorem Ended.set {root : Elem} (wf : root.WF) {q : Pos} {b b' : Board} (h : Ended root q b) {r : Pos} {x : Elem} {base o : Nat}
    (hqr : q <+: r) (hb : root.offset 0 q = some base) (hx : root.at? r = some x) (hpar : x.kind.isParameter = true)
    (ho : root.offset 0 r = some o) (hs : SameOutside b b' (o - base) x.areaSize)
    (hin : ∀ n, x.kind = .string n → Ends b (o - base) n → Ends b' (o - base) n) : Ended root q b' := by
  refine h.change wf hqr hb hx ho hs fun p f n off hrp hp hk hoff he => ?_
  have := wf.param_leaf hx hpar hp hrp
  subst this
  rw [hx] at hp; cases hp
  rw [ho] at hoff; cases hoff
  exact hin n hk he

theorem setString_ends {m : Nat} {b : Board} {off : Nat} {t : List Byte} (h : Ends b off m) :
    Ends ((setString m b off t).withBoard b).2 off m := by
  unfold setString
  split
  · exact h
  · rename_i hl
    cases hw : b.writeString off t with
    | none => exact h
    | some b' =>
      simp only [Out.withBoard]
      unfold Board.writeString at hw
      simp only [stringSize] at hl
      refine ⟨off + t.length, by omega, by omega, ?_⟩
      rw [Board.write_getElem? hw, if_pos (by simp)]
      simp

theorem Elem.WF.bit_at {root e : Elem} (wf : root.WF) {p : Pos} (he : root.at? p = some e) (t : BitType)
    (hk : e.kind = .bit t) : t.WF := by
  rcases wf.kind_at he with ⟨t', h1, h2, _⟩ | ⟨h1, _⟩
  · rw [hk] at h1; cases h1; exact h2
  · exact absurd hk (h1 t)

theorem Ended.setParamText {root : Elem} (wf : root.WF) {q : Pos} {b : Board} (h : Ended root q b) {r : Pos} {x : Elem}
    {base o : Nat} (hqr : q <+: r) (hb : root.offset 0 q = some base) (hx : root.at? r = some x)
    (hpar : x.kind.isParameter = true) (ho : root.offset 0 r = some o) (rd : Reader) (ctx : Ctx) (items : List Str) (text : Str) :
    Ended root q (setParamText rd ctx x.kind b o base items text).2 := by
  obtain ⟨e, base', he, hb', hl, hst⟩ := id h
  rw [hb] at hb'; cases hb'
  have hi := wf.area_inside hqr he hx hb ho
  have hf := setParamText_frame (rd := rd) (ctx := ctx) (e := x) (b := b) (off := o) (base := base) (items := items)
    (text := text) (fun t hk => wf.bit_at hx t hk) hi.1
  have hx' := extent_in_area (e := x) (o - base) (fun t hk => wf.bit_at hx t hk)
  refine h.set wf hqr hb hx hpar ho (SameOutside.of_bits hf.1 fun i hi => hf.2 i (by omega)) fun n hk hn => ?_
  rw [hk]
  simp only [PF.setParamText]
  split
  · exact hn
  · split
    · exact hn
    · exact setString_ends hn

theorem Ended.setParamVal {root : Elem} (wf : root.WF) {b : Board} (h : Ended root [] b) {r : Pos} {x : Elem}
    {o : Nat} (hx : root.at? r = some x) (hpar : x.kind.isParameter = true) (ho : root.offset 0 r = some o) (rd : Reader) (v : HVal) :
    Ended root [] (setParamVal rd x.kind b o v).2 := by
  have hb : root.offset 0 [] = some 0 := by simp [Elem.offset]
  have hs := setParamVal_bytes (rd := rd) (e := x) (b := b) (off := o) v (fun t hk => wf.bit_at hx t hk)
  refine h.set wf (base := 0) (by simp) hb hx hpar ho hs fun n hk hn => ?_
  rw [hk]
  simp only [Nat.sub_zero] at hn ⊢
  unfold PF.setParamVal
  split
  · unfold setParamAtom
    dsimp only
    split
    · exact setString_ends hn
    · exact hn
  · simp_all
  · exact hn
  · exact hn

theorem Ended.setText {root : Elem} (wf : root.WF) {q : Pos} {b : Board} (h : Ended root q b) {base : Nat}
    (hb : root.offset 0 q = some base) (rd : Reader) (ctx : Ctx) (path text : Str)
    (hloc : ∀ p items, root.accessTarget path = some (p, items) → q <+: p) :
    Ended root q (Elem.setText rd ctx root base b path text).2 := by
  unfold Elem.setText
  split
  · exact h
  · rename_i p items ht
    obtain ⟨f, hf, hpar⟩ := Elem.accessTarget_at ht
    obtain ⟨o, ho⟩ := Elem.offset_of_at (off := 0) hf
    simp only [hf, ho]
    exact h.setParamText wf (hloc p items ht) hb hf hpar ho rd ctx items text

/-! ## Documents -/

mutual
theorem Elem.importXml_keeps {rd : Reader} {hex : Bool} {base : Nat} {P : Board → Prop} (e : Elem) {off : Nat} {x : XElem}
    {raw : Bool} {b : Board}
    (h : ∀ q f o, e.Param off q f o → ∀ ctx text b, P b → P (setParamText rd ctx f.kind b o base [] text).2) (hb : P b) :
    P (e.importXml rd hex base off x raw b).2.2 := by
  cases e with | mk n k sy cs =>
  simp only [Elem.importXml]
  have hch := fun raw (b' : Board) (hp : P b') => Elem.importChildren_keeps (rd := rd) (hex := hex) (base := base) (P := P)
    cs (off := off) (xs := x.children) (raw := raw) (b := b') (fun q f o hp => by
      cases q with
      | nil => simp [Elem.Params] at hp
      | cons j q => exact h (j :: q) f o (Elem.param_cons.2 hp)) hp
  split
  · rename_i hk
    have hs := h [] (.mk n k sy cs) off ⟨rfl, hk, rfl⟩ ⟨k.importRaw x raw, hex⟩ x.text b hb
    simp only [Elem.kind] at hs
    generalize setParamText rd ⟨k.importRaw x raw, hex⟩ k b off base [] x.text = r at hs
    obtain ⟨r1, r2⟩ := r
    rcases r1 with _ | _ | _
    · exact hch _ _ hs
    · exact hs
    · exact hs
  · exact hch _ _ hb
theorem Elem.importChildren_keeps {rd : Reader} {hex : Bool} {base : Nat} {P : Board → Prop} (cs : List Elem) {off : Nat}
    {xs : List XElem} {raw : Bool} {b : Board}
    (h : ∀ q f o, Elem.Params cs off q f o → ∀ ctx text b, P b → P (setParamText rd ctx f.kind b o base [] text).2)
    (hb : P b) : P (Elem.importChildren rd hex base cs off xs raw b).2.2 := by
  cases cs with
  | nil => cases xs <;> exact hb
  | cons c cs =>
    cases xs with
    | nil => exact hb
    | cons x xs =>
      simp only [Elem.importChildren]
      have h1 := Elem.importXml_keeps (rd := rd) (hex := hex) (base := base) (P := P) c (off := off) (x := x) (raw := raw)
        (b := b) (fun q f o hp => h (0 :: q) f o (Elem.params_zero.2 hp)) hb
      split
      · exact hb
      split
      · exact hb
      generalize Elem.importXml rd hex base c off x raw b = r at h1
      obtain ⟨r1, raw', b'⟩ := r
      rcases r1 with _ | _ | _
      · refine Elem.importChildren_keeps (rd := rd) (hex := hex) cs (off := off + c.footprint) (xs := xs)
          (raw := raw') (b := b') (fun q f o hp => ?_) h1
        cases q with
        | nil => simp [Elem.Params] at hp
        | cons j q => exact h ((j + 1) :: q) f o (Elem.params_succ.2 hp)
      · exact h1
      · exact h1
end

theorem Ended.importXml {root : Elem} (wf : root.WF) {q : Pos} {b : Board} (h : Ended root q b) {base : Nat}
    (hb : root.offset 0 q = some base) {r : Pos} (hqr : q <+: r) {e : Elem} (he : root.at? r = some e) {o : Nat}
    (ho : root.offset 0 r = some o) (rd : Reader) (hex raw : Bool) (x : XElem) :
    Ended root q (e.importXml rd hex base o x raw b).2.2 := by
  refine Elem.importXml_keeps (P := Ended root q) e (fun s f u hp ctx text b' hb' => ?_) h
  have hat : root.at? (r ++ s) = some f := by rw [Elem.at?_append, he]; exact hp.1
  have hoff : root.offset 0 (r ++ s) = some u := by rw [Elem.offset_append, he, ho]; exact hp.2.2
  exact hb'.setParamText wf (hqr.trans (List.prefix_append r s)) hb hat hp.2.1 hoff rd ctx [] text

theorem Ended.setXml {root : Elem} (wf : root.WF) {b : Board} (h : Ended root [] b) (rd : Reader) (ctx : Ctx) (p : Pos) (x : XElem) :
    Ended root [] (Elem.setXml rd root ctx b p x).2 := by
  unfold Elem.setXml
  split
  · rename_i e off he ho
    split
    · exact h
    · exact h.importXml wf (by simp [Elem.offset]) (by simp) he ho rd ctx.hex ctx.raw x
  · exact h

/-! ## Areas -/

theorem Ended.zeros {root e : Elem} (wf : root.WF) {q : Pos} (he : root.at? q = some e) :
    Ended root q (List.replicate e.areaSize 0#8) := by
  obtain ⟨base, hb⟩ := Elem.offset_of_at (off := 0) he
  refine ⟨e, base, he, hb, by simp, fun p f n off hqp hf hk ho => ?_⟩
  have := wf.area_inside hqp he hf hb ho
  rw [Elem.string_size hk] at this
  refine ⟨off - base, Nat.le_refl _, by omega, ?_⟩
  rw [List.getElem?_replicate, if_pos (by omega)]

theorem Area.new_fine {root : Elem} (wf : root.WF) {p : Pos} {a : Area} (h : Area.new root p = some a) :
    Ended root a.elem a.board := by
  unfold Area.new at h
  cases he : root.at? p with
  | none => simp [he] at h
  | some e =>
    simp only [he, Option.map_some, Option.some.injEq] at h
    subst h
    exact Ended.zeros wf he

/-- No string is below a bit parameter. -/
theorem Elem.WF.no_string {root e f : Elem} (wf : root.WF) {q p : Pos} {t : BitType} {n : Nat} (he : root.at? q = some e)
    (hk : e.kind = .bit t) (hqp : q <+: p) (hf : root.at? p = some f) (hs : f.kind = .string n) : False := by
  have := wf.param_leaf he (by rw [hk]; rfl) hf hqp
  subst this
  rw [he] at hf; cases hf
  rw [hk] at hs; cases hs

theorem Area.copyTo_fine {root : Elem} (wf : root.WF) {a : Area} (ha : Ended root a.elem a.board) {q : Pos} {dst b : Board}
    (hd : Ended root q dst) (hq : q <+: a.elem) {base o : Nat} (hb : root.offset 0 q = some base)
    (ho : root.offset 0 a.elem = some o) (h : a.copyTo root dst (o - base) = some b) : Ended root q b := by
  obtain ⟨e, base', he, hb', hl, hst⟩ := ha
  rw [ho] at hb'; cases hb'
  unfold Area.copyTo at h
  simp only [he] at h
  split at h
  · rename_i t hk
    have hsz : e.areaSize = t.blockSize := by simp [Elem.areaSize, hk]
    unfold blockMerge at h
    split at h
    · have hw := Board.write_getElem? h
      refine hd.change wf hq hb he ho ⟨(Board.write_length h).1, fun i hi => ?_⟩ fun p f n off hrp hp hk' _ _ =>
        absurd (wf.no_string he hk hrp hp hk') id
      rw [hw, if_neg (by simp only [encLE_length]; omega)]
    · simp at h
  · have hw := Board.write_getElem? h
    refine hd.change wf hq hb he ho ⟨(Board.write_length h).1, fun i hi => ?_⟩ fun p f n off hrp hp hk' hoff _ => ?_
    · rw [hw, if_neg (by omega)]
    · obtain ⟨j, h1, h2, h3⟩ := hst p f n off hrp hp hk' hoff
      obtain ⟨eq, bq, heq, hbq, _⟩ := hd
      rw [hb] at hbq; cases hbq
      have i1 := wf.area_inside hrp he hp ho hoff
      have i2 := wf.area_inside hq heq he hb ho
      have i3 := Elem.string_size hk'
      refine ⟨j + (o - base), by omega, by omega, ?_⟩
      rw [hw, if_pos (by omega)]
      rw [show j + (o - base) - (o - base) = j by omega, h3]

theorem Area.copyFrom_fine {root : Elem} (wf : root.WF) {a a' : Area} (ha : Ended root a.elem a.board) {q : Pos} {src : Board}
    (hs : Ended root q src) (hq : q <+: a.elem) {base o : Nat} (hb : root.offset 0 q = some base)
    (ho : root.offset 0 a.elem = some o) (h : a.copyFrom root src (o - base) = some a') :
    a'.elem = a.elem ∧ Ended root a'.elem a'.board := by
  obtain ⟨e, base', he, hb', hl, hst⟩ := ha
  rw [ho] at hb'; cases hb'
  unfold Area.copyFrom at h
  simp only [he] at h
  split at h
  · rename_i t hk
    cases hm : blockMerge t a.board 0 src (o - base) with
    | none => simp [hm] at h
    | some b =>
      simp only [hm, Option.map_some, Option.some.injEq] at h
      subst h
      refine ⟨rfl, e, o, he, ho, ?_, fun p f n off hrp hp hk' _ => absurd (wf.no_string he hk hrp hp hk') id⟩
      unfold blockMerge at hm
      split at hm
      · rw [(Board.write_length hm).1, hl]
      · simp at hm
  · cases hr : src.read (o - base) a.board.length with
    | none => simp [hr] at h
    | some b =>
      simp only [hr, Option.map_some, Option.some.injEq] at h
      subst h
      refine ⟨rfl, e, o, he, ho, by rw [(Board.read_length hr).1, hl], fun p f n off hrp hp hk' hoff => ?_⟩
      obtain ⟨eq, bq, heq, hbq, _, hsq⟩ := hs
      rw [hb] at hbq; cases hbq
      obtain ⟨j, h1, h2, h3⟩ := hsq p f n off (hq.trans hrp) hp hk' hoff
      have i1 := wf.area_inside hrp he hp ho hoff
      have i2 := wf.area_inside hq heq he hb ho
      have i3 := Elem.string_size hk'
      refine ⟨j - (o - base), by omega, by omega, ?_⟩
      rw [Board.read_getElem? hr _ (by omega), show o - base + (j - (o - base)) = j by omega, h3]

/-- Every string of the area ends. -/
def Area.Ended (root : Elem) (a : Area) : Prop := PF.Ended root a.elem a.board

theorem Area.save_fine {root : Elem} (wf : root.WF) {main : Board} (hm : PF.Ended root [] main) {a a' : Area} (ha : a.Ended root)
    (h : a.save root main = some a') : a'.Ended root := by
  unfold Area.save at h
  split at h
  · simp at h
  · rename_i off ho
    exact (Area.copyFrom_fine wf (base := 0) ha hm (by simp) (by simp [Elem.offset]) ho h).2

theorem Area.restore_fine {root : Elem} (wf : root.WF) {main b : Board} (hm : PF.Ended root [] main) {a : Area} (ha : a.Ended root)
    (h : a.restore root main = some b) : PF.Ended root [] b := by
  unfold Area.restore at h
  split at h
  · simp at h
  · split at h
    · simp at h
    · rename_i off ho
      exact Area.copyTo_fine wf (base := 0) ha hm (by simp) (by simp [Elem.offset]) ho h

theorem Area.validate_fine {root : Elem} (wf : root.WF) {main : Board} (hm : PF.Ended root [] main) {a a' : Area} (ha : a.Ended root)
    (h : a.validate root main = some a') : a'.Ended root := by
  unfold Area.validate at h
  split at h
  · simp only [Option.some.injEq] at h; subst h; exact ha
  · cases hs : a.save root main with
    | none => simp [hs] at h
    | some x =>
      simp only [hs, Option.map_some, Option.some.injEq] at h
      subst h
      exact Area.save_fine (a' := x) wf hm ha hs

theorem Area.validateAgainst_fine {root : Elem} {a b a' : Area} (ha : a.Ended root) (hb : b.Ended root)
    (h : a.validateAgainst b = some a') : a'.Ended root := by
  unfold Area.validateAgainst at h
  split at h
  · simp at h
  · rename_i hc
    simp only [Bool.or_eq_true, bne_iff_ne, ne_eq, not_or, Decidable.not_not] at hc
    cases hw : a.board.write 0 b.board with
    | none => simp [hw] at h
    | some x =>
      simp only [hw, Option.map_some, Option.some.injEq] at h
      subst h
      have hx : x = b.board := by
        apply List.ext_getElem?
        intro i
        rw [Board.write_getElem? hw]
        obtain ⟨e, _, he, _, hl, _⟩ := ha
        obtain ⟨e', _, he', _, hl', _⟩ := hb
        rw [hc.2, he'] at he
        cases he
        split
        · simp
        · rw [List.getElem?_eq_none (by omega), List.getElem?_eq_none (by omega)]
      unfold Area.Ended
      simp only [hx, hc.2]
      exact hb

theorem Area.copyToOuter_fine {root : Elem} (wf : root.WF) {a o o' : Area} (ha : a.Ended root) (ht : o.Ended root)
    (h : a.copyToOuter root o = some o') : o'.Ended root := by
  unfold Area.copyToOuter at h
  split at h
  · simp at h
  · rename_i hd
    simp only [Bool.not_eq_true', Bool.not_eq_false, Pos.isDescendantOf_iff] at hd
    split at h
    · rename_i v u ho hu
      cases hw : a.copyTo root o.board (v - u) with
      | none => simp [hw] at h
      | some x =>
        simp only [hw, Option.map_some, Option.some.injEq] at h
        subst h
        exact Area.copyTo_fine wf ha ht hd.1 hu ho hw
    · simp at h

theorem Area.copyFromOuter_fine {root : Elem} (wf : root.WF) {a frm a' : Area} (ha : a.Ended root) (ht : frm.Ended root)
    (h : a.copyFromOuter root frm = some a') : a'.Ended root := by
  unfold Area.copyFromOuter at h
  split at h
  · simp at h
  · rename_i hd
    simp only [Bool.not_eq_true', Bool.not_eq_false, Pos.isDescendantOf_iff] at hd
    split at h
    · rename_i o u ho hu
      cases hw : a.copyFrom root frm.board (o - u) with
      | none => simp [hw] at h
      | some x =>
        simp only [hw, Option.map_some, Option.some.injEq] at h
        subst h
        exact (Area.copyFrom_fine wf ha ht hd.1 hu ho hw).2
    · simp at h

theorem Area.fromXml_fine {root : Elem} (wf : root.WF) {rd : Reader} {a a' : Area} {x : Xml} (ha : a.Ended root)
    (h : a.fromXml root rd x = .ok a') : a'.Ended root := by
  unfold Area.fromXml at h
  split at h
  · rename_i e off he ho
    split at h
    · rename_i y _
      split at h
      · have := PF.Ended.importXml wf (b := a.board) ha ho (List.prefix_rfl) he ho rd false false y.settings
        generalize e.importXml rd false off off y.settings false a.board = r at h this
        obtain ⟨r1, r2, r3⟩ := r
        rcases r1 with _ | _ | _ <;> simp only [Out.ok.injEq, reduceCtorEq] at h
        subst h
        exact this
      · simp at h
    · simp at h
  · simp at h

/-! ## Configurations -/

theorem mapAll_keeps {α β : Type} {f : α → Option β} {P : α → Prop} {Q : β → Prop} {l : List α} {l' : List β}
    (h : mapAll f l = some l') (hl : ∀ a ∈ l, P a) (hf : ∀ a b, P a → f a = some b → Q b) : ∀ b ∈ l', Q b := by
  induction l generalizing l' with
  | nil => simp only [mapAll, Option.some.injEq] at h; subst h; simp
  | cons a l ih =>
    simp only [mapAll] at h
    split at h
    · rename_i b bs h1 h2
      simp only [Option.some.injEq] at h
      subst h
      intro x hx
      rcases List.mem_cons.1 hx with rfl | hx
      · exact hf a _ (hl a (by simp)) h1
      · exact ih h2 (fun y hy => hl y (by simp [hy])) x hx
    · simp at h

/-- Every string of the settings of the configuration ends. -/
def Config.Ended (root : Elem) (c : Config) : Prop := ∀ a ∈ c.areas, a.Ended root

theorem setArea_mem {p : Pos} {a' : Area} {as : List Area} {x : Area} (h : x ∈ setArea p a' as) : x = a' ∨ x ∈ as := by
  induction as with
  | nil => simp [setArea] at h
  | cons a as ih =>
    simp only [setArea] at h
    split at h
    · rcases List.mem_cons.1 h with h | h
      · exact .inl h
      · exact .inr (by simp [h])
    · rcases List.mem_cons.1 h with h | h
      · exact .inr (by simp [h])
      · rcases ih h with h | h
        · exact .inl h
        · exact .inr (by simp [h])

theorem Config.Ended.setArea {root : Elem} {c : Config} (h : c.Ended root) {p : Pos} {a : Area} (ha : a.Ended root) :
    Config.Ended root { c with areas := PF.setArea p a c.areas } := by
  intro x hx
  rcases setArea_mem hx with rfl | hx
  · exact ha
  · exact h x hx

theorem Config.Ended.area {root : Elem} {c : Config} (h : c.Ended root) {p : Pos} {a : Area} (ha : c.area? p = some a) :
    a.Ended root := h a (List.mem_of_find?_eq_some ha)

theorem Config.addElem_fine {root : Elem} (wf : root.WF) {c c' : Config} (h : c.Ended root) {p : Pos}
    (hc : c.addElem root p = some c') : c'.Ended root := by
  unfold Config.addElem at hc
  cases ha : Area.new root p with
  | none => simp [ha] at hc
  | some a =>
    simp only [ha, Option.map_some, Option.some.injEq] at hc
    subst hc
    intro x hx
    rcases List.mem_append.1 hx with hx | hx
    · exact h x hx
    · simp only [List.mem_singleton] at hx; subst hx; exact Area.new_fine wf ha

theorem Config.removeElem_fine {root : Elem} {c c' : Config} (h : c.Ended root) {p : Pos}
    (hc : c.removeElem p = some c') : c'.Ended root := by
  unfold Config.removeElem at hc
  split at hc
  · simp at hc
  · simp only [Option.some.injEq] at hc
    subst hc
    exact fun x hx => h x (List.mem_of_mem_eraseP hx)

theorem Config.save_fine {root : Elem} (wf : root.WF) {main : Board} (hm : PF.Ended root [] main) {c c' : Config}
    (h : c.Ended root) (hc : c.save root main = some c') : c'.Ended root := by
  unfold Config.save at hc
  cases ha : mapAll (Area.save root main) c.areas with
  | none => simp [ha] at hc
  | some as =>
    simp only [ha, Option.map_some, Option.some.injEq] at hc
    subst hc
    exact mapAll_keeps ha h fun a b => Area.save_fine wf hm

theorem restoreAreas_fine {root : Elem} (wf : root.WF) {hw : Hardware} {syncOf : Pos → Option SyncerSet} {sync : Bool}
    {as : List Area} (h : ∀ a ∈ as, a.Ended root) {m m' : Mem} {errs : List Str} (hm : PF.Ended root [] m.main)
    (hr : restoreAreas root hw syncOf sync as m = some (m', errs)) : PF.Ended root [] m'.main := by
  induction as generalizing m m' errs with
  | nil => simp only [restoreAreas, Option.some.injEq, Prod.mk.injEq] at hr; rw [← hr.1]; exact hm
  | cons a as ih =>
    simp only [restoreAreas] at hr
    split at hr
    · simp at hr
    · rename_i main hmain
      have hm' := Area.restore_fine wf hm (h a (by simp)) hmain
      have ih' := fun {m m' errs} => ih (m := m) (m' := m') (errs := errs) (fun x hx => h x (by simp [hx]))
      split at hr
      · split at hr
        · simp at hr
        · split at hr
          · simp at hr
          · rename_i ss _ _ m1 e1 hr1
            simp only [Option.some.injEq, Prod.mk.injEq] at hr
            rw [← hr.1]
            exact ih' (m := ⟨main, (syncAll hw main ss m.log).1⟩) hm' hr1
      · exact ih' (m := ⟨main, m.log⟩) hm' hr

theorem Config.validateElem_fine {root : Elem} (wf : root.WF) {main : Board} (hm : PF.Ended root [] main) {p : Pos}
    {c c' : Config} (h : c.Ended root) (hc : c.validateElem root main p = some c') : c'.Ended root := by
  unfold Config.validateElem at hc
  split at hc
  · simp at hc
  · rename_i a ha
    cases hv : a.validate root main with
    | none => simp [hv] at hc
    | some x =>
      simp only [hv, Option.map_some, Option.some.injEq] at hc
      subst hc
      exact h.setArea (Area.validate_fine wf hm (h.area ha) hv)

theorem Config.validate_fine {root : Elem} (wf : root.WF) {main : Board} (hm : PF.Ended root [] main) {c c' : Config}
    (h : c.Ended root) (hc : c.validate root main = some c') : c'.Ended root := by
  unfold Config.validate at hc
  cases ha : mapAll (Area.validate root main) c.areas with
  | none => simp [ha] at hc
  | some as =>
    simp only [ha, Option.map_some, Option.some.injEq] at hc
    subst hc
    exact mapAll_keeps ha h fun a b => Area.validate_fine wf hm

theorem Config.validateElemAgainst_fine {root : Elem} {p : Pos} {o c c' : Config} (h : c.Ended root) (ho : o.Ended root)
    (hc : Config.validateElemAgainst o p c = some c') : c'.Ended root := by
  unfold Config.validateElemAgainst at hc
  split at hc
  · rename_i a b ha hb
    cases hv : a.validateAgainst b with
    | none => simp [hv] at hc
    | some x =>
      simp only [hv, Option.map_some, Option.some.injEq] at hc
      subst hc
      exact h.setArea (Area.validateAgainst_fine (h.area ha) (ho.area hb) hv)
  · simp at hc

theorem Config.validateLoop_fine {root : Elem} {bs : List Area} (hb : ∀ b ∈ bs, b.Ended root) {c c' : Config} (h : c.Ended root)
    (hc : c.validateLoop bs = some c') : c'.Ended root := by
  induction bs generalizing c with
  | nil => simp only [Config.validateLoop, Option.some.injEq] at hc; subst hc; exact h
  | cons b bs ih =>
    simp only [Config.validateLoop] at hc
    split at hc
    · simp at hc
    · rename_i a ha
      split at hc
      · simp at hc
      · rename_i a' hv
        exact ih (fun x hx => hb x (by simp [hx])) (h.setArea (Area.validateAgainst_fine (h.area ha) (hb b (by simp)) hv)) hc

theorem Config.validateAgainst_fine {root : Elem} {o c c' : Config} (h : c.Ended root) (ho : o.Ended root)
    (hc : Config.validateAgainst o c = some c') : c'.Ended root := by
  unfold Config.validateAgainst at hc
  split at hc
  · simp at hc
  · exact Config.validateLoop_fine ho h hc

theorem Config.merge_fine {root : Elem} (wf : root.WF) {p q : Pos} {c c' : Config} (h : c.Ended root)
    (hc : c.merge root p q = some c') : c'.Ended root := by
  unfold Config.merge at hc
  split at hc
  · rename_i a b ha hb
    cases hv : b.copyToOuter root a with
    | none => simp [hv] at hc
    | some x =>
      simp only [hv, Option.map_some, Option.some.injEq] at hc
      subst hc
      exact h.setArea (Area.copyToOuter_fine wf (h.area hb) (h.area ha) hv)
  · simp at hc

theorem Config.splitLoop_fine {root : Elem} (wf : root.WF) {frm : Area} (hf : frm.Ended root) {ps : List Pos} {c c' : Config}
    (h : c.Ended root) (hc : c.splitLoop root frm ps = some c') : c'.Ended root := by
  induction ps generalizing c with
  | nil => simp only [Config.splitLoop, Option.some.injEq] at hc; subst hc; exact h
  | cons p ps ih =>
    simp only [Config.splitLoop] at hc
    split at hc
    · simp at hc
    · rename_i a ha
      split at hc
      · simp at hc
      · rename_i a' hv
        exact ih (h.setArea (Area.copyFromOuter_fine wf (h.area ha) hf hv)) hc

theorem Config.split_fine {root : Elem} (wf : root.WF) {p : Pos} {c c' : Config} (h : c.Ended root)
    (hc : c.split root p = some c') : c'.Ended root := by
  unfold Config.split at hc
  split at hc
  · simp at hc
  · rename_i a ha
    exact Config.splitLoop_fine wf (h.area ha) h hc

theorem sequenceLoop_fine {root : Elem} {seen : List Str} {front back : List Area} {paths : List Str}
    (hf : ∀ a ∈ front, a.Ended root) (hb : ∀ a ∈ back, a.Ended root) :
    ∀ a ∈ (sequenceLoop root seen front back paths).2, a.Ended root := by
  have hfb : ∀ {front back : List Area}, (∀ a ∈ front, a.Ended root) → (∀ a ∈ back, a.Ended root) →
      ∀ a ∈ front ++ back, a.Ended root := by
    intro f b h1 h2 a ha
    rcases List.mem_append.1 ha with ha | ha
    · exact h1 a ha
    · exact h2 a ha
  induction paths generalizing seen front back with
  | nil => exact hfb hf hb
  | cons path paths ih =>
    simp only [sequenceLoop]
    split
    · exact hfb hf hb
    · rename_i a ha
      split
      · exact hfb hf hb
      · refine ih ?_ fun x hx => hb x (List.mem_of_mem_eraseP hx)
        intro x hx
        rcases List.mem_append.1 hx with hx | hx
        · exact hf x hx
        · simp only [List.mem_singleton] at hx
          subst hx
          exact hfb hf hb _ (List.mem_of_find?_eq_some ha)

theorem areasFromXml_fine {root : Elem} (wf : root.WF) {rd : Reader} {front back as : List Area} {xs : List Xml}
    (hf : ∀ a ∈ front, a.Ended root) (hb : ∀ a ∈ back, a.Ended root) (h : areasFromXml root rd front back xs = .ok as) :
    ∀ a ∈ as, a.Ended root := by
  have hfb : ∀ {front back : List Area}, (∀ a ∈ front, a.Ended root) → (∀ a ∈ back, a.Ended root) →
      ∀ a ∈ front ++ back, a.Ended root := by
    intro f b h1 h2 a ha
    rcases List.mem_append.1 ha with ha | ha
    · exact h1 a ha
    · exact h2 a ha
  induction xs generalizing front back with
  | nil => simp only [areasFromXml, Out.ok.injEq] at h; subst h; exact hfb hf hb
  | cons x xs ih =>
    simp only [areasFromXml] at h
    split at h
    · simp at h
    · rename_i a ha
      cases hx : a.fromXml root rd x with
      | err => simp [hx, Out.bind] at h
      | abort => simp [hx, Out.bind] at h
      | ok a' =>
        simp only [hx, Out.bind] at h
        refine ih ?_ ?_ h
        · intro y hy
          rcases List.mem_append.1 hy with hy | hy
          · exact hf y (List.mem_of_mem_eraseP hy)
          · simp only [List.mem_singleton] at hy
            subst hy
            exact Area.fromXml_fine wf (hfb hf hb _ (List.mem_of_find?_eq_some ha)) hx
        · intro y hy
          split at hy
          · exact hb y hy
          · exact hb y (List.mem_of_mem_eraseP hy)

/-! ## Domains -/

/-- Every string of the settings of the domain ends. -/
def Domain.Ended (root : Elem) (d : Domain) : Prop := ∀ c ∈ d.configs, c.Ended root

theorem Domain.Ended.setConfig {root : Elem} {d : Domain} (h : d.Ended root) {c : Config} (hc : c.Ended root) :
    (d.setConfig c).Ended root := by
  intro x hx
  obtain ⟨y, hy, rfl⟩ := List.mem_map.1 hx
  split
  · exact hc
  · exact h y hy

theorem Domain.Ended.config {root : Elem} {d : Domain} (h : d.Ended root) {name : Str} {c : Config}
    (hc : d.findConfig name = some c) : c.Ended root := h c (List.mem_of_find?_eq_some hc)

theorem Domain.mapConfigs_fine {root : Elem} {f : Config → Option Config} (hf : ∀ c c', c.Ended root → f c = some c' → c'.Ended root)
    {d d' : Domain} (h : d.Ended root) (hd : d.mapConfigs f = some d') : d'.Ended root := by
  unfold Domain.mapConfigs at hd
  cases hm : mapAll f d.configs with
  | none => simp [hm] at hd
  | some cs =>
    simp only [hm, Option.map_some, Option.some.injEq] at hd
    subst hd
    exact mapAll_keeps hm h hf

theorem Domain.doRemove_fine {root : Elem} {d d' : Domain} (h : d.Ended root) {att att' : Attached} {p : Pos} {r : Bool}
    (hd : d.doRemove att p r = some (d', att')) : d'.Ended root := by
  unfold Domain.doRemove at hd
  split at hd
  · simp at hd
  · split at hd
    · simp at hd
    · rename_i cs hm
      have hcs := mapAll_keeps hm h (Q := Config.Ended root) fun a b hx hy => Config.removeElem_fine hx hy
      simp only [Option.some.injEq, Prod.mk.injEq] at hd
      rw [← hd.1]
      split
      · exact hcs
      · exact hcs

theorem Domain.mergeLoop_fine {root : Elem} (wf : root.WF) {p : Pos} {qs : List Pos} {d d' : Domain} (h : d.Ended root)
    (hd : d.mergeLoop root p qs = some d') : d'.Ended root := by
  induction qs generalizing d with
  | nil => simp only [Domain.mergeLoop, Option.some.injEq] at hd; subst hd; exact h
  | cons q qs ih =>
    simp only [Domain.mergeLoop] at hd
    split at hd
    · simp at hd
    · rename_i d1 h1
      exact ih (Domain.mapConfigs_fine (fun c c' => Config.merge_fine wf) h h1) hd

theorem Domain.removeLoop_fine {root : Elem} {qs : List Pos} {d d' : Domain} {att att' : Attached} (h : d.Ended root)
    (hd : d.removeLoop qs att = some (d', att')) : d'.Ended root := by
  induction qs generalizing d att with
  | nil => simp only [Domain.removeLoop, Option.some.injEq, Prod.mk.injEq] at hd; rw [← hd.1]; exact h
  | cons q qs ih =>
    simp only [Domain.removeLoop] at hd
    split at hd
    · simp at hd
    · rename_i d1 a1 h1
      exact ih (Domain.doRemove_fine h h1) hd

theorem Domain.doAdd_fine {root : Elem} (wf : root.WF) {d d' : Domain} (h : d.Ended root) {att att' : Attached} {p : Pos}
    {main : Option Board} (hm : ∀ b, main = some b → PF.Ended root [] b) (hd : d.doAdd root att p main = some (d', att')) :
    d'.Ended root := by
  unfold Domain.doAdd at hd
  simp only at hd
  split at hd
  · simp at hd
  · rename_i cs hcs
    have h1 := mapAll_keeps hcs h (Q := Config.Ended root) fun a b hx hy => Config.addElem_fine wf hx hy
    split at hd
    · simp at hd
    · rename_i d2 hd2
      have h2 : d2.Ended root := by
        unfold Domain.validateNew at hd2
        split at hd2
        · simp only [Option.some.injEq] at hd2; subst hd2; exact h1
        · rename_i b
          refine Domain.mapConfigs_fine (fun c c' => Config.validateElem_fine wf (hm b rfl)) ?_ hd2
          exact h1
      split at hd
      · simp at hd
      · rename_i d3 hd3
        have h3 := Domain.mergeLoop_fine wf h2 hd3
        split at hd
        · simp at hd
        · rename_i d4 att4 hd4
          have h4 := Domain.removeLoop_fine h3 hd4
          simp only [Option.some.injEq, Prod.mk.injEq] at hd
          rw [← hd.1]
          exact h4

theorem Domain.addElem_fine {root : Elem} (wf : root.WF) {d d' : Domain} (h : d.Ended root) {att att' : Attached} {p : Pos}
    {main : Option Board} (hm : ∀ b, main = some b → PF.Ended root [] b) (hd : d.addElem root att p main = .ok (d', att')) :
    d'.Ended root := by
  unfold Domain.addElem at hd
  split at hd
  · simp at hd
  · split at hd
    · simp at hd
    · split at hd
      · simp at hd
      · rename_i r hr
        simp only [Out.ok.injEq] at hd
        subst hd
        exact Domain.doAdd_fine wf h hm hr

theorem Domain.removeElem_fine {root : Elem} {d d' : Domain} (h : d.Ended root) {att att' : Attached} {p : Pos}
    (hd : d.removeElem att p = .ok (d', att')) : d'.Ended root := by
  unfold Domain.removeElem at hd
  split at hd
  · simp at hd
  · split at hd
    · simp at hd
    · rename_i r hr
      simp only [Out.ok.injEq] at hd
      subst hd
      exact Domain.doRemove_fine h hr

theorem Domain.addAll_fine {root : Elem} (wf : root.WF) {qs : List Pos} {d d' : Domain} {att att' : Attached} (h : d.Ended root)
    (hd : d.addAll root qs att = some (d', att')) : d'.Ended root := by
  induction qs generalizing d att with
  | nil => simp only [Domain.addAll, Option.some.injEq, Prod.mk.injEq] at hd; rw [← hd.1]; exact h
  | cons q qs ih =>
    simp only [Domain.addAll] at hd
    split at hd
    · simp at hd
    · rename_i d1 a1 h1
      exact ih (Domain.doAdd_fine wf h (by simp) h1) hd

theorem Domain.split_fine {root : Elem} (wf : root.WF) {d d' : Domain} (h : d.Ended root) {att att' : Attached} {p : Pos}
    (hd : d.split root att p = .ok (d', att')) : d'.Ended root := by
  unfold Domain.split at hd
  split at hd
  · simp at hd
  · split at hd
    · simp at hd
    · split at hd
      · simp at hd
      · rename_i d1 a1 h1
        split at hd
        · simp at hd
        · rename_i d2 h2
          split at hd
          · simp at hd
          · rename_i r hr
            simp only [Out.ok.injEq] at hd
            subst hd
            exact Domain.doRemove_fine (Domain.mapConfigs_fine (fun c c' => Config.split_fine wf) (Domain.addAll_fine wf h h1) h2) hr

theorem Domain.apply_fine {root : Elem} (wf : root.WF) {hw : Hardware} {cs : List Criterion} {force : Bool} {d d' : Domain}
    {m m' : Mem} {ss ss' : Option SyncerSet} (h : d.Ended root) (hm : PF.Ended root [] m.main)
    (hd : d.apply root hw cs force m ss = some (d', m', ss')) : d'.Ended root ∧ PF.Ended root [] m'.main := by
  unfold Domain.apply at hd
  split at hd
  · simp only [Option.some.injEq, Prod.mk.injEq] at hd
    rw [← hd.1, ← hd.2.1]; exact ⟨h, hm⟩
  · have h' : Domain.Ended root (if force then { d with last := none } else d) := by
      split <;> exact h
    simp only at hd
    generalize (if force then { d with last := none } else d) = d0 at hd h'
    split at hd
    · simp at hd
    · simp only [Option.some.injEq, Prod.mk.injEq] at hd
      rw [← hd.1, ← hd.2.1]; exact ⟨h', hm⟩
    · rename_i c hc
      split at hd
      · simp only [Option.some.injEq, Prod.mk.injEq] at hd
        rw [← hd.1, ← hd.2.1]; exact ⟨h', hm⟩
      · split at hd
        · simp at hd
        · rename_i m1 e1 hr
          simp only [Option.some.injEq, Prod.mk.injEq] at hd
          rw [← hd.1, ← hd.2.1]
          exact ⟨h', restoreAreas_fine wf (h' c (findApplicable_mem hc)) hm hr⟩

theorem applyFirst_fine {root : Elem} (wf : root.WF) {hw : Hardware} {cs : List Criterion} {force : Bool} {ds ds' : List Domain}
    {m m' : Mem} {ss ss' : SyncerSet} (h : ∀ d ∈ ds, d.Ended root) (hm : PF.Ended root [] m.main)
    (hd : applyFirst root hw cs force ds m ss = some (ds', m', ss')) : (∀ d ∈ ds', d.Ended root) ∧ PF.Ended root [] m'.main := by
  induction ds generalizing m ss ds' m' ss' with
  | nil =>
    simp only [applyFirst, Option.some.injEq, Prod.mk.injEq] at hd
    rw [← hd.1, ← hd.2.1]; exact ⟨by simp, hm⟩
  | cons d ds ih =>
    simp only [applyFirst] at hd
    split at hd
    · simp at hd
    · rename_i d1 m1 s1 h1
      split at hd
      · simp at hd
      · rename_i ds2 m2 s2 h2
        simp only [Option.some.injEq, Prod.mk.injEq] at hd
        rw [← hd.1, ← hd.2.1]
        obtain ⟨x1, x2⟩ := Domain.apply_fine wf (h d (by simp)) hm h1
        obtain ⟨x3, x4⟩ := ih (fun y hy => h y (by simp [hy])) x2 h2
        refine ⟨fun y hy => ?_, x4⟩
        rcases List.mem_cons.1 hy with rfl | hy
        · exact x1
        · exact x3 y hy

theorem applySecond_fine {root : Elem} (wf : root.WF) {hw : Hardware} {cs : List Criterion} {force : Bool} {ds ds' : List Domain}
    {m m' : Mem} (h : ∀ d ∈ ds, d.Ended root) (hm : PF.Ended root [] m.main)
    (hd : applySecond root hw cs force ds m = some (ds', m')) : (∀ d ∈ ds', d.Ended root) ∧ PF.Ended root [] m'.main := by
  induction ds generalizing m ds' m' with
  | nil =>
    simp only [applySecond, Option.some.injEq, Prod.mk.injEq] at hd
    rw [← hd.1, ← hd.2]; exact ⟨by simp, hm⟩
  | cons d ds ih =>
    simp only [applySecond] at hd
    split at hd
    · simp at hd
    · rename_i d1 m1 s1 h1
      split at hd
      · simp at hd
      · rename_i ds2 m2 h2
        simp only [Option.some.injEq, Prod.mk.injEq] at hd
        rw [← hd.1, ← hd.2]
        obtain ⟨x1, x2⟩ := Domain.apply_fine wf (h d (by simp)) hm h1
        obtain ⟨x3, x4⟩ := ih (fun y hy => h y (by simp [hy])) x2 h2
        refine ⟨fun y hy => ?_, x4⟩
        rcases List.mem_cons.1 hy with rfl | hy
        · exact x1
        · exact x3 y hy

theorem Config.addElems_fine {root : Elem} (wf : root.WF) {ps : List Pos} {c c' : Config} (h : c.Ended root)
    (hc : c.addElems root ps = some c') : c'.Ended root := by
  induction ps generalizing c with
  | nil => simp only [Config.addElems, Option.some.injEq] at hc; subst hc; exact h
  | cons p ps ih =>
    simp only [Config.addElems] at hc
    split at hc
    · simp at hc
    · rename_i c1 h1
      exact ih (Config.addElem_fine wf h h1) hc

theorem Domain.createConfig_fine {root : Elem} (wf : root.WF) {main : Board} (hm : PF.Ended root [] main) {id : Nat} {name : Str}
    {d d' : Domain} (h : d.Ended root) (hd : d.createConfig root main id name = .ok d') : d'.Ended root := by
  unfold Domain.createConfig at hd
  split at hd
  · simp at hd
  · split at hd
    · simp at hd
    · split at hd
      · simp at hd
      · rename_i c hc
        have h1 := Config.addElems_fine wf (c := { id, name, rule := none, areas := [] }) (fun a ha => by simp at ha) hc
        split at hd
        · simp at hd
        · rename_i c' hc'
          simp only [Out.ok.injEq] at hd
          subst hd
          intro x hx
          rcases List.mem_append.1 hx with hx | hx
          · exact h x hx
          · simp only [List.mem_singleton] at hx
            subst hx
            unfold Domain.fillNew at hc'
            split at hc'
            · exact Config.validate_fine wf hm h1 hc'
            · rename_i o r ho
              exact Config.validateAgainst_fine h1 (h o (by rw [ho]; simp)) hc'

/-! ## Imports of domains -/

theorem elemsFromXml_fine {root : Elem} (wf : root.WF) {xs : List Xml} {d d' : Domain} {att att' : Attached} (h : d.Ended root)
    (hd : elemsFromXml root xs d att = .ok (d', att')) : d'.Ended root := by
  induction xs generalizing d att with
  | nil => simp only [elemsFromXml, Out.ok.injEq, Prod.mk.injEq] at hd; rw [← hd.1]; exact h
  | cons x xs ih =>
    simp only [elemsFromXml] at hd
    split at hd
    · simp at hd
    · rename_i p hp
      cases ha : d.addElem root att p none with
      | err => simp [ha, Out.bind] at hd
      | abort => simp [ha, Out.bind] at hd
      | ok r =>
        simp only [ha, Out.bind] at hd
        exact ih (Domain.addElem_fine wf h (by simp) ha) hd

theorem settingsFromXml_fine {root : Elem} (wf : root.WF) {rd : Reader} {xs : List Xml} {d d' : Domain} (h : d.Ended root)
    (hd : settingsFromXml root rd xs d = .ok d') : d'.Ended root := by
  induction xs generalizing d with
  | nil => simp only [settingsFromXml, Out.ok.injEq] at hd; subst hd; exact h
  | cons x xs ih =>
    simp only [settingsFromXml] at hd
    split at hd
    · simp at hd
    · rename_i c hc
      cases ha : areasFromXml root rd [] c.areas x.children with
      | err => simp [ha, Out.bind] at hd
      | abort => simp [ha, Out.bind] at hd
      | ok as =>
        simp only [ha, Out.bind] at hd
        exact ih (h.setConfig (areasFromXml_fine wf (by simp) (h.config hc) ha)) hd

theorem findValid_mem {p : Pos} {l : List Config} {c : Config} (h : findValid p l = some (some c)) : c ∈ l := by
  induction l with
  | nil => simp [findValid] at h
  | cons x l ih =>
    simp only [findValid] at h
    split at h
    · simp at h
    · simp only [Option.some.injEq] at h; subst h; simp
    · exact List.mem_cons_of_mem _ (ih h)

theorem Domain.autoValidateAll_fine {root : Elem} {ps : List Pos} {d d' : Domain} (h : d.Ended root)
    (hd : d.autoValidateAll ps = some d') : d'.Ended root := by
  induction ps generalizing d with
  | nil => simp only [Domain.autoValidateAll, Option.some.injEq] at hd; subst hd; exact h
  | cons p ps ih =>
    simp only [Domain.autoValidateAll] at hd
    split at hd
    · simp at hd
    · rename_i d1 h1
      refine ih ?_ hd
      unfold Domain.autoValidate at h1
      split at h1
      · simp at h1
      · simp only [Option.some.injEq] at h1; subst h1; exact h
      · rename_i v hv
        refine Domain.mapConfigs_fine (fun c c' hc hcc => ?_) h h1
        split at hcc
        · simp only [Option.some.injEq] at hcc; subst hcc; exact hc
        · split at hcc
          · simp at hcc
          · simp only [Option.some.injEq] at hcc; subst hcc; exact hc
          · exact Config.validateElemAgainst_fine hc (h v (findValid_mem hv)) hcc

theorem configsFromXml_fine {root : Elem} {cs : List Criterion} {n : Nat} {xs : List Xml} {l : List Config}
    (h : configsFromXml cs n xs = .ok l) : ∀ c ∈ l, c.Ended root := by
  induction xs generalizing n l with
  | nil => simp only [configsFromXml, Out.ok.injEq] at h; subst h; simp
  | cons x xs ih =>
    simp only [configsFromXml] at h
    split at h
    · cases hc : Config.fromXml cs n x with
      | err => simp [hc, Out.bind] at h
      | abort => simp [hc, Out.bind] at h
      | ok c =>
        cases hr : configsFromXml cs (n + 1) xs with
        | err => simp [hc, hr, Out.bind] at h
        | abort => simp [hc, hr, Out.bind] at h
        | ok l' =>
          simp only [hc, hr, Out.bind, Out.ok.injEq] at h
          subst h
          intro y hy
          rcases List.mem_cons.1 hy with rfl | hy
          · unfold Config.fromXml at hc
            cases hrs : rulesFromXml cs x.children with
            | err => simp [hrs, Out.bind] at hc
            | abort => simp [hrs, Out.bind] at hc
            | ok rs =>
              simp only [hrs, Out.bind] at hc
              split at hc
              · simp only [Out.ok.injEq] at hc; subst hc; exact fun a ha => by simp at ha
              · simp only [Out.ok.injEq] at hc; subst hc; exact fun a ha => by simp at ha
              · simp at hc
          · exact ih hr y hy
    · split at h <;> simp at h

theorem Domain.fromXml_fine {root : Elem} (wf : root.WF) {rd : Reader} {cs : List Criterion} {ws : Bool} {n n' : Nat}
    {att att' : Attached} {aware : Bool} {x : Xml} {d : Domain}
    (h : Domain.fromXml root rd cs ws n att aware x = .ok (d, att', n')) : d.Ended root := by
  unfold Domain.fromXml at h
  split at h
  · rename_i confs els _ _
    cases hc : configsFromXml cs (n + 1) confs.children with
    | err => simp [hc, Out.bind] at h
    | abort => simp [hc, Out.bind] at h
    | ok configs =>
      simp only [hc, Out.bind] at h
      cases he : elemsFromXml root els.children { Domain.new n x.nameAttr with seqAware := aware, configs := configs } att with
      | err => simp [he, Out.bind] at h
      | abort => simp [he, Out.bind] at h
      | ok r =>
        simp only [he, Out.bind] at h
        cases hp : r.1.parseSettings root rd ws x with
        | err => simp [hp, Out.bind] at h
        | abort => simp [hp, Out.bind] at h
        | ok d1 =>
          simp only [hp, Out.bind] at h
          split at h
          · simp at h
          · rename_i d' hv
            simp only [Out.ok.injEq, Prod.mk.injEq] at h
            rw [← h.1]
            have h1 : Domain.Ended root r.1 := elemsFromXml_fine (att' := r.2) wf (fun c hc' => configsFromXml_fine hc c hc') he
            refine Domain.autoValidateAll_fine ?_ hv
            unfold Domain.parseSettings at hp
            split at hp
            · simp only [Out.ok.injEq] at hp; subst hp; exact h1
            · split at hp
              · simp only [Out.ok.injEq] at hp; subst hp; exact h1
              · exact settingsFromXml_fine wf h1 hp
  · simp at h

theorem domainsFromXml_fine {root : Elem} (wf : root.WF) {rd : Reader} {cs : List Criterion} {ws : Bool} {xs : List Xml}
    {n n' : Nat} {att att' : Attached} {ds : List Domain}
    (h : domainsFromXml root rd cs ws xs n att = .ok (ds, att', n')) : ∀ d ∈ ds, d.Ended root := by
  induction xs generalizing n att ds att' n' with
  | nil => simp only [domainsFromXml, Out.ok.injEq, Prod.mk.injEq] at h; rw [← h.1]; simp
  | cons x xs ih =>
    simp only [domainsFromXml] at h
    split at h
    · split at h
      · simp at h
      · rename_i aware _
        cases hf : Domain.fromXml root rd cs ws n att aware x with
        | err => simp [hf, Out.bind] at h
        | abort => simp [hf, Out.bind] at h
        | ok r =>
          simp only [hf, Out.bind] at h
          cases hr : domainsFromXml root rd cs ws xs r.2.2 r.2.1 with
          | err => simp [hr] at h
          | abort => simp [hr] at h
          | ok q =>
            simp only [hr, Out.ok.injEq, Prod.mk.injEq] at h
            rw [← h.1]
            intro d hd
            rcases List.mem_cons.1 hd with rfl | hd
            · exact Domain.fromXml_fine wf hf
            · exact ih hr d hd
    · split at h <;> simp at h

/-! ## Operations -/

/-- Every string ends, in the main blackboard and in the settings. -/
structure St.Ended (root : Elem) (st : St) : Prop where
  main : PF.Ended root [] st.mem.main
  domains : ∀ d ∈ st.domains, d.Ended root

theorem Spec.StringsEnd.fine {root : Elem} (wf : root.WF) {st : St} (inv : st.Inv root) (h : StringsEnd root st) :
    st.Ended root := by
  refine ⟨⟨root, 0, by cases root; rfl, by simp [Elem.offset], by rw [inv.main, wf.areaSize_self], ?_⟩, ?_⟩
  · exact fun p f n off _ hp hk ho => h.main p f n off hp hk ho
  · intro d hd c hc a ha
    obtain ⟨e, base, he, hb, hl⟩ := inv.area_sized hd hc ha
    exact ⟨e, base, he, hb, hl, fun p f n off hap hp hk ho => h.settings d hd c hc a ha p f n base off hap hp hk hb ho⟩

theorem St.Ended.ends {root : Elem} {st : St} (h : st.Ended root) : StringsEnd root st := by
  refine ⟨fun p e n off hp hk ho => ?_, fun d hd c hc a ha p e n base off hap hp hk hb ho => ?_⟩
  · obtain ⟨_, base, _, hb, _, hs⟩ := h.main
    simp only [Elem.offset, Option.some.injEq] at hb
    subst hb
    exact hs p e n off (by simp) hp hk ho
  · obtain ⟨_, base', _, hb', _, hs⟩ := h.domains d hd c hc a ha
    rw [hb] at hb'; cases hb'
    exact hs p e n off hap hp hk ho

theorem St.Ended.initial {root : Elem} (wf : root.WF) (cs : List Criterion) : (St.initial root cs).Ended root where
  main := by
    have := PF.Ended.zeros wf (q := []) (e := root) (by cases root; rfl)
    rwa [wf.areaSize_self] at this
  domains := by simp [St.initial]

theorem St.Ended.setDomain {root : Elem} {st : St} (h : st.Ended root) {d : Domain} (hd : d.Ended root) :
    (st.setDomain d).Ended root where
  main := h.main
  domains := by
    intro x hx
    obtain ⟨y, hy, rfl⟩ := List.mem_map.1 hx
    split
    · exact hd
    · exact h.domains y hy

theorem St.Ended.domain {root : Elem} {st : St} (h : st.Ended root) {name : Str} {d : Domain} (hd : st.findDomain name = some d) :
    d.Ended root := h.domains d (List.mem_of_find?_eq_some hd)

theorem St.Ended.onDomain {root : Elem} {st : St} (h : st.Ended root) {name : Str} {f : Domain → Out (Domain × Attached)}
    (hf : ∀ d d' att, d.Ended root → f d = .ok (d', att) → d'.Ended root) : (st.onDomain name f).2.Ended root := by
  unfold St.onDomain
  split
  · exact h
  · rename_i d hd
    split
    · rename_i d' att hr
      have := h.setDomain (hf d d' att (h.domain hd) hr)
      exact ⟨this.main, this.domains⟩
    · exact h
    · exact h

theorem St.Ended.onConfig {root : Elem} {st : St} (h : st.Ended root) {dom name : Str} {f : Config → Out Unit × Config}
    (hf : ∀ c, c.Ended root → (f c).2.Ended root) : (st.onConfig dom name f).2.Ended root := by
  unfold St.onConfig
  split
  · exact h
  · rename_i d hd
    split
    · exact h
    · rename_i c hc
      exact h.setDomain ((h.domain hd).setConfig (hf c ((h.domain hd).config hc)))

theorem St.Ended.withMem {root : Elem} {st : St} (h : st.Ended root) {m : Mem} (hm : PF.Ended root [] m.main) :
    St.Ended root { st with mem := m } := ⟨hm, h.domains⟩

theorem Env.setMain_fine {env : Env} (wf : env.root.WF) {ctx : Ctx} {a : Bool} {path text : Str} {m : Mem}
    (hm : PF.Ended env.root [] m.main) : PF.Ended env.root [] (env.setMain ctx a path text m).2.main := by
  have hs := hm.setText wf (base := 0) (by simp [Elem.offset]) env.rd ctx path text (by simp)
  unfold Env.setMain
  generalize Elem.setText env.rd ctx env.root 0 m.main path text = r at hs
  generalize env.root.accessTarget path = tgt
  obtain ⟨o, b⟩ := r
  rcases o with u | _ | _
  · rcases tgt with _ | ⟨p, items⟩
    · exact hs
    · show PF.Ended env.root [] (env.syncParam a p ⟨b, m.log⟩).2.main
      rw [Env.syncParam_main]
      exact hs
  · exact hs
  · exact hs

theorem Env.setMainXml_fine {env : Env} (wf : env.root.WF) {ctx : Ctx} {a : Bool} {p : Pos} {x : XElem} {m : Mem}
    (hm : PF.Ended env.root [] m.main) : PF.Ended env.root [] (env.setMainXml ctx a p x m).2.main := by
  have hs := hm.setXml wf env.rd ctx p x
  unfold Env.setMainXml
  generalize Elem.setXml env.rd env.root ctx m.main p x = r at hs
  obtain ⟨r1, r2⟩ := r
  rcases r1 with _ | _ | _
  · dsimp only
    split <;> exact hs
  · exact hs
  · exact hs

theorem Env.setMainVal_fine {env : Env} (wf : env.root.WF) {p : Pos} {v : HVal} {m : Mem}
    (hm : PF.Ended env.root [] m.main) : PF.Ended env.root [] (env.setMainVal p v m).2.main := by
  unfold Env.setMainVal
  split
  · rename_i e off he ho
    by_cases hpar : e.kind.isParameter = true
    · have hs := hm.setParamVal wf he hpar ho env.rd v
      split
      · rename_i b h1
        rw [h1] at hs
        rw [Env.syncParam_main]
        exact hs
      · rename_i o b h1
        rw [h1] at hs
        exact hs
    · have : (setParamVal env.rd e.kind m.main off v).2 = m.main ∧ (setParamVal env.rd e.kind m.main off v).1 ≠ .ok () := by
        cases hk : e.kind <;> simp [hk, EKind.isParameter] at hpar <;> cases v <;> simp [setParamVal, setParamAtom]
      split
      · rename_i b h1
        rw [h1] at this
        exact absurd rfl this.2
      · rename_i o b h1
        rw [h1] at this
        simp only at this
        rw [this.1]
        exact hm
  · exact hm

/-- The operations that write bytes without looking at them. -/
def DomOp.Raw : DomOp → Prop
  | .setElementBytes _ _ bytes => bytes ≠ []
  | .handleBytes _ _ _ => True
  | _ => False

theorem St.Ended.atPath {root : Elem} {st : St} (h : st.Ended root) {path : Str} {f : Pos → St → Out Unit × St}
    (hf : ∀ p, (f p st).2.Ended root) : (st.atPath root path f).2.Ended root := by
  unfold St.atPath
  split
  · exact h
  · exact hf _

theorem Ended.of_setDomain {root : Elem} {st : St} {n : Nat} {att : Attached} (h : st.Ended root) :
    St.Ended root { st with nextId := n, attached := att } := ⟨h.main, h.domains⟩

theorem DomOp.step_fine {env : Env} (wf : env.root.WF) {st : St} (h : st.Ended env.root) {op : DomOp} (hop : ¬ op.Raw) :
    (op.step env st).2.Ended env.root := by
  cases op with
  | createDomain name =>
    simp only [DomOp.step, St.createDomain]
    split
    · exact h
    · refine ⟨h.main, fun d hd => ?_⟩
      rcases List.mem_append.1 hd with hd | hd
      · exact h.domains d hd
      · simp only [List.mem_singleton] at hd
        subst hd
        exact fun c hc => by simp [Domain.new] at hc
  | deleteDomain name =>
    simp only [DomOp.step, St.deleteDomain]
    split
    · exact h
    · exact ⟨h.main, fun d hd => h.domains d (List.mem_filter.1 hd).1⟩
  | deleteAllDomains => exact ⟨h.main, fun d hd => by simp [DomOp.step, St.deleteAllDomains] at hd⟩
  | renameDomain name new =>
    simp only [DomOp.step, St.renameDomain]
    split
    · exact h
    · rename_i d hd
      split
      · exact h
      · have h' := h.domain hd; exact h.setDomain (d := { d with name := new }) h'
  | setSequenceAwareness name aware =>
    refine h.onDomain fun d d' att hd hr => ?_
    simp only [Out.ok.injEq, Prod.mk.injEq] at hr
    rw [← hr.1]; exact hd
  | createConfiguration dom name =>
    simp only [DomOp.step, St.createConfiguration]
    split
    · exact h
    · rename_i d hd
      split
      · rename_i d' hr
        have := h.setDomain (Domain.createConfig_fine wf h.main (h.domain hd) hr)
        exact ⟨this.main, this.domains⟩
      · exact h
      · exact h
  | deleteConfiguration dom name =>
    refine h.onDomain fun d d' att hd hr => ?_
    unfold Domain.deleteConfig at hr
    split at hr
    · simp [Out.bind] at hr
    · simp only [Out.bind, Out.ok.injEq, Prod.mk.injEq] at hr
      rw [← hr.1]
      exact fun c hc => hd c (List.mem_filter.1 hc).1
  | renameConfiguration dom name new =>
    refine h.onDomain fun d d' att hd hr => ?_
    unfold Domain.renameConfig at hr
    split at hr
    · simp [Out.bind] at hr
    · rename_i c hc
      split at hr
      · simp [Out.bind] at hr
      · simp only [Out.bind, Out.ok.injEq, Prod.mk.injEq] at hr
        rw [← hr.1]
        have h' := hd.config hc; exact hd.setConfig (c := { c with name := new }) h'
  | saveConfiguration dom name =>
    refine h.onDomain fun d d' att hd hr => ?_
    unfold Domain.saveConfig at hr
    split at hr
    · simp [Out.bind] at hr
    · rename_i c hc
      split at hr
      · simp [Out.bind] at hr
      · rename_i c' hs
        simp only [Out.bind, Out.ok.injEq, Prod.mk.injEq] at hr
        rw [← hr.1]
        exact hd.setConfig (Config.save_fine wf h.main (hd.config hc) hs)
  | restoreConfiguration autoSync dom name =>
    simp only [DomOp.step, St.restoreConfiguration]
    split
    · exact h
    · rename_i d hd
      split
      · rename_i d' m errs hr
        unfold Domain.restoreConfig at hr
        split at hr
        · simp at hr
        · rename_i c hc
          split at hr
          · simp at hr
          · rename_i m' e1 hra
            have hm := restoreAreas_fine wf ((h.domain hd).config hc) h.main hra
            simp only at hr
            split at hr
            · simp only [Out.ok.injEq, Prod.mk.injEq] at hr
              rw [← hr.1, ← hr.2.1]
              have h' := h.domain hd; exact (h.setDomain (d := { d with last := some c.id }) h').withMem hm
            · simp only [Out.ok.injEq, Prod.mk.injEq] at hr
              rw [← hr.1, ← hr.2.1]
              have h' := h.domain hd; exact (h.setDomain (d := { d with last := some c.id }) h').withMem hm
      · exact h
      · exact h
  | addElement dom path =>
    refine h.atPath fun p => h.onDomain fun d d' att hd hr => ?_
    exact Domain.addElem_fine wf hd (fun b hb => by simp only [Option.some.injEq] at hb; subst hb; exact h.main) hr
  | removeElement dom path => exact h.atPath fun p => h.onDomain fun d d' att hd hr => Domain.removeElem_fine hd hr
  | split dom path =>
    refine h.atPath fun p => ?_
    simp only [St.split]
    split
    · exact h
    · rename_i d hd
      split
      · rename_i d' att hr
        have := h.setDomain (Domain.split_fine wf (h.domain hd) hr)
        exact ⟨this.main, this.domains⟩
      · exact h
      · exact h
  | setElementSequence dom name paths =>
    exact h.onConfig fun c hc => sequenceLoop_fine (by simp) hc
  | setApplicationRule dom name text =>
    refine h.onConfig fun c hc => ?_
    unfold Config.setRule
    split <;> exact hc
  | clearApplicationRule dom name => exact h.onConfig fun c hc => hc
  | setConfigurationParameter ctx autoSync dom conf path text =>
    simp only [DomOp.step, St.setConfigParam]
    split
    · exact h
    · rename_i d c q l hf
      obtain ⟨p, hp, hd, hc, hq, hqp, _⟩ := St.findBlackboard_spec hf
      split
      · rename_i a base ha hb
        have hae : a.elem = q := by simpa using List.find?_some ha
        have haf := ((h.domain hd).config hc).area ha
        have hset := PF.Ended.setText wf (q := q) (b := a.board) (by have := haf; unfold Area.Ended at this; rw [hae] at this; exact this)
          hb env.rd ctx path text (fun p' items ht => by rw [(wf.access_locate hp ht).1]; exact hqp)
        have hst : St.Ended env.root (st.setDomain (d.setConfig { c with areas := PF.setArea q { a with board := (Elem.setText env.rd ctx env.root base a.board path text).2 } c.areas })) := by
          refine h.setDomain ((h.domain hd).setConfig (((h.domain hd).config hc).setArea ?_))
          unfold Area.Ended
          simp only [hae]
          exact hset
        split
        · split
          · exact hst.withMem (Env.setMain_fine wf h.main)
          · exact hst
        · exact hst
      · exact h
  | setParameter ctx autoSync path text => exact h.withMem (Env.setMain_fine wf h.main)
  | setElementBytes autoSync path bytes =>
    have hb : bytes = [] := by
      apply Decidable.byContradiction
      exact fun hne => hop hne
    subst hb
    refine h.atPath fun p => h.withMem ?_
    unfold Env.setMainBytes
    split
    · exact h.main
    · exact h.main
    · rename_i b hb
      have hbe : b = st.mem.main := by
        unfold Elem.setBytes at hb
        split at hb
        · split at hb
          · simp at hb
          · split at hb
            · rename_i b' hw
              simp only [Out.ok.injEq] at hb
              subst hb
              unfold Board.write at hw
              split at hw
              · simpa using hw.symm
              · simp at hw
            · simp at hb
        · simp at hb
      subst hbe
      split <;> exact h.main
  | handleSet p v => exact h.withMem (Env.setMainVal_fine wf h.main)
  | handleBytes autoSync p bytes => exact absurd trivial hop
  | setElementXml ctx autoSync path doc => exact h.atPath fun p => h.withMem (Env.setMainXml_fine wf h.main)
  | handleXml ctx autoSync p doc =>
    simp only [DomOp.step]
    split
    · exact h
    · exact h.withMem (Env.setMainXml_fine wf h.main)
  | importDomains withSettings doc =>
    have hcl : St.Ended env.root st.deleteAllDomains.2 := ⟨h.main, fun d hd => by simp [St.deleteAllDomains] at hd⟩
    simp only [DomOp.step, St.importDomains]
    split
    · exact hcl
    · split
      · exact hcl
      · split
        · exact hcl
        · exact hcl
        · rename_i ds att n hds
          split
          · exact hcl
          · rename_i ds' hv
            refine ⟨h.main, mapAll_keeps hv (domainsFromXml_fine wf hds) fun d d' hd hdd => ?_⟩
            exact Domain.mapConfigs_fine (fun c c' => Config.validate_fine wf h.main) hd hdd
  | importDomain overwrite withSettings doc =>
    simp only [DomOp.step, St.importDomain]
    split
    · exact h
    · split
      · exact h
      · split
        · exact h
        · exact h
        · rename_i d att n hd
          have hd' := Domain.fromXml_fine wf hd
          split
          · refine ⟨h.main, fun x hx => ?_⟩
            rcases List.mem_append.1 hx with hx | hx
            · exact h.domains x hx
            · simp only [List.mem_singleton] at hx; subst hx; exact hd'
          · split
            · exact h
            · refine ⟨h.main, fun x hx => ?_⟩
              rcases List.mem_append.1 hx with hx | hx
              · exact h.domains x (List.mem_filter.1 hx).1
              · simp only [List.mem_singleton] at hx; subst hx; exact hd'
  | sync => exact h.withMem h.main
  | setCriterion i v => exact ⟨h.main, h.domains⟩
  | askResync i => exact ⟨h.main, h.domains⟩
  | apply force =>
    simp only [DomOp.step, St.apply]
    split
    · exact h
    · rename_i ds m hap
      unfold applyDomains at hap
      split at hap
      · simp at hap
      · rename_i ds1 m1 ss h1
        obtain ⟨x1, x2⟩ := applyFirst_fine wf h.domains h.main h1
        obtain ⟨x3, x4⟩ := applySecond_fine wf x1 (m := ⟨m1.main, (syncAll env.hw m1.main ss m1.log).1⟩) x2 hap
        exact ⟨x4, x3⟩

theorem MOp.step_fine {e : MEnv} (wf : e.env.root.WF) {m : Mgr} (h : m.st.Ended e.env.root) {op : MOp}
    (hop : ∀ p bytes, op ≠ .handleSetBytes p bytes) : (op.step e m).2.st.Ended e.env.root := by
  have run : ∀ o : DomOp, ¬ o.Raw → (m.run e o).2.st.Ended e.env.root := fun o ho => DomOp.step_fine wf h ho
  have tuned : ∀ o : DomOp, ¬ o.Raw → (m.tuned e o).2.st.Ended e.env.root := by
    intro o ho
    unfold Mgr.tuned
    split
    · exact h
    · exact run o ho
  have hsync : (m.sync e).2.st.Ended e.env.root := by
    unfold Mgr.sync
    split
    · exact h
    · exact run .sync id
  cases op with
  | setTuningMode on =>
    simp only [MOp.step, Mgr.setTuningMode]
    split
    · exact h
    · split
      · exact h
      · split
        · have := run (.apply true) id
          split
          · rename_i m' h; rw [h] at this; exact this
          · exact this
        · exact h
  | setValueSpace raw => exact h
  | setOutputRawFormat hex => exact h
  | setAutoSync on =>
    simp only [MOp.step, Mgr.setAutoSync]
    split
    · split
      · rename_i m' h; rw [h] at hsync; exact hsync
      · exact hsync
    · exact h
  | sync => exact hsync
  | applyConfigurations =>
    simp only [MOp.step, Mgr.applyConfigurations]
    split
    · exact run (.apply false) id
    · exact h
  | setElementBytes path args =>
    simp only [MOp.step, Mgr.setElementBytes]
    split
    · exact h
    · split
      · exact h
      · split
        · exact run _ fun hn => hn rfl
        · split
          · exact h
          · exact h
  | handleSet p v =>
    simp only [MOp.step, Mgr.handleSet]
    split
    · exact h
    · split
      · exact h
      · exact run _ id
  | handleSetBytes p bytes => exact absurd rfl (hop p bytes)
  | setCriterion | askResync | setConfigurationParameter | renameDomain | renameConfiguration | setApplicationRule
  | clearApplicationRule | handleSetXml => exact run _ id
  | _ => exact tuned _ id

theorem Spec.Means.no_bytes {w : Docs} {cmd : Str} {args : List Str} {op : MOp} (h : Means w cmd args op) :
    ∀ p bytes, op ≠ .handleSetBytes p bytes := by
  intro p bytes
  cases h <;> simp

end PF
