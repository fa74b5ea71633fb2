import Verif.Lemmas.TreeAccess
import Verif.Lemmas.Syncers
import Verif.Spec.Sample

/-!
# Properties of the structure tree: memory layout (C29), independence of parameters (C30),
paths (C31), raw bytes (C32), syncers (C52)
-/

namespace PF
open Spec

/-! ## C29: memory layout -/

/-- C29: the main blackboard is as large as the structure. -/
theorem C29_board_size (root : Elem) : root.mainBoard.length = root.footprint := by
  simp [Elem.mainBoard]

/-- C29: the children of a group are laid out one after the other from its first byte to its last. -/
theorem C29_children_tile (root : Elem) {p : Pos} {e : Elem} {k : Str} {o : Nat}
    (he : root.at? p = some e) (hk : e.kind = .group k) (ho : root.offset 0 p = some o) :
    (∀ c, root.at? (p ++ [0]) = some c → root.offset 0 (p ++ [0]) = some o) ∧
    (∀ i c d oc, root.at? (p ++ [i]) = some c → root.offset 0 (p ++ [i]) = some oc →
      root.at? (p ++ [i + 1]) = some d → root.offset 0 (p ++ [i + 1]) = some (oc + c.footprint)) ∧
    (∀ i c oc, root.at? (p ++ [i]) = some c → root.offset 0 (p ++ [i]) = some oc →
      root.at? (p ++ [i + 1]) = none → oc + c.footprint = o + e.footprint) := by
  have hat : ∀ i, root.at? (p ++ [i]) = e.children[i]? := by
    intro i; rw [Elem.at?_append, he, Option.bind_some, Elem.at?_single]
  have hoff : ∀ i c, e.children[i]? = some c →
      root.offset 0 (p ++ [i]) = some (o + Elem.footprints (e.children.take i)) := by
    intro i c hc
    rw [Elem.offset_append, he, ho]
    simp only [Option.bind_some]
    rw [Elem.offset_cons, hc]
    rfl
  refine ⟨?_, ?_, ?_⟩
  · intro c hc
    rw [hat] at hc
    rw [hoff 0 c hc]; simp [Elem.footprints]
  · intro i c d oc hc hoc hd
    rw [hat] at hc hd
    rw [hoff i c hc] at hoc
    rw [hoff _ d hd, Elem.footprints_take_succ hc]
    simp only [Option.some.injEq] at hoc ⊢
    omega
  · intro i c oc hc hoc hd
    rw [hat] at hc hd
    rw [hoff i c hc] at hoc
    simp only [Option.some.injEq] at hoc
    have : e.footprint = Elem.footprints e.children := by
      cases e with | mk n k' sy cs => simp only [Elem.kind] at hk; subst hk; exact Elem.footprint_group
    have hl : e.children.length ≤ i + 1 := List.getElem?_eq_none_iff.1 hd
    have := Elem.footprints_take_succ hc
    rw [List.take_of_length_le hl] at this
    omega

example : ∃ e k o, Sample.root.at? [0, 0] = some e ∧ e.kind = .group k ∧
    Sample.root.offset 0 [0, 0] = some o ∧ e.footprint = 9 := ⟨_, _, _, rfl, rfl, rfl, by decide⟩

/-- C29: the bits of an element are among the bits of every element that contains it; in particular
every element lies inside the main blackboard. -/
theorem C29_inside_parent (root : Elem) (wf : root.WF) {p q : Pos} (h : p <+: q) (i : Nat)
    (hi : root.Owns q i) : root.Owns p i ∧ i < 8 * root.mainBoard.length := by
  obtain ⟨f, u, hf, hu, h1, h2⟩ := hi
  obtain ⟨r, rfl⟩ := h
  have nest : ∀ (p r : Pos) (f : Elem) (u : Nat), root.at? (p ++ r) = some f → root.offset 0 (p ++ r) = some u →
      (f.extent u).1 ≤ i → i < (f.extent u).2 → root.Owns p i := by
    intro p r f u hf hu h1 h2
    rw [Elem.at?_append] at hf
    rw [Elem.offset_append] at hu
    cases he : root.at? p with
    | none => simp [he] at hf
    | some e =>
      obtain ⟨o, ho⟩ := Elem.offset_of_at (off := 0) he
      simp only [he, ho, Option.bind_some] at hf hu
      rcases wf.at he with hw | ⟨_, _, _, _, _, _, _, _, _, _, _, rfl, _⟩
      · have := hw.extent_nested hf hu
        exact ⟨e, o, he, ho, by omega, by omega⟩
      · cases r with
        | nil =>
          simp only [Elem.at?, Option.some.injEq] at hf
          simp only [Elem.offset, Option.some.injEq] at hu
          subst hf hu
          exact ⟨_, _, he, ho, h1, h2⟩
        | cons => simp [Elem.at?] at hf
  refine ⟨nest p r f u hf hu h1 h2, ?_⟩
  obtain ⟨e, o, he, ho, h3, h4⟩ := nest [] (p ++ r) f u hf hu h1 h2
  simp only [Elem.at?, Option.some.injEq] at he
  simp only [Elem.offset, Option.some.injEq] at ho
  subst he ho
  rw [C29_board_size]
  cases wf <;> simpa [Elem.extent, Elem.kind] using h4

/-- C29: unrelated elements have no bit in common (bit parameters of one block being declared on
distinct bits). -/
theorem C29_disjoint (root : Elem) (wf : root.WF) (fd : root.FieldsDisjoint) {p q : Pos}
    (h : Unrelated p q) (i : Nat) : ¬ (root.Owns p i ∧ root.Owns q i) := by
  rintro ⟨⟨e, o, he, ho, h1, h2⟩, ⟨f, u, hf, hu, h3, h4⟩⟩
  have := wf.extent_disjoint fd he hf ho hu h
  omega

/-- C29: unrelated elements that are not bit parameters have no byte in common, whatever the bit
parameters. -/
theorem C29_bytes_disjoint (root : Elem) (wf : root.WF) {p q : Pos} (h : Unrelated p q)
    {e f : Elem} {o u : Nat} (he : root.at? p = some e) (hf : root.at? q = some f)
    (ho : root.offset 0 p = some o) (hu : root.offset 0 q = some u)
    (hne : ∀ t, e.kind ≠ .bit t) : o + e.footprint ≤ u ∨ u + f.footprint ≤ o := by
  suffices ∀ (root : Elem) (a : Nat) (p q : Pos), root.WF → Unrelated p q → root.at? p = some e → root.at? q = some f →
      root.offset a p = some o → root.offset a q = some u → o + e.footprint ≤ u ∨ u + f.footprint ≤ o from
    this root 0 p q wf h he hf ho hu
  clear wf h he hf ho hu root p q
  have inside : ∀ (c g : Elem) (a : Nat) (p : Pos) (o : Nat), c.WF → c.at? p = some g → c.offset a p = some o →
      a ≤ o ∧ o + g.footprint ≤ a + c.footprint := by
    intro c g a p o wf h ho
    induction p generalizing c a with
    | nil =>
      simp only [Elem.at?, Option.some.injEq] at h
      simp only [Elem.offset, Option.some.injEq] at ho
      subst h ho; omega
    | cons i p ih =>
      rw [Elem.at?_cons] at h
      rw [Elem.offset_cons] at ho
      cases hc : c.children[i]? with
      | none => simp [hc] at h
      | some d =>
        simp only [hc, Option.bind_some] at h ho
        have hr := wf.child_range hc
        rcases wf.child hc with ⟨hw, _⟩ | ⟨size, nm, t, sy, hk, rfl, h1, h2, h3⟩
        · have := ih d _ hw h ho; omega
        · cases p with
          | cons => simp [Elem.at?] at h
          | nil =>
            simp only [Elem.at?, Option.some.injEq] at h
            simp only [Elem.offset, Option.some.injEq] at ho
            subst h ho; omega
  intro root a p
  induction p generalizing root a with
  | nil => intro q _ hu _ _ _ _; exact absurd List.nil_prefix hu.1
  | cons i p ih =>
    intro q wf hu hp hq hop hoq
    cases q with
    | nil => exact absurd List.nil_prefix hu.2
    | cons j q =>
      rw [Elem.at?_cons] at hp hq
      rw [Elem.offset_cons] at hop hoq
      cases hc : root.children[i]? with
      | none => simp [hc] at hp
      | some c =>
      cases hd : root.children[j]? with
      | none => simp [hd] at hq
      | some d =>
      simp only [hc, hd, Option.bind_some] at hp hq hop hoq
      rcases wf.child hc with ⟨hwc, ⟨k, hk⟩, _⟩ | ⟨size, nm, t, sy, hk, rfl, _⟩
      · by_cases hij : i = j
        · subst hij
          rw [hc] at hd; simp only [Option.some.injEq] at hd; subst hd
          exact ih c _ q hwc ⟨fun h => hu.1 (by simpa using h), fun h => hu.2 (by simpa using h)⟩ hp hq hop hoq
        · rcases wf.child hd with ⟨hwd, _⟩ | ⟨size, nm, t, sy, hk', _⟩
          · have n1 := inside c e _ p o hwc hp hop
            have n2 := inside d f _ q u hwd hq hoq
            rcases Nat.lt_or_gt_of_ne hij with hlt | hgt
            · have := Elem.footprints_take_mono root.children (show i + 1 ≤ j from hlt)
              rw [Elem.footprints_take_succ hc] at this
              left; omega
            · have := Elem.footprints_take_mono root.children (show j + 1 ≤ i from hgt)
              rw [Elem.footprints_take_succ hd] at this
              right; omega
          · rw [hk] at hk'; cases hk'
      · cases p with
        | cons => simp [Elem.at?] at hp
        | nil =>
          simp only [Elem.at?, Option.some.injEq] at hp
          subst hp
          exact absurd rfl (hne t)

/-- C29: every byte of the main blackboard belongs to exactly one parameter, array, string or bit
parameter block. -/
theorem C29_every_byte_owned (root : Elem) (wf : root.WF) (j : Nat) (hj : j < root.mainBoard.length) :
    ∃ p e o, root.at? p = some e ∧ root.offset 0 p = some o ∧
      (∀ k, e.kind ≠ .group k) ∧ (∀ t, e.kind ≠ .bit t) ∧ o ≤ j ∧ j < o + e.footprint ∧
      ∀ q f u, root.at? q = some f → root.offset 0 q = some u →
        (∀ k, f.kind ≠ .group k) → (∀ t, f.kind ≠ .bit t) → u ≤ j → j < u + f.footprint → q = p := by
  rw [C29_board_size] at hj
  have key : ∀ n (root : Elem) (a : Nat), sizeOf root ≤ n → root.WF → a ≤ j → j < a + root.footprint →
      ∃ p e o, root.at? p = some e ∧ root.offset a p = some o ∧
      (∀ k, e.kind ≠ .group k) ∧ (∀ t, e.kind ≠ .bit t) ∧ o ≤ j ∧ j < o + e.footprint := by
    intro n
    induction n with
    | zero => intro root a hs; cases root; simp at hs
    | succ n ih =>
      intro root a hs wf h1 h2
      have leaf : (∀ k, root.kind ≠ .group k) → (∀ t, root.kind ≠ .bit t) → ∃ p e o, root.at? p = some e ∧ root.offset a p = some o ∧
          (∀ k, e.kind ≠ .group k) ∧ (∀ t, e.kind ≠ .bit t) ∧ o ≤ j ∧ j < o + e.footprint :=
        fun hg hb => ⟨[], root, a, rfl, rfl, hg, hb, h1, h2⟩
      cases wf with
      | @group nm k sy cs hw hb =>
        rw [Elem.footprint_group] at h2
        -- find the child
        have : ∃ i c, cs[i]? = some c ∧ a + Elem.footprints (cs.take i) ≤ j ∧
            j < a + Elem.footprints (cs.take i) + c.footprint := by
          clear hw hb hs leaf ih
          induction cs generalizing a with
          | nil => simp [Elem.footprints] at h2; omega
          | cons c cs ihc =>
            by_cases hlt : j < a + c.footprint
            · exact ⟨0, c, rfl, by simp [Elem.footprints]; omega, by simp [Elem.footprints]; omega⟩
            · obtain ⟨i, d, hd, h3, h4⟩ := ihc (a + c.footprint) (by omega)
                (by simp only [Elem.footprints] at h2; omega)
              refine ⟨i + 1, d, by simpa using hd, ?_, ?_⟩ <;>
                simp only [List.take_succ_cons, Elem.footprints] <;> omega
        obtain ⟨i, c, hc, h3, h4⟩ := this
        have hm := List.mem_of_getElem? hc
        obtain ⟨p, e, o, g1, g2, g3⟩ := ih c _ (by
          have := List.sizeOf_lt_of_mem hm
          simp only [Elem.mk.sizeOf_spec] at hs
          omega) (hw c hm) h3 h4
        refine ⟨i :: p, e, o, ?_, ?_, g3⟩
        · rw [Elem.at?_cons]; simp only [Elem.children, hc, Option.bind_some]; exact g1
        · rw [Elem.offset_cons]; simp only [Elem.children, hc, Option.bind_some]; exact g2
      | bitBlock => exact leaf (by simp [Elem.kind]) (by simp [Elem.kind])
      | scalar => exact leaf (by simp [Elem.kind]) (by simp [Elem.kind])
      | array => exact leaf (by simp [Elem.kind]) (by simp [Elem.kind])
      | string => exact leaf (by simp [Elem.kind]) (by simp [Elem.kind])
  obtain ⟨p, e, o, he, ho, hg, hb, h1, h2⟩ := key _ root 0 (Nat.le_refl _) wf (Nat.zero_le _) (by omega)
  refine ⟨p, e, o, he, ho, hg, hb, h1, h2, ?_⟩
  intro q f u hf hu hg' hb' h3 h4
  have related : ∀ (p q : Pos) (e f : Elem), root.at? p = some e → root.at? q = some f → (∀ k, e.kind ≠ .group k) →
      (∀ t, f.kind ≠ .bit t) → p <+: q → p = q := by
    rintro p q e f hp hq h1 h2 ⟨r, rfl⟩
    rw [Elem.at?_append, hp] at hq
    cases r with
    | nil => simp
    | cons i r =>
      simp only [Option.bind_some] at hq
      rw [Elem.at?_cons] at hq
      cases hc : e.children[i]? with
      | none => simp [hc] at hq
      | some c =>
        simp only [hc, Option.bind_some] at hq
        rcases wf.at hp with hw | ⟨_, _, _, _, _, _, _, _, _, _, _, rfl, _⟩
        · rcases hw.child hc with ⟨_, ⟨k, hk⟩, _⟩ | ⟨_, nm, t, sy, _, rfl, _⟩
          · exact absurd hk (h1 k)
          · cases r with
            | nil => simp only [Elem.at?, Option.some.injEq] at hq; subst hq; exact absurd rfl (h2 t)
            | cons => simp [Elem.at?] at hq
        · simp [Elem.children] at hc
  by_cases hpq : p <+: q
  · exact (related p q e f he hf hg hb' hpq).symm
  · by_cases hqp : q <+: p
    · exact related q p f e hf he hg' hb hqp
    · have := C29_bytes_disjoint root wf ⟨hpq, hqp⟩ he hf ho hu hb
      omega

example : Sample.root.WF ∧ Sample.root.FieldsDisjoint ∧ Sample.root.mainBoard.length = 10 ∧
    Unrelated [0, 0, 1, 0] [0, 0, 1, 1] ∧ Sample.root.Owns [0, 0, 1, 0] 17 ∧ Sample.root.Owns [0, 0, 1, 1] 20 :=
  ⟨Sample.wf, Sample.fieldsDisjoint, by decide, ⟨by decide, by decide⟩, ⟨_, _, rfl, rfl, by decide, by decide⟩,
    ⟨_, _, rfl, rfl, by decide, by decide⟩⟩

/-- Two bit parameters may be declared on the same bits: nothing in the loader refuses it
(BitParameterType.cpp:74-117 only looks at one of them). -/
theorem C29_overlapping_fields_accepted :
    BitType.load 1 0 4 none = .ok ⟨1, 0, 4, 15#64⟩ ∧ BitType.load 1 2 4 none = .ok ⟨1, 2, 4, 15#64⟩ := by
  decide

/-! ## C30: setting one parameter never changes another -/

/-- C30: setting a parameter by path, even when it fails, changes no bit outside that parameter. -/
theorem C30_set_only_own_bits (rd : Reader) (ctx : Ctx) (root : Elem) (wf : root.WF) (b : Board)
    (path text : Str) {p : Pos} {items : List Str} (ht : root.accessTarget path = some (p, items)) :
    (root.setText rd ctx 0 b path text).2.length = b.length ∧
    ∀ i, ¬ root.Owns p i → (root.setText rd ctx 0 b path text).2.bit i = b.bit i := by
  obtain ⟨e, he, hpar⟩ := Elem.accessTarget_at ht
  obtain ⟨o, ho⟩ := Elem.offset_of_at (off := 0) he
  have hs : root.setText rd ctx 0 b path text = setParamText rd ctx e.kind b o 0 items text := by
    simp only [Elem.setText, ht, he, ho]
  have := setParamText_frame (rd := rd) (ctx := ctx) (e := e) (b := b) (off := o) (base := 0) (items := items)
    (text := text) (fun t hk => (wf.bit_wf he t hk).1) (Nat.zero_le _)
  rw [hs]
  refine ⟨this.1, fun i hi => this.2 i ?_⟩
  simp only [Nat.sub_zero]
  apply Decidable.byContradiction
  intro hc
  exact hi ⟨e, o, he, ho, by omega, by omega⟩

/-- C30: a path that names no parameter changes nothing. -/
theorem C30_no_target (rd : Reader) (ctx : Ctx) (root : Elem) (b : Board) (path text : Str)
    (ht : root.accessTarget path = none) : root.setText rd ctx 0 b path text = (.err, b) := by
  simp [Elem.setText, ht]

/-- C30: what is read from a parameter depends only on the bits of that parameter (for a string
parameter: when it is terminated, which every set through the parameter ensures, see C39). -/
theorem C30_get_only_own_bits (ctx : Ctx) (root : Elem) (wf : root.WF) (b b' : Board) (path : Str)
    {q : Pos} {items : List Str} (ht : root.accessTarget path = some (q, items))
    (hl : b'.length = b.length) (h : ∀ i, root.Owns q i → b'.bit i = b.bit i)
    (term : ∀ e m o, root.at? q = some e → e.kind = .string m → root.offset 0 q = some o → StringTerminated b o m) :
    root.getText ctx 0 b' path = root.getText ctx 0 b path := by
  obtain ⟨e, he, hpar⟩ := Elem.accessTarget_at ht
  obtain ⟨o, ho⟩ := Elem.offset_of_at (off := 0) he
  simp only [Elem.getText, ht, he, ho]
  exact getParamText_congr (fun t hk => (wf.bit_wf he t hk).1) hl (fun m hk => term e m o he hk ho)
    (fun i h1 h2 => h i ⟨e, o, he, ho, h1, h2⟩)

/-- C30: setting a parameter, successfully or not, never changes what is read from another one. -/
theorem C30_independent (rd : Reader) (ctx ctx' : Ctx) (root : Elem) (wf : root.WF)
    (fd : root.FieldsDisjoint) (b : Board) (path text path' : Str) {p q : Pos} {items items' : List Str}
    (hp : root.accessTarget path = some (p, items)) (hq : root.accessTarget path' = some (q, items'))
    (hne : p ≠ q)
    (term : ∀ e m o, root.at? q = some e → e.kind = .string m → root.offset 0 q = some o → StringTerminated b o m) :
    root.getText ctx' 0 (root.setText rd ctx 0 b path text).2 path' = root.getText ctx' 0 b path' := by
  obtain ⟨h1, h2⟩ := C30_set_only_own_bits rd ctx root wf b path text hp
  obtain ⟨e, he, hpe⟩ := Elem.accessTarget_at hp
  obtain ⟨f, hf, hpf⟩ := Elem.accessTarget_at hq
  have hu : Unrelated p q :=
    ⟨fun h => hne (wf.param_leaf he hpe hf h), fun h => hne (wf.param_leaf hf hpf he h).symm⟩
  exact C30_get_only_own_bits ctx' root wf b _ path' hq h1
    (fun i hi => h2 i (fun ho => C29_disjoint root wf fd hu i ⟨ho, hi⟩)) term

example : Sample.root.accessTarget (s "/Sys/sub/comp/flags/a") = some ([0, 0, 1, 0], []) ∧
    Sample.root.accessTarget (s "/Sys/sub/comp/flags/b") = some ([0, 0, 1, 1], []) ∧
    Sample.root.accessTarget (s "/Sys/sub/comp/gains/1") = some ([0, 0, 3], [s "1"]) ∧
    Sample.root.setText .none ⟨false, false⟩ 0 Sample.root.mainBoard (s "/Sys/sub/comp/flags/a") (s "5") =
      (.ok (), [0, 0, 10, 0, 0, 0, 0, 0, 0, 0]) ∧
    Sample.root.getText ⟨false, false⟩ 0 [0, 0, 10, 0, 0, 0, 0, 0, 0, 0] (s "/Sys/sub/comp/flags/b") = .ok (s "0") := by
  decide +kernel

/-- Without a terminator (only possible through raw bytes), reading a string parameter reads the
memory of the next one: the value read changes when the other one is set. -/
theorem C30_unterminated_string :
    let root : Elem := .mk (s "R") (.group (s "SystemClass")) none
      [.mk (s "t") (.string 1) none [], .mk (s "u") (.string 1) none []]
    let b : Board := [65#8, 66#8, 0#8, 0#8]
    root.getText ⟨false, false⟩ 0 b (s "/R/t") = .ok (s "AB") ∧
    root.getText ⟨false, false⟩ 0 (root.setText .none ⟨false, false⟩ 0 b (s "/R/u") (s "C")).2 (s "/R/t")
      = .ok (s "ABC") := by
  decide +kernel

/-! ## C31: paths identify elements -/

/-- C31: looking up the path an element reports gives that element back. -/
theorem C31_path_round_trip (root : Elem) (g : root.GoodNames) (hn : root.name ≠ []) {p : Pos} {e : Elem}
    (he : root.at? p = some e) : ∃ t, root.path p = some t ∧ root.locate t = some p := by
  refine ⟨_, Elem.path_eq he, ?_⟩
  obtain ⟨ns, h1, h2⟩ := g.findDescendant he
  have hnames := g.namesTo he
  have hj := slashes_join (root.namesTo p) (by rw [h1]; simp)
  have hp := pieces_join ['/'] '/' (by simp) ([] :: root.namesTo p) (by simp) (by
    intro w hw c hc
    simp only [List.mem_cons] at hw
    rcases hw with rfl | hw
    · simp at hc
    · have := (hnames w hw).2
      simp only [List.mem_singleton]
      intro h; subst h; exact this hc)
  rw [hj]
  have htok : tokenize ['/'] true (joinWith '/' ([] :: root.namesTo p)) = root.namesTo p := by
    rw [tokenize_true_of_pieces hp]
    rw [List.filter_cons]
    simp only [ne_eq, not_true_eq_false, decide_false]
    rw [if_neg (by simp)]
    rw [List.filter_eq_self]
    intro w hw
    simpa using (hnames w hw).1
  unfold Elem.locate
  rw [htok, h1]
  have hroot : root.pathName = root.name := by simp [Elem.pathName, hn]
  simp only [joinWith, List.nil_append, List.head?_cons, ne_eq, not_true_eq_false, ↓reduceIte, hroot, h2]

/-- C31: whatever the text, a lookup that finds an element found one whose names, from the root down,
are the non-empty pieces of the text between slashes. -/
theorem C31_never_wrong (root : Elem) (hn : root.name ≠ []) (t : Str) (p : Pos) (h : root.locate t = some p) :
    (∃ e, root.at? p = some e) ∧ ∃ rest ps, t = '/' :: rest ∧ Pieces ['/'] t ps ∧
      root.namesTo p = ps.filter (· ≠ []) := by
  unfold Elem.locate at h
  split at h
  · simp at h
  · rename_i hh
    split at h
    · simp at h
    · rename_i n ns htok
      split at h
      · simp at h
      · rename_i hnn
        obtain ⟨f, h1, h2⟩ := Elem.findDescendant_iff root ns p h
        refine ⟨⟨f, h1⟩, ?_⟩
        cases t with
        | nil => simp at hh
        | cons c rest =>
          simp only [List.head?_cons, ne_eq, Option.some.injEq, Decidable.not_not] at hh
          subst hh
          obtain ⟨ps, hps⟩ := pieces_exists ['/'] ('/' :: rest)
          refine ⟨rest, ps, rfl, hps, ?_⟩
          have hroot : root.pathName = root.name := by simp [Elem.pathName, hn]
          rw [h2, ← tokenize_true_of_pieces hps, htok, hroot]
          simp only [ne_eq, Decidable.not_not] at hnn
          rw [hnn]

/-- C31: the lookup finds an element for every text whose non-empty pieces are the names down to that
element, brothers having distinct names. -/
theorem C31_finds (root : Elem) (g : root.GoodNames) (hn : root.name ≠ []) {p : Pos} {e : Elem}
    (he : root.at? p = some e) (rest : Str) (ps : List Str) (hps : Pieces ['/'] ('/' :: rest) ps)
    (h : ps.filter (· ≠ []) = root.namesTo p) : root.locate ('/' :: rest) = some p := by
  obtain ⟨ns, h1, h2⟩ := g.findDescendant he
  have hroot : root.pathName = root.name := by simp [Elem.pathName, hn]
  unfold Elem.locate
  rw [tokenize_true_of_pieces hps, h, h1]
  simp only [List.head?_cons, ne_eq, not_true_eq_false, ↓reduceIte, hroot, h2]

/-- C31: two different elements never have the same path. -/
theorem C31_paths_injective (root : Elem) (g : root.GoodNames) (hn : root.name ≠ []) {p q : Pos} {e f : Elem}
    (he : root.at? p = some e) (hf : root.at? q = some f) (h : root.path p = root.path q) : p = q := by
  obtain ⟨t, h1, h2⟩ := C31_path_round_trip root g hn he
  obtain ⟨u, h3, h4⟩ := C31_path_round_trip root g hn hf
  rw [h1, h3] at h
  simp only [Option.some.injEq] at h
  subst h
  rw [h2] at h4
  simpa using h4

/-- C31: a parameter handle is only made for a parameter. -/
theorem C31_parameter_handle (root : Elem) (t : Str) (p : Pos) (h : root.parameterHandle t = some p) :
    root.locate t = some p ∧ ∃ e, root.at? p = some e ∧ (∀ k, e.kind ≠ .group k) ∧ ∀ n, e.kind ≠ .bitBlock n := by
  unfold Elem.parameterHandle at h
  split at h
  · simp at h
  · rename_i q hq
    split at h
    · simp at h
    · rename_i e he
      split at h
      · rename_i hk
        simp only [Option.some.injEq] at h
        subst h
        refine ⟨hq, e, he, ?_, ?_⟩ <;> intro k hk' <;> simp [hk', EKind.isParameter] at hk
      · simp at h

/-- C31: an element handle is made for "/" and for the texts that start with a slash and whose non-empty pieces are the names from the
root down to an element; it is the one of the root, or of that element. -/
theorem C31_element_handle (root : Elem) (g : root.GoodNames) (hn : root.name ≠ []) (t : Str) (p : Pos) :
    root.elementHandle t = some p ↔ (t = s "/" ∧ p = []) ∨ ((∃ e, root.at? p = some e) ∧ ∃ rest ps, t = '/' :: rest ∧
      Pieces ['/'] t ps ∧ root.namesTo p = ps.filter (· ≠ [])) := by
  have h0 : root.locate (s "/") = none := by
    unfold Elem.locate
    rw [show tokenize ['/'] true (s "/") = [] by decide]
    rfl
  have hl : ∀ t p, root.locate t = some p ↔ (∃ e, root.at? p = some e) ∧ ∃ rest ps, t = '/' :: rest ∧
      Pieces ['/'] t ps ∧ root.namesTo p = ps.filter (· ≠ []) := by
    intro t p
    constructor
    · exact C31_never_wrong root hn t p
    · rintro ⟨⟨e, he⟩, rest, ps, rfl, hps, hnames⟩
      exact C31_finds root g hn he rest ps hps hnames.symm
  unfold Elem.elementHandle
  by_cases ht : t = s "/"
  · rw [if_pos ht, ← hl, ht, h0]
    simp [eq_comm]
  · rw [if_neg ht, hl]
    simp [ht]

/-- C31: a parameter handle is made for every path of a parameter. -/
theorem C31_parameter_handle_made (root : Elem) (t : Str) (p : Pos) (h : root.locate t = some p) (e : Elem)
    (he : root.at? p = some e) (h1 : ∀ k, e.kind ≠ .group k) (h2 : ∀ n, e.kind ≠ .bitBlock n) :
    root.parameterHandle t = some p := by
  unfold Elem.parameterHandle
  simp only [h, he]
  cases hk : e.kind <;> simp_all [EKind.isParameter]

example : Sample.root.elementHandle (s "/") = some [] ∧ Sample.root.elementHandle (s "/Sys/sub") = some [0] ∧
    Sample.root.elementHandle (s "//") = none ∧ Sample.root.parameterHandle (s "/Sys/sub/on") = some [0, 1] ∧
    Sample.root.parameterHandle (s "/") = none := by decide

example : Sample.root.GoodNames ∧ Sample.root.path [0, 0, 1, 1] = some (s "/Sys/sub/comp/flags/b") ∧
    Sample.root.locate (s "/Sys//sub/comp/flags/b/") = some [0, 0, 1, 1] ∧
    Sample.root.locate (s "Sys/sub") = none ∧ Sample.root.locate (s "/Sys/nosuch") = none :=
  ⟨Sample.goodNames, by decide, by decide, by decide, by decide⟩

/-- With two brothers of the same name, the second one cannot be reached by its path. -/
theorem C31_duplicate_names :
    let root : Elem := .mk (s "R") (.group (s "SystemClass")) none
      [.mk (s "t") (.scalar .bool) none [], .mk (s "t") (.scalar .bool) none []]
    root.path [1] = some (s "/R/t") ∧ root.locate (s "/R/t") = some [0] := by decide

/-! ## C32: raw bytes -/

/-- C32: setting the right number of bytes succeeds, changes exactly the bytes of the element, and
reading them back gives the bytes that were set. -/
theorem C32_set_then_get (root : Elem) (wf : root.WF) (b : Board) (hb : b.length = root.footprint) {p : Pos}
    {e : Elem} {o : Nat} (he : root.at? p = some e) (ho : root.offset 0 p = some o) (bs : List Byte)
    (hlen : bs.length = e.footprint) :
    ∃ b', root.setBytes b p bs = .ok b' ∧ root.getBytes b' p = .ok bs ∧ SameOutside b b' o e.footprint := by
  have room : o + e.footprint ≤ b.length := by
    rw [hb]
    cases hfp : e.footprint with
    | zero =>
      -- an empty element: its offset is inside the board
      have : ∀ (c g : Elem) (a : Nat) (p : Pos) (o : Nat), c.WF → c.at? p = some g → c.offset a p = some o →
          o + g.footprint ≤ a + c.footprint := by
        intro c g a p o wf h ho
        induction p generalizing c a with
        | nil =>
          simp only [Elem.at?, Option.some.injEq] at h
          simp only [Elem.offset, Option.some.injEq] at ho
          subst h ho; omega
        | cons i p ih =>
          rw [Elem.at?_cons] at h
          rw [Elem.offset_cons] at ho
          cases hc : c.children[i]? with
          | none => simp [hc] at h
          | some d =>
            simp only [hc, Option.bind_some] at h ho
            have hr := wf.child_range hc
            rcases wf.child hc with ⟨hw, _⟩ | ⟨size, nm, t, sy, hk, rfl, h1, h2, h3⟩
            · have := ih d _ hw h ho; omega
            · cases p with
              | cons => simp [Elem.at?] at h
              | nil =>
                simp only [Elem.at?, Option.some.injEq] at h
                simp only [Elem.offset, Option.some.injEq] at ho
                subst h ho; omega
      have := this root e 0 p o wf he ho
      omega
    | succ n =>
      have hnb : ∀ t, e.kind ≠ .bit t := by
        intro t ht
        cases e with | mk nm k sy cs => simp only [Elem.kind] at ht; subst ht; simp [Elem.footprint, EKind.ownSize] at hfp
      have hext : e.extent o = (8 * o, 8 * (o + e.footprint)) := by
        unfold Elem.extent
        split
        · rename_i t ht; exact absurd ht (hnb t)
        · rfl
      have := (C29_inside_parent root wf (p := []) (q := p) List.nil_prefix (8 * (o + e.footprint) - 1)
        ⟨e, o, he, ho, by rw [hext]; simp only; omega, by rw [hext]; simp only; omega⟩).2
      rw [C29_board_size] at this
      omega
  obtain ⟨b', hw⟩ := Board.write_some (b := b) (off := o) (bs := bs) (by omega)
  refine ⟨b', by simp [Elem.setBytes, he, ho, hlen, hw], ?_, ?_⟩
  · have := Board.read_write_same hw
    rw [hlen] at this
    simp [Elem.getBytes, he, ho, this]
  · refine ⟨(Board.write_length hw).1, fun i hi => ?_⟩
    rw [Board.write_getElem? hw, if_neg (by omega)]

/-- C32: a wrong number of bytes is refused (and a refused set returns no new memory). -/
theorem C32_wrong_size_refused (root : Elem) (b : Board) {p : Pos} {e : Elem} (he : root.at? p = some e)
    (bs : List Byte) (hlen : bs.length ≠ e.footprint) : root.setBytes b p bs = .err := by
  obtain ⟨o, ho⟩ := Elem.offset_of_at (off := 0) he
  simp [Elem.setBytes, he, ho, Ne.symm hlen]

/-- C32: reading the bytes of an element and setting them back changes nothing. -/
theorem C32_get_then_set (root : Elem) (b : Board) {p : Pos} (bs : List Byte)
    (h : root.getBytes b p = .ok bs) : root.setBytes b p bs = .ok b := by
  unfold Elem.getBytes at h
  split at h
  · rename_i e o he ho
    split at h
    · rename_i bs' hr
      simp only [Out.ok.injEq] at h; subst h
      simp [Elem.setBytes, he, ho, (Board.read_length hr).1, Board.write_read_same hr]
    · simp at h
  · simp at h

example : Sample.root.setBytes Sample.root.mainBoard [0, 0, 2] [1, 2, 3, 4] = .ok [0, 0, 0, 1, 2, 3, 4, 0, 0, 0] ∧
    Sample.root.setBytes Sample.root.mainBoard [0, 0, 2] [1, 2] = .err := by decide

/-! ## C52: syncers -/

/-- C52: the syncers collected for an element include the syncer responsible for every element below
it (or equal to it) that has one. -/
theorem C52_coverage (root : Elem) (nn : root.SyncersNotNested) {p q : Pos} (hpq : p <+: q) {f : Elem}
    (hq : root.at? q = some f) (x : Nat) (hx : root.getSyncer none q = some x) : x ∈ root.syncerSet p := by
  obtain ⟨t, rfl⟩ := hpq
  have hp : ∃ e, root.at? p = some e := by
    rw [Elem.at?_append] at hq
    cases h : root.at? p with
    | none => simp [h] at hq
    | some e => exact ⟨e, rfl⟩
  obtain ⟨e, he⟩ := hp
  rcases getSyncer_spec root none _ x hx with ⟨r, g, hr, hg, hs⟩ | ⟨h, _⟩
  · unfold Elem.syncerSet
    cases hgs : root.getSyncer none p with
    | some y =>
      rcases getSyncer_spec root none _ y hgs with ⟨r', g', hr', hg', hs'⟩ | ⟨h, _⟩
      · have : r = r' := unique_on_branch nn hr (hr'.trans (List.prefix_append p t)) hg hg' (by simp [hs]) (by simp [hs'])
        subst this
        rw [hg] at hg'
        simp only [Option.some.injEq] at hg'
        subst hg'
        rw [hs] at hs'
        simp only [Option.some.injEq] at hs'
        simp [hs']
      · simp at h
    | none =>
      obtain ⟨_, hnone⟩ := getSyncer_complete root none p e he hgs
      simp only [he]
      -- the syncer is strictly below `p`
      rcases List.prefix_or_prefix_of_prefix hr (List.prefix_append p t) with h | h
      · have := hnone r g h hg
        rw [hs] at this; simp at this
      · obtain ⟨u, rfl⟩ := h
        have hgu : e.at? u = some g := by
          rw [Elem.at?_append, he] at hg; exact hg
        refine fill_collects e u g x hgu hs ?_ []
        intro r' g' hr' hne hg'
        cases hsy : g'.syncer with
        | none => rfl
        | some z =>
          obtain ⟨v, rfl⟩ := hr'
          have hv : v ≠ [] := by intro h; apply hne; simp [h]
          have h1 : root.at? (p ++ r') = some g' := by rw [Elem.at?_append, he]; exact hg'
          have h2 : root.at? ((p ++ r') ++ v) = some g := by
            rw [List.append_assoc]; exact hg
          have := nn (p ++ r') v g' g h1 h2 hv (by simp [hsy])
          rw [hs] at this; simp at this
  · simp at h

example : Sample.root.SyncersNotNested ∧ Sample.root.getSyncer none [0, 0, 2] = some 3 ∧
    Sample.root.syncerSet [0] = [1, 2, 3] ∧ Sample.root.syncerSet [0, 0, 2] = [3] :=
  ⟨Sample.syncersNotNested, by decide, by decide, by decide⟩

/-- C52: every syncer collected for an element is the one of an element above it, of itself or of an
element below it. -/
theorem C52_nothing_else (root : Elem) {p : Pos} (x : Nat) (hx : x ∈ root.syncerSet p) :
    ∃ q g, (q <+: p ∨ p <+: q) ∧ root.at? q = some g ∧ g.syncer = some x := by
  unfold Elem.syncerSet at hx
  split at hx
  · rename_i y hy
    simp only [List.mem_singleton] at hx
    subst hx
    rcases getSyncer_spec root none p x hy with ⟨r, g, hr, hg, hs⟩ | ⟨h, _⟩
    · exact ⟨r, g, .inl hr, hg, hs⟩
    · simp at h
  · split at hx
    · rename_i e he
      have key : ∀ n, (∀ e : Elem, sizeOf e ≤ n → ∀ acc, x ∈ e.fillFromDescendants acc → x ∈ acc ∨
            ∃ q g, e.at? q = some g ∧ g.syncer = some x) ∧
          (∀ cs : List Elem, sizeOf cs ≤ n → ∀ acc, x ∈ Elem.fillFromAll acc cs → x ∈ acc ∨
            ∃ (i : Nat) (c : Elem) (q : Pos) (g : Elem), cs[i]? = some c ∧ c.at? q = some g ∧ g.syncer = some x) := by
        intro n
        induction n with
        | zero => exact ⟨fun e h => by cases e; simp at h, fun cs h => by cases cs <;> simp at h⟩
        | succ n ih =>
          constructor
          · intro e h acc hm
            cases e with | mk nm k sy cs =>
            simp only [Elem.mk.sizeOf_spec] at h
            cases sy with
            | some y =>
              simp only [Elem.fillFromDescendants] at hm
              rcases (mem_syncerInsert _ _ _).1 hm with rfl | hm
              · exact .inr ⟨[], _, rfl, rfl⟩
              · exact .inl hm
            | none =>
              simp only [Elem.fillFromDescendants] at hm
              rcases ih.2 cs (by omega) acc hm with h | ⟨i, c, q, g, h1, h2, h3⟩
              · exact .inl h
              · refine .inr ⟨i :: q, g, ?_, h3⟩
                rw [Elem.at?_cons]; simp only [Elem.children, h1, Option.bind_some]; exact h2
          · intro cs h acc hm
            cases cs with
            | nil => exact .inl hm
            | cons c cs =>
              simp only [List.cons.sizeOf_spec] at h
              simp only [Elem.fillFromAll] at hm
              rcases ih.2 cs (by omega) _ hm with h' | ⟨i, d, q, g, h1, h2, h3⟩
              · rcases ih.1 c (by omega) acc h' with h'' | ⟨q, g, h1, h2⟩
                · exact .inl h''
                · exact .inr ⟨0, c, q, g, rfl, h1, h2⟩
              · exact .inr ⟨i + 1, d, q, g, by simpa using h1, h2, h3⟩
      rcases (key _).1 e (Nat.le_refl _) [] hx with h | ⟨q, g, h1, h2⟩
      · simp at h
      · exact ⟨p ++ q, g, .inr (List.prefix_append p q), by rw [Elem.at?_append, he]; exact h1, h2⟩
    · simp at hx

/-- With a syncer below another one, the syncers of the outer element miss the inner one. -/
theorem C52_nested_missed :
    let root : Elem := .mk (s "R") (.group (s "SystemClass")) none
      [.mk (s "c") (.group (s "Component")) (some 1) [.mk (s "t") (.scalar .bool) (some 2) []]]
    root.getSyncer none [0, 0] = some 2 ∧ root.syncerSet [0] = [1] := by decide

end PF
