import Verif.Lemmas.Start
import Verif.Lemmas.XmlShape
import Verif.Props.XmlDomains

/-! # C66: what a start leaves -/

namespace PF
open Spec

theorem mainBoard_bit (root : Elem) (i : Nat) : root.mainBoard.bit i = false := by
  unfold Board.bit Elem.mainBoard
  by_cases h : i / 8 < root.footprint
  · simp [List.getD_eq_getElem?_getD, h]
  · simp [List.getD_eq_getElem?_getD, List.getElem?_eq_none (show (List.replicate root.footprint (0#8 : Byte)).length ≤ i / 8 by
      simp; omega)]

theorem mainBoard_bit_default (root : Elem) {k : EKind} {u : Nat} (h : ∃ t, k = .bit t) : DefaultAt root.mainBoard u k := by
  obtain ⟨t, rfl⟩ := h
  intro i _
  exact mainBoard_bit root _

/-- Nothing is set that no selected configuration sets. -/
theorem notSet_of_not_selected {root : Elem} {settings : Settings} {st : St} {p : Pos} (h : ¬ Selected st p) :
    NotSet root settings st p :=
  fun _ d hk hc q hq hpq => absurd ⟨d, List.mem_of_getElem? hk, hc, q, hq, hpq⟩ h

/-- C66: after a start with the simulated back synchronisation, every parameter for which the settings file gives
no settings in a domain that has a configuration selected by the criteria (alone, with its block, or by
parts) has its default value. -/
theorem C66_defaults {env : Env} (wf : env.root.WF) (fd : env.root.FieldsDisjoint) {failOnError : Bool}
    {settings : Settings} {cs : List Criterion} (hok : (St.start env failOnError settings .simulated cs).1 = .ok ())
    {p : Pos} {e : Elem} (he : env.root.at? p = some e) (hpar : e.kind.isParameter = true) (hk : SoundKind e.kind)
    (hs : NotSet env.root settings (St.start env failOnError settings .simulated cs).2 p) :
    HoldsDefault env.root (St.start env failOnError settings .simulated cs).2.mem.main p := by
  obtain ⟨st1, main, mid, h1, h2, h3, h4, h5, h6, h7, h8, h9, h10, ⟨gm, h11, h13⟩, h14, _⟩ := St.start_mid wf hok
  obtain ⟨u, hu⟩ := Elem.offset_of_at (off := 0) he
  rw [h10] at hs
  have hs := notSet_fresh wf h9 h3 h8 (fun d hd => (h4 d hd).1) h11 (fun d hd => (h13 d hd).imp fun _ h => ⟨h.1, h.2.1⟩) (h14 fd) hs
  rw [h10]
  obtain ⟨q, hq, hqp⟩ := needBackSync_covers h3 (fun d hd => (h4 d hd).2) h6 h5 he hs
  obtain ⟨b', k1, k2, _, k4⟩ := backSimulated_spec wf fd (aggregate_needList env.root st1.noValidDomain)
    (b := env.root.mainBoard) (by simp [Elem.mainBoard])
  have hb : b' = main := Out.ok.inj (k1.symm.trans h1)
  subst hb
  refine ⟨e, u, he, hu, ?_⟩
  have hd := k4 p e u ⟨q, hq, hqp⟩ he hu hpar hk (fun t ht => mainBoard_bit_default _ ⟨t, ht⟩)
  refine PF.DefaultAt.keep he hu ?_ ?_ hd
  · rw [start_length wf h9, h7]
  · intro i hi
    rw [start_frame wf fd h9 h3 h8 (by rw [h7]) (fun d hd => (h4 d hd).1) h11 h13 hs hi]

/-- C66: after a start with the hardware back synchronisation, a parameter for which the settings file
gives no settings in a domain that has a configuration selected, and that belongs to the element of a syncer has what the hardware behind that syncer gives — or its
default value if the hardware gives nothing.  The bytes the hardware does not give are zeros. -/
theorem C66_hardware {env : Env} (wf : env.root.WF) (fd : env.root.FieldsDisjoint) (nn : env.root.SyncersNotNested)
    (sd : SyncersDistinct env.root) {failOnError : Bool} {settings : Settings} {recv : Receive} {cs : List Criterion}
    (hok : (St.start env failOnError settings (.hardware recv) cs).1 = .ok ())
    {p : Pos} {e : Elem} (he : env.root.at? p = some e) (hpar : e.kind.isParameter = true) (hk : SoundKind e.kind)
    (hs : NotSet env.root settings (St.start env failOnError settings (.hardware recv) cs).2 p)
    {q : Pos} {f : Elem} {o x : Nat} (hqp : q <+: p) (hf : env.root.at? q = some f) (ho : env.root.offset 0 q = some o)
    (hx : f.syncer = some x) :
    let main := (St.start env failOnError settings (.hardware recv) cs).2.mem.main
    ∃ b : Board, b.length = env.root.footprint ∧ (∀ i, env.root.Owns q i → b.bit i = false) ∧
      (recv x b = none → HoldsDefault env.root main p) ∧
      ∀ bytes, recv x b = some bytes → ∀ i, env.root.Owns p i →
        main.bit i = if 8 * o ≤ i ∧ i < 8 * (o + f.footprint) then Board.bit bytes (i - 8 * o) else false := by
  obtain ⟨st1, main, mid, h1, h2, h3, h4, h5, h6, h7, h8, h9, h10, ⟨gm, h11, h13⟩, h14, _⟩ := St.start_mid wf hok
  obtain ⟨u, hu⟩ := Elem.offset_of_at (off := 0) he
  rw [h10] at hs
  have hs := notSet_fresh wf h9 h3 h8 (fun d hd => (h4 d hd).1) h11 (fun d hd => (h13 d hd).imp fun _ h => ⟨h.1, h.2.1⟩) (h14 fd) hs
  rw [h10]
  obtain ⟨r, hr, hrp⟩ := needBackSync_covers h3 (fun d hd => (h4 d hd).2) h6 h5 he hs
  obtain ⟨g, hg⟩ := (aggregate_needList env.root st1.noValidDomain).at_ r hr
  have hmem : x ∈ env.root.backSyncers (st1.needBackSync env.root) := by
    refine mem_backSyncers.2 ⟨r, hr, (syncerSet_iff nn hg x).2 ⟨q, f, ?_, hf, hx⟩⟩
    rcases List.prefix_or_prefix_of_prefix hrp hqp with h | h
    · first | exact .inl h | exact .inr h
    · first | exact .inr h | exact .inl h
  obtain ⟨b', k1, k2, _, k4⟩ := syncBackAll_spec wf fd nn sd recv (sorted_nodup (backSyncers_sorted env.root (st1.needBackSync env.root)))
    backSyncers_owned (b := env.root.mainBoard) (by simp [Elem.mainBoard])
  have hb : b' = main := Out.ok.inj (k1.symm.trans h1)
  subst hb
  obtain ⟨c, c1, c2, c3, c4⟩ := k4 x hmem q f o hf hx ho
  refine ⟨c, c1, fun i hi => by rw [c2 i hi, mainBoard_bit], ?_, ?_⟩
  · intro hn
    refine ⟨e, u, he, hu, ?_⟩
    have hd := c3 hn p e u hqp he hu hpar hk (fun _ t ht => mainBoard_bit_default _ ⟨t, ht⟩)
    refine PF.DefaultAt.keep he hu ?_ ?_ hd
    · rw [start_length wf h9, h7]
    · intro i hi
      rw [start_frame wf fd h9 h3 h8 (by rw [h7]) (fun d hd => (h4 d hd).1) h11 h13 hs hi]
  · intro bytes hbs i hi
    rw [start_frame wf fd h9 h3 h8 (by rw [h7]) (fun d hd => (h4 d hd).1) h11 h13 hs hi, c4 bytes hbs i (owns_below wf hqp hf hi), mainBoard_bit]
    by_cases hin : 8 * o ≤ i ∧ i < 8 * (o + f.footprint)
    · rw [if_pos hin]
      by_cases hlen : i < 8 * (o + bytes.length)
      · rw [if_pos ⟨hlen, hin⟩]
      · rw [if_neg (fun h => hlen h.1), Board.bit_past (by omega)]
    · rw [if_neg hin, if_neg (fun h => hin h.2)]

/-- C66: with the hardware back synchronisation, a parameter for which the settings file gives no
settings in a domain that has a configuration selected, and that no syncer is concerned with, stays at
zero. -/
theorem C66_unmapped {env : Env} (wf : env.root.WF) (fd : env.root.FieldsDisjoint) (nn : env.root.SyncersNotNested)
    (sd : SyncersDistinct env.root) {failOnError : Bool} {settings : Settings} {recv : Receive} {cs : List Criterion}
    (hok : (St.start env failOnError settings (.hardware recv) cs).1 = .ok ()) {p : Pos}
    (hs : NotSet env.root settings (St.start env failOnError settings (.hardware recv) cs).2 p)
    (hu : ∀ q f x, env.root.at? q = some f → f.syncer = some x → Unrelated p q) {i : Nat} (hi : env.root.Owns p i) :
    (St.start env failOnError settings (.hardware recv) cs).2.mem.main.bit i = false := by
  obtain ⟨st1, main, mid, h1, h2, h3, h4, h5, h6, h7, h8, h9, h10, ⟨gm, h11, h13⟩, h14, _⟩ := St.start_mid wf hok
  rw [h10] at hs
  have hs := notSet_fresh wf h9 h3 h8 (fun d hd => (h4 d hd).1) h11 (fun d hd => (h13 d hd).imp fun _ h => ⟨h.1, h.2.1⟩) (h14 fd) hs
  rw [h10, start_frame wf fd h9 h3 h8 (by rw [h7]) (fun d hd => (h4 d hd).1) h11 h13 hs hi]
  obtain ⟨b', k1, k2, k3, _⟩ := syncBackAll_spec wf fd nn sd recv (sorted_nodup (backSyncers_sorted env.root (st1.needBackSync env.root)))
    backSyncers_owned (b := env.root.mainBoard) (by simp [Elem.mainBoard])
  have hb : b' = main := Out.ok.inj (k1.symm.trans h1)
  subst hb
  rw [k3 i (fun x _ q f hf hx => owns_unrelated wf fd (hu q f x hf hx) hi), mainBoard_bit]

/-- C66: the outcome of a start: settings that are refused, or missing, make it fail only if the client asked
for that. -/
theorem C66_outcome {env : Env} (wf : env.root.WF) (failOnError : Bool) (settings : Settings) (back : BackSync)
    (cs : List Criterion) :
    (St.start env failOnError settings back cs).1 =
      match settings with
      | .absent => .ok ()
      | .unusable => if failOnError then .err else .ok ()
      | .doc x =>
        match ((DomOp.importDomains true x).step env (St.initial env.root cs)).1 with
        | .err => if failOnError then .err else .ok ()
        | r => r :=
  St.start_outcome wf failOnError settings back cs

/-- C66: documents of the shape of the schema stop no start. -/
theorem C66_no_stop {env : Env} (wf : env.root.WF) (failOnError : Bool) (settings : Settings) (back : BackSync)
    (cs : List Criterion) (h : ∀ x, settings = .doc x → ∀ y ∈ x.children, DomainShape y) :
    (St.start env failOnError settings back cs).1 ≠ .abort := by
  rw [C66_outcome wf]
  cases settings with
  | absent => simp
  | unusable => cases failOnError <;> simp
  | doc x =>
    have := (St.Inv.initial env.root cs).importDomains_safe wf env.rd true (h x rfl)
    have hstep : ((DomOp.importDomains true x).step env (St.initial env.root cs)).1 =
      ((St.initial env.root cs).importDomains env.root env.rd true x).1 := rfl
    simp only [hstep]
    revert this
    cases ((St.initial env.root cs).importDomains env.root env.rd true x).1 <;> cases failOnError <;> simp

/-- C66: a start with an accepted document: the domains are those the document declares, in its order, with
its settings (those it does not give being taken from the blackboard after back synchronisation).  Every
domain for which a configuration is selected has applied it; the others have applied none.  The
parameters of a selected configuration have its settings, unless they are in several such domains. -/
theorem C66_settings {env : Env} (wf : env.root.WF) (fd : env.root.FieldsDisjoint) {failOnError : Bool} {x : Xml}
    {back : BackSync} {cs : List Criterion}
    (haccepted : ((DomOp.importDomains true x).step env (St.initial env.root cs)).1 = .ok ()) :
    (St.start env failOnError (.doc x) back cs).1 = .ok () ∧
    let st' := (St.start env failOnError (.doc x) back cs).2
    (∃ main : Board, main.length = env.root.footprint ∧
      (∀ p, NotSet env.root (.doc x) st' p → ∀ i, env.root.Owns p i → st'.mem.main.bit i = main.bit i) ∧
      st'.domains.length = x.children.length ∧
      ∀ (k : Nat) y d, x.children[k]? = some y → st'.domains[k]? = some d →
        DeclaresDomain env.root cs y { d with last := none } ∧
        ((d.configs.map Config.name).Nodup → (∀ c ∈ d.configs, c.name ≠ []) →
          DeclaresSettings env.root env.rd (some main) (settingsElems true y) { d with last := none })) ∧
    ∀ d ∈ st'.domains,
      ((∀ c, ¬ FirstQualifying cs d.configs c) → d.last = none) ∧
      ∀ c, FirstQualifying cs d.configs c → d.last = some c.id ∧
        ∀ a ∈ c.areas, ∀ i, env.root.Owns a.elem i →
          (∀ d' ∈ st'.domains, d' ≠ d → (∃ c', FirstQualifying cs d'.configs c') → ∀ q ∈ d'.elems, ¬ env.root.Owns q i) →
          st'.mem.main.bit i = a.value env.root i := by
  have hok : (St.start env failOnError (.doc x) back cs).1 = .ok () := by
    rw [C66_outcome wf]; simp only [haccepted]
  refine ⟨hok, ?_⟩
  obtain ⟨st1, main, mid, h1, h2, h3, h4, h5, h6, h7, h8, h9, h10, ⟨gm, h11, h13⟩, h14, h12⟩ := St.start_mid wf hok
  have himp : (St.blank env.root cs main).importDomains env.root env.rd true x = (.ok (), mid) := by
    rcases h12 with ⟨y, hy, h⟩ | ⟨h, _⟩
    · obtain rfl : x = y := by simpa using hy
      exact h
    · have := h x rfl
      rw [St.importDomains_main wf (main' := env.root.mainBoard) h2 (by simp [Elem.mainBoard])] at this
      have h' : ((St.blank env.root cs env.root.mainBoard).importDomains env.root env.rd true x).1 = .ok () := haccepted
      rw [h'] at this
      simp at this
  have hdecl := C62_import_all wf fd (Reachable.init (env := env) (criteria := cs) h2) true x
    (by show ((St.blank env.root cs main).importDomains env.root env.rd true x).1 = _; rw [himp])
  have hmid : ((DomOp.importDomains true x).step env { St.initial env.root cs with mem := ⟨main, []⟩ }).2 = mid := by
    show ((St.blank env.root cs main).importDomains env.root env.rd true x).2 = _; rw [himp]
  simp only [hmid] at hdecl
  obtain ⟨_, _, _, _, d5, d6⟩ := hdecl
  obtain ⟨b, log, ha, hbl⟩ := h9.apply_eq wf env.hw true
  have hdom : (St.start env failOnError (.doc x) back cs).2.domains = mid.domains.map (Domain.target cs true) := by
    rw [h10, ha]; simp only [h8]
  have hlast : ∀ d ∈ mid.domains, d.last = none := by
    intro d hd
    obtain ⟨k, hk, rfl⟩ := List.mem_iff_getElem.1 hd
    have hkx : k < x.children.length := by rw [← d5]; exact hk
    exact (d6 k x.children[k] mid.domains[k] (List.getElem?_eq_getElem hkx) (List.getElem?_eq_getElem hk)).1.last
  have heta : ∀ d ∈ mid.domains, ({ Domain.target cs true d with last := none } : Domain) = d := by
    intro d hd
    have := hlast d hd
    cases d
    simp only at this
    subst this
    rfl
  refine ⟨⟨main, h2, ?_, by rw [hdom, List.length_map, d5], ?_⟩, ?_⟩
  · intro p hs i hi
    rw [h10] at hs
    have hs := notSet_fresh wf h9 h3 h8 (fun d hd => (h4 d hd).1) h11 (fun d hd => (h13 d hd).imp fun _ h => ⟨h.1, h.2.1⟩) (h14 fd) hs
    rw [h10, start_frame wf fd h9 h3 h8 (by rw [h7]) (fun d hd => (h4 d hd).1) h11 h13 hs hi]
  · intro k y d hy hd
    rw [hdom, List.getElem?_map] at hd
    cases hm : mid.domains[k]? with
    | none => rw [hm] at hd; simp at hd
    | some d0 =>
      rw [hm] at hd
      simp only [Option.map_some, Option.some.injEq] at hd
      subst hd
      rw [heta d0 (List.mem_of_getElem? hm)]
      exact d6 k y d0 hy hm
  · intro d hd
    rw [hdom] at hd ⊢
    obtain ⟨d0, hd0, rfl⟩ := List.mem_map.1 hd
    have hr : RulesOK cs d0.configs := by rw [← h8]; exact h9.rules d0 hd0
    have ht := Domain.target_spec (force := true) hr
    refine ⟨fun hn => by rw [ht.2 hn]; rfl, fun c hc => ⟨ht.1 c hc, ?_⟩⟩
    intro a hac i hi hother
    rw [h10]
    refine St.Inv.apply_value wf fd h9 true (o := _) rfl hd0 (c := c) ⟨by rw [h8]; exact hc, .inl rfl⟩ hac hi ?_
    intro d' hd' hne c' hsw q hq
    refine hother (Domain.target cs true d') (List.mem_map.2 ⟨d', hd', rfl⟩) ?_ ⟨c', by rw [h8] at hsw; exact hsw.1⟩ q hq
    intro heq
    exact hne (nodup_map_inj h9.ids hd' hd0 (show (Domain.target cs true d').id = (Domain.target cs true d0).id by rw [heq]))

/-- C66: a start is a history of domain operations — the import of the settings on the back synchronised
blackboard, then a forced application — so that what is proved of all histories holds after a start
and from there on. -/
theorem C66_reachable {env : Env} (wf : env.root.WF) {failOnError : Bool} {settings : Settings}
    (hreg : settings.Regular env.root) {back : BackSync} {cs : List Criterion}
    (hok : (St.start env failOnError settings back cs).1 = .ok ()) :
    Reachable env cs (St.start env failOnError settings back cs).2 := by
  obtain ⟨st1, main, mid, h1, h2, h3, h4, h5, h6, h7, h8, h9, h10, ⟨gm, h11, h13⟩, h14, h12⟩ := St.start_mid wf hok
  have hmid : Reachable env cs mid := by
    rcases h12 with ⟨x, rfl, h⟩ | ⟨_, _, rfl⟩
    · have hstep : (DomOp.importDomains true x).step env { St.initial env.root cs with mem := ⟨main, []⟩ } = (.ok (), mid) := h
      have := Reachable.step (op := .importDomains true x) (Reachable.init (env := env) (criteria := cs) h2) hreg
        (by rw [hstep]; simp)
      rwa [hstep] at this
    · exact .init h2
  rw [h10]
  refine Reachable.step (op := .apply true) hmid trivial ?_
  show (mid.apply env.root env.hw true).1 ≠ _
  rw [← h10, hok]
  simp

/-- C66: the same for the manager, whose histories begin with a start. -/
theorem C66_manager {e : MEnv} (wf : e.env.root.WF) {failOnError : Bool} {settings : Settings}
    (hreg : settings.Regular e.env.root) {back : BackSync} {cs : List Criterion}
    (hok : (Mgr.start e failOnError settings back cs).1 = .ok ()) :
    MReachable e cs (Mgr.start e failOnError settings back cs).2 := .init (C66_reachable wf hreg hok)

/-! ## Cases -/

namespace Sample

/-- The criteria when no configuration of the document is selected. -/
def idleCriteria : List Criterion :=
  [⟨s "Device", { inclusive := true, map := [(s "A", 1#32), (s "B", 4#32)] }, 5#32, 0⟩,
   ⟨s "Mode", { inclusive := false, map := [(s "Idle", 0#32), (s "InCall", 3#32)] }, 0#32, 0⟩]

/-- The volume is at the hardware, the switch has none, the label cannot be read. -/
def answers : Receive := fun x _ => if x = 1 then some [0x2A, 0x00] else none

theorem syncersDistinct : SyncersDistinct root := by
  intro p q e f x hp hq he hf
  have key : ∀ p ∈ positions, ∀ q ∈ positions, ((root.at? p).bind Elem.syncer).isSome →
      (root.at? p).bind Elem.syncer = (root.at? q).bind Elem.syncer → p = q := by decide +kernel
  exact key p (mem_positions hp) q (mem_positions hq) (by simp [hp, he]) (by simp [hp, hq, he, hf])

theorem settingsRegular : Settings.Regular root (.doc (someDomains [someDomain (s "D") someSettings])) := by
  refine ⟨by unfold Xml.NamesDistinct; decide +kernel, ?_⟩
  intro x hx
  have hx' : x = someDomain (s "D") someSettings := by simpa [someDomains, Xml.children] using hx
  subst hx'
  have h : ∀ y, (someDomain (s "D") someSettings).childOrLast (s "Configurations") = some y →
      ((y.children.map Xml.nameAttr).filter (· ≠ [])) = [s "A", s "B"] := by
    intro y hy
    have : ((someDomain (s "D") someSettings).childOrLast (s "Configurations")).map
      (fun y => (y.children.map Xml.nameAttr).filter (· ≠ [])) = some [s "A", s "B"] := by decide +kernel
    rw [hy] at this
    simpa using this
  intro y hy
  unfold Xml.NamesDistinct
  rw [h y hy]
  decide

/-- A start without settings: the volume is at its lower bound (-100), the rest at zero. -/
example :
    let r := St.start env true .absent .simulated idleCriteria
    r.1 = .ok () ∧ r.2.mem.main.take 2 = [0x9C, 0xFF] ∧ r.2.mem.main.drop 2 = List.replicate 8 0 := by decide +kernel

/-- A start with a document of which no configuration is selected: the same values; they are the settings
the document does not give (those of the switch), and the domain has applied none. -/
example :
    let r := St.start env true (.doc (someDomains [someDomain (s "D") someSettings])) .simulated idleCriteria
    r.1 = .ok () ∧ r.2.mem.main.take 2 = [0x9C, 0xFF] ∧ r.2.domains.map Domain.last = [none] ∧
    r.2.domains.map (fun d => d.configs.map Config.areas) =
      [[[⟨[0, 0, 0], [0xFE, 0xFF], true⟩, ⟨[0, 1], [0], true⟩], [⟨[0, 0, 0], [0xFE, 0xFF], true⟩, ⟨[0, 1], [0], true⟩]]] := by
  decide +kernel

/-- No domain then sets the volume. -/
example : ¬ Selected (St.start env true (.doc (someDomains [someDomain (s "D") someSettings])) .simulated idleCriteria).2 [0, 0, 0] := by
  have h : ((St.start env true (.doc (someDomains [someDomain (s "D") someSettings])) .simulated idleCriteria).2.domains.all fun d =>
    findApplicable (St.start env true (.doc (someDomains [someDomain (s "D") someSettings])) .simulated idleCriteria).2.criteria d.configs
      = some none) = true := by decide +kernel
  have hinv : Reachable env idleCriteria _ := C66_reachable (env := env) wf (failOnError := true)
    (settings := .doc (someDomains [someDomain (s "D") someSettings])) settingsRegular (back := .simulated) (cs := idleCriteria) (by decide +kernel)
  rintro ⟨d, hd, ⟨c, hc⟩, _⟩
  obtain ⟨o, ho, hoc⟩ := findApplicable_spec ((hinv.inv wf).rules d hd)
  have := List.all_eq_true.1 h d hd
  rw [ho] at this
  have hnone : o = none := by simpa using this
  rw [(hoc c).2 hc] at hnone
  simp at hnone

/-- A start with a document that gives no settings, with a configuration selected: it has the default values,
and the volume is set to them (-100). -/
example :
    let r := St.start env true (.doc (someDomains [someDomain (s "D") []])) .simulated criteria
    r.1 = .ok () ∧ r.2.mem.main.take 2 = [0x9C, 0xFF] ∧ r.2.domains.map (fun d => d.last.isSome) = [true] ∧
    r.2.domains.map (fun d => d.configs.map Config.areas) =
      [[[⟨[0, 0, 0], [0x9C, 0xFF], true⟩, ⟨[0, 1], [0], true⟩], [⟨[0, 0, 0], [0x9C, 0xFF], true⟩, ⟨[0, 1], [0], true⟩]]] := by
  decide +kernel

/-- The file then sets nothing. -/
example : NotSet root (.doc (someDomains [someDomain (s "D") []]))
    (St.start env true (.doc (someDomains [someDomain (s "D") []])) .simulated criteria).2 [0, 0, 0] := by
  intro k d hk _ q hq hpq
  have hl : (St.start env true (.doc (someDomains [someDomain (s "D") []])) .simulated criteria).2.domains.map
    (fun d => (d.elems, d.configs.map Config.name)) = [([[0, 0, 0], [0, 1]], [s "A", s "B"])] := by decide +kernel
  have hk' := congrArg (Option.map (fun d : Domain => (d.elems, d.configs.map Config.name))) hk
  rw [← List.getElem?_map, hl] at hk'
  cases k with
  | succ k => simp at hk'
  | zero =>
    simp only [List.getElem?_cons_zero, Option.map_some, Option.some.injEq, Prod.mk.injEq] at hk'
    obtain ⟨h1, h2⟩ := hk'
    refine ⟨by rw [← h2]; decide, ?_, ?_⟩
    · intro c hc
      have : c.name ∈ d.configs.map Config.name := List.mem_map.2 ⟨c, hc, rfl⟩
      rw [← h2] at this
      intro he
      rw [he] at this
      revert this
      decide
    · rw [← h1] at hq
      refine ⟨_, someDomain (s "D") [], s "/Sys/sub/comp/vol", rfl, rfl, ?_, ?_⟩
      · rcases List.mem_cons.1 hq with rfl | hq
        · decide
        · obtain rfl : q = [0, 1] := by simpa using hq
          revert hpq
          decide
      · intro c _
        rfl

/-- A start with the document that gives a volume, with a configuration selected: that volume (-2) is set. -/
example :
    let r := St.start env true (.doc (someDomains [someDomain (s "D") someSettings])) .simulated criteria
    r.1 = .ok () ∧ r.2.mem.main.take 2 = [0xFE, 0xFF] ∧ r.2.domains.map (fun d => d.last.isSome) = [true] := by decide +kernel

/-- A start that takes the volume from the hardware. -/
example :
    let r := St.start env true .absent (.hardware answers) idleCriteria
    r.1 = .ok () ∧ r.2.mem.main.take 2 = [0x2A, 0x00] := by decide +kernel

/-- Refused settings. -/
example :
    (St.start env true (.doc (.mk (s "ConfigurableDomains") [(s "SystemClassName", s "Other")] [] [])) .simulated idleCriteria).1 = .err ∧
    (St.start env false (.doc (.mk (s "ConfigurableDomains") [(s "SystemClassName", s "Other")] [] [])) .simulated idleCriteria).1 = .ok () ∧
    (St.start env false .unusable .simulated idleCriteria).1 = .ok () := by decide +kernel

end Sample

/-! ## Findings -/

/-- C66: with the hardware back synchronisation, a parameter without syncer starts at zero even if zero is not
in its range; the simulated one gives it its lower bound. -/
theorem C66_zero_out_of_range :
    let root : Elem := .mk (s "Sys") (.group (s "SystemClass")) none
      [.mk (s "sub") (.group (s "Subsystem")) none [.mk (s "n") (.scalar (.int ⟨false, 1, 5, 10⟩)) none []]]
    let env : Env := ⟨root, fun _ _ _ => none, .none⟩
    (St.start env true .absent (.hardware fun _ _ => none) []).2.mem.main = [0] ∧
    (St.start env true .absent .simulated []).2.mem.main = [5] := by decide +kernel

end PF
