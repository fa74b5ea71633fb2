import Verif.Lemmas.XmlRoundTrip
import Verif.Lemmas.Answer

/-! # Domains that are alike give the same document -/

namespace PF
open Spec

mutual
theorem Elem.exportXml_same {ctx : Ctx} {b b' : Board} (e : Elem) {off : Nat}
    (h : ∀ q f o, e.Param off q f o → getParamText ctx f.kind b' o 0 [] = getParamText ctx f.kind b o 0 []) :
    e.exportXml ctx 0 b' off = e.exportXml ctx 0 b off := by
  cases e with | mk n k sy cs =>
  unfold Elem.exportXml
  rw [Elem.exportChildren_same (ctx := ctx) (b := b) (b' := b') cs (off := off) (fun q f o hp => by
    cases q with
    | nil => simp [Elem.Params] at hp
    | cons j q => exact h (j :: q) f o (Elem.param_cons.2 hp))]
  by_cases hk : k.isParameter = true
  · have ht : getParamText ctx k b' off 0 [] = getParamText ctx k b off 0 [] := h [] (.mk n k sy cs) off ⟨rfl, hk, rfl⟩
    rw [ht]
  · rw [if_neg hk, if_neg hk]
theorem Elem.exportChildren_same {ctx : Ctx} {b b' : Board} (cs : List Elem) {off : Nat}
    (h : ∀ q f o, Elem.Params cs off q f o → getParamText ctx f.kind b' o 0 [] = getParamText ctx f.kind b o 0 []) :
    Elem.exportChildren ctx 0 b' cs off = Elem.exportChildren ctx 0 b cs off := by
  cases cs with
  | nil => rfl
  | cons c cs =>
    unfold Elem.exportChildren
    rw [Elem.exportXml_same (ctx := ctx) (b := b) (b' := b') c (off := off) (fun q f o hp =>
      h (0 :: q) f o (Elem.params_zero.2 hp)),
      Elem.exportChildren_same (ctx := ctx) (b := b) (b' := b') cs (off := off + c.footprint) (fun q f o hp => by
      cases q with
      | nil => simp [Elem.Params] at hp
      | cons j q => exact h ((j + 1) :: q) f o (Elem.params_succ.2 hp))]
end

theorem Area.toXml_same {root : Elem} {ctx : Ctx} {a a' : Area} (h : SameArea root a a') :
    a'.toXml root ctx = a.toXml root ctx := by
  obtain ⟨he, _, e, hat, _, hs⟩ := h
  obtain ⟨off, ho⟩ := Elem.offset_of_at (off := 0) hat
  unfold Area.toXml
  rw [he, hat, ho, Elem.path_some hat]
  simp only
  rw [Elem.exportXml_base e (Nat.le_refl off), Elem.exportXml_base e (Nat.le_refl off), Nat.sub_self,
    Elem.exportXml_same (b := a.board) (b' := a'.board) e (fun q f o hp => hs q f o o hp.1 hp.2.1 hp.2.2 hp.2.2 ctx)]

theorem areasToXml_same {root : Elem} {ctx : Ctx} {l l' : List Area} (h : Spec.Alike (SameArea root) l l') :
    areasToXml root ctx l' = areasToXml root ctx l := by
  induction l generalizing l' with
  | nil => rw [h.unnil]
  | cons a l ih =>
    obtain ⟨b, l1, rfl, h1, h2⟩ := h.uncons
    simp only [areasToXml, Area.toXml_same h1, ih h2]

mutual
theorem Rule.toXml_same {cs cs' : List Criterion} (h : SameNames cs cs') : (r : Rule) → r.toXml cs' = r.toXml cs
  | .crit i verb v => by
    have hi := h i
    unfold Rule.toXml
    cases h1 : cs[i]? <;> cases h2 : cs'[i]? <;> simp_all
  | .compound all ch => by
    unfold Rule.toXml
    rw [Rule.toXmlAll_same h ch]
theorem Rule.toXmlAll_same {cs cs' : List Criterion} (h : SameNames cs cs') :
    (rs : List Rule) → Rule.toXmlAll cs' rs = Rule.toXmlAll cs rs
  | [] => by simp [Rule.toXmlAll]
  | r :: rs => by
    unfold Rule.toXmlAll
    rw [Rule.toXml_same h r, Rule.toXmlAll_same h rs]
end

theorem Config.toXml_same {cs cs' : List Criterion} (hn : SameNames cs cs') {c c' : Config} (h : SameHeading c c') :
    c'.toXml cs' = c.toXml cs := by
  unfold Config.toXml
  rw [h.1, h.2]
  cases c.rule with
  | none => rfl
  | some r => simp only [Rule.toXml_same hn r]

theorem configsToXml_same {root : Elem} {cs cs' : List Criterion} (hn : SameNames cs cs') {l l' : List Config}
    (h : Spec.Alike (SameConfig root) l l') : configsToXml cs' l' = configsToXml cs l := by
  induction l generalizing l' with
  | nil => rw [h.unnil]; rfl
  | cons a l ih =>
    obtain ⟨b, l1, rfl, h1, h2⟩ := h.uncons
    simp only [configsToXml, Config.toXml_same hn h1.1, ih h2]

theorem settingsToXml_same {root : Elem} {ctx : Ctx} {l l' : List Config} (h : Spec.Alike (SameConfig root) l l') :
    settingsToXml root ctx l' = settingsToXml root ctx l := by
  induction l generalizing l' with
  | nil => rw [h.unnil]
  | cons a l ih =>
    obtain ⟨b, l1, rfl, h1, h2⟩ := h.uncons
    simp only [settingsToXml, areasToXml_same h1.2, ih h2, h1.1.1]

theorem Domain.toXml_same {root : Elem} {cs cs' : List Criterion} (hn : SameNames cs cs') {ctx : Ctx} {ws : Bool}
    {d d' : Domain} (h : SameDomain (SameConfig root) d d') : d'.toXml root cs' ctx ws = d.toXml root cs ctx ws := by
  obtain ⟨h1, h2, h3, h4⟩ := h
  unfold Domain.toXml
  rw [h1, h2, h3, configsToXml_same hn h4, settingsToXml_same h4]

theorem domainsToXml_same {root : Elem} {cs cs' : List Criterion} (hn : SameNames cs cs') {ctx : Ctx} {ws : Bool}
    {l l' : List Domain} (h : Spec.Alike (SameDomain (SameConfig root)) l l') :
    domainsToXml root cs' ctx ws l' = domainsToXml root cs ctx ws l := by
  induction l generalizing l' with
  | nil => rw [h.unnil]; rfl
  | cons a l ih =>
    obtain ⟨b, l1, rfl, h1, h2⟩ := h.uncons
    simp only [domainsToXml, Domain.toXml_same hn h1, ih h2]

theorem exportDomains_same {root : Elem} {st st' : St} (hn : SameNames st.criteria st'.criteria) {ctx : Ctx} {ws : Bool}
    (h : Spec.Alike (SameDomain (SameConfig root)) st.domains st'.domains) :
    st'.exportDomains root ctx ws = st.exportDomains root ctx ws := by
  unfold St.exportDomains
  rw [domainsToXml_same hn h]

end PF
