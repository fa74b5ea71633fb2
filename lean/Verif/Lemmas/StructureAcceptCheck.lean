import Verif.Lemmas.StructureAccept
import Verif.Lemmas.StructureCheck

/-!
# Checking that a document is to be accepted, by computation

Only used for the examples.
-/

namespace PF
open PF.Spec

variable {rd : Reader}

/-- The attribute, if any, is an unsigned number below 2^64. -/
def unsignedB (x : SXml) (name : Str) : Bool :=
  match x.attr name with
  | none => true
  | some t => (convertTo false 64 t).isSome

theorem unsignedB_ok {x : SXml} {name : Str} (h : unsignedB x name = true) :
    ∀ t, x.attr name = some t → ∃ n, UnsignedText t n ∧ n < 2 ^ 64 := by
  intro t ht
  unfold unsignedB at h
  rw [ht] at h
  simp only [Option.isSome_iff_exists] at h
  obtain ⟨n, hn⟩ := h
  rw [convertTo_iff] at hn
  simp only [Bool.false_eq_true, if_false, false_and, exists_false, false_or] at hn
  obtain ⟨⟨m, h, rfl⟩ | ⟨u, m, rfl, h, rfl⟩ | ⟨u, m, rfl, h, rfl⟩, hb⟩ := hn
  · exact ⟨m, .dec h, by omega⟩
  · exact ⟨m, .plus h, by omega⟩
  · exact ⟨m, .hex h, by omega⟩

/-- Checks `Legible`. -/
def legibleB (x : SXml) : Bool :=
  [s "ArrayLength", s "Size", s "MaxLength", s "Pos", s "Integral", s "Fractional"].all (unsignedB x) &&
  ((x.tag != s "BitParameter" &&
      (x.tag != s "IntegerParameter" || [some (s "1"), some (s "true"), some (s "TRUE")].contains (x.attr (s "Signed")))) ||
    [s "Min", s "Max"].all (unsignedB x)) &&
  (x.tag != s "BitParameter" ||
    (numB x "Pos").any fun p => (numB x "Size").any fun n => p + n < 18446744073709551616) &&
  (x.tag != s "FixedPointParameter" ||
    (numB x "Integral").any (fun i => (numB x "Fractional").any (fun f => i + f + 1 < 4294967296))) &&
  (match x.attr (s "Mapping") with
    | none => true
    | some raw => raw == [] || (MData.init raw).isSome)

theorem legibleB_ok {x : SXml} (h : legibleB x = true) : Legible x := by
  unfold legibleB at h
  simp only [Bool.and_eq_true, Bool.or_eq_true, bne_iff_ne, ne_eq, Option.any_eq_true, List.contains_iff_mem,
    List.all_eq_true, decide_eq_true_eq] at h
  obtain ⟨⟨⟨⟨h1, h2⟩, h3⟩, h4⟩, h5⟩ := h
  refine ⟨fun name hn => unsignedB_ok (h1 name hn), fun hb name hn t ht => ?_, fun htag p n hp hn => ?_,
    fun htag i f hi hf => ?_, ?_⟩
  · rcases h2 with ⟨h2, h2'⟩ | h2
    · rcases hb with hb | ⟨hb, hs⟩
      · exact absurd hb h2
      · rcases h2' with h2' | h2'
        · exact absurd hb h2'
        · exfalso
          rcases hs with ⟨hs, -⟩ | ⟨u, hs, hu, -⟩ | ⟨_, _, _, hs⟩
          · rw [hs] at h2'; simp at h2'
          · rw [hs] at h2'
            simp only [List.mem_cons, Option.some.injEq, List.not_mem_nil, or_false] at h2' hu
            rcases h2' with rfl | rfl | rfl <;> rcases hu with hu | hu | hu <;> exact absurd hu (by decide)
          · cases hs
    · exact (unsignedB_ok (h2 name hn) t ht).imp fun _ h => h.1
  · rcases h3 with h3 | ⟨p', hp', n', hn', h3⟩
    · exact absurd htag h3
    · rw [NumAttr.unique hp (numB_ok hp'), NumAttr.unique hn (numB_ok hn')]
      omega
  · rcases h4 with h4 | ⟨i', hi', f', hf', h4⟩
    · exact absurd htag h4
    · rw [NumAttr.unique hi (numB_ok hi'), NumAttr.unique hf (numB_ok hf')]
      omega
  · cases ha : x.attr (s "Mapping") with
    | none => exact ⟨[], .none (.inl ha) .nil⟩
    | some raw =>
      rw [ha] at h5
      simp only [Bool.or_eq_true, beq_iff_eq, Option.isSome_iff_exists] at h5
      by_cases hr : raw = []
      · exact ⟨[], .none (.inr (hr ▸ ha)) .nil⟩
      · obtain ⟨m, hm⟩ := h5.resolve_left hr
        exact ⟨[m], .some ha hr hm .nil⟩

/-- Checks `Refers`. -/
def refersB (lib : List SXml) (direct : Bool) (n : Str) : Bool :=
  match findType (lib.map typeName) n with
  | none => false
  | some i => !direct || i + 1 < lib.length

theorem refersB_ok {lib : List SXml} {direct : Bool} {n : Str} (h : refersB lib direct n = true) :
    Refers lib direct n := by
  unfold refersB at h
  split at h
  · cases h
  · rename_i i hi
    simp only [Bool.or_eq_true, Bool.not_eq_true', decide_eq_true_eq] at h
    unfold findType at hi
    rw [List.findIdx?_eq_some_iff_getElem] at hi
    obtain ⟨hlt, h1, h2⟩ := hi
    rw [List.length_map] at hlt
    refine ⟨lib.take i, lib[i], lib.drop (i + 1), ?_, by simpa using h1, ?_, ?_⟩
    · rw [List.getElem_cons_drop, List.take_append_drop]
    · intro u hu
      obtain ⟨j, hj, rfl⟩ := List.getElem_of_mem hu
      simp only [List.length_take] at hj
      have := h2 j (by omega)
      simpa using this
    · intro hd he
      rcases h with h | h
      · rw [hd] at h; cases h
      · rw [List.drop_eq_nil_iff] at he; omega

/-- Is it a result. -/
def okB {α : Type} : Out α → Bool
  | .ok _ => true
  | _ => false

theorem okB_ok {α : Type} {o : Out α} (h : okB o = true) : ∃ a, o = .ok a := by
  cases o with
  | ok a => exact ⟨a, rfl⟩
  | err => cases h
  | abort => cases h

mutual
/-- Checks `Accepted`. -/
def acceptB (rd : Reader) (lib : List SXml) (direct : Bool) (blk : Option Nat) : SXml → Bool
  | .mk tag attrs cs =>
    legibleB (.mk tag attrs cs) &&
    (if tag = s "BooleanParameter" then cs.isEmpty
     else if tag = s "IntegerParameter" then
       okB (loadInt (.mk tag attrs cs)) && cs.all (fun c =>
         [s "LinearAdaptation", s "LogarithmicAdaptation"].contains c.tag && c.children.isEmpty)
     else if tag = s "EnumParameter" then
       ((SXml.mk tag attrs cs).attr (s "Size")).isSome && cs.all (fun c => c.children.isEmpty) &&
       okB ((loadElems rd [] .other cs).bind enumPairs)
     else if tag = s "FixedPointParameter" then okB (loadFixed (.mk tag attrs cs)) && cs.isEmpty
     else if tag = s "FloatingPointParameter" then okB (loadFloat rd (.mk tag attrs cs)) && cs.isEmpty
     else if tag = s "StringParameter" then cs.isEmpty
     else if tag = s "BitParameter" then
       (match blk with
        | none => false
        | some size => okB (loadBit size (.mk tag attrs cs))) && cs.isEmpty
     else if tag = s "BitParameterBlock" then
       (match (SXml.mk tag attrs cs).size (s "Size") 0 with
        | .ok n => acceptAllB rd lib false (some (n / 8)) cs
        | _ => false)
     else if tag = s "ParameterBlock" then acceptAllB rd lib false none cs
     else if tag = s "Component" then
       (match (SXml.mk tag attrs cs).attr (s "Type") with
        | none => false
        | some n => refersB lib direct n) && acceptAllB rd lib false none cs
     else false)
/-- Checks `Accepted` of all. -/
def acceptAllB (rd : Reader) (lib : List SXml) (direct : Bool) (blk : Option Nat) : List SXml → Bool
  | [] => true
  | x :: xs => acceptB rd lib direct blk x && acceptAllB rd lib direct blk xs
end

mutual
theorem acceptB_ok {lib : List SXml} {direct : Bool} {blk : Option Nat} :
    ∀ x, acceptB rd lib direct blk x = true → Accepted rd lib direct blk x
  | .mk tag attrs cs, h => by
    unfold acceptB at h
    rw [Bool.and_eq_true] at h
    obtain ⟨hl, h⟩ := h
    have hl := legibleB_ok hl
    by_cases htag : tag = s "BooleanParameter"
    · rw [if_pos htag] at h
      have hcs : cs = [] := by simpa using h
      exact .scalar (.bool htag) hl ⟨fun h => by rw [show tag = _ from h] at htag; exact absurd htag (by decide),
        fun h => by rw [show tag = _ from h] at htag; exact absurd htag (by decide), fun _ _ => hcs⟩
    rw [if_neg htag] at h; clear htag
    by_cases htag : tag = s "IntegerParameter"
    · rw [if_pos htag, Bool.and_eq_true] at h
      obtain ⟨u, hu⟩ := okB_ok h.1
      refine .scalar (loadInt_ok htag hu) hl ⟨fun h => by rw [show tag = _ from h] at htag; exact absurd htag (by decide),
        fun _ c hc => ?_, fun _ h => absurd htag h⟩
      have := List.all_eq_true.1 h.2 c hc
      simpa using this
    rw [if_neg htag] at h; clear htag
    by_cases htag : tag = s "EnumParameter"
    · rw [if_pos htag, Bool.and_eq_true, Bool.and_eq_true] at h
      obtain ⟨ps, hps⟩ := okB_ok h.2
      obtain ⟨ts, hts, hps⟩ := Out.bind_ok.1 hps
      obtain ⟨n, hn⟩ := NumAttr.exists 0 (hl.sizes (s "Size") (by simp))
      refine .scalar (.enum htag ?_ hn (enumPairs_ok hts hps)) hl ⟨fun _ c hc => ?_,
        fun h => by rw [show tag = _ from h] at htag; exact absurd htag (by decide), fun h _ => absurd htag h⟩
      · intro he; have := h.1.1; rw [he] at this; cases this
      · have := List.all_eq_true.1 h.1.2 c hc
        simpa using this
    rw [if_neg htag] at h; clear htag
    by_cases htag : tag = s "FixedPointParameter"
    · rw [if_pos htag, Bool.and_eq_true] at h
      obtain ⟨u, hu⟩ := okB_ok h.1
      have hcs : cs = [] := by simpa using h.2
      exact .scalar (loadFixed_ok htag hu) hl ⟨fun h => by rw [show tag = _ from h] at htag; exact absurd htag (by decide),
        fun h => by rw [show tag = _ from h] at htag; exact absurd htag (by decide), fun _ _ => hcs⟩
    rw [if_neg htag] at h; clear htag
    by_cases htag : tag = s "FloatingPointParameter"
    · rw [if_pos htag, Bool.and_eq_true] at h
      obtain ⟨u, hu⟩ := okB_ok h.1
      have hcs : cs = [] := by simpa using h.2
      exact .scalar (loadFloat_ok htag hu) hl ⟨fun h => by rw [show tag = _ from h] at htag; exact absurd htag (by decide),
        fun h => by rw [show tag = _ from h] at htag; exact absurd htag (by decide), fun _ _ => hcs⟩
    rw [if_neg htag] at h; clear htag
    by_cases htag : tag = s "StringParameter"
    · rw [if_pos htag] at h
      have hcs : cs = [] := by simpa using h
      exact .string htag hl hcs
    rw [if_neg htag] at h; clear htag
    by_cases htag : tag = s "BitParameter"
    · rw [if_pos htag, Bool.and_eq_true] at h
      have hcs : cs = [] := by simpa using h.2
      cases blk with
      | none => cases h.1
      | some size =>
        obtain ⟨u, hu⟩ := okB_ok h.1
        exact .bit (loadBit_ok htag hu) hl hcs
    rw [if_neg htag] at h; clear htag
    by_cases htag : tag = s "BitParameterBlock"
    · rw [if_pos htag] at h
      split at h
      · rename_i n hn
        exact .bitBlock htag hl (SXml.size_ok (by decide) hn).1 (acceptAllB_ok cs h)
      · cases h
    rw [if_neg htag] at h; clear htag
    by_cases htag : tag = s "ParameterBlock"
    · rw [if_pos htag] at h
      exact .block htag hl (acceptAllB_ok cs h)
    rw [if_neg htag] at h; clear htag
    by_cases htag : tag = s "Component"
    · rw [if_pos htag, Bool.and_eq_true] at h
      have h1 := h.1
      split at h1
      · cases h1
      · rename_i n hn
        exact .comp htag hl hn (refersB_ok h1) (acceptAllB_ok cs h.2)
    rw [if_neg htag] at h
    cases h
theorem acceptAllB_ok {lib : List SXml} {direct : Bool} {blk : Option Nat} :
    ∀ xs, acceptAllB rd lib direct blk xs = true → ∀ x ∈ xs, Accepted rd lib direct blk x
  | [], _, x, hx => by cases hx
  | y :: ys, h, x, hx => by
    rw [acceptAllB, Bool.and_eq_true] at h
    exact (List.mem_cons.1 hx).elim (fun e => e ▸ acceptB_ok y h.1) (fun hx => acceptAllB_ok ys h.2 x hx)
end

/-- Checks `TypeAccepted`. -/
def typeAcceptB (rd : Reader) (before : List SXml) (t : SXml) : Bool :=
  t.tag == s "ComponentType" && legibleB t &&
  (match t.attr (s "Extends") with
   | none => true
   | some n => refersB (before ++ [t]) true n) && acceptAllB rd (before ++ [t]) true none t.children

theorem typeAcceptB_ok {before : List SXml} {t : SXml} (h : typeAcceptB rd before t = true) :
    TypeAccepted rd before t := by
  unfold typeAcceptB at h
  simp only [Bool.and_eq_true, beq_iff_eq] at h
  obtain ⟨⟨⟨h1, h2⟩, h3⟩, h4⟩ := h
  refine ⟨h1, legibleB_ok h2, fun n hn => ?_, acceptAllB_ok _ h4⟩
  rw [hn] at h3
  exact refersB_ok h3

/-- Checks all the types after `before`. -/
def typesAcceptB (rd : Reader) : List SXml → List SXml → Bool
  | _, [] => true
  | before, t :: ts => typeAcceptB rd before t && typesAcceptB rd (before ++ [t]) ts

theorem typesAcceptB_ok : ∀ {ts pre : List SXml}, typesAcceptB rd pre ts = true → ∀ before t after,
    pre.length ≤ before.length → pre ++ ts = before ++ t :: after → TypeAccepted rd before t
  | [], pre, _, before, t, after, hlen, he => by
    have := congrArg List.length he
    simp at this; omega
  | u :: us, pre, h, before, t, after, hlen, he => by
    rw [typesAcceptB, Bool.and_eq_true] at h
    by_cases hl : pre.length = before.length
    · obtain ⟨hp, he'⟩ := List.append_inj he hl
      subst hp
      injection he' with e1 e2
      subst e1
      exact typeAcceptB_ok h.1
    · exact typesAcceptB_ok h.2 before t after (by simp; omega) (by simpa using he)

theorem documentAccepted_check {x libx defx : SXml} (hc : x.children = [libx, defx])
    (h1 : libx.tag = s "ComponentLibrary") (h2 : defx.tag = s "InstanceDefinition")
    (h : (legibleB x && typesAcceptB rd [] (typesInAll libx.children) && legibleB defx &&
      acceptAllB rd (typesInAll libx.children) false none defx.children) = true) :
    DocumentAccepted rd x (typesInAll libx.children) defx := by
  simp only [Bool.and_eq_true] at h
  obtain ⟨⟨⟨a, b⟩, c⟩, d⟩ := h
  exact ⟨⟨libx, hc, h1, h2, rfl⟩, (legibleB_ok a).mapping,
    fun before t after he => typesAcceptB_ok b before t after (by simp) (by simpa using he), legibleB_ok c,
    acceptAllB_ok _ d⟩

end PF
