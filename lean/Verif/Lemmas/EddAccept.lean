import Verif.Lemmas.EddCommands

/-!
# Lemmas: which descriptions are translated
-/

namespace PF
open Spec

theorem pyLe_total : ∀ a b : Str, pyLe a b = true ∨ pyLe b a = true
  | [], _ => .inl rfl
  | _ :: _, [] => .inr rfl
  | a :: as, b :: bs => by
    simp only [pyLe]
    by_cases h : a = b
    · subst h; simpa using pyLe_total as bs
    · have h' : ¬ b = a := fun e => h e.symm
      simp only [h, h', if_false, decide_eq_true_eq]
      have : a.toNat ≠ b.toNat := fun e => h (Char.ext (UInt32.toNat_inj.1 e))
      omega

theorem pyLe_antisymm : ∀ a b : Str, pyLe a b = true → pyLe b a = true → a = b
  | [], [], _, _ => rfl
  | [], _ :: _, _, h => by simp [pyLe] at h
  | _ :: _, [], h, _ => by simp [pyLe] at h
  | a :: as, b :: bs, h1, h2 => by
    simp only [pyLe] at h1 h2
    by_cases h : a = b
    · subst h
      simp only [if_true] at h1 h2
      rw [pyLe_antisymm as bs h1 h2]
    · have h' : ¬ b = a := fun e => h e.symm
      simp only [h, h', if_false, decide_eq_true_eq] at h1 h2
      omega

theorem pyLe_trans : ∀ a b c : Str, pyLe a b = true → pyLe b c = true → pyLe a c = true
  | [], _, _, _, _ => rfl
  | _ :: _, [], _, h, _ => by simp [pyLe] at h
  | _ :: _, _ :: _, [], _, h => by simp [pyLe] at h
  | a :: as, b :: bs, c :: cs, h1, h2 => by
    simp only [pyLe] at h1 h2 ⊢
    by_cases hab : a = b
    · subst hab
      simp only [if_true] at h1
      by_cases hac : a = c
      · subst hac
        simp only [if_true] at h2 ⊢
        exact pyLe_trans as bs cs h1 h2
      · simpa [hac] using h2
    · simp only [hab, if_false, decide_eq_true_eq] at h1
      by_cases hbc : b = c
      · subst hbc; simpa [hab] using h1
      · simp only [hbc, if_false, decide_eq_true_eq] at h2
        have : a ≠ c := by rintro rfl; omega
        simp only [this, if_false, decide_eq_true_eq]
        omega

theorem pyInsert_comm (a b : Str) : ∀ l, pyInsert a (pyInsert b l) = pyInsert b (pyInsert a l)
  | [] => by
    simp only [pyInsert]
    rcases pyLe_total a b with h | h <;> by_cases h' : pyLe a b = true <;> by_cases h'' : pyLe b a = true
    all_goals first
      | (have := pyLe_antisymm a b h' h''; subst this; simp [h'])
      | simp_all
  | x :: xs => by
    have ih := pyInsert_comm a b xs
    simp only [pyInsert]
    by_cases ha : pyLe a x = true <;> by_cases hb : pyLe b x = true
    · simp only [ha, hb, if_true, pyInsert]
      rcases pyLe_total a b with h | h <;> by_cases h' : pyLe a b = true <;> by_cases h'' : pyLe b a = true
      all_goals first
        | (have := pyLe_antisymm a b h' h''; subst this; simp [h'])
        | simp_all
    · have h1 : pyLe b a = false := by
        rw [Bool.eq_false_iff]; intro h; exact hb (pyLe_trans _ _ _ h ha)
      have h2 : pyLe b x = false := by simpa using hb
      simp [ha, h1, h2, pyInsert]
    · have h1 : pyLe a b = false := by
        rw [Bool.eq_false_iff]; intro h; exact ha (pyLe_trans _ _ _ h hb)
      have h2 : pyLe a x = false := by simpa using ha
      simp [hb, h1, h2, pyInsert]
    · have h1 : pyLe b x = false := by simpa using hb
      have h2 : pyLe a x = false := by simpa using ha
      simp [h1, h2, pyInsert, ih]

theorem pySort_congr {a b : List Str} (h : a.Perm b) : pySort a = pySort b := by
  induction h with
  | nil => rfl
  | cons x _ ih => simp [pySort, ih]
  | swap x y l => simp only [pySort]; exact pyInsert_comm ..
  | trans _ _ ih1 ih2 => exact ih1.trans ih2

theorem eddUnicity_of_perm {kids : List EddNode} (h : ∀ a ∈ eddConfElements kids, ∀ b ∈ eddConfElements kids, a.Perm b) :
    eddUnicity kids = true := by
  unfold eddUnicity
  cases e : eddConfElements kids with
  | nil => rfl
  | cons first others =>
    rw [e] at h
    simp only [List.all_eq_true, beq_iff_eq]
    intro x hx
    exact pySort_congr (h x (by simp [hx]) first (by simp))

theorem eddUnicity_sound {m : EddNode} (h : EddSound m) (hd : m.el.isDomain = true ∨ m.el.isDomainGroup = true) {ctx : EddCtx}
    {scope rules : List EddNode} (hg : ctx.groups = scope.map eddGroupOf) (hr : ∀ r ∈ ctx.rules, r.el.isRule = true)
    (hr' : ∀ r ∈ rules, r.el.isRule = true) (hp : ctx.paths = []) : eddUnicity (rules ++ (eddPropagateAll ctx m.kids).2) = true := by
  apply eddUnicity_of_perm
  rw [eddConfElements_rules hr']
  have hperm := eddConfElements_perm m.kids [] _ ctx hg hr
  simp only [hp, List.nil_append] at hperm
  intro a ha b hb
  obtain ⟨x, hx, rfl⟩ := List.mem_map.1 (hperm.mem_iff.1 ha)
  obtain ⟨y, hy, rfl⟩ := List.mem_map.1 (hperm.mem_iff.1 hb)
  exact (eddSettings_names x.2.2).trans ((h.same hd x hx y hy).trans (eddSettings_names y.2.2).symm)

theorem eddAfter_groups' {ctx : EddCtx} {scope : List EddNode} (n : EddNode) (h : ctx.groups = scope.map eddGroupOf) :
    ∃ scope' : List EddNode, (eddAfter ctx n).groups = scope'.map eddGroupOf :=
  ⟨_, eddAfter_groups (scope := scope) (pre := []) n (by simpa using h)⟩

mutual
theorem eddUndefined_sound : ∀ (n : EddNode) (scope : List EddNode) (ctx : EddCtx), EddEvery EddSound n →
    ctx.groups = scope.map eddGroupOf → (∀ r ∈ ctx.rules, r.el.isRule = true) → ctx.paths = [] →
    eddUndefined (eddPropagate ctx n).2 = none
  | .mk (.domain m a) k, scope, ctx, hs, hg, hr, hp => by
    have hr' : ∀ r ∈ (ctx.inDomain m a k).rules, r.el.isRule = true := by
      intro r h
      simp only [EddCtx.inDomain] at h
      rcases List.mem_append.1 h with h | h
      · exact hr r h
      · exact eddRules_isRule r h
    simp only [EddEvery] at hs
    simp only [eddPropagate, eddUndefined]
    rw [eddUndefinedAll_rules hr, eddUndefinedAll_sound k scope (ctx.inDomain m a k) hs.2 hg hr' hp]
    have := eddUnicity_sound hs.1 (.inl rfl) (ctx := ctx.inDomain m a k) hg hr' hr hp
    simp only [EddNode.kids_mk] at this
    rw [this]; rfl
  | .mk (.domainGroup m a) k, scope, ctx, hs, hg, hr, hp => by
    have hr' : ∀ r ∈ (ctx.inDomain m a k).rules, r.el.isRule = true := by
      intro r h
      simp only [EddCtx.inDomain] at h
      rcases List.mem_append.1 h with h | h
      · exact hr r h
      · exact eddRules_isRule r h
    simp only [EddEvery] at hs
    simp only [eddPropagate, eddUndefined]
    rw [eddUndefinedAll_rules hr, eddUndefinedAll_sound k scope (ctx.inDomain m a k) hs.2 hg hr' hp]
    have := eddUnicity_sound hs.1 (.inr rfl) (ctx := ctx.inDomain m a k) hg hr' hr hp
    simp only [EddNode.kids_mk] at this
    rw [this]; rfl
  | .mk .root k, _, ctx, _, _, _, _ => by simp [eddPropagate, eddUndefined]
  | .mk (.conf _) k, _, ctx, _, _, _, _ => by simp [eddPropagate, eddUndefined]
  | .mk (.confGroup _) k, _, ctx, _, _, _, _ => by simp [eddPropagate, eddUndefined]
  | .mk (.path _ _) k, _, ctx, _, _, _, _ => by simp [eddPropagate, eddUndefined]
  | .mk (.component _) k, _, ctx, _, _, _, _ => by simp [eddPropagate, eddUndefined]
  | .mk (.operator _) k, _, ctx, _, _, _, _ => by simp [eddPropagate, eddUndefined]
  | .mk (.rule _ _ _) k, _, ctx, _, _, _, _ => by simp [eddPropagate, eddUndefined]
theorem eddUndefinedAll_sound : ∀ (ks : List EddNode) (scope : List EddNode) (ctx : EddCtx), EddEveryAll EddSound ks →
    ctx.groups = scope.map eddGroupOf → (∀ r ∈ ctx.rules, r.el.isRule = true) → ctx.paths = [] →
    eddUndefinedAll (eddPropagateAll ctx ks).2 = none
  | [], _, ctx, _, _, _, _ => by rw [eddPropagateAll_nil]; rfl
  | k :: ks, scope, ctx, hs, hg, hr, hp => by
    simp only [EddEveryAll] at hs
    obtain ⟨scope', hg'⟩ := eddAfter_groups' k hg
    rw [eddPropagateAll_cons, eddUndefinedAll, eddUndefined_sound k scope ctx hs.1 hg hr hp,
      eddUndefinedAll_sound ks scope' _ hs.2 hg' (by simpa using hr) (by simpa using hp)]
end

theorem EddEveryAll_mem {P : EddNode → Prop} : ∀ {ks : List EddNode}, EddEveryAll P ks → ∀ k ∈ ks, EddEvery P k
  | [], _ => by simp
  | k :: ks, h => by
    simp only [EddEveryAll] at h
    intro x hx
    rcases List.mem_cons.1 hx with rfl | hx
    · exact h.1
    · exact EddEveryAll_mem h.2 x hx

theorem EddEvery_kids {P : EddNode → Prop} {n : EddNode} (h : EddEvery P n) : EddEveryAll P n.kids := by
  obtain ⟨e, k⟩ := n
  simp only [EddEvery] at h
  exact h.2

mutual
theorem eddRuleText_sound : ∀ (n : EddNode) (pre : Str), EddEvery EddSound n → n.el.isRule = true → ∃ t, eddRuleText pre n = some t
  | .mk (.rule c v e) k, pre, _, _ => ⟨_, rfl⟩
  | .mk (.operator m) k, pre, h, _ => by
    simp only [EddEvery] at h
    obtain ⟨ts, hts⟩ := eddRuleTexts_sound k (pre ++ s "    ") h.2
    rcases h.1.operator m rfl with rfl | rfl
    · simp only [eddRuleText, hts]; exact ⟨_, rfl⟩
    · simp only [eddRuleText, hts]; exact ⟨_, rfl⟩
  | .mk .root k, _, _, h => by simp [EddElem.isRule] at h
  | .mk (.conf _) k, _, _, h => by simp [EddElem.isRule] at h
  | .mk (.confGroup _) k, _, _, h => by simp [EddElem.isRule] at h
  | .mk (.path _ _) k, _, _, h => by simp [EddElem.isRule] at h
  | .mk (.component _) k, _, _, h => by simp [EddElem.isRule] at h
  | .mk (.domain _ _) k, _, _, h => by simp [EddElem.isRule] at h
  | .mk (.domainGroup _ _) k, _, _, h => by simp [EddElem.isRule] at h
theorem eddRuleTexts_sound : ∀ (ks : List EddNode) (pre : Str), EddEveryAll EddSound ks → ∃ ts, eddRuleTexts pre ks = some ts
  | [], _, _ => ⟨_, rfl⟩
  | k :: ks, pre, h => by
    simp only [EddEveryAll] at h
    obtain ⟨ts, hts⟩ := eddRuleTexts_sound ks pre h.2
    simp only [eddRuleTexts]
    split
    next hk =>
      obtain ⟨t, ht⟩ := eddRuleText_sound k pre h.1 hk
      rw [ht, hts]; exact ⟨_, rfl⟩
    · exact ⟨ts, hts⟩
end

theorem EddEveryAll_of {P : EddNode → Prop} : ∀ {ks : List EddNode}, (∀ k ∈ ks, EddEvery P k) → EddEveryAll P ks
  | [], _ => by simp [EddEveryAll]
  | k :: ks, h => by
    simp only [EddEveryAll]
    exact ⟨h k (by simp), EddEveryAll_of fun x hx => h x (by simp [hx])⟩

theorem eddRuleString_sound {ks : List EddNode} (h : ∀ k ∈ ks, EddEvery EddSound k) : ∃ t, eddRuleString ks = some t := by
  have h' : ∀ k ∈ eddRules ks, EddEvery EddSound k := fun k hk => h k (List.mem_filter.1 hk).1
  unfold eddRuleString
  split
  next n k e =>
    exact eddRuleText_sound _ _ (h' _ (by rw [e]; simp)) rfl
  · obtain ⟨ts, hts⟩ := eddRuleTexts_sound (eddRules ks) ([] ++ s "    ") (EddEveryAll_of h')
    rw [eddRuleText, hts]
    exact ⟨_, rfl⟩

/-- The rules along a way are elements of the tree. -/
theorem eddRulesAlong_every {P : EddNode → Prop} : ∀ (ch : EddChain) (scope : List EddNode), (∀ g ∈ scope, EddEvery P g) →
    (∀ x ∈ ch, EddEvery P x.2 ∧ ∀ g ∈ x.1, EddEvery P g) → ∀ r ∈ eddRulesAlong scope ch, EddEvery P r
  | [], _, _, _ => by simp [eddRulesAlong]
  | (pre, n) :: rest, scope, hs, hc => by
    intro r hr
    have hn := hc (pre, n) (by simp)
    have hown : ∀ m, EddEvery P m → ∀ r ∈ eddOwnRules m, EddEvery P r := fun m hm r hr =>
      EddEveryAll_mem (EddEvery_kids hm) r (List.mem_filter.1 hr).1
    have hscope : ∀ g ∈ scope ++ pre.filter (fun k => k.el.isConfGroup), EddEvery P g := by
      intro g hg
      rcases List.mem_append.1 hg with hg | hg
      · exact hs g hg
      · exact hn.2 g (List.mem_filter.1 hg).1
    simp only [eddRulesAlong] at hr
    rcases List.mem_append.1 hr with hr | hr
    · rcases List.mem_append.1 hr with hr | hr
      · split at hr
        · obtain ⟨g, hg, hr⟩ := List.mem_flatMap.1 hr
          exact hown g (hscope g (List.mem_filter.1 hg).1) r hr
        · simp at hr
      · exact hown n hn.1 r hr
    · refine eddRulesAlong_every rest _ ?_ (fun x hx => hc x (by simp [hx])) r hr
      intro g hg
      rcases List.mem_append.1 hg with hg | hg
      · exact hscope g hg
      · split at hg
        · rw [List.mem_singleton.1 hg]; exact hn.1
        · simp at hg

theorem EddBelow_every {P : EddNode → Prop} {ks : List EddNode} {ch : EddChain} (h : EddBelow ks ch) : EddEveryAll P ks →
    ∀ x ∈ ch, EddEvery P x.2 ∧ ∀ g ∈ x.1, EddEvery P g := by
  induction h with
  | here pre n post =>
    intro hk x hx
    rw [List.mem_singleton.1 hx]
    exact ⟨EddEveryAll_mem hk _ (by simp), fun g hg => EddEveryAll_mem hk _ (by simp [hg])⟩
  | deeper pre n post _ ih =>
    intro hk x hx
    have hn : EddEvery P n := EddEveryAll_mem hk _ (by simp)
    rcases List.mem_cons.1 hx with rfl | hx
    · exact ⟨hn, fun g hg => EddEveryAll_mem hk _ (by simp [hg])⟩
    · exact ih (EddEvery_kids hn) x hx

theorem eddSeq_total {α : Type} : ∀ {l : List (Option (List α))}, (∀ o ∈ l, ∃ x, o = some x) → ∃ r, eddSeq l = some r
  | [], _ => ⟨_, rfl⟩
  | o :: l, h => by
    obtain ⟨x, rfl⟩ := h o (by simp)
    obtain ⟨r, hr⟩ := eddSeq_total fun o ho => h o (List.mem_cons_of_mem _ ho)
    simp only [eddSeq, hr]
    exact ⟨_, rfl⟩

theorem EddDomsRes.total {xs : List (EddChain × (List EddNode × EddNode))} {o : Option (List EddCmd)} (h : EddDomsRes [] [] [] xs o) :
    (∀ x ∈ xs, ∀ y ∈ eddConfChains [] x.2.2.kids, ∃ t, eddRuleString (eddRulesAlong [] (x.1 ++ x.2 :: (y.1 ++ [y.2]))) = some t) →
    ∃ cmds, o = some cmds := by
  induction h with
  | nil => exact fun _ => ⟨_, rfl⟩
  | @cons x xs head r hh _ ih =>
    intro hx
    obtain ⟨r', rfl⟩ := ih fun y hy => hx y (List.mem_cons_of_mem _ hy)
    have : ∃ l, eddDomRes head [] [] [] x = some l := by
      simp only [eddDomRes]
      obtain ⟨c, hc⟩ := eddSeq_total (l := (eddConfChains [] x.2.2.kids).map fun y =>
        eddBlock (pyJoin (s ".") ((([] : List (Str × Bool)) ++ (x.1 ++ [x.2]).map fun y => (y.2.el.name, y.2.el.aware)).map (·.1)))
          ((([] : List (Str × Bool)) ++ (x.1 ++ [x.2]).map fun y => (y.2.el.name, y.2.el.aware)).any (·.2))
          ((y.1 ++ [y.2]).map fun z => z.2.el.name) ([] ++ eddRulesAlong [] (x.1 ++ x.2 :: (y.1 ++ [y.2]))) [] y.2.2.kids) (by
        intro o ho
        obtain ⟨y, hy, rfl⟩ := List.mem_map.1 ho
        obtain ⟨t, ht⟩ := hx x (by simp) y hy
        simp only [eddBlock, List.nil_append, ht]
        exact ⟨_, rfl⟩)
      rw [hc]
      exact ⟨_, rfl⟩
    obtain ⟨l, hl⟩ := this
    rw [hl]
    exact ⟨_, rfl⟩

theorem eddCommands_sound {lines : List Str} {tree : EddNode} (hp : eddParse lines = .ok tree) (h : EddEvery EddSound tree) :
    ∃ cmds, eddCommands lines = .ok cmds := by
  unfold eddCommands
  rw [hp]
  obtain ⟨e, kids⟩ := tree
  have he : e = .root := ((eddParse_iff ..).1 hp).1
  subst he
  have hk : EddEveryAll EddSound kids := EddEvery_kids h
  simp only [eddPropagate, EddNode.kids_mk]
  have hu := eddUndefinedAll_sound kids [] .empty hk rfl (by simp [EddCtx.empty]) rfl
  have ht := eddTranslateAll_propagate kids [] [] .empty rfl (by simp [EddCtx.empty]) rfl rfl hu
  obtain ⟨cmds, hc⟩ := ht.total (by
    rintro ⟨gs, d⟩ hx ⟨cs, c⟩ hy
    apply eddRuleString_sound
    have hb := ((EddConfAt_iff (tree := .mk .root kids)).2 ⟨hx, hy⟩).below
    exact eddRulesAlong_every _ [] (by simp) (EddBelow_every hb hk))
  rw [hu, hc]
  exact ⟨_, rfl⟩

end PF
