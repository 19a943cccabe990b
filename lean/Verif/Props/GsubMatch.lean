import Verif.Props.GsubContext

/-!
C55: the rules read from a contextual subtable match where the subtable says, with the lookups it says.
-/

namespace FT.Props
open FT FT.Gsub FT.Lay FT.Off

/-! ### Specification: what the binary formats mean (OpenType, "Sequence context" / "Chained sequence context") -/

/-- Lookups to apply at each of `n` input positions. -/
def perPosition (recs : List LookupRec) (n : Nat) : List (List UInt16) :=
  (List.range n).map (fun i => (recs.filter (fun r => r.1.toNat == i)).map Prod.snd)

/-- The glyphs at the beginning of the text have the given classes. -/
def classesMatch (cls : ClassMap) : List UInt16 → List UInt16 → Bool
  | [], _ => true
  | _ :: _, [] => false
  | c :: l, g :: t => classOf cls g == c && classesMatch cls l t

/-- The glyphs at the beginning of the text are in the given coverages. -/
def coveragesMatch : List Cov → List UInt16 → Bool
  | [], _ => true
  | _ :: _, [] => false
  | c :: l, g :: t => (covGlyphs c).contains g && coveragesMatch l t

/-- First rule of a rule set that matches. -/
def firstRule {R β : Type} (set : Option (List (Option R))) (f : R → Option β) : Option β :=
  match set with
  | some rules => (rules.filterMap id).findSome? f
  | none => none

/-- The rule set of a glyph in a glyph-based subtable. -/
def setOfGlyph {R : Type} (cov : Cov) (sets : List (Option (List (Option R)))) (g : UInt16) :
    Option (List (Option R)) :=
  match ((covGlyphs cov).zip sets).find? (fun x => x.1 == g) with
  | some (_, s) => s
  | none => none

/-- Lookups a plain context subtable applies at the beginning of `text`, by input position; `none` if it does not
match. -/
def contextMatch : Sub → List UInt16 → Option (List (List UInt16))
  | .s5_1 cov sets, g :: rest =>
    firstRule (setOfGlyph cov sets g) (fun r =>
      if r.input <+: rest then some (perPosition r.recs (r.input.length + 1)) else none)
  | .s5_2 cov cls sets, g :: rest =>
    if g ∈ covGlyphs cov then
      firstRule (sets[(classOf (cls.getD []) g).toNat]?.getD none) (fun r =>
        if classesMatch (cls.getD []) r.input rest then some (perPosition r.recs (r.input.length + 1)) else none)
    else none
  | .s5_3 _ _ covs recs, text =>
    if coveragesMatch covs text then some (perPosition recs covs.length) else none
  | _, _ => none

/-- The same for chained contexts; `before` is the text before, nearest glyph first. -/
def chainMatch : Sub → (before text : List UInt16) → Option (List (List UInt16))
  | .s6_1 cov sets, before, g :: rest =>
    firstRule (setOfGlyph cov sets g) (fun r =>
      if r.backtrack <+: before ∧ r.input <+: rest ∧ r.lookahead <+: rest.drop r.input.length then
        some (perPosition r.recs (r.input.length + 1)) else none)
  | .s6_2 cov b i a sets, before, g :: rest =>
    if g ∈ covGlyphs cov then
      firstRule (sets[(classOf (i.getD []) g).toNat]?.getD none) (fun r =>
        if classesMatch (b.getD []) r.backtrack before ∧ classesMatch (i.getD []) r.input rest ∧
            classesMatch (a.getD []) r.lookahead (rest.drop r.input.length) then
          some (perPosition r.recs (r.input.length + 1)) else none)
    else none
  | .s6_3 b i a recs, before, text =>
    if coveragesMatch b before ∧ coveragesMatch i text ∧ coveragesMatch a (text.drop i.length) then
      some (perPosition recs i.length) else none
  | _, _, _ => none

/-! ### Specification: what the user-facing rules mean -/

/-- The glyphs at the beginning of the text are in the slots. -/
def slotsMatch : List Slot → List UInt16 → Bool
  | [], _ => true
  | _ :: _, [] => false
  | s :: l, g :: t => s.contains g && slotsMatch l t

def rulesMatch (rules : List CtxRule) (text : List UInt16) : Option (List (List UInt16)) :=
  rules.findSome? (fun r => if slotsMatch (r.map Prod.fst) text then some (r.map Prod.snd) else none)

def chainedRulesMatch (rules : List ChainedRule) (before text : List UInt16) : Option (List (List UInt16)) :=
  rules.findSome? (fun r =>
    if slotsMatch r.backtrack before ∧ slotsMatch (r.input.map Prod.fst) text ∧
        slotsMatch r.lookahead (text.drop r.input.length) then some (r.input.map Prod.snd) else none)

/-! ### Lemmas -/

theorem collate_fst (slots : List Slot) (recs : List LookupRec) : (collate slots recs).map Prod.fst = slots := by
  unfold collate
  generalize 0 = j
  induction slots generalizing j with
  | nil => rfl
  | cons s l ih => simp [collateFrom, ih]

theorem collate_snd (slots : List Slot) (recs : List LookupRec) :
    (collate slots recs).map Prod.snd = perPosition recs slots.length := by
  apply List.ext_getElem?
  intro i
  unfold collate perPosition
  rw [List.getElem?_map, collateFrom_get, List.getElem?_map]
  by_cases h : i < slots.length
  · rw [List.getElem?_range h]; simp [h]
  · rw [List.getElem?_eq_none (by omega), List.getElem?_eq_none (by simp; omega)]; rfl

theorem slots_glyphs : ∀ (l text : List UInt16), slotsMatch (l.map (fun g => [g])) text = true ↔ l <+: text
  | [], _ => by simp [slotsMatch]
  | a :: l, [] => by simp [slotsMatch]
  | a :: l, g :: t => by
    simp only [List.map_cons, slotsMatch, Bool.and_eq_true, slots_glyphs l t, List.cons_prefix_cons]
    simp [eq_comm]

theorem mem_slotOf (l : List UInt16) (g : UInt16) : g ∈ slotOf l ↔ g ∈ l := by
  have key : ∀ (l : List (UInt16 × Unit)) (m : List (UInt16 × Unit)), BMap.Sorted m → ∀ g,
      g ∈ (l.foldl (fun m x => BMap.insert m x.1 x.2) m).map Prod.fst ↔ g ∈ l.map Prod.fst ∨ g ∈ m.map Prod.fst := by
    intro l
    induction l with
    | nil => intro m _ g; simp
    | cons y l ih =>
      intro m hm g
      rw [List.foldl_cons, ih _ (BMap.insert_sorted hm _ _)]
      have hget : ∀ (m : List (UInt16 × Unit)), BMap.Sorted m →
          (g ∈ m.map Prod.fst ↔ BMap.get? m g = some ()) := by
        intro m hm
        rw [BMap.get?_eq_some hm, List.mem_map]
        constructor
        · rintro ⟨x, hx, rfl⟩; exact hx
        · intro h; exact ⟨_, h, rfl⟩
      rw [hget _ (BMap.insert_sorted hm _ _), hget _ hm, BMap.get?_insert]
      by_cases e : g = y.1
      · simp [e]
      · simp [e]
  unfold slotOf BMap.collect
  rw [key _ _ (by simp [BMap.Sorted])]
  simp

theorem slots_covs : ∀ (covs : List Cov) (text : List UInt16), slotsMatch (covs.map covSlot) text = coveragesMatch covs text
  | [], _ => rfl
  | c :: l, [] => rfl
  | c :: l, g :: t => by
    simp only [List.map_cons, slotsMatch, coveragesMatch, slots_covs l t]
    congr 1
    rw [Bool.eq_iff_iff, List.contains_iff_mem, List.contains_iff_mem]
    exact mem_slotOf _ _

/-- A class table in which class 0 is only implicit. -/
def ClassesOk (cls : ClassMap) : Prop := AscendingKeys cls ∧ ∀ x ∈ cls, x.2 ≠ 0

theorem mem_getGlyphs {cls : ClassMap} (h : ClassesOk cls) {max g : UInt16} (hg : g.toNat ≤ max.toNat) (c : UInt16) :
    g ∈ ClassDef.getGlyphs cls c max ↔ classOf cls g = c := by
  have hs := sorted_of_asc h.1
  unfold ClassDef.getGlyphs
  rw [classOf_eq hs]
  split
  · rename_i e
    subst e
    simp only [List.mem_filter, List.mem_map, List.mem_range, Option.isNone_iff_eq_none]
    constructor
    · rintro ⟨_, h2⟩; rw [h2]; rfl
    · intro h2
      refine ⟨⟨g.toNat, by omega, by simp⟩, ?_⟩
      cases e : BMap.get? cls g with
      | none => rfl
      | some v =>
        rw [e] at h2
        exact absurd h2 (h.2 _ ((BMap.get?_eq_some hs).mp e))
  · rename_i hc0
    simp only [List.mem_map, List.mem_filter, beq_iff_eq]
    constructor
    · rintro ⟨x, ⟨hx, e⟩, rfl⟩
      rw [(BMap.get?_eq_some hs (k := x.1) (v := x.2)).mpr hx]
      exact e
    · intro e
      cases e2 : BMap.get? cls g with
      | none => rw [e2] at e; exact absurd e.symm hc0
      | some v =>
        rw [e2] at e
        exact ⟨(g, v), ⟨(BMap.get?_eq_some hs).mp e2, e⟩, rfl⟩

theorem slots_classes {cls : ClassMap} (h : ClassesOk cls) {max : UInt16} :
    ∀ (cs text : List UInt16), (∀ g ∈ text, g.toNat ≤ max.toNat) →
    slotsMatch (cs.map (fun c => ClassDef.getGlyphs cls c max)) text = classesMatch cls cs text
  | [], _, _ => rfl
  | c :: l, [], _ => rfl
  | c :: l, g :: t, ht => by
    simp only [List.map_cons, slotsMatch, classesMatch, slots_classes h l t (fun x hx => ht x (by simp [hx]))]
    congr 1
    rw [Bool.eq_iff_iff, List.contains_iff_mem, mem_getGlyphs h (ht g (by simp)), beq_iff_eq]

theorem findSome_set {R S β : Type} (mk : UInt16 → R → S) (app : S → Option β) (s : Option (List (Option R)))
    (a : UInt16) :
    ((s.getD []).filterMap (fun r => r.map (mk a))).findSome? app = firstRule s (fun r => app (mk a r)) := by
  cases s with
  | none => rfl
  | some rules =>
    simp only [Option.getD_some, firstRule]
    induction rules with
    | nil => rfl
    | cons r rules ihr =>
      cases r with
      | none => simpa using ihr
      | some r =>
        have e : List.filterMap id (some r :: rules) = r :: List.filterMap id rules := rfl
        rw [e]
        simp only [List.filterMap_cons, Option.map_some, List.findSome?_cons, ihr]

/-- Flattening glyph-based rule sets keeps the first match. -/
theorem findSome_glyphSets {R S β : Type} (mk : UInt16 → R → S) (app : S → Option β) (g : UInt16) :
    ∀ (l : List (UInt16 × Option (List (Option R)))), (l.map Prod.fst).Nodup →
    (∀ a r, a ≠ g → app (mk a r) = none) →
    (l.flatMap (fun x => (x.2.getD []).filterMap (fun r => r.map (mk x.1)))).findSome? app =
      firstRule (match l.find? (fun x => x.1 == g) with
        | some (_, s) => s
        | none => none) (fun r => app (mk g r))
  | [], _, _ => rfl
  | (a, s) :: l, hn, hF => by
    have hn' := List.nodup_cons.mp hn
    have ih := findSome_glyphSets mk app g l hn'.2 hF
    rw [List.flatMap_cons, List.findSome?_append, ih, List.find?_cons]
    have hs := findSome_set mk app s a
    simp only at hs ⊢
    rw [hs]
    by_cases e : a = g
    · subst e
      have hnone : l.find? (fun x => x.1 == a) = none := by
        rw [List.find?_eq_none]
        intro x hx he
        simp only [beq_iff_eq] at he
        exact hn'.1 (List.mem_map.mpr ⟨x, hx, he⟩)
      simp [hnone, firstRule]
    · have e' : (a == g) = false := by simpa using e
      rw [e']
      have : firstRule s (fun r => app (mk a r)) = none := by
        cases s with
        | none => rfl
        | some rules =>
          simp only [firstRule, List.findSome?_eq_none_iff]
          intro r _
          exact hF a r e
      rw [this]
      simp

theorem zip_nodup {α β : Type} : ∀ (l : List α) (m : List β), l.Nodup → ((l.zip m).map Prod.fst).Nodup
  | [], _, _ => by simp
  | _ :: _, [], _ => by simp
  | a :: l, b :: m, h => by
    have h' := List.nodup_cons.mp h
    simp only [List.zip_cons_cons, List.map_cons, List.nodup_cons]
    refine ⟨fun hm => h'.1 ?_, zip_nodup l m h'.2⟩
    obtain ⟨x, hx, e⟩ := List.mem_map.mp hm
    rw [← e]
    exact (List.of_mem_zip (a := x.1) (b := x.2) hx).1

/-- The same for class-based rule sets. -/
theorem findSome_classSets {R S β : Type} (mk : UInt16 → R → S) (app : S → Option β) (c : UInt16)
    (conv : Nat → List (Option (List (Option R))) → List S)
    (h0 : ∀ i, conv i [] = [])
    (h1 : ∀ i s l, conv i (s :: l) = (s.getD []).filterMap (fun r => r.map (mk (UInt16.ofNat i))) ++ conv (i + 1) l)
    (hF : ∀ a r, a ≠ c → app (mk a r) = none) :
    ∀ (l : List (Option (List (Option R)))) (i : Nat), i + l.length ≤ 65536 →
    (i ≤ c.toNat → (conv i l).findSome? app = firstRule (l[c.toNat - i]?.getD none) (fun r => app (mk c r))) ∧
    (c.toNat < i → (conv i l).findSome? app = none)
  | [], i, _ => by rw [h0]; simp [firstRule]
  | s :: l, i, hi => by
    simp only [List.length_cons] at hi
    have ih := findSome_classSets mk app c conv h0 h1 hF l (i + 1) (by omega)
    have hs := findSome_set mk app s
    have hne : i ≠ c.toNat → firstRule s (fun r => app (mk (UInt16.ofNat i) r)) = none := by
      intro hic
      have : UInt16.ofNat i ≠ c := by
        intro e; apply hic; rw [← e, ofNat16_toNat (by omega)]
      cases s with
      | none => rfl
      | some rules =>
        simp only [firstRule, List.findSome?_eq_none_iff]
        intro r _
        exact hF _ r this
    rw [h1, List.findSome?_append, hs]
    constructor
    · intro hic
      by_cases e : i = c.toNat
      · rw [ih.2 (by omega)]
        have : UInt16.ofNat i = c := by rw [e]; simp
        rw [this, e]
        simp
      · rw [hne e, ih.1 (by omega)]
        have : c.toNat - i = (c.toNat - (i + 1)) + 1 := by omega
        rw [this, List.getElem?_cons_succ]
        simp
    · intro hic
      rw [hne (by omega), ih.2 (by omega)]
      rfl

/-! ### C55 -/

/-- **C55.** Glyph-based plain contexts. -/
theorem C55_plain_glyphs (cov : Cov) (sets : List (Option (List (Option SeqRule)))) (max : UInt16)
    (hc : (covGlyphs cov).Nodup) (text : List UInt16) :
    ∃ rules, ctxFromLow max (.s5_1 cov sets) = .ok rules ∧
      rulesMatch rules text = contextMatch (.s5_1 cov sets) text := by
  refine ⟨_, rfl, ?_⟩
  cases text with
  | nil =>
    simp only [rulesMatch, contextMatch, List.findSome?_eq_none_iff]
    intro r hr
    simp only [ctxFrom1, List.mem_flatMap, List.mem_filterMap] at hr
    obtain ⟨x, _, r', _, e⟩ := hr
    cases r' with
    | none => cases e
    | some r' =>
      obtain rfl := (Option.some.inj e).symm
      rw [collate_fst]; simp [slotsMatch]
  | cons g rest =>
    unfold rulesMatch ctxFrom1 contextMatch setOfGlyph
    rw [findSome_glyphSets (fun a (rule : SeqRule) => collate (([a] : Slot) :: rule.input.map (fun g => [g])) rule.recs)
      _ g _ (zip_nodup _ _ hc)]
    · congr 1
      funext r
      rw [collate_fst, collate_snd]
      have := slots_glyphs (g :: r.input) (g :: rest)
      simp only [List.map_cons, List.cons_prefix_cons, true_and] at this
      simp only [List.length_cons, List.length_map]
      by_cases h : r.input <+: rest
      · rw [if_pos h, if_pos (this.mpr h)]
      · rw [if_neg h, if_neg (fun hh => h (this.mp hh))]
    · intro a r hne
      rw [collate_fst]
      have : slotsMatch (([a] : Slot) :: r.input.map (fun g => [g])) (g :: rest) = false := by
        simp only [slotsMatch]
        have : ([a] : List UInt16).contains g = false := by simp [Ne.symm hne]
        rw [this]; rfl
      rw [this]; rfl

/-- **C55.** Coverage-based plain contexts. -/
theorem C55_plain_coverages (g s : UInt16) (covs : List Cov) (recs : List LookupRec) (max : UInt16) (text : List UInt16) :
    ∃ rules, ctxFromLow max (.s5_3 g s covs recs) = .ok rules ∧
      rulesMatch rules text = contextMatch (.s5_3 g s covs recs) text := by
  refine ⟨_, rfl, ?_⟩
  simp only [rulesMatch, ctxFrom3, contextMatch, List.findSome?_cons, List.findSome?_nil, collate_fst, collate_snd,
    slots_covs, List.length_map]
  split <;> simp_all

/-- **C55.** Class-based plain contexts, for texts of glyphs of the font starting with a covered glyph, when the
class table has no explicit entries for class 0. -/
theorem C55_plain_classes (cov : Cov) (cls : Option ClassMap) (sets : List (Option (List (Option SeqRule))))
    (max : UInt16) (hcls : ClassesOk (cls.getD [])) (hl : sets.length ≤ 65536) (g : UInt16) (rest : List UInt16)
    (hcov : g ∈ covGlyphs cov) (ht : ∀ x ∈ g :: rest, x.toNat ≤ max.toNat) :
    ∃ rules, ctxFromLow max (.s5_2 cov cls sets) = .ok rules ∧
      rulesMatch rules (g :: rest) = contextMatch (.s5_2 cov cls sets) (g :: rest) := by
  refine ⟨_, rfl, ?_⟩
  simp only [contextMatch, if_pos hcov]
  unfold rulesMatch
  have key := findSome_classSets
    (fun a (rule : SeqRule) => collate (ClassDef.getGlyphs (cls.getD []) a max ::
      rule.input.map (fun c => ClassDef.getGlyphs (cls.getD []) c max)) rule.recs)
    (fun r => if slotsMatch (r.map Prod.fst) (g :: rest) then some (r.map Prod.snd) else none)
    (classOf (cls.getD []) g) (ctxFrom2 (cls.getD []) max) (fun _ => rfl) (fun _ _ _ => rfl) ?_ sets 0 (by omega)
  · rw [key.1 (Nat.zero_le _), Nat.sub_zero]
    congr 1
    funext r
    rw [collate_fst, collate_snd]
    have h1 := slots_classes (max := max) hcls (classOf (cls.getD []) g :: r.input) (g :: rest) ht
    simp only [List.map_cons] at h1
    rw [h1]
    simp [classesMatch]
  · intro a r hne
    rw [collate_fst]
    have h1 := slots_classes (max := max) hcls (a :: r.input) (g :: rest) ht
    simp only [List.map_cons] at h1
    rw [h1]
    have : (classOf (cls.getD []) g == a) = false := by simpa using Ne.symm hne
    simp [classesMatch, this]

/-- **C55.** Glyph-based chained contexts. -/
theorem C55_chained_glyphs (cov : Cov) (sets : List (Option (List (Option ChainRule)))) (max : UInt16)
    (hc : (covGlyphs cov).Nodup) (before text : List UInt16) :
    ∃ rules, chainFromLow max (.s6_1 cov sets) = .ok rules ∧
      chainedRulesMatch rules before text = chainMatch (.s6_1 cov sets) before text := by
  refine ⟨_, rfl, ?_⟩
  cases text with
  | nil =>
    simp only [chainedRulesMatch, chainMatch, List.findSome?_eq_none_iff]
    intro r hr
    simp only [chainFrom1, List.mem_flatMap, List.mem_filterMap] at hr
    obtain ⟨x, _, r', _, e⟩ := hr
    cases r' with
    | none => cases e
    | some r' =>
      obtain rfl := (Option.some.inj e).symm
      simp [collate_fst, slotsMatch]
  | cons g rest =>
    unfold chainedRulesMatch chainFrom1 chainMatch setOfGlyph
    rw [findSome_glyphSets (fun a (rule : ChainRule) => (⟨rule.backtrack.map (fun g => [g]),
        rule.lookahead.map (fun g => [g]),
        collate (([a] : Slot) :: rule.input.map (fun g => [g])) rule.recs⟩ : ChainedRule))
      _ g _ (zip_nodup _ _ hc)]
    · congr 1
      funext r
      have hlen : (collate (([g] : Slot) :: r.input.map (fun g => [g])) r.recs).length = r.input.length + 1 := by
        rw [(C14_positions _ _).1]; simp
      simp only [collate_fst, collate_snd, hlen, List.length_cons, List.length_map, List.drop_succ_cons, slots_glyphs]
      have := slots_glyphs (g :: r.input) (g :: rest)
      simp only [List.map_cons, List.cons_prefix_cons, true_and] at this
      simp only [this]
    · intro a r hne
      simp only [collate_fst]
      have : slotsMatch (([a] : Slot) :: r.input.map (fun g => [g])) (g :: rest) = false := by
        simp only [slotsMatch]
        have : ([a] : List UInt16).contains g = false := by simp [Ne.symm hne]
        rw [this]; rfl
      simp [this]

/-- **C55.** Coverage-based chained contexts. -/
theorem C55_chained_coverages (b i a : List Cov) (recs : List LookupRec) (max : UInt16) (before text : List UInt16) :
    ∃ rules, chainFromLow max (.s6_3 b i a recs) = .ok rules ∧
      chainedRulesMatch rules before text = chainMatch (.s6_3 b i a recs) before text := by
  refine ⟨_, rfl, ?_⟩
  have hlen : (collate (i.map covSlot) recs).length = i.length := by
    rw [(C14_positions _ _).1]; simp
  simp only [chainedRulesMatch, chainFrom3, chainMatch, List.findSome?_cons, List.findSome?_nil, collate_fst, collate_snd,
    slots_covs, List.length_map, hlen]
  split <;> simp_all

/-- **C55.** Class-based chained contexts. -/
theorem C55_chained_classes (cov : Cov) (b i a : Option ClassMap) (sets : List (Option (List (Option ChainRule))))
    (max : UInt16) (hb : ClassesOk (b.getD [])) (hi : ClassesOk (i.getD [])) (ha : ClassesOk (a.getD []))
    (hl : sets.length ≤ 65536) (before : List UInt16) (g : UInt16) (rest : List UInt16)
    (hcov : g ∈ covGlyphs cov) (hbef : ∀ x ∈ before, x.toNat ≤ max.toNat) (ht : ∀ x ∈ g :: rest, x.toNat ≤ max.toNat) :
    ∃ rules, chainFromLow max (.s6_2 cov b i a sets) = .ok rules ∧
      chainedRulesMatch rules before (g :: rest) = chainMatch (.s6_2 cov b i a sets) before (g :: rest) := by
  refine ⟨_, rfl, ?_⟩
  simp only [chainMatch, if_pos hcov]
  unfold chainedRulesMatch
  have key := findSome_classSets
    (fun x (rule : ChainRule) => (⟨rule.backtrack.map (fun c => ClassDef.getGlyphs (b.getD []) c max),
      rule.lookahead.map (fun c => ClassDef.getGlyphs (a.getD []) c max),
      collate (ClassDef.getGlyphs (i.getD []) x max ::
        rule.input.map (fun c => ClassDef.getGlyphs (i.getD []) c max)) rule.recs⟩ : ChainedRule))
    (fun r => if slotsMatch r.backtrack before ∧ slotsMatch (r.input.map Prod.fst) (g :: rest) ∧
        slotsMatch r.lookahead ((g :: rest).drop r.input.length) then some (r.input.map Prod.snd) else none)
    (classOf (i.getD []) g) (chainFrom2 (b.getD []) (i.getD []) (a.getD []) max) (fun _ => rfl) (fun _ _ _ => rfl) ?_
    sets 0 (by omega)
  · rw [key.1 (Nat.zero_le _), Nat.sub_zero]
    congr 1
    funext r
    have hlen : ∀ x, (collate (x :: r.input.map (fun c => ClassDef.getGlyphs (i.getD []) c max)) r.recs).length =
        r.input.length + 1 := by
      intro x; rw [(C14_positions _ _).1]; simp
    have hlook : ∀ x ∈ rest.drop r.input.length, x.toNat ≤ max.toNat :=
      fun x hx => ht x (List.mem_cons_of_mem _ (List.mem_of_mem_drop hx))
    have h1 := slots_classes (max := max) hi (classOf (i.getD []) g :: r.input) (g :: rest) ht
    simp only [List.map_cons] at h1
    simp only [collate_fst, collate_snd, hlen, List.drop_succ_cons, slots_classes hb _ _ hbef,
      slots_classes ha _ _ hlook, h1, List.length_cons, List.length_map]
    simp [classesMatch]
  · intro x r hne
    simp only [collate_fst]
    have h1 := slots_classes (max := max) hi (x :: r.input) (g :: rest) ht
    simp only [List.map_cons] at h1
    rw [h1]
    have : (classOf (i.getD []) g == x) = false := by simpa using Ne.symm hne
    simp [classesMatch, this]

/-- The coverage of a class-based subtable is ignored: the rules read match a text starting with an uncovered
glyph, which the subtable does not. -/
theorem C55_coverage_ignored : ∃ cov cls sets text rules, ClassesOk cls ∧
    ctxFromLow 10 (.s5_2 cov (some cls) sets) = .ok rules ∧
    contextMatch (.s5_2 cov (some cls) sets) text = none ∧ rulesMatch rules text = some [[7]] :=
  ⟨some [1], [(1, 1), (2, 1)], [none, some [some ⟨1, 1, [], [(0, 7)]⟩]], [2], _,
    ⟨by simp [AscendingKeys], by decide⟩, rfl, by decide, by decide⟩

/-- Explicit class 0 entries (which every array-format class table with gaps has) are lost: the subtable matches
glyph 2, the rules read do not. -/
theorem C55_explicit_class_zero : ∃ cov cls sets text rules, AscendingKeys cls ∧
    ctxFromLow 10 (.s5_2 cov (some cls) sets) = .ok rules ∧
    contextMatch (.s5_2 cov (some cls) sets) text = some [[7]] ∧ rulesMatch rules text = none :=
  ⟨some [2], [(1, 1), (2, 0), (3, 1)], [some [some ⟨1, 1, [], [(0, 7)]⟩]], [2], _,
    by simp [AscendingKeys], rfl, by decide, by decide⟩

example : ClassesOk [(1, 1), (2, 1)] ∧ (2 : UInt16) ∈ covGlyphs (some [1, 2]) ∧
    contextMatch (.s5_2 (some [1, 2]) (some [(1, 1), (2, 1)]) [none, some [some ⟨2, 1, [0], [(1, 7)]⟩]]) [2, 5] =
      some [[], [7]] := by
  refine ⟨⟨by simp [AscendingKeys], by decide⟩, by decide, by decide⟩
example : chainMatch (.s6_3 [some [3]] [some [4], some [5, 6]] [] [(1, 9), (0, 2)]) [3, 1] [4, 6, 0] =
    some [[2], [9]] := by decide

end FT.Props
