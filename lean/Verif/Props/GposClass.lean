import Verif.Props.GposPair
import Verif.Props.GsubMatch

/-!
C68: what class-based pair positioning subtables are read as.
-/

namespace FT.Props
open FT FT.Gpos FT.Lay FT.Off FT.VR Reader

theorem fold_uniform {κ α : Type} [Key κ] [DecidableEq κ] (k : κ) (v : α) : ∀ (l m : List (κ × α)),
    (∀ y ∈ l, y.1 = k → y.2 = v) →
    BMap.get? (l.foldl (fun m x => BMap.insert m x.1 x.2) m) k = if ∃ y ∈ l, y.1 = k then some v else BMap.get? m k
  | [], m, _ => by simp
  | x :: l, m, h => by
    rw [List.foldl_cons, fold_uniform k v l _ (fun y hy => h y (by simp [hy])), BMap.get?_insert]
    by_cases hl : ∃ y ∈ l, y.1 = k
    · rw [if_pos hl, if_pos]
      obtain ⟨y, hy, e⟩ := hl
      exact ⟨y, by simp [hy], e⟩
    · rw [if_neg hl]
      by_cases hx : k = x.1
      · rw [if_pos hx, if_pos ⟨x, by simp, hx.symm⟩, h x (by simp) hx.symm]
      · rw [if_neg hx, if_neg]
        rintro ⟨y, hy, e⟩
        rcases List.mem_cons.mp hy with rfl | hy
        · exact hx e.symm
        · exact hl ⟨y, hy, e⟩

/-- Specification: the records a class-based subtable has for a pair of glyphs. -/
def classCell (k1 k2 : ClassMap) (rows : List (List (ValueRecord × ValueRecord))) (l r : UInt16) :
    Option (ValueRecord × ValueRecord) :=
  match rows[(classOf k1 l).toNat]? with
  | some row => row[(classOf k2 r).toNat]?
  | none => none

/-- Specification: the records do something. -/
def HasEffect (c : ValueRecord × ValueRecord) : Prop :=
  ¬ (adjustment c.1 = (0, 0, 0, 0) ∧ adjustment c.2 = (0, 0, 0, 0) ∧ NoDevices c.1 ∧ NoDevices c.2)

theorem hasAny_simplify (v : ValueRecord) : hasAny (simplify v) = false ↔ adjustment v = (0, 0, 0, 0) ∧ NoDevices v := by
  have key : ∀ x : Option Int16, (dropZero x).isSome = false ↔ (x.getD 0).toInt = 0 := by
    intro x
    cases x with
    | none => simp [dropZero]
    | some x =>
      have : x = 0 ↔ x.toInt = 0 := ⟨fun h => by rw [h]; rfl, fun h => Int16.toInt_inj.mp (by rw [h]; rfl)⟩
      by_cases h : x = 0
      · have h2 := this.mp h; simp [dropZero, h]
      · have h2 : ¬ x.toInt = 0 := fun e => h (this.mpr e)
        simp [dropZero, h, h2]
  have kd : ∀ x : Option (Option Device.Device), x.isSome = false ↔ x = none := by
    intro x; cases x <;> simp
  simp only [hasAny, simplify, Bool.or_eq_false_iff, key, kd, adjustment, NoDevices, Prod.mk.injEq, and_assoc]

theorem hasEffect_iff (c : ValueRecord × ValueRecord) :
    (hasAny (simplify c.1) || hasAny (simplify c.2)) = true ↔ HasEffect c := by
  rw [← not_iff_not, HasEffect, not_not, Bool.not_eq_true, Bool.or_eq_false_iff, hasAny_simplify, hasAny_simplify]
  tauto

theorem mem_rowEntries {left : List UInt16} {k2 : ClassMap} {max : UInt16} {x : (UInt16 × UInt16) × (ValueRecord × ValueRecord)} :
    ∀ {row : List (ValueRecord × ValueRecord)} {c2 : Nat}, x ∈ classRowEntries left k2 max c2 row ↔
      ∃ j c, row[j]? = some c ∧ HasEffect c ∧ x.1.1 ∈ left ∧ x.1.2 ∈ ClassDef.getGlyphs k2 (UInt16.ofNat (c2 + j)) max ∧
        x.2 = (simplify c.1, simplify c.2)
  | [], c2 => by simp [classRowEntries]
  | c :: row, c2 => by
    have ih := mem_rowEntries (left := left) (k2 := k2) (max := max) (x := x) (row := row) (c2 := c2 + 1)
    simp only [classRowEntries, List.mem_append]
    rw [ih]
    have hc : x ∈ classPairEntries left (ClassDef.getGlyphs k2 (UInt16.ofNat c2) max) c ↔
        HasEffect c ∧ x.1.1 ∈ left ∧ x.1.2 ∈ ClassDef.getGlyphs k2 (UInt16.ofNat c2) max ∧
          x.2 = (simplify c.1, simplify c.2) := by
      unfold classPairEntries
      by_cases he : HasEffect c
      · rw [if_pos ((hasEffect_iff c).mpr he)]
        simp only [List.mem_flatMap, List.mem_map]
        constructor
        · rintro ⟨a, ha, b, hb, rfl⟩; exact ⟨he, ha, hb, rfl⟩
        · rintro ⟨_, ha, hb, e⟩; exact ⟨_, ha, _, hb, Prod.ext rfl e.symm⟩
      · rw [if_neg (fun h => he ((hasEffect_iff c).mp h))]
        simp [he]
    rw [hc]
    constructor
    · rintro (h | ⟨j, c', h1, h2, h3, h4, h5⟩)
      · exact ⟨0, c, rfl, h⟩
      · exact ⟨j + 1, c', h1, h2, h3, by rw [show c2 + (j + 1) = c2 + 1 + j by omega]; exact h4, h5⟩
    · rintro ⟨j, c', h1, h2, h3, h4, h5⟩
      cases j with
      | zero => rw [List.getElem?_cons_zero] at h1; cases h1; exact .inl ⟨h2, h3, h4, h5⟩
      | succ j =>
        refine .inr ⟨j, c', h1, h2, h3, ?_, h5⟩
        rw [show c2 + (j + 1) = c2 + 1 + j by omega] at h4; exact h4

theorem mem_classEntries {k1 k2 : ClassMap} {max : UInt16} {x : (UInt16 × UInt16) × (ValueRecord × ValueRecord)} :
    ∀ {rows : List (List (ValueRecord × ValueRecord))} {c1 : Nat}, x ∈ classEntries k1 k2 max c1 rows ↔
      ∃ i row, rows[i]? = some row ∧ ∃ j c, row[j]? = some c ∧ HasEffect c ∧
        x.1.1 ∈ ClassDef.getGlyphs k1 (UInt16.ofNat (c1 + i)) max ∧
        x.1.2 ∈ ClassDef.getGlyphs k2 (UInt16.ofNat j) max ∧ x.2 = (simplify c.1, simplify c.2)
  | [], c1 => by simp [classEntries]
  | row :: rows, c1 => by
    have ih := mem_classEntries (k1 := k1) (k2 := k2) (max := max) (x := x) (rows := rows) (c1 := c1 + 1)
    simp only [classEntries, List.mem_append]
    rw [ih, mem_rowEntries]
    simp only [Nat.zero_add]
    constructor
    · rintro (h | ⟨i, r', h1, j, c, h2, h3, h4, h5⟩)
      · exact ⟨0, row, rfl, h⟩
      · exact ⟨i + 1, r', h1, j, c, h2, h3, by rw [show c1 + (i + 1) = c1 + 1 + i by omega]; exact h4, h5⟩
    · rintro ⟨i, r', h1, j, c, h2, h3, h4, h5⟩
      cases i with
      | zero => rw [List.getElem?_cons_zero] at h1; cases h1; exact .inl ⟨j, c, h2, h3, h4, h5⟩
      | succ i =>
        refine .inr ⟨i, r', h1, j, c, h2, h3, ?_, h5⟩
        rw [show c1 + (i + 1) = c1 + 1 + i by omega] at h4; exact h4

/-- **C68.** A class-based subtable is read as the map that gives every pair of glyphs of the font the records of its two
classes, without explicit zeros, and nothing if they have no effect. The coverage plays no part. -/
theorem C68_class_pairs (cov : Cov) (f g : UInt16) (k1 k2 : ClassMap) (n1 n2 : UInt16)
    (rows : List (List (ValueRecord × ValueRecord))) (h1 : ClassesOk k1) (h2 : ClassesOk k2)
    (hr : rows.length ≤ 65536) (hc : ∀ r ∈ rows, r.length ≤ 65536) (max : UInt16) :
    ∃ m, PairPos.fromLow max (.p2_2 cov f g (some k1) (some k2) n1 n2 rows) = .ok m ∧ BMap.Sorted m ∧
      ∀ l r, l.toNat ≤ max.toNat → r.toNat ≤ max.toNat →
        ((∀ c, classCell k1 k2 rows l r = some c → HasEffect c →
          BMap.get? m (l, r) = some (simplify c.1, simplify c.2)) ∧
        ((∀ c, classCell k1 k2 rows l r = some c → ¬ HasEffect c) → BMap.get? m (l, r) = none)) := by
  refine ⟨_, rfl, BMap.collect_sorted _, ?_⟩
  intro l r hl hr'
  simp only [Option.getD_some]
  have hmem : ∀ v, ((l, r), v) ∈ classEntries k1 k2 max 0 rows ↔
      ∃ c, classCell k1 k2 rows l r = some c ∧ HasEffect c ∧ v = (simplify c.1, simplify c.2) := by
    intro v
    rw [mem_classEntries]
    simp only [Nat.zero_add]
    constructor
    · rintro ⟨i, row, e1, j, c, e2, e3, e4, e5, e6⟩
      rw [mem_getGlyphs h1 hl] at e4
      rw [mem_getGlyphs h2 hr'] at e5
      have hi : i < rows.length := (List.getElem?_eq_some_iff.mp e1).1
      have hj : j < row.length := (List.getElem?_eq_some_iff.mp e2).1
      have hrow := hc row (List.mem_of_getElem? e1)
      refine ⟨c, ?_, e3, e6⟩
      unfold classCell
      rw [e4, UInt16.toNat_ofNat', Nat.mod_eq_of_lt (by omega), e1]
      simp only
      rw [e5, UInt16.toNat_ofNat', Nat.mod_eq_of_lt (by omega), e2]
    · rintro ⟨c, e1, e2, e3⟩
      unfold classCell at e1
      split at e1
      · rename_i row e
        refine ⟨_, row, e, _, c, e1, e2, ?_, ?_, e3⟩
        · rw [mem_getGlyphs h1 hl]; simp
        · rw [mem_getGlyphs h2 hr']; simp
      · cases e1
  constructor
  · intro c e1 e2
    have := fold_uniform (l, r) (simplify c.1, simplify c.2) (classEntries k1 k2 max 0 rows) [] (by
      rintro ⟨k, v⟩ hy e
      cases e
      obtain ⟨c', e3, _, e5⟩ := (hmem v).mp hy
      rw [e1] at e3; cases e3
      exact e5)
    unfold BMap.collect
    rw [this, if_pos]
    exact ⟨((l, r), (simplify c.1, simplify c.2)), (hmem _).mpr ⟨c, e1, e2, rfl⟩, rfl⟩
  · intro h
    have := fold_uniform (l, r) (({}, {}) : ValueRecord × ValueRecord) (classEntries k1 k2 max 0 rows) [] (by
      rintro ⟨k, v⟩ hy e
      cases e
      obtain ⟨c', e3, e4, _⟩ := (hmem v).mp hy
      exact absurd e4 (h c' e3))
    unfold BMap.collect
    rw [this, if_neg]
    · rfl
    · rintro ⟨⟨k, v⟩, hy, e⟩
      cases e
      obtain ⟨c', e3, e4, _⟩ := (hmem v).mp hy
      exact h c' e3 e4

/-- **C68.** Hence a subtable that is meant for glyph 5 only (its coverage) but has adjustments for class 0 is read as
moving every glyph of the font that has no class. -/
theorem C68_coverage_ignored :
    PairPos.fromLow 6 (.p2_2 (some [5]) 4 0 (some []) (some [(6, 1)]) 1 2
      [[({ xAdvance := some 0 }, {}), ({ xAdvance := some 9 }, {})]]) =
    .ok ([0, 1, 2, 3, 4, 5, 6].map (fun l => ((l, 6), ({ xAdvance := some 9 }, {})))) := by decide +kernel

example : ClassesOk [(5, 1), (6, 2)] ∧
    classCell [(5, 1), (6, 2)] [(6, 1)] [[({}, {}), ({}, {})], [({}, {}), ({ xAdvance := some 9 }, {})]] 5 6 =
      some ({ xAdvance := some 9 }, {}) ∧ HasEffect ({ xAdvance := some 9 }, {}) := by
  refine ⟨⟨by simp [AscendingKeys], by simp⟩, by decide, ?_⟩
  rintro ⟨h, _⟩; revert h; decide

end FT.Props
