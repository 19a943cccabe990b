import Verif.Props.ForeignGpos
import Verif.Props.ForeignGsubTable

/-!
# C89: GPOS tables written by any program

A GPOS table that follows the OpenType specification, whatever program wrote it: the positioning users see is the one
the table prescribes.
-/

namespace FT.Props
open FT Reader FT.Off FT.Lay FT.VR FT.Gpos

/-! ### Specification -/

/-- The value record of a glyph in a single adjustment subtable. -/
def singlePosMeans : Gpos.Sub → UInt16 → Option ValueRecord
  | .p1_1 cov _ v, g => if g ∈ covGlyphs cov then some v else none
  | .p1_2 _ cov _ vs, g => entryOf (covGlyphs cov) vs g
  | _, _ => none

/-- The value records of two glyphs in a pair adjustment subtable: a record of the first glyph's pair set, or the cell of
the classes of the two glyphs if the first one is covered. -/
def pairPosMeans : Gpos.Sub → UInt16 → UInt16 → Option (ValueRecord × ValueRecord)
  | .p2_1 cov _ _ sets, a, b =>
    (entryOf (covGlyphs cov) sets a).bind (fun s => ((s.getD []).find? (fun r => r.1 == b)).map Prod.snd)
  | .p2_2 cov _ _ k1 k2 _ _ rows, a, b => if a ∈ covGlyphs cov then
      (rows[(classOf (k1.getD []) a).toNat]?).bind (fun row => row[(classOf (k2.getD []) b).toNat]?) else none
  | _, _, _ => none

/-- The entry and exit anchors of a glyph. -/
def cursiveMeans : Gpos.Sub → UInt16 → Option (Option Anchor × Option Anchor)
  | .p3_1 _ cov recs, g => entryOf (covGlyphs cov) recs g
  | _, _ => none

/-- The anchors of base and mark that are put on each other. -/
def attachMeans : Gpos.Sub → (base mark : UInt16) → Option (Anchor × Anchor)
  | .p4_1 _ m b _ ma ba, base, mark => do
    let r ← entryOf (covGlyphs m) (ma.getD []) mark
    let a ← r.2
    let row ← entryOf (covGlyphs b) (ba.getD []) base
    let c ← row[r.1.toNat]?
    let c ← c
    return (c, a)
  | _, _, _ => none

/-- The anchors of a component of a ligature and of a mark that are put on each other. -/
def attachLigMeans : Gpos.Sub → (lig : UInt16) → (component : Nat) → (mark : UInt16) → Option (Anchor × Anchor)
  | .p5_1 _ m l _ ma la, lig, i, mark => do
    let r ← entryOf (covGlyphs m) (ma.getD []) mark
    let a ← r.2
    let rows ← entryOf (covGlyphs l) (la.getD []) lig
    let rows ← rows
    let row ← rows[i]?
    let c ← row[r.1.toNat]?
    let c ← c
    return (c, a)
  | _, _, _, _ => none

/-! What users see: maps from glyphs. -/

/-- The value of a key. -/
def valueOf {κ α : Type} [BEq κ] (m : List (κ × α)) (k : κ) : Option α := (m.find? (fun x => x.1 == k)).map Prod.snd

def attachRule (p : MarkPos) (base mark : UInt16) : Option (Anchor × Anchor) := do
  let r ← valueOf p.marks mark
  let row ← valueOf p.bases base
  let c ← valueOf row r.1
  return (c, r.2)

def attachLigRule (p : MarkLigPos) (lig : UInt16) (i : Nat) (mark : UInt16) : Option (Anchor × Anchor) := do
  let r ← valueOf p.marks mark
  let rows ← valueOf p.ligatures lig
  let row ← rows[i]?
  let c ← valueOf row r.1
  return (c, r.2)

/-- The effect of two value records; no records have no effect. -/
def pairEffect (x : Option (ValueRecord × ValueRecord)) : (Int × Int × Int × Int) × List (Option (Option Device.Device)) ×
    (Int × Int × Int × Int) × List (Option (Option Device.Device)) :=
  (adjustment (x.getD ({}, {})).1, devices (x.getD ({}, {})).1, adjustment (x.getD ({}, {})).2, devices (x.getD ({}, {})).2)

/-- The pairs of `m` are those of the subtable; for pairs of classes, both adjustments have the same effect, for glyphs
up to `max` of which the first is covered. -/
def PairMeans (max : UInt16) : Gpos.Sub → PairPos → Prop
  | .p2_1 cov f g sets, m => ∀ a b, valueOf m (a, b) = pairPosMeans (.p2_1 cov f g sets) a b
  | .p2_2 cov f g k1 k2 n1 n2 rows, m => ∀ a b, a ∈ covGlyphs cov → a ≤ max → b ≤ max →
      pairEffect (valueOf m (a, b)) = pairEffect (pairPosMeans (.p2_2 cov f g k1 k2 n1 n2 rows) a b)
  | _, _ => False

def PosCtxMeans (max : UInt16) : Gpos.Sub → List Gsub.CtxRule → Prop
  | .ctx s, rules => ∀ text : List UInt16, (∀ g ∈ text, g ≤ max) → startsCovered s text →
      rulesMatch rules text = contextMatch s text
  | _, _ => False

def PosChainMeans (max : UInt16) : Gpos.Sub → List Gsub.ChainedRule → Prop
  | .ctx s, rules => ∀ before text : List UInt16, (∀ g ∈ before, g ≤ max) → (∀ g ∈ text, g ≤ max) → startsCovered s text →
      chainedRulesMatch rules before text = chainMatch s before text
  | _, _ => False

/-- A lookup as it is stored: directly, or with every subtable in an extension subtable. -/
structure PosSays where
  ext : Bool
  type : Nat
  subs : List Gpos.Sub

def posExtRows (ty : Nat) (s : Gpos.Sub) : List Cell := [.num 2 1, .num 2 ty, .ref 4 (At (posRows s))]
def PosSays.number (r : PosSays) : Nat := if r.ext then 9 else r.type
def PosSays.tables (r : PosSays) : List (Bytes → Nat → Prop) :=
  r.subs.map (fun s => if r.ext then At (posExtRows r.type s) else At (posRows s))

/-- What users see of a lookup means what its subtables mean, one by one. -/
def PosMeans (max : UInt16) (r : PosSays) : Positioning → Prop
  | .single ms => r.type = 1 ∧ List.Forall₂ (fun s m => ∀ g, valueOf m g = singlePosMeans s g) r.subs ms
  | .pair ms => r.type = 2 ∧ List.Forall₂ (PairMeans max) r.subs ms
  | .cursive ms => r.type = 3 ∧ List.Forall₂ (fun s m => ∀ g, valueOf m g = cursiveMeans s g) r.subs ms
  | .markToBase ms => r.type = 4 ∧
      List.Forall₂ (fun s p => ∀ base mark, attachRule p base mark = attachMeans s base mark) r.subs ms
  | .markToLig ms => r.type = 5 ∧
      List.Forall₂ (fun s p => ∀ lig i mark, attachLigRule p lig i mark = attachLigMeans s lig i mark) r.subs ms
  | .markToMark _ => False
  | .contextual rs => r.type = 7 ∧ List.Forall₂ (PosCtxMeans max) r.subs rs
  | .chained rs => r.type = 8 ∧ List.Forall₂ (PosChainMeans max) r.subs rs

/-- Subtables that are read faithfully: coverage tables list a glyph once, a pair set lists a second glyph once, class 0
is only implicit, and the anchors of marks are not null. -/
def PosSound : Gpos.Sub → Prop
  | .p1_1 .. => True
  | .p1_2 _ cov _ _ => (covGlyphs cov).Nodup
  | .p2_1 cov _ _ sets => (covGlyphs cov).Nodup ∧ ∀ x ∈ sets, ∀ l ∈ x, (l.map Prod.fst).Nodup
  | .p2_2 _ _ _ k1 k2 _ _ _ => ClassesOk (k1.getD []) ∧ ClassesOk (k2.getD [])
  | .p3_1 _ cov _ => (covGlyphs cov).Nodup
  | .p4_1 _ m b _ ma _ => (covGlyphs m).Nodup ∧ (covGlyphs b).Nodup ∧ ∀ l ∈ ma, ∀ r ∈ l, r.2.isSome
  | .p5_1 _ m l _ ma _ => (covGlyphs m).Nodup ∧ (covGlyphs l).Nodup ∧ ∀ l ∈ ma, ∀ r ∈ l, r.2.isSome
  | .p6_1 .. => False
  | .ctx s => SubSound s

/-- A lookup with subtables of one known type that are read faithfully; not of type 6, which always panics. An
extension lookup has at least one subtable, not of type 7 or 8. -/
def PosReadable (r : PosSays) : Prop :=
  r.type ∈ [1, 2, 3, 4, 5, 7, 8] ∧ (∀ s ∈ r.subs, posType s = r.type ∧ PosWell s ∧ PosSound s) ∧
    (r.ext = true → r.subs ≠ [] ∧ r.type ≤ 6)

/-! ### Maps -/

theorem valueOf_sorted {κ α : Type} [Key κ] [BEq κ] [LawfulBEq κ] {m : List (κ × α)} (hs : BMap.Sorted m) (k : κ) :
    valueOf m k = BMap.get? m k := by
  unfold valueOf
  apply Option.ext
  intro v
  rw [BMap.get?_eq_some hs]
  constructor
  · intro h
    cases e : m.find? (fun x => x.1 == k) with
    | none => rw [e] at h; cases h
    | some x =>
      rw [e] at h; cases h
      have h1 := List.mem_of_find?_eq_some e
      have h2 := List.find?_some e
      rw [beq_iff_eq] at h2
      rw [← h2]; exact h1
  · intro h
    cases e : m.find? (fun x => x.1 == k) with
    | none =>
      rw [List.find?_eq_none] at e
      exact absurd (by simp) (e _ h)
    | some x =>
      have h1 := List.mem_of_find?_eq_some e
      have h2 := List.find?_some e
      rw [beq_iff_eq] at h2
      have h3 : BMap.get? m k = some x.2 := (BMap.get?_eq_some hs).mpr (by rw [← h2]; exact h1)
      rw [(BMap.get?_eq_some hs).mpr h] at h3
      cases h3
      rfl

/-- The value of a key in a collected list that is a function. -/
theorem valueOf_collect {κ α : Type} [Key κ] [BEq κ] [LawfulBEq κ] {l : List (κ × α)}
    (h : ∀ x ∈ l, ∀ y ∈ l, x.1 = y.1 → x = y) (k : κ) (v : α) : valueOf (BMap.collect l) k = some v ↔ (k, v) ∈ l := by
  haveI : DecidableEq κ := instDecidableEqOfLawfulBEq
  rw [valueOf_sorted (BMap.collect_sorted l), BMap.get?_eq_some (BMap.collect_sorted l), collect_functional h]

theorem valueOf_zip {α : Type} {cov : List UInt16} (hn : cov.Nodup) (l : List α) (g : UInt16) :
    valueOf (BMap.collect (cov.zip l)) g = entryOf cov l g := by
  apply Option.ext
  intro v
  rw [valueOf_sorted (BMap.collect_sorted _), BMap.get?_eq_some (BMap.collect_sorted _), collect_zip hn]

theorem entryOf_map {α β : Type} (f : α → β) (cov : List UInt16) (l : List α) (g : UInt16) :
    entryOf cov (l.map f) g = (entryOf cov l g).map f := by
  unfold entryOf
  cases cov.findIdx? (· == g) with
  | none => rfl
  | some i => simp

theorem entryOf_mem {α : Type} {cov : List UInt16} {l : List α} {g : UInt16} {x : α} (h : entryOf cov l g = some x) : x ∈ l := by
  unfold entryOf at h
  cases e : cov.findIdx? (· == g) with
  | none => rw [e] at h; cases h
  | some i => rw [e] at h; exact List.mem_of_getElem? h

/-! ### Single adjustments and cursive attachment -/

theorem singlePos_sound {s : Gpos.Sub} (ht : posType s = 1) (h : PosSound s) :
    ∃ m, SinglePos.fromLow s = .ok m ∧ ∀ g, valueOf m g = singlePosMeans s g := by
  cases s <;> simp [posType] at ht
  case p1_1 cov f v =>
    refine ⟨_, rfl, fun g => ?_⟩
    apply Option.ext
    intro w
    rw [valueOf_collect]
    · simp only [List.mem_map, Prod.mk.injEq, singlePosMeans]
      constructor
      · rintro ⟨a, ha, rfl, rfl⟩; rw [if_pos ha]
      · intro h
        split at h
        · next hg => exact ⟨g, hg, rfl, Option.some.inj h⟩
        · cases h
    · intro x hx y hy e
      obtain ⟨a, _, rfl⟩ := List.mem_map.mp hx
      obtain ⟨b, _, rfl⟩ := List.mem_map.mp hy
      simp only at e
      rw [e]
  case p1_2 pf cov f vs => exact ⟨_, rfl, fun g => valueOf_zip h vs g⟩

theorem cursive_sound {s : Gpos.Sub} (ht : posType s = 3) (hw : PosWell s) (h : PosSound s) :
    ∃ m, CursivePos.fromLow s = .ok m ∧ ∀ g, valueOf m g = cursiveMeans s g := by
  cases s <;> simp [posType] at ht
  case p3_1 fmt cov recs => exact ⟨_, rfl, fun g => valueOf_zip h recs g⟩
  case ctx s => rcases hw.1 with e | e <;> omega

/-! ### Pairs -/

theorem find_nodup {α : Type} {l : List (UInt16 × α)} (hn : (l.map Prod.fst).Nodup) (b : UInt16) (v : α) :
    (l.find? (fun r => r.1 == b)).map Prod.snd = some v ↔ (b, v) ∈ l := by
  induction l with
  | nil => simp
  | cons x l ih =>
    rw [List.map_cons, List.nodup_cons] at hn
    rw [List.find?_cons, List.mem_cons]
    by_cases e : x.1 = b
    · have e' : (x.1 == b) = true := by simpa using e
      simp only [e', Option.map_some, Option.some.injEq]
      constructor
      · intro h; left; rw [← e, ← h]
      · rintro (h | h)
        · rw [← h]
        · exact absurd (e ▸ List.mem_map.mpr ⟨_, h, rfl⟩) hn.1
    · have e' : (x.1 == b) = false := by simpa using e
      simp only [e']
      rw [ih hn.2]
      constructor
      · exact .inr
      · rintro (h | h)
        · exact absurd (by rw [← h]) e
        · exact h

theorem pairs_sound {cov : Cov} {f g : UInt16} {sets : List (Option (List PairRec))} {max : UInt16}
    (h : PosSound (.p2_1 cov f g sets)) :
    ∃ m, PairPos.fromLow max (.p2_1 cov f g sets) = .ok m ∧ PairMeans max (.p2_1 cov f g sets) m := by
  obtain ⟨hn, hs⟩ := h
  have hmem : ∀ (k : UInt16 × UInt16) (v : ValueRecord × ValueRecord),
      (k, v) ∈ ((covGlyphs cov).zip sets).flatMap pairSetEntries ↔ pairPosMeans (.p2_1 cov f g sets) k.1 k.2 = some v := by
    rintro ⟨a, b⟩ v
    simp only [List.mem_flatMap, pairSetEntries, List.mem_map, pairPosMeans]
    constructor
    · rintro ⟨⟨x, s⟩, hx, r, hr, e⟩
      simp only [Prod.mk.injEq] at e hr
      obtain ⟨⟨rfl, rfl⟩, rfl⟩ := e
      rw [(mem_zip_entry hn sets x s).mp hx]
      cases s with
      | none => simp at hr
      | some l =>
        have hl := hs (some l) (List.of_mem_zip hx).2 l rfl
        exact (find_nodup hl r.1 r.2).mpr hr
    · intro h
      cases e : entryOf (covGlyphs cov) sets a with
      | none => rw [e] at h; cases h
      | some s =>
        rw [e] at h
        have hx := (mem_zip_entry hn sets a s).mpr e
        cases s with
        | none => cases h
        | some l =>
          have hl := hs (some l) (List.of_mem_zip hx).2 l rfl
          exact ⟨(a, some l), hx, (b, v), (find_nodup hl b v).mp h, rfl⟩
  refine ⟨_, rfl, fun a b => ?_⟩
  apply Option.ext
  intro v
  rw [valueOf_collect, hmem]
  rintro ⟨k, v⟩ hx ⟨k', v'⟩ hy e
  simp only at e
  subst e
  rw [hmem] at hx hy
  rw [hx] at hy
  cases hy
  rfl

theorem getGlyphs_class {k : Gpos.ClassMap} (h : ClassesOk k) {max a c : UInt16} (ha : a ∈ ClassDef.getGlyphs k c max) :
    classOf k a = c := by
  refine (mem_getGlyphs h (max := 65535) (by have := a.toNat_lt; simp; omega) c).mp ?_
  unfold ClassDef.getGlyphs at ha ⊢
  split at ha
  · next hc =>
    rw [if_pos hc]
    rw [List.mem_filter] at ha ⊢
    refine ⟨List.mem_map.mpr ⟨a.toNat, List.mem_range.mpr ?_, ?_⟩, ha.2⟩
    · have := a.toNat_lt; simp; omega
    · exact UInt16.ofNat_toNat
  · next hc => rw [if_neg hc]; exact ha

theorem simplify_idle {v : ValueRecord} (h : hasAny (simplify v) = false) :
    adjustment v = (0, 0, 0, 0) ∧ devices v = [none, none, none, none] := by
  simp only [hasAny, simplify, Bool.or_eq_false_iff, Option.isSome_eq_false_iff, Option.isNone_iff_eq_none] at h
  obtain ⟨⟨⟨⟨⟨⟨⟨h1, h2⟩, h3⟩, h4⟩, h5⟩, h6⟩, h7⟩, h8⟩ := h
  have hz : ∀ {x : Option Int16}, dropZero x = none → (x.getD 0).toInt = 0 := by
    intro x hx
    unfold dropZero at hx
    split at hx
    · next e => rw [e]; rfl
    · rw [hx]; rfl
  refine ⟨?_, by simp [devices, h5, h6, h7, h8]⟩
  simp only [adjustment, hz h1, hz h2, hz h3, hz h4]

theorem mem_classRow {left : List UInt16} {k2 : Gpos.ClassMap} {max : UInt16} {x : (UInt16 × UInt16) × (ValueRecord × ValueRecord)} :
    ∀ (row : List (ValueRecord × ValueRecord)) (c2 : Nat), x ∈ classRowEntries left k2 max c2 row ↔
      ∃ j c, row[j]? = some c ∧ x ∈ classPairEntries left (ClassDef.getGlyphs k2 (UInt16.ofNat (c2 + j)) max) c
  | [], c2 => by simp [classRowEntries]
  | c :: row, c2 => by
    rw [classRowEntries, List.mem_append, mem_classRow row (c2 + 1)]
    constructor
    · rintro (h | ⟨j, c', h1, h2⟩)
      · exact ⟨0, c, rfl, h⟩
      · exact ⟨j + 1, c', h1, by rwa [show c2 + (j + 1) = c2 + 1 + j by omega]⟩
    · rintro ⟨j, c', h1, h2⟩
      cases j with
      | zero => cases h1; exact .inl h2
      | succ j => exact .inr ⟨j, c', h1, by rwa [show c2 + 1 + j = c2 + (j + 1) by omega]⟩

theorem mem_classCells {k1 k2 : Gpos.ClassMap} {max : UInt16} {x : (UInt16 × UInt16) × (ValueRecord × ValueRecord)} :
    ∀ (rows : List (List (ValueRecord × ValueRecord))) (c1 : Nat), x ∈ classEntries k1 k2 max c1 rows ↔
      ∃ i row, rows[i]? = some row ∧ x ∈ classRowEntries (ClassDef.getGlyphs k1 (UInt16.ofNat (c1 + i)) max) k2 max 0 row
  | [], c1 => by simp [classEntries]
  | row :: rows, c1 => by
    rw [classEntries, List.mem_append, mem_classCells rows (c1 + 1)]
    constructor
    · rintro (h | ⟨j, c', h1, h2⟩)
      · exact ⟨0, row, rfl, h⟩
      · exact ⟨j + 1, c', h1, by rwa [show c1 + (j + 1) = c1 + 1 + j by omega]⟩
    · rintro ⟨j, c', h1, h2⟩
      cases j with
      | zero => cases h1; exact .inl h2
      | succ j => exact .inr ⟨j, c', h1, by rwa [show c1 + 1 + j = c1 + (j + 1) by omega]⟩

theorem mem_classPair {left right : List UInt16} {c : ValueRecord × ValueRecord} {a b : UInt16} {v : ValueRecord × ValueRecord} :
    ((a, b), v) ∈ classPairEntries left right c ↔
      (hasAny (simplify c.1) || hasAny (simplify c.2)) = true ∧ a ∈ left ∧ b ∈ right ∧ v = (simplify c.1, simplify c.2) := by
  unfold classPairEntries
  simp only
  split
  · next h =>
    simp only [h, true_and, List.mem_flatMap, List.mem_map, Prod.mk.injEq]
    constructor
    · rintro ⟨l, hl, r, hr, ⟨rfl, rfl⟩, rfl⟩; exact ⟨hl, hr, rfl⟩
    · rintro ⟨h1, h2, rfl⟩; exact ⟨a, h1, b, h2, ⟨rfl, rfl⟩, rfl⟩
  · next h => simp [h]

theorem classPairs_sound {cov : Cov} {f g : UInt16} {k1 k2 : Option Gpos.ClassMap} {n1 n2 : UInt16}
    {rows : List (List (ValueRecord × ValueRecord))} {max : UInt16} (hw : PosWell (.p2_2 cov f g k1 k2 n1 n2 rows))
    (h : PosSound (.p2_2 cov f g k1 k2 n1 n2 rows)) :
    ∃ m, PairPos.fromLow max (.p2_2 cov f g k1 k2 n1 n2 rows) = .ok m ∧
      PairMeans max (.p2_2 cov f g k1 k2 n1 n2 rows) m := by
  obtain ⟨_, _, _, hn, hrow⟩ := hw
  obtain ⟨hk1, hk2⟩ := h
  have hlen : rows.length ≤ 65535 := by rw [← hn]; have := n1.toNat_lt; omega
  have hlen2 : ∀ row ∈ rows, row.length ≤ 65535 := fun row hr => by rw [(hrow row hr).1]; have := n2.toNat_lt; omega
  -- entries of the map have the classes of their cells
  have hcell : ∀ a b v, ((a, b), v) ∈ classEntries (k1.getD []) (k2.getD []) max 0 rows →
      ∃ row c, rows[(classOf (k1.getD []) a).toNat]? = some row ∧ row[(classOf (k2.getD []) b).toNat]? = some c ∧
        (hasAny (simplify c.1) || hasAny (simplify c.2)) = true ∧ v = (simplify c.1, simplify c.2) := by
    intro a b v hm
    rw [mem_classCells] at hm
    obtain ⟨i, row, h1, hm⟩ := hm
    rw [mem_classRow] at hm
    obtain ⟨j, c, h2, hm⟩ := hm
    rw [mem_classPair] at hm
    obtain ⟨h3, h4, h5, h6⟩ := hm
    rw [Nat.zero_add] at h4 h5
    have hi := (List.getElem?_eq_some_iff.mp h1).1
    have hj := (List.getElem?_eq_some_iff.mp h2).1
    have hr := hlen2 row (List.mem_of_getElem? h1)
    rw [getGlyphs_class hk1 h4, getGlyphs_class hk2 h5, ofNat16_toNat (by omega), ofNat16_toNat (by omega)]
    exact ⟨row, c, h1, h2, h3, h6⟩
  refine ⟨_, rfl, fun a b hc ha hb => ?_⟩
  have hfun : ∀ x ∈ classEntries (k1.getD []) (k2.getD []) max 0 rows, ∀ y ∈ classEntries (k1.getD []) (k2.getD []) max 0 rows,
      x.1 = y.1 → x = y := by
    rintro ⟨⟨a, b⟩, v⟩ hx ⟨⟨a', b'⟩, v'⟩ hy e
    cases e
    obtain ⟨row, c, h1, h2, _, h3⟩ := hcell _ _ _ hx
    obtain ⟨row', c', h4, h5, _, h6⟩ := hcell _ _ _ hy
    rw [h1] at h4; cases h4
    rw [h2] at h5; cases h5
    rw [h3, h6]
  have hmeans : pairPosMeans (.p2_2 cov f g k1 k2 n1 n2 rows) a b = (rows[(classOf (k1.getD []) a).toNat]?).bind
      (fun row => row[(classOf (k2.getD []) b).toNat]?) := by
    simp only [pairPosMeans]
    rw [if_pos hc]
  rw [hmeans]
  cases hv : valueOf (BMap.collect (classEntries (k1.getD []) (k2.getD []) max 0 rows)) (a, b) with
  | some v =>
    rw [valueOf_collect hfun] at hv
    obtain ⟨row, c, h1, h2, _, rfl⟩ := hcell _ _ _ hv
    rw [h1, Option.bind_some, h2]
    obtain ⟨e1, e2, _⟩ := C10_simplify c.1
    obtain ⟨e3, e4, _⟩ := C10_simplify c.2
    simp only [pairEffect, Option.getD_some, e1, e2, e3, e4]
  | none =>
    cases h1 : rows[(classOf (k1.getD []) a).toNat]? with
    | none => rfl
    | some row =>
      rw [Option.bind_some]
      cases h2 : row[(classOf (k2.getD []) b).toNat]? with
      | none => rfl
      | some c =>
        by_cases h3 : (hasAny (simplify c.1) || hasAny (simplify c.2)) = true
        · exfalso
          have hm : ((a, b), (simplify c.1, simplify c.2)) ∈ classEntries (k1.getD []) (k2.getD []) max 0 rows := by
            rw [mem_classCells]
            refine ⟨_, row, h1, ?_⟩
            rw [mem_classRow]
            refine ⟨_, c, h2, ?_⟩
            rw [mem_classPair, Nat.zero_add, Nat.zero_add, UInt16.ofNat_toNat, UInt16.ofNat_toNat]
            exact ⟨h3, (mem_getGlyphs hk1 (UInt16.le_iff_toNat_le.mp ha) _).mpr rfl,
              (mem_getGlyphs hk2 (UInt16.le_iff_toNat_le.mp hb) _).mpr rfl, rfl⟩
          rw [(valueOf_collect hfun _ _).mpr hm] at hv
          cases hv
        · rw [Bool.not_eq_true, Bool.or_eq_false_iff] at h3
          obtain ⟨e1, e2⟩ := simplify_idle h3.1
          obtain ⟨e3, e4⟩ := simplify_idle h3.2
          simp only [pairEffect, Option.getD_some, e1, e2, e3, e4, Option.getD_none]
          rfl

theorem pair_sound {max : UInt16} {s : Gpos.Sub} (ht : posType s = 2) (hw : PosWell s) (h : PosSound s) :
    ∃ m, PairPos.fromLow max s = .ok m ∧ PairMeans max s m := by
  cases s <;> simp [posType] at ht
  case p2_1 => exact pairs_sound h
  case p2_2 => exact classPairs_sound hw h
  case ctx s => rcases hw.1 with e | e <;> omega

/-! ### Marks -/

theorem row_value {row : AnchorRow} (h : row.length ≤ 65535) (c : UInt16) :
    valueOf (rowFrom row) c = (row[c.toNat]?).bind id := by
  have key : ∀ (row : AnchorRow) (i : Nat) (k : UInt16) (a : Anchor), i + row.length ≤ 65536 →
      ((k, a) ∈ rowEntries i row ↔ i ≤ k.toNat ∧ row[k.toNat - i]? = some (some a)) := by
    intro row
    induction row with
    | nil => intro i k a _; simp [rowEntries]
    | cons x row ih =>
      intro i k a hl
      rw [List.length_cons] at hl
      have step : ∀ {y : Option Anchor}, (i + 1 ≤ k.toNat ∧ row[k.toNat - (i + 1)]? = some (some a)) →
          i ≤ k.toNat ∧ (y :: row)[k.toNat - i]? = some (some a) := by
        rintro y ⟨h1, h2⟩
        refine ⟨by omega, ?_⟩
        rw [show k.toNat - i = (k.toNat - (i + 1)) + 1 by omega, List.getElem?_cons_succ]
        exact h2
      have back : ∀ {y : Option Anchor}, k.toNat ≠ i → i ≤ k.toNat ∧ (y :: row)[k.toNat - i]? = some (some a) →
          i + 1 ≤ k.toNat ∧ row[k.toNat - (i + 1)]? = some (some a) := by
        rintro y hne ⟨h1, h2⟩
        refine ⟨by omega, ?_⟩
        rw [show k.toNat - i = (k.toNat - (i + 1)) + 1 by omega, List.getElem?_cons_succ] at h2
        exact h2
      cases x with
      | none =>
        rw [rowEntries, ih (i + 1) k a (by omega)]
        constructor
        · exact step
        · intro h
          refine back ?_ h
          rintro e
          have h2 := h.2
          rw [e, Nat.sub_self, List.getElem?_cons_zero] at h2
          cases h2
      | some y =>
        rw [rowEntries, List.mem_cons, ih (i + 1) k a (by omega)]
        constructor
        · rintro (h | h)
          · cases h
            rw [ofNat16_toNat (by omega)]
            exact ⟨Nat.le_refl _, by rw [Nat.sub_self]; rfl⟩
          · exact step h
        · intro h
          by_cases e : k.toNat = i
          · left
            have h2 := h.2
            rw [e, Nat.sub_self, List.getElem?_cons_zero] at h2
            cases h2
            rw [← e, UInt16.ofNat_toNat]
          · exact .inr (back e h)
  apply Option.ext
  intro a
  unfold rowFrom
  rw [valueOf_collect, key row 0 c a (by omega)]
  · simp only [Nat.zero_le, Nat.sub_zero, true_and]
    cases row[c.toNat]? with
    | none => simp
    | some x => simp
  · rintro ⟨k, v⟩ hx ⟨k', v'⟩ hy e
    simp only at e
    subst e
    rw [key row 0 _ _ (by omega)] at hx hy
    rw [hx.2] at hy
    cases hy.2
    rfl

theorem mark_value {m : Cov} {ma : Option (List MarkRec)} (hn : (covGlyphs m).Nodup) (h : ∀ l ∈ ma, ∀ r ∈ l, r.2.isSome)
    (g : UInt16) : valueOf (marksFrom m ma) g = (entryOf (covGlyphs m) (ma.getD []) g).bind (fun r => r.2.map (fun a => (r.1, a))) := by
  unfold marksFrom
  rw [valueOf_zip hn, entryOf_map]
  cases e : entryOf (covGlyphs m) (ma.getD []) g with
  | none => rfl
  | some r =>
    have hm := entryOf_mem e
    cases ma with
    | none => simp at hm
    | some l =>
      have := h l rfl r hm
      obtain ⟨c, a⟩ := r
      cases a with
      | none => cases this
      | some a => rfl

theorem attach_sound {s : Gpos.Sub} (ht : posType s = 4) (hw : PosWell s) (h : PosSound s) :
    ∃ p, MarkPos.fromLow4 s = .ok p ∧ ∀ base mark, attachRule p base mark = attachMeans s base mark := by
  cases s <;> simp [posType] at ht
  case p4_1 fmt m b n ma ba =>
    obtain ⟨_, _, _, _, _, hrows⟩ := hw
    obtain ⟨h1, h2, h3⟩ := h
    refine ⟨_, rfl, fun base mark => ?_⟩
    simp only [attachRule, attachMeans, MarkPos.build, mark_value h1 h3, valueOf_zip h2, entryOf_map]
    cases entryOf (covGlyphs m) (ma.getD []) mark with
    | none => rfl
    | some r =>
      obtain ⟨c, a⟩ := r
      cases a with
      | none => rfl
      | some a =>
        cases e : entryOf (covGlyphs b) (ba.getD []) base with
        | none => rfl
        | some row =>
          have hm := entryOf_mem e
          have hlen : row.length ≤ 65535 := by
            cases ba with
            | none => simp at hm
            | some l => rw [(hrows l rfl).2 row hm]; have := n.toNat_lt; omega
          show (valueOf (rowFrom row) c).bind _ = (row[c.toNat]?).bind _
          rw [row_value hlen]
          cases row[c.toNat]? with
          | none => rfl
          | some x => cases x <;> rfl
  case ctx s => rcases hw.1 with e | e <;> omega

theorem attachLig_sound {s : Gpos.Sub} (ht : posType s = 5) (hw : PosWell s) (h : PosSound s) :
    ∃ p, MarkLigPos.fromLow s = .ok p ∧ ∀ lig i mark, attachLigRule p lig i mark = attachLigMeans s lig i mark := by
  cases s <;> simp [posType] at ht
  case p5_1 fmt m l n ma la =>
    obtain ⟨_, _, _, _, _, hrows⟩ := hw
    obtain ⟨h1, h2, h3⟩ := h
    refine ⟨_, rfl, fun lig i mark => ?_⟩
    simp only [attachLigRule, attachLigMeans, mark_value h1 h3, valueOf_zip h2, entryOf_map]
    cases entryOf (covGlyphs m) (ma.getD []) mark with
    | none => rfl
    | some r =>
      obtain ⟨c, a⟩ := r
      cases a with
      | none => rfl
      | some a =>
        cases e : entryOf (covGlyphs l) (la.getD []) lig with
        | none => rfl
        | some x =>
          have hm := entryOf_mem e
          cases la with
          | none => simp at hm
          | some la =>
            obtain ⟨hx, hok⟩ := (hrows la rfl).2 x hm
            cases x with
            | none => cases hx
            | some rows =>
              show ((rows.map rowFrom)[i]?).bind _ = (rows[i]?).bind _
              rw [List.getElem?_map]
              cases er : rows[i]? with
              | none => rfl
              | some row =>
                have hlen : row.length ≤ 65535 := by
                  rw [(hok rows rfl).2 row (List.mem_of_getElem? er)]; have := n.toNat_lt; omega
                show (valueOf (rowFrom row) c).bind _ = (row[c.toNat]?).bind _
                rw [row_value hlen]
                cases row[c.toNat]? with
                | none => rfl
                | some x => cases x <;> rfl
  case ctx s => rcases hw.1 with e | e <;> omega

/-! ### C89 -/

theorem posCtx_sound {max : UInt16} {s : Gpos.Sub} (ht : posType s = 7) (hw : PosWell s) (h : PosSound s) :
    ∃ rules, ctxOf max s = .ok rules ∧ PosCtxMeans max s rules := by
  cases s <;> simp [posType] at ht
  case ctx s => exact context_sound ht hw.2 h

theorem posChain_sound {max : UInt16} {s : Gpos.Sub} (ht : posType s = 8) (hw : PosWell s) (h : PosSound s) :
    ∃ rules, chainOf max s = .ok rules ∧ PosChainMeans max s rules := by
  cases s <;> simp [posType] at ht
  case ctx s => exact chain_sound ht hw.2 h

theorem posConvert_sound {α : Type} {f : Gpos.Sub → Res α} {wrap : List α → Positioning} {M : Gpos.Sub → α → Prop} :
    ∀ {l : List Gpos.Sub}, (∀ s ∈ l, ∃ a, f s = .ok a ∧ M s a) →
      ∃ as, Gpos.convert f wrap l = .ok (wrap as) ∧ List.Forall₂ M l as := by
  intro l h
  have : ∃ as, Res.mapL f l = .ok as ∧ List.Forall₂ M l as := by
    induction l with
    | nil => exact ⟨[], rfl, .nil⟩
    | cons s l ih =>
      obtain ⟨as, e, hf⟩ := ih fun x hx => h x (by simp [hx])
      obtain ⟨a, e', hm⟩ := h s (by simp)
      exact ⟨a :: as, by rw [Res.mapL, e', e], .cons hm hf⟩
  obtain ⟨as, e, hf⟩ := this
  exact ⟨as, by unfold Gpos.convert; rw [e], hf⟩

theorem posRule_sound {max : UInt16} {r : PosSays} (h : PosReadable r) :
    ∃ r', Gpos.rulePlain max r.type r.subs = .ok r' ∧ PosMeans max r r' := by
  obtain ⟨ht, hs, _⟩ := h
  simp only [List.mem_cons, List.not_mem_nil, or_false] at ht
  rcases ht with e | e | e | e | e | e | e
  · obtain ⟨as, h1, h2⟩ := posConvert_sound (wrap := .single) fun s hs' => singlePos_sound ((hs s hs').1.trans e) (hs s hs').2.2
    exact ⟨.single as, by rw [e]; exact h1, e, h2⟩
  · obtain ⟨as, h1, h2⟩ := posConvert_sound (wrap := .pair) fun s hs' =>
      pair_sound (max := max) ((hs s hs').1.trans e) (hs s hs').2.1 (hs s hs').2.2
    exact ⟨.pair as, by rw [e]; exact h1, e, h2⟩
  · obtain ⟨as, h1, h2⟩ := posConvert_sound (wrap := .cursive) fun s hs' => cursive_sound ((hs s hs').1.trans e) (hs s hs').2.1 (hs s hs').2.2
    exact ⟨.cursive as, by rw [e]; exact h1, e, h2⟩
  · obtain ⟨as, h1, h2⟩ := posConvert_sound (wrap := .markToBase) fun s hs' =>
      attach_sound ((hs s hs').1.trans e) (hs s hs').2.1 (hs s hs').2.2
    exact ⟨.markToBase as, by rw [e]; exact h1, e, h2⟩
  · obtain ⟨as, h1, h2⟩ := posConvert_sound (wrap := .markToLig) fun s hs' =>
      attachLig_sound ((hs s hs').1.trans e) (hs s hs').2.1 (hs s hs').2.2
    exact ⟨.markToLig as, by rw [e]; exact h1, e, h2⟩
  · obtain ⟨as, h1, h2⟩ := posConvert_sound (wrap := .contextual) fun s hs' =>
      posCtx_sound (max := max) ((hs s hs').1.trans e) (hs s hs').2.1 (hs s hs').2.2
    exact ⟨.contextual as, by rw [e]; exact h1, e, h2⟩
  · obtain ⟨as, h1, h2⟩ := posConvert_sound (wrap := .chained) fun s hs' =>
      posChain_sound (max := max) ((hs s hs').1.trans e) (hs s hs').2.1 (hs s hs').2.2
    exact ⟨.chained as, by rw [e]; exact h1, e, h2⟩

theorem finds_posExt {ty : Nat} {s : Gpos.Sub} (hty : posType s = ty) (h6 : ty ≤ 6) (h : PosWell s) :
    FindsAt (Gpos.SubX.read 9) (.ext 1 (UInt16.ofNat ty) s) (At (posExtRows ty s)) := by
  have hx : Gpos.SubX.read 9 = Gpos.readExt := rfl
  rw [hx]
  refine Finds.table (p := _) ?_ (by simp [posExtRows, widths_cons, Cell.width])
  unfold posExtRows
  refine (plain_num16 1 (by decide)).finds.cons ((plain_count (n := ty) (by omega)).finds.cons ?_)
  rw [ofNat16_toNat (by omega), if_neg (by omega)]
  intro B base pos stk hs
  obtain ⟨⟨h1, h2, h3⟩, _⟩ := hs
  obtain ⟨y, e1, e2⟩ := readU32_ok (r := ⟨B, pos, base :: stk⟩) h1
  obtain ⟨h4, ptr, h5⟩ := finds_pos h B _ (base :: stk) h3
  rw [hty] at h5
  simp only at e1
  rw [bind_run, e2]
  simp only [bind_run, getPtr, topOfTable, setPtr]
  rw [e1, h5]
  rfl

/-- The structures the subtables of a lookup are read as. -/
def posSubs (r : PosSays) : List Gpos.SubX := r.subs.map (fun s => if r.ext then .ext 1 (UInt16.ofNat r.type) s else .plain s)

theorem pos_found {r : PosSays} (h : PosReadable r) :
    List.Forall₂ (fun s P => FindsAt (Gpos.SubX.read r.number) s P) (posSubs r) r.tables := by
  obtain ⟨ht, hs, hx⟩ := h
  unfold posSubs PosSays.tables
  have key : ∀ l : List Gpos.Sub, (∀ s ∈ l, posType s = r.type ∧ PosWell s ∧ PosSound s) →
      List.Forall₂ (fun s P => FindsAt (Gpos.SubX.read r.number) s P)
        (l.map (fun s => if r.ext then .ext 1 (UInt16.ofNat r.type) s else .plain s))
        (l.map (fun s => if r.ext then At (posExtRows r.type s) else At (posRows s))) := by
    intro l hl
    induction l with
    | nil => exact .nil
    | cons s l ih =>
      obtain ⟨h1, h2, _⟩ := hl s (by simp)
      refine .cons ?_ (ih fun x hx => hl x (by simp [hx]))
      cases e : r.ext with
      | true =>
        simp only [PosSays.number, e, if_true]
        exact finds_posExt h1 (hx e).2 h2
      | false =>
        have h9 : r.type ≠ 9 := by
          simp only [List.mem_cons, List.not_mem_nil, or_false] at ht
          omega
        simp only [PosSays.number, e, Bool.false_eq_true, if_false]
        unfold Gpos.SubX.read
        rw [if_neg h9]
        intro B start stk hh
        obtain ⟨g1, ptr, g2⟩ := finds_pos h2 B start stk hh
        rw [h1] at g2
        exact ⟨g1, ptr, by rw [bind_run, g2]; rfl⟩
  exact key r.subs hs

theorem pos_rule {max : UInt16} {r : PosSays} (h : PosReadable r) :
    ∃ r', Gpos.ruleOf max r.number (posSubs r) = .ok r' ∧ PosMeans max r r' := by
  obtain ⟨r', e, hm⟩ := posRule_sound (max := max) h
  refine ⟨r', ?_, hm⟩
  obtain ⟨ht, hs, hx⟩ := h
  rw [← e]
  cases ex : r.ext with
  | true =>
    have hne := (hx ex).1
    have hle : r.type ≤ 65535 := by have := (hx ex).2; omega
    have e1 : Res.mapL Gpos.asExt (posSubs r) = .ok (r.subs.map (fun s => (UInt16.ofNat r.type, s))) := by
      unfold posSubs
      rw [mapL_map_arg]
      refine mapL_map _ _ fun s _ => ?_
      simp [ex, Gpos.asExt]
    unfold Gpos.ruleOf PosSays.number
    rw [ex]
    simp only [if_true, e1]
    match hsub : r.subs, hne with
    | s :: l, _ =>
      simp only [List.map_cons]
      rw [if_pos (by simp)]
      simp only [List.map_map]
      have : (Prod.snd ∘ fun s : Gpos.Sub => (UInt16.ofNat r.type, s)) = id := rfl
      rw [ofNat16_toNat hle, this, List.map_id]
  | false =>
    have h9 : r.type ≠ 9 := by
      simp only [List.mem_cons, List.not_mem_nil, or_false] at ht
      omega
    have e1 : Res.mapL Gpos.asPlain (posSubs r) = .ok r.subs := by
      unfold posSubs
      rw [mapL_map_arg]
      have := mapL_map (f := fun s => Gpos.asPlain (if r.ext then Gpos.SubX.ext 1 (UInt16.ofNat r.type) s else .plain s)) id r.subs
        fun s _ => by simp [ex, Gpos.asPlain]
      rwa [List.map_id] at this
    unfold Gpos.ruleOf PosSays.number
    rw [ex]
    simp only [Bool.false_eq_true, if_false, if_neg h9, e1]

/-- **C89.** A GPOS table, version 1.0, whatever program wrote it and however it arranged the parts: reading succeeds,
and gives the scripts, the features with their lookups, and for each lookup its flags, its mark filtering set, and rules
that mean what the subtables mean. -/
theorem C89_gpos (max : UInt16) (t : LayoutSays PosSays) (ok : SaysOk PosSays.number PosSays.tables t)
    (hr : ∀ l ∈ t.lookups, PosReadable l.rule) (B : Bytes)
    (h : At (saysRows PosSays.number PosSays.tables t) B 0) :
    ∃ g rd, GPOS.read max (Rd.new B) = .ok (g, rd) ∧ g.scripts = t.scripts ∧ g.features = saysFeatures t ∧
      List.Forall₂ (fun (l : Lookup PosSays) (l' : Lookup Positioning) =>
        l'.flags = l.flags ∧ l'.mfs = l.mfs ∧ PosMeans max l.rule l'.rule) t.lookups g.lookups :=
  layout_read ok (fun l hl => pos_found (hr l hl)) (fun l hl => pos_rule (hr l hl)) h

theorem noDevices {v : ValueRecord} (h : (devices v).all (fun x => x.join.isNone) = true) :
    ∀ x ∈ devices v, ∀ o ∈ x, ∀ d ∈ o, AnyDeviceOk d := by
  intro x hx o ho d hd
  rw [List.all_eq_true] at h
  have := h x hx
  cases ho; cases hd
  cases this

theorem asc_of {m : List (UInt16 × UInt16)} (h : (m.map (fun x => x.1.toNat)).Pairwise (· < ·)) : AscendingKeys m :=
  List.pairwise_map.mp h

/-- A table with the lists in an unusual order: kerning by classes with a VariationIndex table. The pairs of glyph 5 with
6 or 7 move together by 50. -/
def strangeGpos : Bytes :=
  [0, 1, 0, 0, 0, 98, 0, 84, 0, 10,
   0, 1, 0, 4,
   0, 2, 0, 0, 0, 1, 0, 8,
   0, 2, 0, 32, 0, 68, 0, 0, 0, 38, 0, 46, 0, 2, 0, 2,
   0, 0, 0, 0, 0, 0, 0, 0, 0, 0, 0, 0, 255, 206, 0, 56,
   0, 1, 0, 1, 0, 5,
   0, 1, 0, 5, 0, 1, 0, 1,
   0, 2, 0, 1, 0, 6, 0, 7, 0, 1,
   0, 1, 0, 2, 128, 0,
   0, 1, 107, 101, 114, 110, 0, 8,
   0, 0, 0, 1, 0, 0,
   0, 1, 68, 70, 76, 84, 0, 8,
   0, 4, 0, 0,
   0, 0, 255, 255, 0, 1, 0, 0]

def strangeDevice : Device.Device := ⟨1, 2, some 0x8000, []⟩
def strangeZero : ValueRecord × ValueRecord := ({ xAdvance := some 0, xAdvDevice := some none }, {})
def strangeKern : ValueRecord × ValueRecord := ({ xAdvance := some (-50), xAdvDevice := some (some strangeDevice) }, {})

def strangePairs : Gpos.Sub :=
  .p2_2 (some [5]) 68 0 (some [(5, 1)]) (some [(6, 1), (7, 1)]) 2 2 [[strangeZero, strangeZero], [strangeZero, strangeKern]]

def strangePos : LayoutSays PosSays where
  scripts := [(⟨68, 70, 76, 84⟩, { dflt := some { required := none, features := [0] }, langs := [] })]
  features := [(⟨107, 101, 114, 110⟩, 0, [0])]
  lookups := [{ flags := 0, mfs := none, rule := { ext := false, type := 2, subs := [strangePairs] } }]

theorem strangePos_follows : At (saysRows PosSays.number PosSays.tables strangePos) strangeGpos 0 := by
  have hcov : CoverageAt [5] strangeGpos 54 :=
    .inl ⟨⟨by decide, by decide⟩, ⟨by decide, by decide⟩, ⟨by decide, by decide⟩, trivial⟩
  have hk1 : ClassListAt [(5, 1)] strangeGpos 60 :=
    .inl ⟨5, by decide, by decide, ⟨by decide, by decide⟩, ⟨by decide, by decide⟩, ⟨by decide, by decide⟩,
      ⟨by decide, by decide⟩, trivial⟩
  have hk2 : ClassListAt [(6, 1), (7, 1)] strangeGpos 68 :=
    .inr ⟨[(6, 7, 1)], by decide, by decide, ⟨by decide, by decide⟩, ⟨by decide, by decide⟩, ⟨by decide, by decide⟩,
      ⟨by decide, by decide⟩, ⟨by decide, by decide⟩, trivial⟩
  have hdev : AnyDeviceAt strangeDevice strangeGpos 78 := by
    unfold AnyDeviceAt
    rw [if_pos (by decide)]
    exact ⟨⟨by decide, by decide⟩, ⟨by decide, by decide⟩, ⟨by decide, by decide⟩, trivial⟩
  have hsub : At (posRows strangePairs) strangeGpos 22 := by
    refine ⟨⟨by decide, by decide⟩, ⟨by decide, by decide, hcov⟩, ⟨by decide, by decide⟩, ⟨by decide, by decide⟩,
      ⟨by decide, by decide, hk1⟩, ⟨by decide, by decide, hk2⟩, ⟨by decide, by decide⟩, ⟨by decide, by decide⟩, ?_⟩
    have hrows : ([[strangeZero, strangeZero], [strangeZero, strangeKern]].flatMap (fun row => row.flatMap
        (fun c => anyValueRows (68 : UInt16).toNat c.1 ++ anyValueRows (0 : UInt16).toNat c.2))) =
        [.num 2 0, .null 2, .num 2 0, .null 2, .num 2 0, .null 2, .num 2 (-50), .ref 2 (AnyDeviceAt strangeDevice)] := rfl
    rw [hrows]
    exact ⟨⟨by decide, by decide⟩, ⟨by decide, by decide⟩, ⟨by decide, by decide⟩, ⟨by decide, by decide⟩,
      ⟨by decide, by decide⟩, ⟨by decide, by decide⟩, ⟨by decide, by decide⟩, ⟨by decide, by decide, hdev⟩, trivial⟩
  refine ⟨⟨by decide, by decide⟩, ⟨by decide, by decide⟩, ⟨by decide, by decide, ?_⟩, ⟨by decide, by decide, ?_⟩,
    ⟨by decide, by decide, ?_⟩, trivial⟩
  · refine ⟨⟨by decide, by decide⟩, rfl, ⟨by decide, by decide, ?_⟩, trivial⟩
    refine ⟨⟨by decide, by decide, ?_⟩, ⟨by decide, by decide⟩, trivial⟩
    exact ⟨⟨by decide, by decide⟩, ⟨by decide, by decide⟩, ⟨by decide, by decide⟩, ⟨by decide, by decide⟩, trivial⟩
  · refine ⟨⟨by decide, by decide⟩, rfl, ⟨by decide, by decide, ?_⟩, trivial⟩
    exact ⟨⟨by decide, by decide⟩, ⟨by decide, by decide⟩, ⟨by decide, by decide⟩, trivial⟩
  · refine ⟨⟨by decide, by decide⟩, ⟨by decide, by decide, ?_⟩, trivial⟩
    exact ⟨⟨by decide, by decide⟩, ⟨by decide, by decide⟩, ⟨by decide, by decide⟩, ⟨by decide, by decide, hsub⟩, trivial⟩

theorem strangePos_ok : SaysOk PosSays.number PosSays.tables strangePos := by
  refine ⟨?_, ⟨by decide, ?_⟩, by decide, ?_⟩
  · simp [ScriptsOk, strangePos, ScriptOk, LanguageOk, BMap.Sorted]; decide
  · intro x hx; simp only [strangePos, List.mem_singleton] at hx; subst hx; decide
  · intro x hx; simp only [strangePos, List.mem_singleton] at hx; subst hx; decide

theorem strangePos_readable : ∀ l ∈ strangePos.lookups, PosReadable l.rule := by
  have hz : FormatIs (68 : UInt16).toNat strangeZero.1 ∧ FormatIs (0 : UInt16).toNat strangeZero.2 :=
    ⟨⟨rfl, rfl, rfl, rfl, rfl, rfl, rfl, rfl, noDevices (by decide)⟩, ⟨rfl, rfl, rfl, rfl, rfl, rfl, rfl, rfl, noDevices (by decide)⟩⟩
  have hk : FormatIs (68 : UInt16).toNat strangeKern.1 ∧ FormatIs (0 : UInt16).toNat strangeKern.2 := by
    refine ⟨⟨rfl, rfl, rfl, rfl, rfl, rfl, rfl, rfl, ?_⟩, ⟨rfl, rfl, rfl, rfl, rfl, rfl, rfl, rfl, noDevices (by decide)⟩⟩
    intro x hx o ho d hd
    simp only [devices, strangeKern, List.mem_cons, List.not_mem_nil, or_false] at hx
    rcases hx with rfl | rfl | rfl | rfl <;> simp at ho
    subst ho
    simp at hd
    subst hd
    exact .inl ⟨rfl, rfl⟩
  intro x hx; simp only [strangePos, List.mem_singleton] at hx; subst hx
  refine ⟨by decide, ?_, fun h => (by cases h)⟩
  intro s hs
  simp only [List.mem_singleton] at hs; subst hs
  refine ⟨rfl, ⟨?_, ?_, ?_, rfl, ?_⟩, ⟨asc_of (by decide), by decide⟩, asc_of (by decide), by decide⟩
  · intro gs hg; cases hg; exact ⟨by decide, by decide⟩
  · intro gs hg; cases hg; exact ⟨asc_of (by decide), by decide, by decide⟩
  · intro gs hg; cases hg; exact ⟨asc_of (by decide), by decide, by decide⟩
  · intro row hr
    simp only [List.mem_cons, List.not_mem_nil, or_false] at hr
    rcases hr with rfl | rfl
    · refine ⟨rfl, fun c hc => ?_⟩
      simp only [List.mem_cons, List.not_mem_nil, or_false, or_self] at hc; subst hc; exact hz
    · refine ⟨rfl, fun c hc => ?_⟩
      simp only [List.mem_cons, List.not_mem_nil, or_false] at hc
      rcases hc with rfl | rfl
      · exact hz
      · exact hk

example : ∃ g rd, GPOS.read 10 (Rd.new strangeGpos) = .ok (g, rd) ∧ g.scripts = strangePos.scripts ∧
    ∃ l m, g.lookups = [l] ∧ l.rule = .pair [m] ∧
      pairEffect (valueOf m (5, 7)) = ((0, 0, -50, 0), [none, none, some (some strangeDevice), none], (0, 0, 0, 0),
        [none, none, none, none]) ∧
      pairEffect (valueOf m (5, 8)) = ((0, 0, 0, 0), [none, none, some none, none], (0, 0, 0, 0), [none, none, none, none]) := by
  obtain ⟨g, rd, h1, h2, _, h3⟩ := C89_gpos 10 strangePos strangePos_ok strangePos_readable strangeGpos strangePos_follows
  refine ⟨g, rd, h1, h2, ?_⟩
  revert h3
  generalize g.lookups = ls
  intro h3
  cases h3 with
  | cons h h' =>
    cases h'
    rename_i l
    obtain ⟨_, _, hm⟩ := h
    cases hr : l.rule <;> rw [hr] at hm <;> simp only [PosMeans] at hm <;> try exact absurd hm.1 (by decide)
    obtain ⟨_, hf⟩ := hm
    cases hf with
    | cons hm hn =>
      cases hn
      rename_i m
      exact ⟨l, m, rfl, hr, (hm 5 7 (by decide) (by decide) (by decide)).trans (by decide),
        (hm 5 8 (by decide) (by decide) (by decide)).trans (by decide)⟩

/-! ### Outside the guards -/

/-- A lookup for attaching marks to marks panics, whatever is in it; so does one in extension subtables. -/
theorem C89_mark_to_mark (max : UInt16) (l : List Gpos.Sub) :
    Gpos.ruleOf max 6 (l.map .plain) = .panic ∧ Gpos.ruleOf max 9 (l.map (.ext 1 6)) = .panic := by
  have e1 : Res.mapL Gpos.asPlain (l.map .plain) = .ok l := by
    rw [mapL_map_arg]
    have := mapL_map (f := fun s => Gpos.asPlain (.plain s)) id l fun s _ => rfl
    rwa [List.map_id] at this
  have e2 : Res.mapL Gpos.asExt (l.map (.ext 1 6)) = .ok (l.map (fun s => (6, s))) := by
    rw [mapL_map_arg]
    exact mapL_map _ _ fun s _ => rfl
  unfold Gpos.ruleOf
  rw [if_neg (by decide), if_pos rfl, e1, e2]
  refine ⟨rfl, ?_⟩
  cases l with
  | nil => rfl
  | cons s l =>
    simp only [List.map_cons]
    rw [if_pos (by simp)]
    rfl

/-- Extension subtables with contextual positioning, which the specification allows, are rejected. -/
theorem C89_context_extension_rejected {ty : Nat} (hty : ty = 7 ∨ ty = 8) {s : Gpos.Sub} {B : Bytes} {start : Nat} {stk : List Nat}
    (h : At (posExtRows ty s) B start) : Gpos.SubX.read 9 ⟨B, start, stk⟩ = .err := by
  have hx : Gpos.SubX.read 9 = Gpos.readExt := rfl
  rw [hx]
  obtain ⟨a1, a2, _⟩ := h
  have e1 := plain_num16 (v := 1) 1 (by decide) B start start (start :: stk) ⟨a1, trivial⟩
  have e2 := plain_count (n := ty) (by omega) B start (start + 2) (start :: stk) ⟨a2, trivial⟩
  unfold Gpos.readExt inTable
  simp only [bind_run, pushTop, e1, widths, Cell.width, List.map_cons, List.map_nil, List.sum_cons, List.sum_nil, Nat.add_zero] at e2 ⊢
  rw [e2]
  simp only [ofNat16_toNat (show ty ≤ 65535 by omega)]
  rw [if_pos (by omega)]
  rfl

example : At (posExtRows 7 (.ctx (.s5_1 none []))) [0, 1, 0, 7, 0, 0, 0, 8, 0, 1, 0, 0, 0, 0] 0 :=
  ⟨⟨by decide, by decide⟩, ⟨by decide, by decide⟩, ⟨by decide, by decide, ⟨by decide, by decide⟩, ⟨by decide, by decide⟩,
    ⟨by decide, by decide⟩, trivial⟩, trivial⟩

/-- Anchors with device tables (format 3) are rejected. -/
theorem C89_anchor_devices_rejected {x y : Int16} {dx dy : Cell} {B : Bytes} {start : Nat} {stk : List Nat}
    (h : At [.num 2 3, i16 x, i16 y, dx, dy] B start) : Anchor.read ⟨B, start, stk⟩ = .err := by
  obtain ⟨a1, a2, a3, _⟩ := h
  have e1 := plain_num16 (v := 3) 3 (by decide) B start start stk ⟨a1, trivial⟩
  have e2 := plain_i16 x B start (start + 2) stk ⟨a2, trivial⟩
  have e3 := plain_i16 y B start (start + 2 + 2) stk ⟨a3, trivial⟩
  unfold Anchor.read
  simp only [bind_run, e1, widths, Cell.width, i16, List.map_cons, List.map_nil, List.sum_cons, List.sum_nil, Nat.add_zero] at e2 e3 ⊢
  rw [e2]
  simp only
  rw [e3]
  rfl

example : At [.num 2 3, i16 100, i16 (-5), .num 2 10, .num 2 0] [0, 3, 0, 100, 255, 251, 0, 10, 0, 0] 0 :=
  ⟨⟨by decide, by decide⟩, ⟨by decide, by decide⟩, ⟨by decide, by decide⟩, ⟨by decide, by decide⟩, ⟨by decide, by decide⟩, trivial⟩

/-- Pairs of classes ignore the coverage: glyph 9 is not covered, so the subtable says nothing about it, but it is read
with the adjustments of class 0. -/
theorem C89_class_zero_uncovered : ∃ s m, PosWell s ∧ PosSound s ∧ PairPos.fromLow 10 s = .ok m ∧
    pairPosMeans s 9 6 = none ∧ valueOf m (9, 6) = some ({ xAdvance := some 7 }, {}) := by
  refine ⟨.p2_2 (some [5]) 4 0 none (some [(6, 1)]) 1 2
      [[({ xAdvance := some 0 }, {}), ({ xAdvance := some 7 }, {})]], _, ⟨?_, ?_, ?_, rfl, ?_⟩, ⟨⟨asc_of (by decide), by decide⟩, asc_of (by decide), by decide⟩,
      rfl, by decide, by decide⟩
  · intro gs hg; cases hg; exact ⟨by decide, by decide⟩
  · intro gs hg; cases hg
  · intro gs hg; cases hg; exact ⟨asc_of (by decide), by decide, by decide⟩
  · intro row hr
    simp only [List.mem_singleton] at hr; subst hr
    refine ⟨rfl, fun c hc => ?_⟩
    simp only [List.mem_cons, List.not_mem_nil, or_false] at hc
    rcases hc with rfl | rfl <;>
      exact ⟨⟨rfl, rfl, rfl, rfl, rfl, rfl, rfl, rfl, noDevices (by decide)⟩, ⟨rfl, rfl, rfl, rfl, rfl, rfl, rfl, rfl, noDevices (by decide)⟩⟩

/-- Cells of zeros are dropped: a pair that the subtable leaves in place is read as one that it does not mention, which
is left to the subtables after it. -/
theorem C89_zero_cells_dropped : ∃ s m, PosWell s ∧ PosSound s ∧ PairPos.fromLow 10 s = .ok m ∧
    pairPosMeans s 5 8 = some ({ xAdvance := some 0 }, {}) ∧ valueOf m (5, 8) = none := by
  refine ⟨.p2_2 (some [5]) 4 0 none (some [(6, 1)]) 1 2
      [[({ xAdvance := some 0 }, {}), ({ xAdvance := some 7 }, {})]], _, ⟨?_, ?_, ?_, rfl, ?_⟩, ⟨⟨asc_of (by decide), by decide⟩, asc_of (by decide), by decide⟩,
      rfl, by decide, by decide⟩
  · intro gs hg; cases hg; exact ⟨by decide, by decide⟩
  · intro gs hg; cases hg
  · intro gs hg; cases hg; exact ⟨asc_of (by decide), by decide, by decide⟩
  · intro row hr
    simp only [List.mem_singleton] at hr; subst hr
    refine ⟨rfl, fun c hc => ?_⟩
    simp only [List.mem_cons, List.not_mem_nil, or_false] at hc
    rcases hc with rfl | rfl <;>
      exact ⟨⟨rfl, rfl, rfl, rfl, rfl, rfl, rfl, rfl, noDevices (by decide)⟩, ⟨rfl, rfl, rfl, rfl, rfl, rfl, rfl, rfl, noDevices (by decide)⟩⟩

/-- Devices in the records of a pair set are looked for from the start of the subtable, not of the pair set: something
else is read as the device. -/
theorem C89_pair_devices : ∃ s s' B rd, At (posRows s) B 0 ∧ Gpos.Sub.read 2 (Rd.new B) = .ok (s', rd) ∧
    pairPosMeans s 5 6 = some ({ xAdvance := some 10, xAdvDevice := some (some ⟨12, 12, some 1, [1]⟩) }, {}) ∧
    pairPosMeans s' 5 6 = some ({ xAdvance := some 10, xAdvDevice := some (some ⟨1, 18, some 1,
      [0, 0, 0, 0, 0, 0, 0, 1, 0, 0, 0, 0, 0, 0, 1, 1, 0, 0]⟩) }, {}) := by
  refine ⟨.p2_1 (some [5]) 68 0 [some [(6, { xAdvance := some 10, xAdvDevice := some (some ⟨12, 12, some 1, [1]⟩) }, {})]],
    .p2_1 (some [5]) 68 0 [some [(6, { xAdvance := some 10, xAdvDevice := some (some ⟨1, 18, some 1,
      [0, 0, 0, 0, 0, 0, 0, 1, 0, 0, 0, 0, 0, 0, 1, 1, 0, 0]⟩) }, {})]],
    [0, 1, 0, 12, 0, 68, 0, 0, 0, 1, 0, 18, 0, 1, 0, 1, 0, 5, 0, 1, 0, 6, 0, 10, 0, 8, 0, 12, 0, 12, 0, 1, 64, 0],
    ⟨[0, 1, 0, 12, 0, 68, 0, 0, 0, 1, 0, 18, 0, 1, 0, 1, 0, 5, 0, 1, 0, 6, 0, 10, 0, 8, 0, 12, 0, 12, 0, 1, 64, 0], 26, [0]⟩, ?_,
    by decide +kernel, by decide, by decide⟩
  refine ⟨⟨by decide, by decide⟩, ⟨by decide, by decide, .inl ?_⟩, ⟨by decide, by decide⟩, ⟨by decide, by decide⟩,
    ⟨by decide, by decide⟩, ⟨by decide, by decide, ?_⟩, trivial⟩
  · exact ⟨⟨by decide, by decide⟩, ⟨by decide, by decide⟩, ⟨by decide, by decide⟩, trivial⟩
  · refine ⟨⟨by decide, by decide⟩, ⟨by decide, by decide⟩, ⟨by decide, by decide⟩, ⟨by decide, by decide, ?_⟩, trivial⟩
    unfold AnyDeviceAt
    rw [if_neg (by decide)]
    refine ⟨1, by decide, by decide, ⟨⟨by decide, by decide⟩, ⟨by decide, by decide⟩, ⟨by decide, by decide⟩, trivial⟩, ?_⟩
    intro i v hv
    cases i with
    | zero => cases hv; exact ⟨by decide, by decide⟩
    | succ i => cases hv

/-- Marks without an anchor get one at (0, 0). -/
theorem C89_null_mark_anchor : ∃ s p, PosWell s ∧ MarkPos.fromLow4 s = .ok p ∧ attachMeans s 5 9 = none ∧
    attachRule p 5 9 = some (⟨100, 200, none⟩, ⟨0, 0, none⟩) := by
  refine ⟨.p4_1 1 (some [9]) (some [5]) 1 (some [(0, none)]) (some [[some ⟨100, 200, none⟩]]), _,
    ⟨rfl, ?_, ?_, by decide, rfl, ?_⟩, rfl, by decide, by decide⟩
  · intro gs hg; cases hg; exact ⟨by decide, by decide⟩
  · intro gs hg; cases hg; exact ⟨by decide, by decide⟩
  · intro l hl; cases hl; exact ⟨by decide, by decide⟩

/-- A lookup of extension type without subtables panics. -/
theorem C89_empty_extension (max : UInt16) : Gpos.ruleOf max 9 [] = .panic := rfl

/-- Every version but 1.0 is rejected; version 1.1, with feature variations, exists since OpenType 1.8. -/
theorem C89_version (max : UInt16) (B : Bytes) (h : B.take 4 ≠ [0, 1, 0, 0]) : GPOS.read max (Rd.new B) = .err := by
  unfold GPOS.read GposGsub.read
  rw [bind_run]
  by_cases hl : B.length < 4
  · have : FT.peek 4 (Rd.new B) = .err := by unfold FT.peek Rd.new; simp only; rw [if_pos (by omega)]
    rw [this]
  · have : FT.peek 4 (Rd.new B) = .ok (B.take 4, Rd.new B) := by
      unfold FT.peek Rd.new; simp only; rw [if_neg (by omega), List.drop_zero]
    rw [this]
    simp only [if_neg h]
    rfl

end FT.Props
