import Verif.Props.SpecGsub
import Verif.Props.GposPair
import Verif.Props.GposMark
import Verif.Props.GposTable

/-!
# C82: the bytes of the GPOS table

A written GPOS table, compared with the OpenType specification: every adjustment and every anchor is found where the
specification says.
-/

namespace FT.Props
open FT FT.Off FT.Lay FT.VR FT.Gpos

/-! ### Specification -/

/-- A value record in format `f`: the bits of the format say which fields there are. -/
def valueRows (f : Nat) (v : ValueRecord) : List Cell :=
  (if f.testBit 0 then [.num 2 (v.xPlacement.getD 0).toInt] else []) ++
  (if f.testBit 1 then [.num 2 (v.yPlacement.getD 0).toInt] else []) ++
  (if f.testBit 2 then [.num 2 (v.xAdvance.getD 0).toInt] else []) ++
  (if f.testBit 3 then [.num 2 (v.yAdvance.getD 0).toInt] else []) ++
  (if f.testBit 4 then [linked DeviceAt v.xPlaDevice.join] else []) ++
  (if f.testBit 5 then [linked DeviceAt v.yPlaDevice.join] else []) ++
  (if f.testBit 6 then [linked DeviceAt v.xAdvDevice.join] else []) ++
  (if f.testBit 7 then [linked DeviceAt v.yAdvDevice.join] else [])

/-- The format has no reserved bit, and what it leaves out is zero or absent. -/
structure FormatOf (f : Nat) (v : ValueRecord) : Prop where
  small : f < 256
  xPlacement : f.testBit 0 = false → (v.xPlacement.getD 0).toInt = 0
  yPlacement : f.testBit 1 = false → (v.yPlacement.getD 0).toInt = 0
  xAdvance : f.testBit 2 = false → (v.xAdvance.getD 0).toInt = 0
  yAdvance : f.testBit 3 = false → (v.yAdvance.getD 0).toInt = 0
  xPlaDevice : f.testBit 4 = false → v.xPlaDevice.join = none
  yPlaDevice : f.testBit 5 = false → v.yPlaDevice.join = none
  xAdvDevice : f.testBit 6 = false → v.xAdvDevice.join = none
  yAdvDevice : f.testBit 7 = false → v.yAdvDevice.join = none

/-- Single adjustment: one value record for all glyphs (format 1) or one for each (format 2). -/
def SinglePosAt (m : SinglePos) : Bytes → Nat → Prop := fun B start =>
  ∃ f : Nat, (∀ x ∈ m, FormatOf f x.2) ∧
    ((m ≠ [] ∧ ∀ x ∈ m, At ([.num 2 1, .ref 2 (CoverageAt (m.map Prod.fst)), .num 2 f] ++ valueRows f x.2) B start) ∨
      At ([.num 2 2, .ref 2 (CoverageAt (m.map Prod.fst)), .num 2 f, .num 2 m.length] ++
        m.flatMap (fun x => valueRows f x.2)) B start)

/-- Pair adjustment, format 1: for each first glyph, in ascending order, the second glyphs, in ascending order, with
both value records. The pairs are those of `m`, with the same adjustments. -/
def PairPosAt (m : PairPos) : Bytes → Nat → Prop := fun B start =>
  ∃ (f1 f2 : Nat) (sets : List (UInt16 × List (UInt16 × ValueRecord × ValueRecord))),
    sets.Pairwise (fun a b => a.1.toNat < b.1.toNat) ∧
    (∀ s ∈ sets, s.2 ≠ [] ∧ s.2.Pairwise (fun a b => a.1.toNat < b.1.toNat)) ∧
    (∀ x ∈ m, FormatOf f1 x.2.1 ∧ FormatOf f2 x.2.2) ∧
    sets.flatMap (fun s => s.2.map (fun y => ((s.1, y.1), adjustment y.2.1, adjustment y.2.2))) =
      m.map (fun x => (x.1, adjustment x.2.1, adjustment x.2.2)) ∧
    At ([.num 2 1, .ref 2 (CoverageAt (sets.map Prod.fst)), .num 2 f1, .num 2 f2, .num 2 sets.length] ++
      sets.map (fun s => .ref 2 (At (.num 2 s.2.length ::
        s.2.flatMap (fun y => u16 y.1 :: (valueRows f1 y.2.1 ++ valueRows f2 y.2.2)))))) B start

/-- Anchor tables, format 1 or, with a contour point, format 2. -/
def anchorRows (a : Anchor) : List Cell := match a.point with
  | none => [.num 2 1, i16 a.x, i16 a.y]
  | some p => [.num 2 2, i16 a.x, i16 a.y, u16 p]

def AnchorAt (a : Anchor) : Bytes → Nat → Prop := At (anchorRows a)

/-- Cursive attachment. -/
def cursiveRows (m : CursivePos) : List Cell :=
  [.num 2 1, .ref 2 (CoverageAt (m.map Prod.fst)), .num 2 m.length] ++
    m.flatMap (fun x => [linked AnchorAt x.2.1, linked AnchorAt x.2.2])

/-- A mark array: class and anchor of each mark. -/
def markRows (ms : Marks) : List Cell :=
  .num 2 ms.length :: ms.flatMap (fun x => [u16 x.2.1, .ref 2 (AnchorAt x.2.2)])

/-- The anchor for a mark class, if there is one. -/
def anchorFor (b : AnchorMap) (cls : Nat) : Option Anchor := (b.find? (fun e => e.1.toNat == cls)).map Prod.snd

/-- The anchors of a base, a ligature component or a mark: one offset for each of the `n` classes. -/
def anchorCells (n : Nat) (b : AnchorMap) : List Cell := (List.range n).map (fun c => linked AnchorAt (anchorFor b c))

/-- `n` is one more than the greatest class of the marks. -/
def ClassesOf (n : Nat) (ms : Marks) : Prop := ∀ c, c < n ↔ ∃ x ∈ ms, c ≤ x.2.1.toNat

/-- Attachment of marks to bases or to other marks. -/
def MarkPosAt (p : MarkPos) : Bytes → Nat → Prop := fun B start => ∃ n : Nat, ClassesOf n p.marks ∧
  At [.num 2 1, .ref 2 (CoverageAt (p.marks.map Prod.fst)), .ref 2 (CoverageAt (p.bases.map Prod.fst)), .num 2 n,
    .ref 2 (At (markRows p.marks)),
    .ref 2 (At (.num 2 p.bases.length :: p.bases.flatMap (fun b => anchorCells n b.2)))] B start

/-- Attachment of marks to the components of ligatures. -/
def MarkLigAt (p : MarkLigPos) : Bytes → Nat → Prop := fun B start => ∃ n : Nat, ClassesOf n p.marks ∧
  At [.num 2 1, .ref 2 (CoverageAt (p.marks.map Prod.fst)), .ref 2 (CoverageAt (p.ligatures.map Prod.fst)), .num 2 n,
    .ref 2 (At (markRows p.marks)),
    .ref 2 (At (.num 2 p.ligatures.length :: p.ligatures.map (fun l =>
      .ref 2 (At (.num 2 l.2.length :: l.2.flatMap (anchorCells n))))))] B start

/-- The lookup types of the specification. -/
def posTypeNumber : Positioning → Nat
  | .single _ => 1
  | .pair _ => 2
  | .cursive _ => 3
  | .markToBase _ => 4
  | .markToLig _ => 5
  | .markToMark _ => 6
  | .contextual _ => 7
  | .chained _ => 8

/-- The subtables of a positioning rule. -/
def posTables : Positioning → List (Bytes → Nat → Prop)
  | .single l => l.map SinglePosAt
  | .pair l => l.map PairPosAt
  | .cursive l => l.map (fun m => At (cursiveRows m))
  | .markToBase l => l.map MarkPosAt
  | .markToLig l => l.map MarkLigAt
  | .markToMark l => l.map MarkPosAt
  | .contextual l => l.flatten.map (fun r => At (contextRows r))
  | .chained l => l.flatten.map (fun r => At (chainRows r))

/-- Where the writer does what the specification says: no devices except in a single adjustment that is the same for all
glyphs, and there in both placements or in none; pairs whose records have non-zero values in the same fields; maps in
key order. -/
def PosWritable : Positioning → Prop
  | .single l => ∀ m ∈ l, (∀ x ∈ m, NoDevices x.2) ∨
      (UniformSingle m ∧ ∀ x ∈ m, x.2.xPlaDevice.isSome = x.2.yPlaDevice.isSome)
  | .pair l => ∀ m ∈ l, BMap.Sorted m ∧ (∀ x ∈ m, NoDevices x.2.1 ∧ NoDevices x.2.2) ∧
      SameFields (m.map (fun x => x.2.1)) ∧ SameFields (m.map (fun x => x.2.2))
  | .markToBase l => ∀ p ∈ l, ∀ b ∈ p.bases, BMap.Sorted b.2
  | .markToLig l => ∀ p ∈ l, ∀ b ∈ p.ligatures, ∀ c ∈ b.2, BMap.Sorted c
  | .markToMark l => ∀ p ∈ l, ∀ b ∈ p.bases, BMap.Sorted b.2
  | _ => True

/-! ### Value records -/

theorem int_pics (x : Option Int16) : Pics (intTab x) (if x.isSome then [.num 2 (x.getD 0).toInt] else []) := by
  cases x with
  | none => exact pics_nil
  | some x => exact (lays_i16 x).pics

theorem dev_pics {x : Option (Option Device.Device)} {t : Tab} (h : devTab x = .ok t) :
    Pics t (if x.isSome then [linked DeviceAt x.join] else []) := by
  match x, h with
  | none, h => cases h; exact pics_nil
  | some none, h => cases h; exact pics_null .w16
  | some (some d), h =>
    simp only [devTab] at h
    split at h
    · next bs e => cases h; exact pics_ref (device_at e)
    · cases h
    · cases h

theorem flag_bits (v : ValueRecord) :
    (flags v).toNat.testBit 0 = v.xPlacement.isSome ∧ (flags v).toNat.testBit 1 = v.yPlacement.isSome ∧
    (flags v).toNat.testBit 2 = v.xAdvance.isSome ∧ (flags v).toNat.testBit 3 = v.yAdvance.isSome ∧
    (flags v).toNat.testBit 4 = v.xPlaDevice.isSome ∧ (flags v).toNat.testBit 5 = v.xPlaDevice.isSome ∧
    (flags v).toNat.testBit 6 = v.xAdvDevice.isSome ∧ (flags v).toNat.testBit 7 = v.yAdvDevice.isSome := by
  have := has_flags v
  rw [has_bit (k := 0) rfl, has_bit (k := 1) rfl, has_bit (k := 2) rfl, has_bit (k := 3) rfl, has_bit (k := 4) rfl,
    has_bit (k := 5) rfl, has_bit (k := 6) rfl, has_bit (k := 7) rfl] at this
  exact this

theorem flags_small (v : ValueRecord) : (flags v).toNat < 256 := by
  unfold flags
  generalize v.xPlacement.isSome = b1
  generalize v.yPlacement.isSome = b2
  generalize v.xAdvance.isSome = b3
  generalize v.yAdvance.isSome = b4
  generalize v.xPlaDevice.isSome = b5
  generalize v.xAdvDevice.isSome = b6
  generalize v.yAdvDevice.isSome = b7
  revert b1 b2 b3 b4 b5 b6 b7
  decide

theorem formatOf_flags {v : ValueRecord} (hxy : v.xPlaDevice.isSome = v.yPlaDevice.isSome) : FormatOf (flags v).toNat v := by
  obtain ⟨h1, h2, h3, h4, h5, h6, h7, h8⟩ := flag_bits v
  have ki : ∀ x : Option Int16, x.isSome = false → (x.getD 0).toInt = 0 := by
    intro x h; cases x with
    | none => rfl
    | some x => cases h
  have kd : ∀ x : Option (Option Device.Device), x.isSome = false → x.join = none := by
    intro x h; cases x with
    | none => rfl
    | some x => cases h
  exact ⟨flags_small v, fun h => ki _ (h1 ▸ h), fun h => ki _ (h2 ▸ h), fun h => ki _ (h3 ▸ h), fun h => ki _ (h4 ▸ h),
    fun h => kd _ (h5 ▸ h), fun h => kd _ (hxy ▸ h6 ▸ h), fun h => kd _ (h7 ▸ h), fun h => kd _ (h8 ▸ h)⟩

theorem value_pics {v : ValueRecord} (hxy : v.xPlaDevice.isSome = v.yPlaDevice.isSome) {t : Tab} (h : VR.tab v = .ok t) :
    Pics t (valueRows (flags v).toNat v) := by
  unfold VR.tab at h
  obtain ⟨e, he, h⟩ := Res.bind_inv h
  obtain ⟨g, hg, h⟩ := Res.bind_inv h
  obtain ⟨i, hi, h⟩ := Res.bind_inv h
  obtain ⟨j, hj, h⟩ := Res.bind_inv h
  cases h
  obtain ⟨h1, h2, h3, h4, h5, h6, h7, h8⟩ := flag_bits v
  unfold valueRows
  rw [h1, h2, h3, h4, h5, h6, h7, h8, hxy]
  have h5' := dev_pics he
  rw [hxy] at h5'
  simp only [List.append_assoc]
  exact (int_pics _).append ((int_pics _).append ((int_pics _).append ((int_pics _).append
    (h5'.append ((dev_pics hg).append ((dev_pics hi).append (dev_pics hj)))))))

theorem looseInt_lays (x : Option Int16) : Lays (looseInt x) (if x.isSome then [.num 2 (x.getD 0).toInt] else []) := by
  cases x with
  | none => exact lays_nil
  | some x => exact lays_i16 x

theorem value_lays {v : ValueRecord} (hd : NoDevices v) : Lays (recBytes v) (valueRows (flags v).toNat v) := by
  obtain ⟨h1, h2, h3, h4, h5, h6, h7, h8⟩ := flag_bits v
  obtain ⟨d1, d2, d3, d4⟩ := hd
  unfold valueRows recBytes
  rw [h1, h2, h3, h4, h5, h6, h7, h8, d1, d3, d4]
  simp only [List.append_assoc]
  have := (looseInt_lays v.xPlacement).append ((looseInt_lays v.yPlacement).append ((looseInt_lays v.xAdvance).append
    (looseInt_lays v.yAdvance)))
  simpa using this

theorem sameEffect_rows {v w : ValueRecord} (h : SameEffect v w) (f : Nat) : valueRows f v = valueRows f w := by
  obtain ⟨h1, h2⟩ := h
  simp only [adjustment, Prod.mk.injEq] at h1
  simp only [devices, List.cons.injEq, and_true] at h2
  obtain ⟨a1, a2, a3, a4⟩ := h1
  obtain ⟨b1, b2, b3, b4⟩ := h2
  unfold valueRows
  rw [a1, a2, a3, a4, b1, b2, b3, b4]

theorem sameEffect_format {v w : ValueRecord} (h : SameEffect v w) {f : Nat} (hf : FormatOf f v) : FormatOf f w := by
  obtain ⟨h1, h2⟩ := h
  simp only [adjustment, Prod.mk.injEq] at h1
  simp only [devices, List.cons.injEq, and_true] at h2
  obtain ⟨a1, a2, a3, a4⟩ := h1
  obtain ⟨b1, b2, b3, b4⟩ := h2
  obtain ⟨c, c1, c2, c3, c4, c5, c6, c7, c8⟩ := hf
  rw [a1] at c1; rw [a2] at c2; rw [a3] at c3; rw [a4] at c4
  rw [b1] at c5; rw [b2] at c6; rw [b3] at c7; rw [b4] at c8
  exact ⟨c, c1, c2, c3, c4, c5, c6, c7, c8⟩

theorem sameEffect_symm {v w : ValueRecord} (h : SameEffect v w) : SameEffect w v := ⟨h.1.symm, h.2.symm⟩
theorem sameEffect_trans {u v w : ValueRecord} (h : SameEffect u v) (h' : SameEffect v w) : SameEffect u w :=
  ⟨h.1.trans h'.1, h.2.trans h'.2⟩
theorem sameEffect_simplify (v : ValueRecord) : SameEffect (simplify v) v :=
  ⟨(C10_simplify v).1, (C10_simplify v).2.1⟩

/-! ### Single and pair adjustment -/

theorem loose_lays {f : Nat} : ∀ {vs : List ValueRecord} {bs : List Bytes}, Res.mapL looseRec vs = .ok bs →
    (∀ v ∈ vs, NoDevices v ∧ (flags v).toNat = f) → Lays bs.flatten (vs.flatMap (valueRows f))
  | [], bs, h, _ => by cases h; exact lays_nil
  | v :: vs, bs, h, hv => by
    rw [Res.mapL, looseRec_plain (hv v (by simp)).1] at h
    simp only at h
    split at h
    · next bs' e =>
      cases h
      have := value_lays (hv v (by simp)).1
      rw [(hv v (by simp)).2] at this
      exact this.append (loose_lays e fun w hw => hv w (by simp [hw]))
    · cases h
    · cases h

theorem coerced_flags {vs ws : List ValueRecord} (hn : ∀ v ∈ vs, NoDevices v) (hw : coerceToSame vs = ws) :
    ∀ v ∈ ws, ∀ w ∈ ws, flags v = flags w := by
  have hn' : ∀ v ∈ vs, ∀ x ∈ devices v, x = none := fun v hv => noDevices_iff.mp (hn v hv)
  obtain ⟨c1, c2, c3⟩ := C10_coerce vs
  rw [hw] at c2 c3
  intro v hv w hw'
  apply UInt16.toNat_inj.mp
  apply Nat.eq_of_testBit_eq
  intro k
  by_cases hk : k < 8
  · rw [c3 hn' v hv k hk, c3 hn' w hw' k hk]
  · have h1 := flags_small v
    have h2 := flags_small w
    have : (256 : Nat) ≤ 2 ^ k := by
      calc 256 = 2 ^ 8 := rfl
        _ ≤ 2 ^ k := Nat.pow_le_pow_right (by omega) (by omega)
    rw [Nat.testBit_lt_two_pow (by omega), Nat.testBit_lt_two_pow (by omega)]

theorem same_pairs : ∀ {l : List ValueRecord} {m : SinglePos}, l.map adjustment = m.map (fun x => adjustment x.2) →
    l.map devices = m.map (fun x => devices x.2) → List.Forall₂ (fun v x => SameEffect v x.2) l m
  | [], [], _, _ => .nil
  | [], _ :: _, h, _ => by cases h
  | _ :: _, [], h, _ => by cases h
  | v :: l, x :: m, h1, h2 => by
    simp only [List.map_cons, List.cons.injEq] at h1 h2
    exact .cons ⟨h1.1, h2.1⟩ (same_pairs h1.2 h2.2)

theorem same_rows (f : Nat) {l : List ValueRecord} {m : SinglePos} (h : List.Forall₂ (fun v x => SameEffect v x.2) l m) :
    l.flatMap (valueRows f) = m.flatMap (fun x => valueRows f x.2) := by
  induction h with
  | nil => rfl
  | cons h _ ih => rw [List.flatMap_cons, List.flatMap_cons, sameEffect_rows h, ih]

theorem singlePos_at {m : SinglePos} (hd : (∀ x ∈ m, NoDevices x.2) ∨
      (UniformSingle m ∧ ∀ x ∈ m, x.2.xPlaDevice.isSome = x.2.yPlaDevice.isSome))
    {low : Gpos.Sub} (h : m.toLow = .ok low) {t : Tab} (ht : low.tab = .ok t) : PicsAt t (SinglePosAt m) := by
  intro B start ext hl hh
  simp only [SinglePos.toLow] at h
  split at h
  · next hu =>
    rw [uniform_iff] at hu
    cases m with
    | nil => cases h
    | cons x m =>
      cases h
      simp only [Gpos.Sub.tab] at ht
      obtain ⟨c, hc, ht⟩ := Res.bind_inv ht
      obtain ⟨u, hv, ht⟩ := Res.bind_inv ht
      cases ht
      have hxy : (simplify x.2).xPlaDevice.isSome = (simplify x.2).yPlaDevice.isSome := by
        show x.2.xPlaDevice.isSome = x.2.yPlaDevice.isSome
        rcases hd with hd | hd
        · obtain ⟨a, b, _⟩ := hd x (by simp)
          rw [a, b]
        · exact hd.2 x (by simp)
      have hsame : ∀ y ∈ x :: m, SameEffect (simplify x.2) y.2 := fun y hy =>
        sameEffect_trans (sameEffect_simplify x.2) (hu x (by simp) y hy)
      refine ⟨(flags (simplify x.2)).toNat, fun y hy => sameEffect_format (hsame y hy) (formatOf_flags hxy),
        .inl ⟨by simp, fun y hy => ?_⟩⟩
      rw [← sameEffect_rows (hsame y hy)]
      exact ((lays_len 1).pics.cons ((cov_pics hc).cons ((lays_u16 _).pics.cons (value_pics hxy hv)))).2 B start start ext hh
  · next hu =>
    have hu' : ¬ UniformSingle m := fun e => hu ((uniform_iff m).mpr e)
    have hn : ∀ x ∈ m, NoDevices x.2 := by
      rcases hd with hd | hd
      · exact hd
      · exact absurd hd.1 hu'
    have hn' : ∀ v ∈ m.map (fun x => simplify x.2), NoDevices v := by
      intro v hv
      obtain ⟨x, hx, rfl⟩ := List.mem_map.mp hv
      exact noDevices_of (C10_simplify x.2).2.1 (hn x hx)
    obtain ⟨c1, c2, c4⟩ := C10_coerce (m.map (fun x => simplify x.2))
    clear c4
    have c3 := coerced_flags hn' rfl
    generalize coerceToSame (m.map (fun x => simplify x.2)) = ws at h c1 c2 c3
    cases ws with
    | nil => cases h
    | cons w ws =>
      cases h
      simp only [Gpos.Sub.tab] at ht
      obtain ⟨c, hc, ht⟩ := Res.bind_inv ht
      obtain ⟨bs, hb, ht⟩ := Res.bind_inv ht
      cases ht
      have hsame : List.Forall₂ (fun v x => SameEffect v x.2) (w :: ws) m := by
        rw [List.map_map] at c1 c2
        have e1 : (fun x : UInt16 × ValueRecord => adjustment (simplify x.2)) = fun x => adjustment x.2 :=
          funext fun x => (C10_simplify x.2).1
        have e2 : (fun x : UInt16 × ValueRecord => devices (simplify x.2)) = fun x => devices x.2 :=
          funext fun x => (C10_simplify x.2).2.1
        simp only [Function.comp_def, e1] at c1
        simp only [Function.comp_def, e2] at c2
        exact same_pairs c1 c2
      have hnd : ∀ v ∈ w :: ws, NoDevices v := by
        intro v hv
        obtain ⟨x, hx, e⟩ := forall₂_mem_right hsame.flip v hv
        exact noDevices_of e.2 (hn x hx)
      have hrows := loose_lays (f := (flags w).toNat) hb fun v hv => ⟨hnd v hv, by rw [c3 v hv w (by simp)]⟩
      have e := same_rows (flags w).toNat hsame
      rw [e] at hrows
      have hw : ∀ v ∈ w :: ws, FormatOf (flags w).toNat v := by
        intro v hv
        rw [← c3 v hv w (by simp)]
        refine formatOf_flags ?_
        obtain ⟨a, b, _⟩ := hnd v hv
        rw [a, b]
      refine ⟨(flags w).toNat, fun x hx => ?_, .inr ?_⟩
      · obtain ⟨v, hv, e⟩ := forall₂_mem_right hsame x hx
        exact sameEffect_format e (hw v hv)
      · have hlen := hsame.length_eq
        rw [hlen] at hh
        exact ((lays_len 2).pics.cons ((cov_pics hc).cons ((lays_u16 _).pics.cons
          ((lays_len _).cons hrows).pics))).2 B start start ext hh

theorem pairSet_pics {l : List PairRec} {f1 f2 : Nat} {t : Tab} (h : pairSetTab l = .ok t)
    (hl : ∀ r ∈ l, (NoDevices r.2.1 ∧ (flags r.2.1).toNat = f1) ∧ NoDevices r.2.2 ∧ (flags r.2.2).toNat = f2) :
    Pics t (.num 2 l.length :: l.flatMap (fun y => u16 y.1 :: (valueRows f1 y.2.1 ++ valueRows f2 y.2.2))) := by
  unfold pairSetTab at h
  split at h
  · next bs e =>
    cases h
    refine ((lays_len _).cons ?_).pics
    clear * - e hl
    induction l generalizing bs with
    | nil => cases e; exact lays_nil
    | cons r l ih =>
      obtain ⟨⟨d1, e1⟩, d2, e2⟩ := hl r (by simp)
      rw [Res.mapL, inlinePair_plain _ d1 d2] at e
      simp only at e
      split at e
      · next bs' e' =>
        cases e
        rw [List.flatten_cons, List.flatMap_cons]
        refine Lays.append ?_ (ih (fun r hr => hl r (by simp [hr])) _ e')
        have h1 := value_lays d1
        have h2 := value_lays d2
        rw [e1] at h1
        rw [e2] at h2
        exact (lays_u16 _).cons (h1.append h2)
      · cases e
      · cases e
  · cases h
  · cases h

theorem pairPos_at {m : PairPos} (hs : BMap.Sorted m) (hd : ∀ x ∈ m, NoDevices x.2.1 ∧ NoDevices x.2.2)
    (h1 : SameFields (m.map (fun x => x.2.1))) (h2 : SameFields (m.map (fun x => x.2.2)))
    {t : Tab} (ht : m.toLow.tab = .ok t) : PicsAt t (PairPosAt m) := by
  intro B start ext hl hh
  have hs' := simplifyPairs_sorted hs
  obtain ⟨t1, t2⟩ := splitPairs_spec hs'
  have hmem : ∀ x ∈ splitPairs (simplifyPairs m), ∀ y ∈ x.2, ∃ z ∈ m, y.2 = (simplify z.2.1, simplify z.2.2) := by
    intro x hx y hy
    have : ((x.1, y.1), y.2) ∈ joinPairs (splitPairs (simplifyPairs m)) :=
      List.mem_flatMap.mpr ⟨x, hx, List.mem_map.mpr ⟨y, hy, rfl⟩⟩
    rw [t2] at this
    obtain ⟨z, hz, e⟩ := List.mem_map.mp this
    exact ⟨z, hz, (congrArg Prod.snd e).symm⟩
  have hall : (splitPairs (simplifyPairs m)).flatMap (fun x => x.2.map Prod.snd) = (simplifyPairs m).map Prod.snd := by
    conv_rhs => rw [← t2]
    simp only [joinPairs, List.map_flatMap, List.map_map]
    rfl
  simp only [PairPos.toLow, Gpos.Sub.tab, hall] at ht
  have hfmt : ∀ z ∈ m, flags (simplify z.2.1) = highestFormat (((simplifyPairs m).map Prod.snd).map Prod.fst) ∧
      flags (simplify z.2.2) = highestFormat (((simplifyPairs m).map Prod.snd).map Prod.snd) := by
    intro z hz
    have hin : (simplify z.2.1, simplify z.2.2) ∈ (simplifyPairs m).map Prod.snd := by
      simp only [simplifyPairs, List.map_map]
      exact List.mem_map.mpr ⟨z, hz, rfl⟩
    refine ⟨(highest_same (List.ne_nil_of_mem (List.mem_map_of_mem hin)) ?_).symm,
      (highest_same (List.ne_nil_of_mem (List.mem_map_of_mem hin)) ?_).symm⟩
    · intro v hv
      simp only [simplifyPairs, List.map_map] at hv
      obtain ⟨z', hz', rfl⟩ := List.mem_map.mp hv
      exact flags_simplify (hd z' hz').1 (hd z hz).1
        (h1 _ (List.mem_map.mpr ⟨z', hz', rfl⟩) _ (List.mem_map.mpr ⟨z, hz, rfl⟩))
    · intro v hv
      simp only [simplifyPairs, List.map_map] at hv
      obtain ⟨z', hz', rfl⟩ := List.mem_map.mp hv
      exact flags_simplify (hd z' hz').2 (hd z hz).2
        (h2 _ (List.mem_map.mpr ⟨z', hz', rfl⟩) _ (List.mem_map.mpr ⟨z, hz, rfl⟩))
  generalize highestFormat (((simplifyPairs m).map Prod.snd).map Prod.fst) = f1 at ht hfmt
  generalize highestFormat (((simplifyPairs m).map Prod.snd).map Prod.snd) = f2 at ht hfmt
  obtain ⟨c, hc, ht⟩ := Res.bind_inv ht
  obtain ⟨v, hv, ht⟩ := Res.bind_inv ht
  cases ht
  have key : ∀ z : ValueRecord, NoDevices z → NoDevices (simplify z) := fun z hz =>
    noDevices_of (C10_simplify z).2.1 hz
  refine ⟨f1.toNat, f2.toNat, splitPairs (simplifyPairs m), ?_, ?_, ?_, ?_, ?_⟩
  · exact t1.outer.imp fun h => of_decide_eq_true h
  · exact fun s hs => ⟨t1.full s hs, (t1.inner s hs).imp fun h => of_decide_eq_true h⟩
  · intro x hx
    obtain ⟨e1, e2⟩ := hfmt x hx
    obtain ⟨d1, d2⟩ := hd x hx
    rw [← e1, ← e2]
    have n1 := key _ d1
    have n2 := key _ d2
    exact ⟨sameEffect_format (sameEffect_simplify _) (formatOf_flags (by rw [n1.1, n1.2.1])),
      sameEffect_format (sameEffect_simplify _) (formatOf_flags (by rw [n2.1, n2.2.1]))⟩
  · have := congrArg (List.map (fun x => (x.1, adjustment x.2.1, adjustment x.2.2))) t2
    simp only [joinPairs, List.map_flatMap, List.map_map, simplifyPairs, Function.comp_def, (C10_simplify _).1] at this
    exact this
  · have := pics_offVec (P := fun l : List PairRec => At (.num 2 l.length ::
        l.flatMap (fun y => u16 y.1 :: (valueRows f1.toNat y.2.1 ++ valueRows f2.toNat y.2.2)))) hv
        fun x hx a ha t ht => (pairSet_pics ht ?_).at
    · rw [List.length_map, List.map_map] at this
      have := ((lays_len 1).pics.cons ((cov_pics hc).cons ((lays_u16 _).pics.cons ((lays_u16 _).pics.cons
        this)))).2 B start start ext hh
      simp only [Function.comp_def, linked, List.length_map, List.flatMap_map] at this
      exact this
    · intro r hr
      obtain ⟨s, hs, rfl⟩ := List.mem_map.mp hx
      cases ha
      obtain ⟨y, hy, rfl⟩ := List.mem_map.mp hr
      obtain ⟨z, hz, ez⟩ := hmem s hs y hy
      simp only [ez]
      exact ⟨⟨key _ (hd z hz).1, by rw [(hfmt z hz).1]⟩, key _ (hd z hz).2, by rw [(hfmt z hz).2]⟩

/-! ### Anchors -/

theorem anchor_at {a : Anchor} {t : Tab} (h : a.tab = .ok t) : PicsAt t (AnchorAt a) := by
  cases h
  unfold AnchorAt anchorRows
  refine Pics.at (Lays.pics ?_)
  cases a.point with
  | none => exact (lays_len 1).cons ((lays_i16 _).cons (lays_i16 _))
  | some p => exact (lays_len 2).cons ((lays_i16 _).cons ((lays_i16 _).cons (lays_u16 _)))

theorem counted_pics {α : Type} {f : α → Res Tab} {rows : α → List Cell} {l : List α} {t : Tab}
    (h : countedTab f l = .ok t) (hf : ∀ a ∈ l, ∀ t, f a = .ok t → Pics t (rows a)) :
    Pics t (.num 2 l.length :: l.flatMap rows) := by
  unfold countedTab at h
  split at h
  · next ts e => cases h; exact (lays_len _).pics.cons (pics_list e hf)
  · cases h
  · cases h

theorem cursive_pics {m : CursivePos} {t : Tab} (h : m.toLow.tab = .ok t) : Pics t (cursiveRows m) := by
  simp only [CursivePos.toLow, Gpos.Sub.tab] at h
  obtain ⟨c, hc, h⟩ := Res.bind_inv h
  obtain ⟨v, hv, h⟩ := Res.bind_inv h
  cases h
  have := counted_pics (rows := fun r => [linked AnchorAt r.1, linked AnchorAt r.2]) hv fun r _ t ht => by
    unfold entryExitTab at ht
    obtain ⟨a, ha, ht⟩ := Res.bind_inv ht
    obtain ⟨b, hb, ht⟩ := Res.bind_inv ht
    cases ht
    exact (pics_opt ha fun _ _ _ ht => anchor_at ht).cons (pics_opt hb fun _ _ _ ht => anchor_at ht)
  rw [List.length_map, List.flatMap_map] at this
  exact (lays_len 1).pics.cons ((cov_pics hc).cons this)

theorem marks_pics {ms : Marks} {t : Tab} (h : markArrayTab (markRecs ms) = .ok t) : Pics t (markRows ms) := by
  have := counted_pics (rows := fun r : MarkRec => [u16 r.1, linked AnchorAt r.2]) h fun r _ t ht => by
    unfold markRecTab at ht
    split at ht
    · next u hu => cases ht; exact (lays_u16 _).pics.cons (pics_opt hu fun _ _ _ ht => anchor_at ht)
    · cases ht
    · cases ht
  rw [markRecs, List.length_map, List.flatMap_map] at this
  exact this

theorem get?_find {b : AnchorMap} (hs : BMap.Sorted b) {i : Nat} (hi : i ≤ 65535) :
    BMap.get? b (UInt16.ofNat i) = anchorFor b i := by
  induction b with
  | nil => rfl
  | cons x b ih =>
    obtain ⟨k, a⟩ := x
    have hu := ofNat16_toNat hi
    simp only [BMap.get?, anchorFor, List.find?_cons]
    by_cases e : k.toNat = i
    · have : k = UInt16.ofNat i := UInt16.toNat_inj.mp (by rw [hu, e])
      subst this
      simp [Key.lt, hu]
    · have hne : (k.toNat == i) = false := by simpa using e
      rw [hne]
      by_cases hlt : i < k.toNat
      · have h1 : (Key.lt (UInt16.ofNat i) k) = true := by simp [Key.lt, hu, hlt]
        rw [if_pos h1]
        have : b.find? (fun e => e.1.toNat == i) = none := by
          rw [List.find?_eq_none]
          intro y hy
          have := of_decide_eq_true (hs.head_lt y hy)
          simp only at this
          simp; omega
        rw [this]; rfl
      · have h1 : (Key.lt (UInt16.ofNat i) k) = false := by simp [Key.lt, hu]; omega
        have h2 : (Key.lt k (UInt16.ofNat i)) = true := by simp [Key.lt, hu]; omega
        rw [h1, h2]
        simp only [Bool.false_eq_true, if_false, if_true]
        exact ih hs.tail

theorem row_pics {b : AnchorMap} (hs : BMap.Sorted b) {n : Nat} (hn : n ≤ 65535) {t : Tab}
    (h : rowTab (anchorRow n b) = .ok t) : Pics t (anchorCells n b) := by
  unfold rowTab at h
  split at h
  · next ts e =>
    cases h
    have := pics_list1 (row := linked AnchorAt) e fun x _ t ht => pics_opt ht fun _ _ _ ht => anchor_at ht
    unfold anchorRow at this
    rw [List.map_map] at this
    have e2 : (List.range n).map (linked AnchorAt ∘ fun i => BMap.get? b (UInt16.ofNat i)) = anchorCells n b := by
      refine List.map_congr_left fun i hi => ?_
      have := List.mem_range.mp hi
      simp only [Function.comp]
      rw [get?_find hs (by omega)]
    rwa [e2] at this
  · cases h
  · cases h

theorem rows_pics {bs : List AnchorMap} (hs : ∀ b ∈ bs, BMap.Sorted b) {n : Nat} (hn : n ≤ 65535) {t : Tab}
    (h : rowsTab (bs.map (anchorRow n)) = .ok t) : Pics t (.num 2 bs.length :: bs.flatMap (anchorCells n)) := by
  unfold rowsTab countedTab at h
  rw [mapL_map_arg, List.length_map] at h
  split at h
  · next ts e => cases h; exact (lays_len _).pics.cons (pics_list e fun b hb t ht => row_pics (hs b hb) hn ht)
  · cases h
  · cases h

theorem classes_of {ms : Marks} {n : Nat} (h : classCount ms 0 = .ok n) : ClassesOf n ms ∧ n ≤ 65535 := by
  have hc : ∀ x ∈ ms, x.2.1.toNat ≠ 65535 := by
    intro x hx e
    rw [classCount_panics ms 0 ⟨x, hx, e⟩] at h
    cases h
  obtain ⟨k, h1, h2, h3⟩ := classCount_ok ms 0 hc
  rw [h] at h1
  cases h1
  exact ⟨fun c => by rw [h2]; simp, h3 (by omega)⟩

theorem markTab_at {p : MarkPos} (hs : ∀ b ∈ p.bases, BMap.Sorted b.2) {n : Nat} (hn : classCount p.marks 0 = .ok n)
    {t : Tab} (h : markTab 1 (some (p.marks.map Prod.fst)) (some (p.bases.map Prod.fst)) (UInt16.ofNat n)
      (some (markRecs p.marks)) (some (p.bases.map (fun x => anchorRow n x.2))) = .ok t) : PicsAt t (MarkPosAt p) := by
  unfold markTab at h
  obtain ⟨m, hm, h⟩ := Res.bind_inv h
  obtain ⟨b, hb, h⟩ := Res.bind_inv h
  obtain ⟨x, hx, h⟩ := Res.bind_inv h
  obtain ⟨y, hy, h⟩ := Res.bind_inv h
  cases h
  intro B start ext hl hh
  refine ⟨n, (classes_of hn).1, ?_⟩
  have p1 := pics_opt (P := fun _ => At (markRows p.marks)) hx fun a ha t ht => by cases ha; exact (marks_pics ht).at
  have p2 := pics_opt (P := fun _ => At (.num 2 p.bases.length :: p.bases.flatMap (fun b => anchorCells n b.2))) hy
    fun a ha t ht => by
      cases ha
      have := rows_pics (bs := p.bases.map Prod.snd) (n := n) (by
        intro b hb
        obtain ⟨x, hx, rfl⟩ := List.mem_map.mp hb
        exact hs x hx) (classes_of hn).2 (t := t) (by rw [List.map_map]; exact ht)
      rw [List.length_map, List.flatMap_map] at this
      exact this.at
  exact ((lays_len 1).pics.cons ((cov_pics hm).cons ((cov_pics hb).cons ((lays_len n).pics.cons (p1.cons p2))))).2
    B start start ext hh

theorem markPos_at {mk : UInt16 → Cov → Cov → UInt16 → Option (List MarkRec) → Option (List AnchorRow) → Gpos.Sub}
    (hmk : ∀ f m b n ma ba, (mk f m b n ma ba).tab = markTab f m b n ma ba) {p : MarkPos}
    (hs : ∀ b ∈ p.bases, BMap.Sorted b.2) {low : Gpos.Sub} (h : p.toLow mk = .ok low) {t : Tab} (ht : low.tab = .ok t) :
    PicsAt t (MarkPosAt p) := by
  unfold MarkPos.toLow at h
  obtain ⟨n, hn, h⟩ := Res.bind_inv h
  cases h
  rw [hmk] at ht
  exact markTab_at hs hn ht

theorem markLig_at {p : MarkLigPos} (hs : ∀ b ∈ p.ligatures, ∀ c ∈ b.2, BMap.Sorted c) {low : Gpos.Sub}
    (h : p.toLow = .ok low) {t : Tab} (ht : low.tab = .ok t) : PicsAt t (MarkLigAt p) := by
  unfold MarkLigPos.toLow at h
  obtain ⟨n, hn, h⟩ := Res.bind_inv h
  cases h
  simp only [Gpos.Sub.tab] at ht
  obtain ⟨m, hm, ht⟩ := Res.bind_inv ht
  obtain ⟨b, hb, ht⟩ := Res.bind_inv ht
  obtain ⟨x, hx, ht⟩ := Res.bind_inv ht
  obtain ⟨y, hy, ht⟩ := Res.bind_inv ht
  cases ht
  intro B start ext hl hh
  refine ⟨n, (classes_of hn).1, ?_⟩
  have p1 := pics_opt (P := fun _ => At (markRows p.marks)) hx fun a ha t ht => by cases ha; exact (marks_pics ht).at
  have p2 := pics_opt (P := fun _ => At (.num 2 p.ligatures.length :: p.ligatures.map (fun l =>
      .ref 2 (At (.num 2 l.2.length :: l.2.flatMap (anchorCells n)))))) hy
    fun a ha t ht => by
      cases ha
      unfold ligArrayTab offVec at ht
      rw [mapL_map_arg, List.length_map] at ht
      split at ht
      · next ts e =>
        cases ht
        refine ((lays_len _).pics.cons (pics_list1 e fun l hl t ht => ?_)).at
        exact pics_opt (P := fun _ => At (.num 2 l.2.length :: l.2.flatMap (anchorCells n))) ht fun a ha t ht => by
          cases ha; exact (rows_pics (hs l hl) (classes_of hn).2 ht).at
      · cases ht
      · cases ht
  exact ((lays_len 1).pics.cons ((cov_pics hm).cons ((cov_pics hb).cons ((lays_len n).pics.cons (p1.cons p2))))).2
    B start start ext hh

theorem subsOf_at {α : Type} {f : α → Res Gpos.Sub} {P : α → Bytes → Nat → Prop} {l : List α} {ss : List Gpos.SubX}
    (h : Gpos.subsOf f l = .ok ss) (hf : ∀ a ∈ l, ∀ low t, f a = .ok low → low.tab = .ok t → PicsAt t (P a)) :
    List.Forall₂ (fun s P => ∀ t, Gpos.SubX.tab s = .ok t → PicsAt t P) ss (l.map P) := by
  unfold Gpos.subsOf at h
  split at h
  case h_2 => cases h
  case h_3 => cases h
  next ls hls =>
  cases h
  simp only [List.forall₂_map_left_iff, List.forall₂_map_right_iff]
  have h2 := (mapL_inv _ _ hls).flip
  clear hls
  induction h2 with
  | nil => exact .nil
  | cons h h' ih =>
    exact .cons (fun t ht => hf _ (by simp) _ t h ht) (ih fun m hm => hf m (by simp [hm]))

/-- **C82.** A written GPOS table has the layout of the OpenType specification. -/
theorem C82_gpos (g : GPOS) (_hmfs : ∀ l ∈ g.lookups, l.mfs.isSome = l.flags.toNat.testBit 4)
    (hw : ∀ l ∈ g.lookups, PosWritable l.rule)
    (bs : Bytes) (h : GPOS.toBytes g = .ok bs) : At (layoutRows posTypeNumber posTables g) bs 0 := by
  refine layout_shows (fun r => by cases r <;> rfl) (fun l hl ss hss => ?_) h
  have hw := hw l hl
  cases hr : l.rule with
  | single ms =>
    rw [hr] at hss hw
    exact subsOf_at hss fun m hm low t h1 h2 => singlePos_at (hw m hm) h1 h2
  | pair ms =>
    rw [hr] at hss hw; cases hss
    simp only [posTables, List.forall₂_map_left_iff, List.forall₂_map_right_iff, List.forall₂_same]
    exact fun m hm t ht => pairPos_at (hw m hm).1 (hw m hm).2.1 (hw m hm).2.2.1 (hw m hm).2.2.2 ht
  | cursive ms =>
    rw [hr] at hss; cases hss
    simp only [posTables, List.forall₂_map_left_iff, List.forall₂_map_right_iff, List.forall₂_same]
    exact fun m _ t ht => (cursive_pics ht).at
  | markToBase ms =>
    rw [hr] at hss hw
    exact subsOf_at hss fun m hm low t h1 h2 => markPos_at (fun _ _ _ _ _ _ => rfl) (hw m hm) h1 h2
  | markToLig ms =>
    rw [hr] at hss hw
    exact subsOf_at hss fun m hm low t h1 h2 => markLig_at (hw m hm) h1 h2
  | markToMark ms =>
    rw [hr] at hss hw
    exact subsOf_at hss fun m hm low t h1 h2 => markPos_at (fun _ _ _ _ _ _ => rfl) (hw m hm) h1 h2
  | contextual ms =>
    rw [hr] at hss; cases hss
    simp only [posTables, List.forall₂_map_left_iff, List.forall₂_map_right_iff, List.forall₂_same]
    exact fun m _ t ht => (context_pics ht).at
  | chained ms =>
    rw [hr] at hss; cases hss
    simp only [posTables, List.forall₂_map_left_iff, List.forall₂_map_right_iff, List.forall₂_same]
    exact fun m _ t ht => (chain_pics ht).at

/-- A table with a lookup of every kind that can be written, among them those that cannot be read back. -/
def specGpos : GPOS :=
  ⟨[⟨0, none, .single [[(10, { xAdvance := some 5 }), (11, { xAdvance := some 0, yPlacement := some (-3) })]]⟩,
    ⟨0x10, some 3, .pair [[((7, 8), ({ xAdvance := some (-20) }, {})), ((7, 9), ({ xAdvance := some 4 }, {}))]]⟩,
    ⟨1, none, .cursive [[(40, (some ⟨1, 2, none⟩, none))]]⟩,
    ⟨0, none, .markToBase [⟨[(10, [(0, ⟨1, 2, none⟩), (1, ⟨3, 4, some 7⟩)])], [(50, (0, ⟨5, 6, none⟩))]⟩]⟩,
    ⟨0, none, .markToLig [⟨[(10, [[(0, ⟨1, 2, none⟩)], []]), (12, [[(0, ⟨1, 2, none⟩)]])], [(50, (0, ⟨5, 6, none⟩))]⟩]⟩,
    ⟨0, none, .markToMark [⟨[(10, [(0, ⟨1, 2, none⟩)])], [(50, (0, ⟨5, 6, none⟩))]⟩]⟩,
    ⟨0, none, .chained [[⟨[[1]], [[4]], [([2, 3], [0])]⟩]]⟩],
   [(⟨0x6C, 0x61, 0x74, 0x6E⟩, ⟨some ⟨none, [0]⟩, []⟩)],
   [(⟨0x6B, 0x65, 0x72, 0x6E⟩, [0, 1], none)]⟩

set_option maxRecDepth 100000 in
example : (∀ l ∈ specGpos.lookups, l.mfs.isSome = l.flags.toNat.testBit 4) ∧
    (∀ l ∈ specGpos.lookups, PosWritable l.rule) ∧
    (match GPOS.toBytes specGpos with | .ok bs => decide (100 < bs.length) | _ => false) = true := by
  refine ⟨by decide, ?_, by decide +kernel⟩
  intro l hl
  simp only [specGpos, List.mem_cons, List.not_mem_nil, or_false] at hl
  rcases hl with rfl | rfl | rfl | rfl | rfl | rfl | rfl
  · exact fun m hm => .inl (by simp only [List.mem_singleton] at hm; subst hm; simp [NoDevices])
  · intro m hm
    simp only [List.mem_singleton] at hm
    subst hm
    refine ⟨by simp [BMap.Sorted, Key.lt], by simp [NoDevices], ?_, ?_⟩
    · simp [SameFields, nonZero, adjustment]
    · simp [SameFields, nonZero]
  · trivial
  · simp [PosWritable, BMap.Sorted, Key.lt]
  · intro p hp b hb c hc
    simp only [List.mem_singleton] at hp
    subst hp
    simp only [List.mem_cons, List.not_mem_nil, or_false] at hb
    rcases hb with rfl | rfl <;> simp only [List.mem_cons, List.not_mem_nil, or_false] at hc
    · rcases hc with rfl | rfl <;> simp [BMap.Sorted]
    · subst hc; simp [BMap.Sorted]
  · simp [PosWritable, BMap.Sorted]
  · trivial

end FT.Props
