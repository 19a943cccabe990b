import Verif.Props.ForeignGsub
import Verif.Props.ForeignDevice
import Verif.Props.SpecGpos

/-!
# C89: GPOS subtables written by any program

The subtable formats of the OpenType specification, with their parts in any arrangement: the reader returns what the
bytes say.
-/

namespace FT.Props
open FT Reader FT.Off FT.Lay FT.VR FT.Gpos

/-! ### Specification -/

/-- A value record in format `f`: the bits of the format say which fields there are. -/
def anyValueRows (f : Nat) (v : ValueRecord) : List Cell :=
  (if f.testBit 0 then [.num 2 (v.xPlacement.getD 0).toInt] else []) ++
  ((if f.testBit 1 then [.num 2 (v.yPlacement.getD 0).toInt] else []) ++
  ((if f.testBit 2 then [.num 2 (v.xAdvance.getD 0).toInt] else []) ++
  ((if f.testBit 3 then [.num 2 (v.yAdvance.getD 0).toInt] else []) ++
  ((if f.testBit 4 then [linked AnyDeviceAt v.xPlaDevice.join] else []) ++
  ((if f.testBit 5 then [linked AnyDeviceAt v.yPlaDevice.join] else []) ++
  ((if f.testBit 6 then [linked AnyDeviceAt v.xAdvDevice.join] else []) ++
  (if f.testBit 7 then [linked AnyDeviceAt v.yAdvDevice.join] else [])))))))

/-- The fields of the record are those of the format, and devices are sound. -/
structure FormatIs (f : Nat) (v : ValueRecord) : Prop where
  xPlacement : v.xPlacement.isSome = f.testBit 0
  yPlacement : v.yPlacement.isSome = f.testBit 1
  xAdvance : v.xAdvance.isSome = f.testBit 2
  yAdvance : v.yAdvance.isSome = f.testBit 3
  xPlaDevice : v.xPlaDevice.isSome = f.testBit 4
  yPlaDevice : v.yPlaDevice.isSome = f.testBit 5
  xAdvDevice : v.xAdvDevice.isSome = f.testBit 6
  yAdvDevice : v.yAdvDevice.isSome = f.testBit 7
  devices : ∀ x ∈ devices v, ∀ o ∈ x, ∀ d ∈ o, AnyDeviceOk d

/-- Records of a pair set: second glyph and both value records. -/
def pairRecRows (f g : Nat) (r : PairRec) : List Cell := u16 r.1 :: (anyValueRows f r.2.1 ++ anyValueRows g r.2.2)

/-- A mark array: class and anchor of each mark. -/
def markArrayRows (l : List MarkRec) : List Cell :=
  .num 2 l.length :: l.flatMap (fun r => [u16 r.1, linked AnchorAt r.2])

/-- Rows of anchors of the bases, the components of a ligature, or the marks: one for each class. -/
def anchorTableRows (l : List AnchorRow) : List Cell := .num 2 l.length :: l.flatMap (fun r => r.map (linked AnchorAt))

/-- The GPOS subtables of the OpenType specification. -/
def posRows : Gpos.Sub → List Cell
  | .p1_1 cov f v => [.num 2 1, linked CoverageAt cov, u16 f] ++ anyValueRows f.toNat v
  | .p1_2 _ cov f vs => [.num 2 2, linked CoverageAt cov, u16 f, .num 2 vs.length] ++ vs.flatMap (anyValueRows f.toNat)
  | .p2_1 cov f g sets => [.num 2 1, linked CoverageAt cov, u16 f, u16 g] ++
      setRows (fun l => At (.num 2 l.length :: l.flatMap (pairRecRows f.toNat g.toNat))) sets
  | .p2_2 cov f g k1 k2 n1 n2 rows => [.num 2 2, linked CoverageAt cov, u16 f, u16 g, linked ClassListAt k1, linked ClassListAt k2,
      u16 n1, u16 n2] ++ rows.flatMap (fun row => row.flatMap (fun c => anyValueRows f.toNat c.1 ++ anyValueRows g.toNat c.2))
  | .p3_1 _ cov recs => [.num 2 1, linked CoverageAt cov, .num 2 recs.length] ++
      recs.flatMap (fun r => [linked AnchorAt r.1, linked AnchorAt r.2])
  | .p4_1 _ m b n ma ba => [.num 2 1, linked CoverageAt m, linked CoverageAt b, u16 n,
      linked (fun l => At (markArrayRows l)) ma, linked (fun l => At (anchorTableRows l)) ba]
  | .p5_1 _ m l n ma la => [.num 2 1, linked CoverageAt m, linked CoverageAt l, u16 n,
      linked (fun l => At (markArrayRows l)) ma,
      linked (fun l => At (setRows (fun rows => At (anchorTableRows rows)) l)) la]
  | .p6_1 _ m b n ma ba => [.num 2 1, linked CoverageAt m, linked CoverageAt b, u16 n,
      linked (fun l => At (markArrayRows l)) ma, linked (fun l => At (anchorTableRows l)) ba]
  | .ctx s => subRows s

/-- The lookup type of a subtable. -/
def posType : Gpos.Sub → Nat
  | .p1_1 .. => 1
  | .p1_2 .. => 1
  | .p2_1 .. => 2
  | .p2_2 .. => 2
  | .p3_1 .. => 3
  | .p4_1 .. => 4
  | .p5_1 .. => 5
  | .p6_1 .. => 6
  | .ctx s => s.type + 2

def AnchorTableOk (n : Nat) (l : List AnchorRow) : Prop := l.length ≤ 65535 ∧ ∀ r ∈ l, r.length = n

/-- Counts that 16-bit numbers can express, records in the format of the subtable. Where the reader goes wrong:
* pairs of glyphs: no devices (bits 4 to 7 of the formats), and neither the coverage nor a pair set is null;
* ligatures: only one, and nothing is null. -/
def PosWell : Gpos.Sub → Prop
  | .p1_1 cov f v => CovOk cov ∧ FormatIs f.toNat v
  | .p1_2 pf cov f vs => pf = 1 ∧ CovOk cov ∧ vs.length ≤ 65535 ∧ ∀ v ∈ vs, FormatIs f.toNat v
  | .p2_1 cov f g sets => CovOk cov ∧ cov.isSome ∧ f.toNat < 16 ∧ g.toNat < 16 ∧ sets.length ≤ (covGlyphs cov).length ∧
      sets.length ≤ 65535 ∧
      (∀ x ∈ sets, x.isSome) ∧ ∀ x ∈ sets, ∀ l ∈ x, l.length ≤ 65535 ∧
        ∀ r ∈ l, FormatIs f.toNat r.2.1 ∧ FormatIs g.toNat r.2.2
  | .p2_2 cov f g k1 k2 n1 n2 rows => CovOk cov ∧ ClsOk k1 ∧ ClsOk k2 ∧ n1.toNat = rows.length ∧
      ∀ row ∈ rows, row.length = n2.toNat ∧ ∀ c ∈ row, FormatIs f.toNat c.1 ∧ FormatIs g.toNat c.2
  | .p3_1 fmt cov recs => fmt = 1 ∧ CovOk cov ∧ recs.length ≤ 65535
  | .p4_1 fmt m b n ma ba => fmt = 1 ∧ CovOk m ∧ CovOk b ∧ (∀ l ∈ ma, l.length ≤ 65535) ∧ ba.isSome ∧
      ∀ l ∈ ba, AnchorTableOk n.toNat l
  | .p5_1 fmt m l n ma la => fmt = 1 ∧ CovOk m ∧ CovOk l ∧ (∀ l ∈ ma, l.length ≤ 65535) ∧ la.isSome ∧
      ∀ l ∈ la, l.length ≤ 1 ∧ ∀ x ∈ l, x.isSome ∧ ∀ rows ∈ x, AnchorTableOk n.toNat rows
  | .p6_1 fmt m b n ma ba => fmt = 1 ∧ CovOk m ∧ CovOk b ∧ (∀ l ∈ ma, l.length ≤ 65535) ∧ ba.isSome ∧
      ∀ l ∈ ba, AnchorTableOk n.toNat l
  | .ctx s => (s.type = 5 ∨ s.type = 6) ∧ SubWell s

/-! ### Readers that end anywhere -/

/-- Wherever the rows are shown, `p` returns `a`; it may leave the cursor anywhere. -/
def Ends {α : Type} (p : Reader α) (a : α) (rows : List Cell) : Prop :=
  ∀ (B : Bytes) (base pos : Nat) (stk : List Nat), Shows B base pos rows →
    ∃ ptr, p ⟨B, pos, base :: stk⟩ = .ok (a, ⟨B, ptr, base :: stk⟩)

theorem Finds.ends {α : Type} {p : Reader α} {a : α} {rows : List Cell} (h : Finds p a rows) : Ends p a rows :=
  fun B base pos stk hs => ⟨_, h B base pos stk hs⟩

theorem Finds.then {α β : Type} {p : Reader α} {f : α → Reader β} {a : α} {b : β} {r s : List Cell}
    (h : Finds p a r) (h' : Ends (f a) b s) : Ends (p >>= f) b (r ++ s) := by
  intro B base pos stk hs
  rw [shows_append] at hs
  obtain ⟨ptr, e⟩ := h' B base (pos + widths r) stk hs.2
  exact ⟨ptr, by rw [bind_run, h B base pos stk hs.1]; exact e⟩

theorem Finds.then1 {α β : Type} {p : Reader α} {f : α → Reader β} {a : α} {b : β} {c : Cell} {s : List Cell}
    (h : Finds p a [c]) (h' : Ends (f a) b s) : Ends (p >>= f) b (c :: s) := h.then h'

theorem Ends.last {α β : Type} {p : Reader α} {f : α → Reader β} {a : α} {b : β} {r : List Cell}
    (h : Ends p a r) (h' : f a = pure b) : Ends (p >>= f) b r := by
  intro B base pos stk hs
  obtain ⟨ptr, e⟩ := h B base pos stk hs
  exact ⟨ptr, by rw [bind_run, e]; simp only [h']; rfl⟩

theorem Ends.table {α : Type} {p : Reader α} {a : α} {rows : List Cell} (h : Ends p a rows) (h0 : 0 < widths rows) :
    FindsAt (inTable p) a (At rows) := by
  intro B start stk hs
  obtain ⟨ptr, e⟩ := h B start start stk hs
  refine ⟨by have := shows_fits hs h0; omega, ptr, ?_⟩
  unfold inTable
  simp only [bind_run, pushTop, e, popTop]
  rfl

/-- An offset that is followed without looking whether it is null. -/
theorem ends_jump {α β : Type} {p : Reader α} {f : α → Reader β} {a : α} {b : β} {P : Bytes → Nat → Prop}
    (h : FindsAt p a P) (h' : f a = pure b) :
    Ends (do let off ← readU16; jump off; let x ← p; f x) b [.ref 2 P] := by
  intro B base pos stk hs
  obtain ⟨⟨h1, h2, h3⟩, _⟩ := hs
  obtain ⟨w, e1, e2⟩ := shown_u16 h1 (base :: stk)
  obtain ⟨_, ptr, e⟩ := h B _ (base :: stk) h3
  refine ⟨ptr, ?_⟩
  rw [bind_run, e1]
  simp only [bind_run, jump, topOfTable, setPtr]
  rw [e2, e]
  simp only [h']
  rfl

theorem ends_follow {α β : Type} {p : Reader α} {f : α → Reader β} {a : α} {b : β} {P : Bytes → Nat → Prop}
    (h : FindsAt p a P) (h' : f a = pure b) :
    Ends (do let off ← readU16; followOffset off; let x ← p; f x) b [.ref 2 P] := by
  intro B base pos stk hs
  obtain ⟨⟨h1, h2, h3⟩, _⟩ := hs
  obtain ⟨w, e1, e2⟩ := shown_u16 h1 (base :: stk)
  obtain ⟨hl, ptr, e⟩ := h B _ (base :: stk) h3
  refine ⟨ptr, ?_⟩
  rw [bind_run, e1]
  have hf : followOffset w ⟨B, pos + 2, base :: stk⟩ = .ok ((), ⟨B, base + field B pos 2, base :: stk⟩) := by
    unfold followOffset
    simp only [e2]
    rw [if_neg (by omega)]
  simp only [bind_run, hf, e, h']
  rfl

/-! ### Value records -/

theorem finds_int {f : Nat} {k : Nat} {bit : UInt16} (hb : bit.toNat = 2 ^ k) {fl : UInt16} (hf : fl.toNat = f) {x : Option Int16}
    (h : x.isSome = f.testBit k) :
    Finds (readIf (has fl bit) readI16) x (if f.testBit k then [.num 2 (x.getD 0).toInt] else []) := by
  rw [has_bit hb, hf]
  cases hx : f.testBit k with
  | false =>
    rw [hx] at h
    cases x with
    | none => exact finds_pure none
    | some _ => cases h
  | true =>
    rw [hx] at h
    cases x with
    | none => cases h
    | some v => exact ((plain_i16 v).last (b := some v) rfl).finds

theorem finds_dev {f : Nat} {k : Nat} {bit : UInt16} (hb : bit.toNat = 2 ^ k) {fl : UInt16} (hf : fl.toNat = f)
    {x : Option (Option Device.Device)} (h : x.isSome = f.testBit k) (hd : ∀ o ∈ x, ∀ d ∈ o, AnyDeviceOk d) :
    Finds (readIf (has fl bit) (readOffset .w16 Device.read)) x (if f.testBit k then [linked AnyDeviceAt x.join] else []) := by
  rw [has_bit hb, hf]
  cases hx : f.testBit k with
  | false =>
    rw [hx] at h
    cases x with
    | none => exact finds_pure none
    | some _ => cases h
  | true =>
    rw [hx] at h
    cases x with
    | none => cases h
    | some o => exact (finds_linked (P := AnyDeviceAt) fun d hd' => finds_device (hd o rfl d hd')).last rfl

theorem finds_value {fl : UInt16} {v : ValueRecord} (h : FormatIs fl.toNat v) :
    Finds (VR.read fl) v (anyValueRows fl.toNat v) := by
  have hd := h.devices
  simp only [devices, List.mem_cons, List.not_mem_nil, or_false, forall_eq_or_imp, forall_eq] at hd
  obtain ⟨d1, d2, d3, d4⟩ := hd
  unfold VR.read anyValueRows
  exact (finds_int (by decide) rfl h.xPlacement).bind ((finds_int (by decide) rfl h.yPlacement).bind
    ((finds_int (by decide) rfl h.xAdvance).bind ((finds_int (by decide) rfl h.yAdvance).bind
    ((finds_dev (by decide) rfl h.xPlaDevice d1).bind ((finds_dev (by decide) rfl h.yPlaDevice d2).bind
    ((finds_dev (by decide) rfl h.xAdvDevice d3).bind ((finds_dev (by decide) rfl h.yAdvDevice d4).last rfl)))))))

/-- Without devices the stack does not matter. -/
theorem plain_int {f : Nat} {k : Nat} {bit : UInt16} (hb : bit.toNat = 2 ^ k) {fl : UInt16} (hf : fl.toNat = f) {x : Option Int16}
    (h : x.isSome = f.testBit k) :
    Plain (readIf (has fl bit) readI16) x (if f.testBit k then [.num 2 (x.getD 0).toInt] else []) := by
  rw [has_bit hb, hf]
  cases hx : f.testBit k with
  | false =>
    rw [hx] at h
    cases x with
    | none => exact plain_pure none
    | some _ => cases h
  | true =>
    rw [hx] at h
    cases x with
    | none => cases h
    | some v => exact (plain_i16 v).last rfl

theorem plain_dev {k : Nat} {bit : UInt16} (hb : bit.toNat = 2 ^ k) {fl : UInt16} {x : Option (Option Device.Device)}
    (h : x.isSome = fl.toNat.testBit k) (hk : fl.toNat.testBit k = false) :
    Plain (readIf (has fl bit) (readOffset .w16 Device.read)) x
      (if fl.toNat.testBit k then [linked AnyDeviceAt x.join] else []) := by
  rw [has_bit hb, hk]
  rw [hk] at h
  cases x with
  | none => exact plain_pure none
  | some _ => cases h

theorem plain_value {fl : UInt16} {v : ValueRecord} (h : FormatIs fl.toNat v) (hf : fl.toNat < 16) :
    Plain (VR.read fl) v (anyValueRows fl.toNat v) := by
  have hb : ∀ k, 4 ≤ k → fl.toNat.testBit k = false := fun k hk => Nat.testBit_lt_two_pow (by
    calc fl.toNat < 2 ^ 4 := hf
      _ ≤ 2 ^ k := Nat.pow_le_pow_right (by decide) hk)
  unfold VR.read anyValueRows
  exact (plain_int (by decide) rfl h.xPlacement).bind ((plain_int (by decide) rfl h.yPlacement).bind
    ((plain_int (by decide) rfl h.xAdvance).bind ((plain_int (by decide) rfl h.yAdvance).bind
    ((plain_dev (by decide) h.xPlaDevice (hb 4 (by decide))).bind ((plain_dev (by decide) h.yPlaDevice (hb 5 (by decide))).bind
    ((plain_dev (by decide) h.xAdvDevice (hb 6 (by decide))).bind ((plain_dev (by decide) h.yAdvDevice (hb 7 (by decide))).last
      rfl)))))))

/-! ### Anchors -/

theorem plain_anchor (a : Anchor) : Plain Anchor.read a (anchorRows a) := by
  obtain ⟨x, y, p⟩ := a
  unfold Anchor.read anchorRows
  cases p with
  | none =>
    exact (plain_num16 1 (by decide)).cons ((plain_i16 x).cons ((plain_i16 y).last rfl))
  | some p =>
    exact (plain_num16 2 (by decide)).cons ((plain_i16 x).cons ((plain_i16 y).cons ((plain_u16 p).last rfl)))

theorem finds_anchor (a : AnchorLink) : Finds readAnchorLink a [linked AnchorAt a] :=
  finds_linked fun x _ => (plain_anchor x).table (by unfold anchorRows; cases x.point <;> simp [widths_cons, Cell.width])

theorem finds_marks {l : List MarkRec} (h : l.length ≤ 65535) : FindsAt readMarkArray l (At (markArrayRows l)) := by
  refine (finds_counted h fun r _ => ?_).table (by simp [widths_cons, Cell.width])
  exact (plain_u16 r.1).finds.cons ((finds_anchor r.2).last rfl)

theorem finds_anchors {n : Nat} {l : List AnchorRow} (h : AnchorTableOk n l) :
    FindsAt (readRows n) l (At (anchorTableRows l)) := by
  refine (finds_counted h.1 fun r hr => ?_).table (by simp [anchorTableRows, widths_cons, Cell.width])
  unfold readRow
  rw [← h.2 r hr]
  exact finds_list1 fun a _ => finds_anchor a

/-! ### Pairs of glyphs -/

theorem reads_offsets {α : Type} {P : α → Bytes → Nat → Prop} {B : Bytes} {base : Nat} {stk : List Nat} : ∀ {l : List (Option α)} {pos : Nat},
    (∀ x ∈ l, x.isSome) → Shows B base pos (l.map (linked P)) →
    ∃ offs : List UInt16, deCounted readU16 l.length ⟨B, pos, stk⟩ = .ok (offs, ⟨B, pos + 2 * l.length, stk⟩) ∧
      List.Forall₂ (fun (o : UInt16) x => ∀ a ∈ x, P a B (base + o.toNat)) offs l
  | [], pos, _, _ => ⟨[], rfl, .nil⟩
  | none :: l, pos, h, _ => by have := h none (by simp); cases this
  | some a :: l, pos, h, hs => by
    obtain ⟨⟨h1, h2, h3⟩, h4⟩ := hs
    obtain ⟨w, e1, e2⟩ := shown_u16 h1 stk
    obtain ⟨offs, e3, e4⟩ := reads_offsets (stk := stk) (pos := pos + 2) (fun x hx => h x (by simp [hx])) h4
    refine ⟨w :: offs, ?_, .cons ?_ e4⟩
    · rw [List.length_cons, deCounted, bind_run, e1]
      simp only
      rw [bind_run, e3]
      simp only
      rw [show pos + 2 + 2 * l.length = pos + 2 * (l.length + 1) by ring]
      rfl
    · intro b hb; cases hb; rw [e2]; exact h3

theorem reads_pairSets {f g : UInt16} (hf : f.toNat < 16) (hg : g.toNat < 16) {B : Bytes} {base : Nat} {stk : List Nat} :
    ∀ {gs : List UInt16} {offs : List UInt16} {sets : List (Option (List PairRec))} {ptr : Nat},
    sets.length ≤ gs.length →
    (∀ x ∈ sets, x.isSome) →
    (∀ x ∈ sets, ∀ l ∈ x, l.length ≤ 65535 ∧ ∀ r ∈ l, FormatIs f.toNat r.2.1 ∧ FormatIs g.toNat r.2.2) →
    List.Forall₂ (fun (o : UInt16) x => ∀ l ∈ x, At (.num 2 (l : List PairRec).length :: l.flatMap (pairRecRows f.toNat g.toNat)) B (base + o.toNat))
      offs sets →
    ∃ ptr', readPairSets f g (gs.zip offs) ⟨B, ptr, base :: stk⟩ = .ok (sets, ⟨B, ptr', base :: stk⟩)
  | gs, [], sets, ptr, _, _, _, h => by
    cases h
    rw [List.zip_nil_right]
    exact ⟨ptr, rfl⟩
  | [], o :: offs, sets, ptr, hl, _, _, h => by cases h; simp at hl
  | x :: gs, o :: offs, sets, ptr, hl, hs, hok, h => by
    cases h with
    | cons h1 h2 =>
      rename_i s sets
      cases s with
      | none => have := hs none (by simp); cases this
      | some l =>
        obtain ⟨k1, k2⟩ := hok (some l) (by simp) l rfl
        have hp : Plain (readCounted (readPairRec f g)) l (.num 2 l.length :: l.flatMap (pairRecRows f.toNat g.toNat)) :=
          plain_counted k1 fun r hr => (plain_u16 r.1).cons ((plain_value (k2 r hr).1 hf).bind ((plain_value (k2 r hr).2 hg).last rfl))
        have e1 := hp B (base + o.toNat) (base + o.toNat) (base :: stk) (h1 l rfl)
        obtain ⟨ptr', e2⟩ := reads_pairSets hf hg (B := B) (base := base) (stk := stk) (gs := gs) (offs := offs) (sets := sets)
          (ptr := base + o.toNat + widths (.num 2 l.length :: l.flatMap (pairRecRows f.toNat g.toNat)))
          (by simpa using hl) (fun x hx => hs x (by simp [hx])) (fun x hx => hok x (by simp [hx])) h2
        refine ⟨ptr', ?_⟩
        have e0 : readPairSet f g o ⟨B, ptr, base :: stk⟩ = .ok (some l, ⟨B, base + o.toNat +
            widths (.num 2 l.length :: l.flatMap (pairRecRows f.toNat g.toNat)), base :: stk⟩) := by
          unfold readPairSet
          simp only [bind_run, topOfTable, setPtr, e1]
          rfl
        rw [List.zip_cons_cons, readPairSets, bind_run, e0]
        simp only
        rw [bind_run, e2]
        rfl

/-! ### Subtables -/

theorem finds_gcov {c : Cov} (h : CovOk c) : Finds Gpos.readCov c [linked CoverageAt c] :=
  finds_linked fun gs hg => finds_coverage (h gs hg)
theorem finds_gcls {k : Option Gpos.ClassMap} (h : ClsOk k) : Finds Gpos.readCls k [linked ClassListAt k] :=
  finds_linked fun m hm => finds_classes (h m hm).1 (h m hm).2

theorem finds_pairs {cov : Cov} {f g : UInt16} {sets : List (Option (List PairRec))} (h : PosWell (.p2_1 cov f g sets)) :
    FindsAt read2 (.p2_1 cov f g sets) (At (posRows (.p2_1 cov f g sets))) := by
  obtain ⟨h1, h2, h3, h4, h5, h6, h7, h8⟩ := h
  refine Ends.table (p := _) ?_ (by simp [posRows, widths_cons, Cell.width])
  show Ends _ _ (.num 2 1 :: linked CoverageAt cov :: u16 f :: u16 g :: setRows _ sets)
  refine (plain_num16 1 (by decide)).finds.then1 ((finds_gcov h1).then1 ((plain_u16 f).finds.then1 ((plain_u16 g).finds.then1 ?_)))
  unfold read2Rest
  rw [if_pos rfl]
  refine (plain_count h6).finds.then1 ?_
  rw [ofNat16_toNat h6]
  intro B base pos stk hs
  obtain ⟨offs, e1, e2⟩ := reads_offsets (stk := base :: stk) h7 hs
  cases cov with
  | none => cases h2
  | some gs =>
    obtain ⟨ptr, e3⟩ := reads_pairSets h3 h4 (stk := stk) (ptr := pos + 2 * sets.length) h5 h7 h8 e2
    refine ⟨ptr, ?_⟩
    rw [bind_run, e1]
    simp only [unwrapCov]
    rw [bind_run, pure_run]
    simp only
    simp only [covGlyphs, Option.getD_some] at e3
    rw [bind_run, e3]
    rfl

theorem finds_markPos {mk : UInt16 → Cov → Cov → UInt16 → Option (List MarkRec) → Option (List AnchorRow) → Gpos.Sub}
    {m b : Cov} {n : UInt16} {ma : Option (List MarkRec)} {ba : Option (List AnchorRow)} (h1 : CovOk m) (h2 : CovOk b)
    (h3 : ∀ l ∈ ma, l.length ≤ 65535) (h4 : ba.isSome) (h5 : ∀ l ∈ ba, AnchorTableOk n.toNat l) :
    FindsAt (readMark mk) (mk 1 m b n ma ba) (At [.num 2 1, linked CoverageAt m, linked CoverageAt b, u16 n,
      linked (fun l => At (markArrayRows l)) ma, linked (fun l => At (anchorTableRows l)) ba]) := by
  cases ba with
  | none => cases h4
  | some rows =>
    refine Ends.table (p := _) ?_ (by simp [widths_cons, Cell.width])
    refine (plain_num16 1 (by decide)).finds.then1 ((finds_gcov h1).then1 ((finds_gcov h2).then1 ((plain_u16 n).finds.then1
      ((finds_linked (P := fun l => At (markArrayRows l)) fun l hl => finds_marks (h3 l hl)).then1 ?_))))
    exact ends_jump (finds_anchors (h5 rows rfl)) rfl

theorem finds_ligArray {n : Nat} {l : List (Option (List AnchorRow))} (h1 : l.length ≤ 1)
    (h2 : ∀ x ∈ l, x.isSome ∧ ∀ rows ∈ x, AnchorTableOk n rows) :
    FindsAt (inTable (readCounted (readLigAttach n))) l (At (setRows (fun rows => At (anchorTableRows rows)) l)) := by
  refine Ends.table (p := _) ?_ (by simp [setRows, widths_cons, Cell.width])
  unfold readCounted setRows
  refine (plain_count (by omega)).finds.then1 ?_
  rw [ofNat16_toNat (by omega)]
  match l, h1, h2 with
  | [], _, _ => exact (finds_pure []).ends
  | [none], _, h2 => have := (h2 none (by simp)).1; cases this
  | [some rows], _, h2 =>
    have h := (h2 (some rows) (by simp)).2 rows rfl
    exact Ends.last (a := some rows) (ends_follow (finds_anchors h) rfl) rfl
  | _ :: _ :: _, h1, _ => simp at h1

theorem finds_p1_1 {cov : Cov} {f : UInt16} {v : ValueRecord} (h : PosWell (.p1_1 cov f v)) :
    FindsAt read1 (.p1_1 cov f v) (At (posRows (.p1_1 cov f v))) := by
  refine Finds.table (p := _) ?_ (by simp [posRows, widths_cons, Cell.width])
  have e : posRows (.p1_1 cov f v) = .num 2 1 :: linked CoverageAt cov :: u16 f :: anyValueRows f.toNat v := by
    simp only [posRows, List.cons_append, List.nil_append]
  rw [e]
  refine (plain_num16 1 (by decide)).finds.cons ((finds_gcov h.1).cons ((plain_u16 f).finds.cons ?_))
  have e : read1Rest 1 cov f = (do let v ← VR.read f; return .p1_1 cov f v) := if_pos rfl
  rw [e]
  exact (finds_value h.2).last rfl

theorem finds_p1_2 {pf : UInt16} {cov : Cov} {f : UInt16} {vs : List ValueRecord} (h : PosWell (.p1_2 pf cov f vs)) :
    FindsAt read1 (.p1_2 pf cov f vs) (At (posRows (.p1_2 pf cov f vs))) := by
  obtain ⟨rfl, h1, h2, h3⟩ := h
  refine Finds.table (p := _) ?_ (by simp [posRows, widths_cons, Cell.width])
  refine (plain_num16 2 (by decide)).finds.cons ((finds_gcov h1).cons ((plain_u16 f).finds.cons ?_))
  unfold read1Rest
  rw [if_neg (by decide), if_pos rfl]
  refine (plain_count h2).finds.cons ?_
  rw [ofNat16_toNat h2]
  exact (finds_list fun v hv => finds_value (h3 v hv)).last rfl

theorem finds_p2_2 {cov : Cov} {f g : UInt16} {k1 k2 : Option Gpos.ClassMap} {n1 n2 : UInt16} {rows : List (List (ValueRecord × ValueRecord))} (h : PosWell (.p2_2 cov f g k1 k2 n1 n2 rows)) :
    FindsAt read2 (.p2_2 cov f g k1 k2 n1 n2 rows) (At (posRows (.p2_2 cov f g k1 k2 n1 n2 rows))) := by
  obtain ⟨h1, h2, h3, h4, h5⟩ := h
  refine Finds.table (p := _) ?_ (by simp [posRows, widths_cons, Cell.width])
  refine (plain_num16 2 (by decide)).finds.cons ((finds_gcov h1).cons ((plain_u16 f).finds.cons ((plain_u16 g).finds.cons ?_)))
  unfold read2Rest
  rw [if_neg (by decide), if_pos rfl]
  refine (finds_gcls h2).cons ((finds_gcls h3).cons ((plain_u16 n1).finds.cons ((plain_u16 n2).finds.cons ?_)))
  rw [h4]
  refine (finds_list fun row hr => ?_).last rfl
  rw [← (h5 row hr).1]
  exact finds_list fun c hc => (finds_value ((h5 row hr).2 c hc).1).bind ((finds_value ((h5 row hr).2 c hc).2).last rfl)

theorem finds_p3_1 {fmt : UInt16} {cov : Cov} {recs : List (AnchorLink × AnchorLink)} (h : PosWell (.p3_1 fmt cov recs)) :
    FindsAt read3 (.p3_1 fmt cov recs) (At (posRows (.p3_1 fmt cov recs))) := by
  obtain ⟨rfl, h1, h2⟩ := h
  refine Finds.table (p := _) ?_ (by simp [posRows, widths_cons, Cell.width])
  refine (plain_num16 1 (by decide)).finds.cons ((finds_gcov h1).cons ((finds_counted h2 fun r _ => ?_).last rfl))
  exact (finds_anchor r.1).cons ((finds_anchor r.2).last rfl)

theorem finds_p5_1 {fmt : UInt16} {m l : Cov} {n : UInt16} {ma : Option (List MarkRec)} {la : Option (List (Option (List AnchorRow)))} (h : PosWell (.p5_1 fmt m l n ma la)) :
    FindsAt read5 (.p5_1 fmt m l n ma la) (At (posRows (.p5_1 fmt m l n ma la))) := by
  obtain ⟨rfl, h1, h2, h3, h4, h5⟩ := h
  cases la with
  | none => cases h4
  | some l' =>
    refine Ends.table (p := _) ?_ (by simp [posRows, widths_cons, Cell.width])
    refine (plain_num16 1 (by decide)).finds.then1 ((finds_gcov h1).then1 ((finds_gcov h2).then1 ((plain_u16 n).finds.then1
      ((finds_linked (P := fun l => At (markArrayRows l)) fun l hl => finds_marks (h3 l hl)).then1 ?_))))
    exact ends_follow (finds_ligArray (h5 l' rfl).1 (h5 l' rfl).2) rfl

theorem finds_pos {s : Gpos.Sub} (h : PosWell s) : FindsAt (Gpos.Sub.read (posType s)) s (At (posRows s)) := by
  cases s with
  | p1_1 cov f v => exact finds_p1_1 h
  | p1_2 pf cov f vs => exact finds_p1_2 h
  | p2_1 cov f g sets => exact finds_pairs h
  | p2_2 cov f g k1 k2 n1 n2 rows => exact finds_p2_2 h
  | p3_1 fmt cov recs => exact finds_p3_1 h
  | p4_1 fmt m b n ma ba =>
    obtain ⟨rfl, h1, h2, h3, h4, h5⟩ := h
    exact finds_markPos h1 h2 h3 h4 h5
  | p5_1 fmt m l n ma la => exact finds_p5_1 h
  | p6_1 fmt m b n ma ba =>
    obtain ⟨rfl, h1, h2, h3, h4, h5⟩ := h
    exact finds_markPos h1 h2 h3 h4 h5
  | ctx s =>
    obtain ⟨ht, h⟩ := h
    intro B start stk hh
    obtain ⟨g1, ptr, g2⟩ := finds_sub h B start stk hh
    refine ⟨g1, ptr, ?_⟩
    rcases ht with ht | ht <;> rw [ht] at g2 <;> simp only [posType, ht]
    · show readCtx 5 _ = _
      unfold readCtx
      rw [bind_run, g2]
      rfl
    · show readCtx 6 _ = _
      unfold readCtx
      rw [bind_run, g2]
      rfl

end FT.Props
