import Verif.Props.Os2
import Verif.Props.Stat
import Verif.Props.PostTable
import Verif.Props.Cmap14

/-!
# C81: the bytes written follow the OpenType specification

Round trips cannot tell whether writer and reader share a mistake. Here the written bytes of the tables without nested
offsets are compared with the tables of the OpenType specification: a list of numbers, each with its width.
-/

namespace FT.Props
open FT FT.Off FT.F32 FT.Tables

/-! ### Specification -/

/-- One row of a table of the OpenType specification.
* `num w v`: the number `v` in `w` bytes, big-endian, two's complement;
* `frac w bits v`: a fixed point number with `bits` binary places;
* `text bs`: bytes (tags, strings, programs);
* `null w`: an offset that is 0;
* `off w rows`: an offset, counted from the start of the table the row belongs to, leading to the given rows;
* `ref w P`: the same, leading to a place of the buffer of which `P` is true. -/
inductive Cell where
  | num (w : Nat) (v : ℤ)
  | frac (w bits : Nat) (v : ℚ)
  | text (bs : Bytes)
  | null (w : Nat)
  | off (w : Nat) (rows : List Cell)
  | ref (w : Nat) (P : Bytes → Nat → Prop)

def Cell.width : Cell → Nat
  | .num w _ => w
  | .frac w _ _ => w
  | .text bs => bs.length
  | .null w => w
  | .off w _ => w
  | .ref w _ => w

mutual
/-- The buffer `B` shows a row at `pos`, for a table beginning at `base`. -/
def Cell.Shown (B : Bytes) : (base pos : Nat) → Cell → Prop
  | _, pos, .num w v => pos + w ≤ B.length ∧ (field B pos w : ℤ) = v % 256 ^ w
  | _, pos, .frac w bits v => pos + w ≤ B.length ∧ ∃ k : ℤ, (field B pos w : ℤ) = k % 256 ^ w ∧
      -256 ^ w ≤ 2 * k ∧ 2 * k < 256 ^ w ∧ v = k / 2 ^ bits
  | _, pos, .text bs => (B.drop pos).take bs.length = bs
  | _, pos, .null w => pos + w ≤ B.length ∧ field B pos w = 0
  | base, pos, .off w rows => pos + w ≤ B.length ∧ 0 < field B pos w ∧
      Shows B (base + field B pos w) (base + field B pos w) rows
  | base, pos, .ref w P => pos + w ≤ B.length ∧ 0 < field B pos w ∧ P B (base + field B pos w)
/-- The buffer `B` shows rows one after the other from `pos` on. -/
def Shows (B : Bytes) : (base pos : Nat) → List Cell → Prop
  | _, _, [] => True
  | base, pos, c :: l => c.Shown B base pos ∧ Shows B base (pos + c.width) l
end

/-- The number of bytes of the rows. -/
def widths (l : List Cell) : Nat := (l.map Cell.width).sum

/-- `bs` consists of exactly these rows. -/
def Follows (bs : Bytes) (rows : List Cell) : Prop := Shows bs 0 0 rows ∧ bs.length = widths rows

abbrev u8 (x : UInt8) : Cell := .num 1 x.toNat
abbrev u16 (x : UInt16) : Cell := .num 2 x.toNat
abbrev u32 (x : UInt32) : Cell := .num 4 x.toNat
abbrev i16 (x : Int16) : Cell := .num 2 x.toInt
abbrev fixed (x : ℚ) : Cell := .frac 4 16 x
abbrev f2dot14 (x : ℚ) : Cell := .frac 2 14 x
abbrev tag (t : Tag) : Cell := .text [t.a, t.b, t.c, t.d]

/-! ### Lemmas -/

theorem shows_append {B : Bytes} {base : Nat} : ∀ {pos : Nat} (l m : List Cell), Shows B base pos (l ++ m) ↔
    Shows B base pos l ∧ Shows B base (pos + widths l) m
  | pos, [], m => by simp [Shows, widths]
  | pos, c :: l, m => by
    rw [List.cons_append, Shows, Shows, shows_append l m, and_assoc]
    simp only [widths, List.map_cons, List.sum_cons, Nat.add_assoc]

theorem widths_append (l m : List Cell) : widths (l ++ m) = widths l + widths m := by simp [widths]
theorem widths_cons (c : Cell) (m : List Cell) : widths (c :: m) = c.width + widths m := by simp [widths]

/-- Wherever the bytes are placed, they show the rows. -/
def Lays (bs : Bytes) (rows : List Cell) : Prop :=
  bs.length = widths rows ∧ ∀ (B : Bytes) (base pos : Nat), bs <+: B.drop pos → Shows B base pos rows

theorem Lays.follows {bs : Bytes} {rows : List Cell} (h : Lays bs rows) : Follows bs rows :=
  ⟨h.2 bs 0 0 (by simp), h.1⟩

theorem lays_nil : Lays [] [] := ⟨rfl, fun _ _ _ _ => trivial⟩

theorem prefix_right {a b B : Bytes} {pos : Nat} (h : a ++ b <+: B.drop pos) : b <+: B.drop (pos + a.length) := by
  obtain ⟨t, e⟩ := h
  refine ⟨t, ?_⟩
  rw [← List.drop_drop, ← e, List.append_assoc, List.drop_left]

theorem Lays.append {a b : Bytes} {l m : List Cell} (h : Lays a l) (h' : Lays b m) : Lays (a ++ b) (l ++ m) := by
  refine ⟨by rw [List.length_append, h.1, h'.1, widths_append], fun B base pos hp => ?_⟩
  rw [shows_append]
  refine ⟨h.2 B base pos ((List.prefix_append _ _).trans hp), ?_⟩
  rw [← h.1]
  exact h'.2 B base _ (prefix_right hp)

theorem Lays.cons {a b : Bytes} {c : Cell} {m : List Cell} (h : Lays a [c]) (h' : Lays b m) : Lays (a ++ b) (c :: m) :=
  h.append h'

theorem prefix_len {a B : Bytes} {pos : Nat} (h : a <+: B.drop pos) (h0 : 0 < a.length) : pos + a.length ≤ B.length := by
  have := h.length_le
  rw [List.length_drop] at this
  omega

theorem lays_num {a : Bytes} {w : Nat} {v : ℤ} (hl : a.length = w) (h0 : 0 < w)
    (hv : (field a 0 w : ℤ) = v % 256 ^ w) : Lays a [.num w v] := by
  refine ⟨by simp [widths, Cell.width, hl], fun B base pos hp => ⟨⟨?_, ?_⟩, trivial⟩⟩
  · rw [← hl]; exact prefix_len hp (by omega)
  · have := field_of_prefix (k := 0) (w := w) hp (by omega)
    rw [Nat.add_zero] at this
    rw [this, hv]

theorem lays_u8 (x : UInt8) : Lays (encU8 x) [u8 x] := by
  refine lays_num rfl (by omega) ?_
  have : x.toNat < 256 := x.toNat_lt
  simp only [field, encU8, List.drop_zero, List.take_succ_cons, List.take_zero, beValue, List.foldl_cons, List.foldl_nil]
  omega
theorem lays_u16 (x : UInt16) : Lays (encU16 x) [u16 x] := by
  refine lays_num rfl (by omega) ?_
  have : x.toNat < 65536 := x.toNat_lt
  rw [field_u16']; omega
theorem lays_u32 (x : UInt32) : Lays (encU32 x) [u32 x] := by
  refine lays_num rfl (by omega) ?_
  have : x.toNat < 2 ^ 32 := x.toNat_lt
  rw [field_u32']; omega
theorem lays_i16 (x : Int16) : Lays (encI16 x) [i16 x] := by
  refine lays_num rfl (by omega) ?_
  have := field_i16 x []
  rw [List.append_nil] at this
  rw [this]; norm_num
theorem lays_text (bs : Bytes) : Lays bs [.text bs] := by
  refine ⟨by simp [widths, Cell.width], fun B base pos hp => ⟨?_, trivial⟩⟩
  obtain ⟨t, e⟩ := hp
  show (B.drop pos).take bs.length = bs
  rw [← e, List.take_left]
theorem lays_tag (t : Tag) : Lays (encTag t) [tag t] := lays_text _

theorem lays_frac {a : Bytes} {w bits : Nat} {v : ℚ} (k : ℤ) (hl : a.length = w) (h0 : 0 < w)
    (hv : (field a 0 w : ℤ) = k % 256 ^ w) (h1 : -256 ^ w ≤ 2 * k) (h2 : 2 * k < 256 ^ w) (e : v = k / 2 ^ bits) :
    Lays a [.frac w bits v] := by
  refine ⟨by simp [widths, Cell.width, hl], fun B base pos hp => ⟨⟨?_, k, ?_, h1, h2, e⟩, trivial⟩⟩
  · rw [← hl]; exact prefix_len hp (by omega)
  · have := field_of_prefix (k := 0) (w := w) hp (by omega)
    rw [Nat.add_zero] at this
    rw [this, hv]

theorem field_i32 (x : Int32) : (field (encI32 x) 0 4 : ℤ) = x.toInt % 256 ^ 4 := by
  unfold field
  rw [List.drop_zero, List.take_of_length_le (by simp)]
  have := (C01_i32 x).1
  rw [this]; norm_num

theorem lays_fixed {x : ℚ} (h : FixedVal x) : Lays (encFixed x) [fixed x] := by
  obtain ⟨p, e1, _, e2⟩ := h.packed
  have h1 := p.le_toInt
  have h2 := p.toInt_lt
  refine lays_frac p.toInt (by unfold encFixed; simp) (by omega) ?_ (by omega) (by omega) (by rw [e2]; norm_num)
  unfold encFixed
  rw [e1, Int32.ofInt_toInt, field_i32]

theorem lays_f2dot14 {x : ℚ} (h : OnGrid x) {b : Bytes} (hb : encF2dot14 x = .ok b) : Lays b [f2dot14 x] := by
  obtain ⟨a, h1, h2, rfl⟩ := h
  have e := C04_f2dot14 (Int16.ofInt a)
  rw [C04_f2dot14_value, int16_ofInt h1 h2] at e
  unfold encF2dot14 at hb
  rw [e] at hb
  cases hb
  refine lays_frac a rfl (by omega) ?_ (by omega) (by omega) (by norm_num)
  have := field_i16 (Int16.ofInt a) []
  rw [List.append_nil, int16_ofInt h1 h2] at this
  rw [this]; norm_num

theorem lays_date (d : Date) : Lays (encDate d) [.num 8 d.secs] := by
  refine lays_num rfl (by omega) ?_
  unfold encDate field
  rw [List.drop_zero, List.take_of_length_le (by simp [encI64, encU64]), (C01_i64 _).1]
  rw [Int64.toInt_ofInt, Int.bmod_def, show Int64.size = 18446744073709551616 from rfl]
  split <;> omega

theorem lays_vec {α : Type} {enc : α → Bytes} {rows : α → List Cell} : ∀ {l : List α},
    (∀ a ∈ l, Lays (enc a) (rows a)) → Lays (encVec enc l) (l.flatMap rows)
  | [], _ => lays_nil
  | a :: l, h => by
    rw [encVec_cons, List.flatMap_cons]
    exact (h a (by simp)).append (lays_vec fun b hb => h b (by simp [hb]))

theorem lays_vec1 {α : Type} {enc : α → Bytes} {row : α → Cell} {l : List α}
    (h : ∀ a ∈ l, Lays (enc a) [row a]) : Lays (encVec enc l) (l.map row) := by
  have := lays_vec (rows := fun a => [row a]) h
  rwa [← List.map_eq_flatMap] at this

theorem lays_vecR {α : Type} {enc : α → Res Bytes} {rows : α → List Cell} : ∀ {l : List α} {b : Bytes},
    encVecR enc l = .ok b → (∀ a ∈ l, ∀ b, enc a = .ok b → Lays b (rows a)) → Lays b (l.flatMap rows)
  | [], b, h, _ => by cases h; exact lays_nil
  | a :: l, b, h, h' => by
    unfold encVecR at h
    cases ha : enc a with
    | err => rw [ha] at h; cases h
    | panic => rw [ha] at h; cases h
    | ok x =>
      rw [ha] at h
      cases hl : encVecR enc l with
      | err => rw [hl] at h; cases h
      | panic => rw [hl] at h; cases h
      | ok y =>
        rw [hl] at h
        cases h
        exact (h' a (by simp) x ha).append (lays_vecR hl fun c hc => h' c (by simp [hc]))

/-- A count of at most 65535. -/
theorem lays_count {n : Nat} (h : n ≤ 65535) : Lays (encU16 (UInt16.ofNat n)) [.num 2 n] := by
  have := lays_u16 (UInt16.ofNat n)
  rwa [u16, ofNat16_toNat h] at this

/-! ### Tables of fixed size -/

/-- The `head` table of the OpenType specification. -/
def headRows (h : Head) : List Cell :=
  [u16 h.majorVersion, u16 h.minorVersion, fixed h.fontRevision, u32 h.checksumAdjustment, u32 h.magicNumber, u16 h.flags,
   u16 h.unitsPerEm, .num 8 h.created.secs, .num 8 h.modified.secs, i16 h.xMin, i16 h.yMin, i16 h.xMax, i16 h.yMax,
   u16 h.macStyle, u16 h.lowestRecPPEM, i16 h.fontDirectionHint, i16 h.indexToLocFormat, i16 h.glyphDataFormat]

theorem C81_head (h : Head) (hf : FixedVal h.fontRevision) : Follows (encHead h) (headRows h) := by
  unfold encHead headRows
  exact ((lays_u16 _).cons <| (lays_u16 _).cons <| (lays_fixed hf).cons <| (lays_u32 _).cons <| (lays_u32 _).cons <|
    (lays_u16 _).cons <| (lays_u16 _).cons <| (lays_date _).cons <| (lays_date _).cons <| (lays_i16 _).cons <|
    (lays_i16 _).cons <| (lays_i16 _).cons <| (lays_i16 _).cons <| (lays_u16 _).cons <| (lays_u16 _).cons <|
    (lays_i16 _).cons <| (lays_i16 _).cons <| lays_i16 _).follows

/-- The `hhea` table. -/
def hheaRows (h : Hhea) : List Cell :=
  [u16 h.majorVersion, u16 h.minorVersion, i16 h.ascender, i16 h.descender, i16 h.lineGap, u16 h.advanceWidthMax,
   i16 h.minLeftSideBearing, i16 h.minRightSideBearing, i16 h.xMaxExtent, i16 h.caretSlopeRise, i16 h.caretSlopeRun,
   i16 h.caretOffset, i16 h.reserved0, i16 h.reserved1, i16 h.reserved2, i16 h.reserved3, i16 h.metricDataFormat,
   u16 h.numberOfHMetrics]

theorem C81_hhea (h : Hhea) : Follows (encHhea h) (hheaRows h) := by
  unfold encHhea hheaRows
  exact ((lays_u16 _).cons <| (lays_u16 _).cons <| (lays_i16 _).cons <| (lays_i16 _).cons <| (lays_i16 _).cons <|
    (lays_u16 _).cons <| (lays_i16 _).cons <| (lays_i16 _).cons <| (lays_i16 _).cons <| (lays_i16 _).cons <|
    (lays_i16 _).cons <| (lays_i16 _).cons <| (lays_i16 _).cons <| (lays_i16 _).cons <| (lays_i16 _).cons <|
    (lays_i16 _).cons <| (lays_i16 _).cons <| lays_u16 _).follows

/-- The `maxp` table, version 0.5 and version 1.0. -/
def maxpRows (m : Maxp) : List Cell := match m.table with
  | .v05 t => [.num 4 0x00005000, u16 t.numGlyphs]
  | .v10 t => [.num 4 0x00010000, u16 t.numGlyphs, u16 t.maxPoints, u16 t.maxContours, u16 t.maxCompositePoints,
      u16 t.maxCompositeContours, u16 t.maxZones, u16 t.maxTwilightPoints, u16 t.maxStorage, u16 t.maxFunctionDefs,
      u16 t.maxInstructionDefs, u16 t.maxStackElements, u16 t.maxSizeOfInstructions, u16 t.maxComponentElements,
      u16 t.maxComponentDepth]

theorem C81_maxp (m : Maxp) (h : match m.table with | .v05 _ => m.version = 0x8000 | .v10 _ => m.version = 0x10000) :
    ∃ bs, encMaxp m = .ok bs ∧ Follows bs (maxpRows m) := by
  obtain ⟨v, t⟩ := m
  cases t with
  | v05 t =>
    obtain rfl : v = 0x8000 := h
    have hv : encVersion16Dot16 0x8000 = .ok [0, 0, 0x50, 0] := by decide
    refine ⟨[0, 0, 0x50, 0] ++ encU16 t.numGlyphs, by unfold encMaxp; rw [hv]; rfl, ?_⟩
    have : Lays [0, 0, 0x50, 0] [.num 4 0x00005000] := lays_num rfl (by omega) (by decide)
    exact (this.cons (lays_u16 _)).follows
  | v10 t =>
    obtain rfl : v = 0x10000 := h
    have hv : encVersion16Dot16 0x10000 = .ok [0, 1, 0, 0] := by decide
    refine ⟨[0, 1, 0, 0] ++ encMaxp10 t, by unfold encMaxp; rw [hv]; rfl, ?_⟩
    have : Lays [0, 1, 0, 0] [.num 4 0x00010000] := lays_num rfl (by omega) (by decide)
    unfold maxpRows encMaxp10
    exact (this.cons <| (lays_u16 _).cons <| (lays_u16 _).cons <| (lays_u16 _).cons <| (lays_u16 _).cons <|
      (lays_u16 _).cons <| (lays_u16 _).cons <| (lays_u16 _).cons <| (lays_u16 _).cons <| (lays_u16 _).cons <|
      (lays_u16 _).cons <| (lays_u16 _).cons <| (lays_u16 _).cons <| (lays_u16 _).cons <| lays_u16 _).follows

/-- The `gasp` table. -/
def gaspRows (g : Gasp) : List Cell :=
  [u16 g.version, .num 2 g.gaspRanges.length] ++ g.gaspRanges.flatMap fun r => [u16 r.rangeMaxPPEM, u16 r.rangeGaspBehavior]

theorem C81_gasp (g : Gasp) (h : g.gaspRanges.length ≤ 65535) : Follows (encGasp g) (gaspRows g) := by
  unfold encGasp gaspRows encCounted
  exact ((lays_u16 _).cons <| (lays_count h).cons <| lays_vec fun r _ => (lays_u16 _).cons (lays_u16 _)).follows

/-- The `cvt ` table: words. -/
theorem C81_cvt (l : List Int16) : Follows (encCvt l) (l.map i16) := (lays_vec1 fun x _ => lays_i16 x).follows

/-- The `fpgm` and `prep` tables: bytes. -/
theorem C81_program (l : Bytes) : Follows (encProgram l) [.text l] := by
  have : encProgram l = l := by
    unfold encProgram
    induction l with
    | nil => rfl
    | cons a l ih => rw [encVec_cons, ih]; rfl
  rw [this]
  exact (lays_text l).follows

/-! ### `OS/2` -/

open FT.Os2 in
/-- The `OS/2` table: version 0 ends after `usWinDescent`, later versions add fields. Absent numbers are 0. -/
def os2Rows (o : Os2) : List Cell :=
  [u16 o.core.version, i16 o.core.xAvgCharWidth, u16 o.core.usWeightClass, u16 o.core.usWidthClass, u16 o.core.fsType,
   i16 o.core.ySubscriptXSize, i16 o.core.ySubscriptYSize, i16 o.core.ySubscriptXOffset, i16 o.core.ySubscriptYOffset,
   i16 o.core.ySuperscriptXSize, i16 o.core.ySuperscriptYSize, i16 o.core.ySuperscriptXOffset,
   i16 o.core.ySuperscriptYOffset, i16 o.core.yStrikeoutSize, i16 o.core.yStrikeoutPosition, i16 o.core.sFamilyClass,
   .text [o.core.panose.panose0, o.core.panose.panose1, o.core.panose.panose2, o.core.panose.panose3,
     o.core.panose.panose4, o.core.panose.panose5, o.core.panose.panose6, o.core.panose.panose7, o.core.panose.panose8,
     o.core.panose.panose9],
   u32 o.core.ulUnicodeRange1, u32 o.core.ulUnicodeRange2, u32 o.core.ulUnicodeRange3, u32 o.core.ulUnicodeRange4,
   tag o.core.achVendID, u16 o.core.fsSelection, u16 o.core.usFirstCharIndex, u16 o.core.usLastCharIndex,
   i16 o.core.sTypoAscender, i16 o.core.sTypoDescender, i16 o.core.sTypoLineGap, u16 o.core.usWinAscent,
   u16 o.core.usWinDescent] ++
  ((if 1 ≤ o.core.version.toNat then [u32 (o.ulCodePageRange1.getD 0), u32 (o.ulCodePageRange2.getD 0)] else []) ++
  ((if 2 ≤ o.core.version.toNat then [i16 (o.sxHeight.getD 0), i16 (o.sCapHeight.getD 0), u16 (o.usDefaultChar.getD 0),
     u16 (o.usBreakChar.getD 0), u16 (o.usMaxContext.getD 0)] else []) ++
  (if 5 ≤ o.core.version.toNat then [u16 (o.usLowerOpticalPointSize.getD 0), u16 (o.usUpperOpticalPointSize.getD 0)] else [])))

theorem lays_if {p q : Prop} [Decidable p] [Decidable q] (h : p ↔ q) {b : Bytes} {rows : List Cell} (hl : Lays b rows) :
    Lays (if p then b else []) (if q then rows else []) := by
  by_cases hp : p
  · rw [if_pos hp, if_pos (h.mp hp)]; exact hl
  · rw [if_neg hp, if_neg (fun hq => hp (h.mpr hq))]; exact lays_nil

theorem C81_os2 (o : Os2.Os2) : Follows (Os2.encOs2 o) (os2Rows o) := by
  have g0 := Os2.gt_iff o.core.version 0 (by omega)
  have g1 := Os2.gt_iff o.core.version 1 (by omega)
  have g4 := Os2.gt_iff o.core.version 4 (by omega)
  simp only [show UInt16.ofNat 0 = 0 from rfl, show UInt16.ofNat 1 = 1 from rfl, show UInt16.ofNat 4 = 4 from rfl] at g0 g1 g4
  refine (Lays.append ?_ ((lays_if g0 ?_).append ((lays_if g1 ?_).append (lays_if g4 ?_)))).follows
  · unfold Os2.encCore
    exact (lays_u16 _).cons <| (lays_i16 _).cons <| (lays_u16 _).cons <| (lays_u16 _).cons <| (lays_u16 _).cons <|
      (lays_i16 _).cons <| (lays_i16 _).cons <| (lays_i16 _).cons <| (lays_i16 _).cons <| (lays_i16 _).cons <|
      (lays_i16 _).cons <| (lays_i16 _).cons <| (lays_i16 _).cons <| (lays_i16 _).cons <| (lays_i16 _).cons <|
      (lays_i16 _).cons <| (lays_text _).cons <| (lays_u32 _).cons <| (lays_u32 _).cons <| (lays_u32 _).cons <|
      (lays_u32 _).cons <| (lays_tag _).cons <| (lays_u16 _).cons <| (lays_u16 _).cons <| (lays_u16 _).cons <|
      (lays_i16 _).cons <| (lays_i16 _).cons <| (lays_i16 _).cons <| (lays_u16 _).cons <| lays_u16 _
  · exact (lays_u32 _).cons (lays_u32 _)
  · exact (lays_i16 _).cons <| (lays_i16 _).cons <| (lays_u16 _).cons <| (lays_u16 _).cons <| lays_u16 _
  · exact (lays_u16 _).cons (lays_u16 _)

end FT.Props
