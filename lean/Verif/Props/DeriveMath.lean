import Verif.Props.DeriveTab
import Verif.Model.Math

/-! # C109: the MATH table is read as its declarations say

All structures of the MATH table except MathKern and MathVariants are declared with `tables!`. (That the table cannot
be written is C59.) -/

namespace FT.Props
open FT FT.Off FT.Der FT.Lay FT.Math

/-- Own code of which only the reader is used. -/
abbrev readLeaf {α : Type} (read : Reader α) : Leaf := ⟨α, fun _ => .err, fun _ => 0, read⟩

/-- The code behind the names in the declarations of MATH (Model/Declarations): numbers, devices, coverage tables, and
the two structures that have own code. -/
def mathLeaf (n : String) : Leaf :=
  match n with
  | "FWORD" => readLeaf readI16
  | "int16" => readLeaf readI16
  | "Device" => readLeaf Device.read
  | "Coverage" => readLeaf Coverage.read
  | "MathKern" => readLeaf readKern
  | "MathVariants" => readLeaf readVariants
  | _ => readLeaf readU16

/-! ### Values of the declared types, fields in the declared order -/

def mathValueV (v : Value) : (Declared.mathValueRecord mathLeaf).den := (v.value, linkV v.device, ())
def mathConstantsV (c : Constants) : (Declared.mathConstants mathLeaf).den :=
  (c.scriptPercentScaleDown, c.scriptScriptPercentScaleDown, c.delimitedSubFormulaMinHeight,
  c.displayOperatorMinHeight, mathValueV c.mathLeading, mathValueV c.axisHeight, mathValueV c.accentBaseHeight,
  mathValueV c.flattenedAccentBaseHeight, mathValueV c.subscriptShiftDown, mathValueV c.subscriptTopMax, mathValueV
  c.subscriptBaselineDropMin, mathValueV c.superscriptShiftUp, mathValueV c.superscriptShiftUpCramped, mathValueV
  c.superscriptBottomMin, mathValueV c.superscriptBaselineDropMax, mathValueV c.subSuperscriptGapMin, mathValueV
  c.superscriptBottomMaxWithSubscript, mathValueV c.spaceAfterScript, mathValueV c.upperLimitGapMin, mathValueV
  c.upperLimitBaselineRiseMin, mathValueV c.lowerLimitGapMin, mathValueV c.lowerLimitBaselineDropMin, mathValueV
  c.stackTopShiftUp, mathValueV c.stackTopDisplayStyleShiftUp, mathValueV c.stackBottomShiftDown, mathValueV
  c.stackBottomDisplayStyleShiftDown, mathValueV c.stackGapMin, mathValueV c.stackDisplayStyleGapMin, mathValueV
  c.stretchStackTopShiftUp, mathValueV c.stretchStackBottomShiftDown, mathValueV c.stretchStackGapAboveMin, mathValueV
  c.stretchStackGapBelowMin, mathValueV c.fractionNumeratorShiftUp, mathValueV c.fractionNumeratorDisplayStyleShiftUp,
  mathValueV c.fractionDenominatorShiftDown, mathValueV c.fractionDenominatorDisplayStyleShiftDown, mathValueV
  c.fractionNumeratorGapMin, mathValueV c.fractionNumDisplayStyleGapMin, mathValueV c.fractionRuleThickness, mathValueV
  c.fractionDenominatorGapMin, mathValueV c.fractionDenomDisplayStyleGapMin, mathValueV c.skewedFractionHorizontalGap,
  mathValueV c.skewedFractionVerticalGap, mathValueV c.overbarVerticalGap, mathValueV c.overbarRuleThickness,
  mathValueV c.overbarExtraAscender, mathValueV c.underbarVerticalGap, mathValueV c.underbarRuleThickness, mathValueV
  c.underbarExtraDescender, mathValueV c.radicalVerticalGap, mathValueV c.radicalDisplayStyleVerticalGap, mathValueV
  c.radicalRuleThickness, mathValueV c.radicalExtraAscender, mathValueV c.radicalKernBeforeDegree, mathValueV
  c.radicalKernAfterDegree, c.radicalDegreeBottomRaisePercent, ())
def mathRecordsV (r : Records) : (Declared.mathItalicsCorrectionInfo mathLeaf).den := (linkV r.coverage, r.records.map mathValueV, ())
def mathKernRecordV (r : KernRecord) : (Declared.mathKernInfoRecord mathLeaf).den :=
  (linkV r.topRight, linkV r.topLeft, linkV r.bottomRight, linkV r.bottomLeft, ())
def mathKernInfoV (k : KernInfo) : (Declared.mathKernInfo mathLeaf).den := (linkV k.coverage, k.records.map mathKernRecordV, ())
def mathInfoV (i : Info) : (Declared.mathGlyphInfo mathLeaf).den :=
  (linkOf mathRecordsV i.italics, linkOf mathRecordsV i.accents, linkV i.extended, linkOf mathKernInfoV i.kern, ())
def mathAssemblyV (a : Assembly) : (Declared.glyphAssembly mathLeaf).den :=
  (mathValueV a.italics, a.parts.map (fun p => (p.glyph, p.startConnector, p.endConnector, p.fullAdvance, p.flags, ())), ())
def mathConstructionV (c : Construction) : (Declared.mathGlyphConstruction mathLeaf).den :=
  (linkOf mathAssemblyV c.assembly, c.variants.map (fun p => (p.1, p.2, ())), ())
/-- The whole table; the version is not kept by the program. -/
def mathCoreV (major minor : UInt16) (c : Core) : (Declared.mathInternal mathLeaf).den :=
  (major, minor, linkOf mathConstantsV c.constants, linkOf mathInfoV c.info, linkV c.variants, ())

namespace DMath

theorem mi16 : Alike (fun a v => Same (.leaf (mathLeaf "int16")) a v) readI16 (read (.leaf (mathLeaf "int16"))) := alike_self _
theorem mu16 : Alike (fun a v => Same (.leaf (mathLeaf "uint16")) a v) readU16 (read (.leaf (mathLeaf "uint16"))) := alike_self _
theorem mdevice : Alike (fun a v => Same (.leaf (mathLeaf "Device")) ((fun x => x) a) v) Device.read (read (.leaf (mathLeaf "Device"))) :=
  alike_self _
theorem mcov : Alike (fun a v => Same (.leaf (mathLeaf "Coverage")) ((fun x => x) a) v) Coverage.read (read (.leaf (mathLeaf "Coverage"))) :=
  alike_self _
theorem mkern : Alike (fun a v => Same (.leaf (mathLeaf "MathKern")) ((fun x => x) a) v) readKern (read (.leaf (mathLeaf "MathKern"))) :=
  alike_self _
theorem mvariants : Alike (fun a v => Same (.leaf (mathLeaf "MathVariants")) ((fun x => x) a) v) readVariants
    (read (.leaf (mathLeaf "MathVariants"))) := alike_self _

theorem mvalue : Alike (fun a v => Same (.record true (Declared.mathValueRecord mathLeaf)) (mathValueV a) v) readValue
    (read (.record true (Declared.mathValueRecord mathLeaf))) :=
  alike_record rfl (alike_cons mi16 fun _ _ h1 => alike_cons (alike_link mdevice) fun _ _ h2 => alike_nil ⟨h1, h2, trivial⟩)

set_option maxRecDepth 4000 in
theorem mconstants : Alike (fun a v => Same (.record false (Declared.mathConstants mathLeaf)) (mathConstantsV a) v) readConstants
    (read (.record false (Declared.mathConstants mathLeaf))) :=
  alike_record rfl (
    alike_cons mi16 fun _ _ h0 => alike_cons mi16 fun _ _ h1 => alike_cons mu16 fun _ _ h2 => alike_cons mu16 fun _ _
    h3 => alike_cons mvalue fun _ _ h4 => alike_cons mvalue fun _ _ h5 => alike_cons mvalue fun _ _ h6 => alike_cons
    mvalue fun _ _ h7 => alike_cons mvalue fun _ _ h8 => alike_cons mvalue fun _ _ h9 => alike_cons mvalue fun _ _ h10
    => alike_cons mvalue fun _ _ h11 => alike_cons mvalue fun _ _ h12 => alike_cons mvalue fun _ _ h13 => alike_cons
    mvalue fun _ _ h14 => alike_cons mvalue fun _ _ h15 => alike_cons mvalue fun _ _ h16 => alike_cons mvalue fun _ _
    h17 => alike_cons mvalue fun _ _ h18 => alike_cons mvalue fun _ _ h19 => alike_cons mvalue fun _ _ h20 =>
    alike_cons mvalue fun _ _ h21 => alike_cons mvalue fun _ _ h22 => alike_cons mvalue fun _ _ h23 => alike_cons
    mvalue fun _ _ h24 => alike_cons mvalue fun _ _ h25 => alike_cons mvalue fun _ _ h26 => alike_cons mvalue fun _ _
    h27 => alike_cons mvalue fun _ _ h28 => alike_cons mvalue fun _ _ h29 => alike_cons mvalue fun _ _ h30 =>
    alike_cons mvalue fun _ _ h31 => alike_cons mvalue fun _ _ h32 => alike_cons mvalue fun _ _ h33 => alike_cons
    mvalue fun _ _ h34 => alike_cons mvalue fun _ _ h35 => alike_cons mvalue fun _ _ h36 => alike_cons mvalue fun _ _
    h37 => alike_cons mvalue fun _ _ h38 => alike_cons mvalue fun _ _ h39 => alike_cons mvalue fun _ _ h40 =>
    alike_cons mvalue fun _ _ h41 => alike_cons mvalue fun _ _ h42 => alike_cons mvalue fun _ _ h43 => alike_cons
    mvalue fun _ _ h44 => alike_cons mvalue fun _ _ h45 => alike_cons mvalue fun _ _ h46 => alike_cons mvalue fun _ _
    h47 => alike_cons mvalue fun _ _ h48 => alike_cons mvalue fun _ _ h49 => alike_cons mvalue fun _ _ h50 =>
    alike_cons mvalue fun _ _ h51 => alike_cons mvalue fun _ _ h52 => alike_cons mvalue fun _ _ h53 => alike_cons
    mvalue fun _ _ h54 => alike_cons mi16 fun _ _ h55 =>
    alike_nil
      ⟨h0, h1, h2, h3, h4, h5, h6, h7, h8, h9, h10, h11, h12, h13, h14, h15, h16, h17, h18, h19, h20, h21, h22, h23,
      h24, h25, h26, h27, h28, h29, h30, h31, h32, h33, h34, h35, h36, h37, h38, h39, h40, h41, h42, h43, h44, h45,
      h46, h47, h48, h49, h50, h51, h52, h53, h54, h55, trivial⟩)

theorem mrecords : Alike (fun a v => Same (.record false (Declared.mathItalicsCorrectionInfo mathLeaf)) (mathRecordsV a) v) readRecords
    (read (.record false (Declared.mathItalicsCorrectionInfo mathLeaf))) :=
  alike_record rfl (alike_cons (alike_link mcov) fun _ _ h1 => alike_cons (alike_counted mvalue) fun _ _ h2 =>
    alike_nil ⟨h1, h2, trivial⟩)

theorem mkernRecord : Alike (fun a v => Same (.record true (Declared.mathKernInfoRecord mathLeaf)) (mathKernRecordV a) v) readKernRecord
    (read (.record true (Declared.mathKernInfoRecord mathLeaf))) :=
  alike_record rfl (alike_cons (alike_link mkern) fun _ _ h1 => alike_cons (alike_link mkern) fun _ _ h2 =>
    alike_cons (alike_link mkern) fun _ _ h3 => alike_cons (alike_link mkern) fun _ _ h4 => alike_nil ⟨h1, h2, h3, h4, trivial⟩)

theorem mkernInfo : Alike (fun a v => Same (.record false (Declared.mathKernInfo mathLeaf)) (mathKernInfoV a) v) readKernInfo
    (read (.record false (Declared.mathKernInfo mathLeaf))) :=
  alike_table (alike_cons (alike_link mcov) fun _ _ h1 => alike_cons (alike_counted mkernRecord) fun _ _ h2 =>
    alike_nil ⟨h1, h2, trivial⟩)

theorem minfo : Alike (fun a v => Same (.record false (Declared.mathGlyphInfo mathLeaf)) (mathInfoV a) v) readInfo
    (read (.record false (Declared.mathGlyphInfo mathLeaf))) :=
  alike_table (alike_cons (alike_link mrecords) fun _ _ h1 => alike_cons (alike_link mrecords) fun _ _ h2 =>
    alike_cons (alike_link mcov) fun _ _ h3 => alike_cons (alike_link mkernInfo) fun _ _ h4 => alike_nil ⟨h1, h2, h3, h4, trivial⟩)

theorem mpart : Alike (fun a v => Same (.record false (Declared.fields [Declared.f mathLeaf "uint16", Declared.f mathLeaf "UFWORD",
      Declared.f mathLeaf "UFWORD", Declared.f mathLeaf "UFWORD", Declared.f mathLeaf "uint16"]))
      ((fun p : Part => (p.glyph, p.startConnector, p.endConnector, p.fullAdvance, p.flags, ())) a) v) readPart
    (read (.record false (Declared.fields [Declared.f mathLeaf "uint16", Declared.f mathLeaf "UFWORD",
      Declared.f mathLeaf "UFWORD", Declared.f mathLeaf "UFWORD", Declared.f mathLeaf "uint16"]))) :=
  alike_record rfl (alike_cons mu16 fun _ _ h1 => alike_cons mu16 fun _ _ h2 => alike_cons mu16 fun _ _ h3 =>
    alike_cons mu16 fun _ _ h4 => alike_cons mu16 fun _ _ h5 => alike_nil ⟨h1, h2, h3, h4, h5, trivial⟩)

theorem mvariant : Alike (fun a v => Same (.record false (Declared.fields [Declared.f mathLeaf "uint16", Declared.f mathLeaf "UFWORD"]))
      ((fun p : UInt16 × UInt16 => (p.1, p.2, ())) a) v) readVariant
    (read (.record false (Declared.fields [Declared.f mathLeaf "uint16", Declared.f mathLeaf "UFWORD"]))) :=
  alike_record rfl (alike_cons mu16 fun _ _ h1 => alike_cons mu16 fun _ _ h2 => alike_nil ⟨h1, h2, trivial⟩)

theorem massembly : Alike (fun a v => Same (.record false (Declared.glyphAssembly mathLeaf)) (mathAssemblyV a) v) readAssembly
    (read (.record false (Declared.glyphAssembly mathLeaf))) :=
  alike_record rfl (alike_cons mvalue fun _ _ h1 => alike_cons (alike_counted mpart) fun _ _ h2 => alike_nil ⟨h1, h2, trivial⟩)

end DMath
open DMath

/-- Constructions of glyphs, which MathVariants lists, are read as declared: both readers fail, both panic, or both find
the same and stop at the same place. -/
theorem C109_reads_math_construction :
    Alike (fun a v => SameF (Declared.mathGlyphConstruction mathLeaf) (mathConstructionV a) v) readConstruction
      (read (.record false (Declared.mathGlyphConstruction mathLeaf))) :=
  alike_table (alike_cons (alike_link massembly) fun _ _ h1 => alike_cons (alike_counted mvariant) fun _ _ h2 =>
    alike_nil ⟨h1, h2, trivial⟩)

/-- So is the MATH table with all its structures. -/
theorem C109_reads_math :
    Alike (fun a v => ∃ major minor, SameF (Declared.mathInternal mathLeaf) (mathCoreV major minor a) v) readCore
      (read (.record false (Declared.mathInternal mathLeaf))) :=
  alike_record rfl (alike_cons mu16 fun _ _ h1 => alike_cons mu16 fun _ _ h2 => alike_cons (alike_link mconstants) fun _ _ h3 =>
    alike_cons (alike_link minfo) fun _ _ h4 => alike_cons (alike_link mvariants) fun _ _ h5 =>
    alike_nil ⟨_, _, h1, h2, h3, h4, h5, trivial⟩)

/-! ### Example -/

/-- A construction of one part and one variant is read alike. -/
example : (match readConstruction (Rd.new [0, 8, 0, 1, 0, 9, 1, 44, 0, 7, 0, 0, 0, 1, 0, 3, 0, 1, 0, 2, 0, 5, 0, 1]) with
      | .ok (c, s) => some (c, s.ptr)
      | _ => none) = some (⟨some ⟨⟨7, none⟩, [⟨3, 1, 2, 5, 1⟩]⟩, [(9, 300)]⟩, 8) ∧
    (match read (.record false (Declared.mathGlyphConstruction mathLeaf))
        (Rd.new [0, 8, 0, 1, 0, 9, 1, 44, 0, 7, 0, 0, 0, 1, 0, 3, 0, 1, 0, 2, 0, 5, 0, 1]) with
      | .ok (_, s) => some s.ptr
      | _ => none) = some 8 := by
  decide +kernel

end FT.Props
