import Verif.Model.LayoutBase
import Verif.Model.Device

/-!
Reading the MATH table: src/tables/MATH.rs. (Saving it is not implemented, C59.)

The derived readers keep the beginning of a structure as the base of offsets only where a field is marked
`[offset_base]` (crates/otspec_macros/src/de.rs:28-66): here MathGlyphInfo, MathKernInfo, MathGlyphConstruction and,
by hand, MathVariants. The offsets in MathConstants, MathItalicsCorrectionInfo, MathTopAccentAttachment, MathKern and
GlyphAssembly are followed from the beginning of the structure around them.
-/

namespace FT.Math
open FT Reader FT.Off FT.Lay

/-- `MathValueRecord` (lines 13-16); the device as linked. -/
structure Value where
  value : Int16
  device : Option Device.Device
  deriving DecidableEq, Repr

/-- The derived reader of `MathValueRecord`. (Lines 13-16.) -/
def readValue : Reader Value := do
  let value ← readI16
  let device ← readOffset .w16 Device.read
  return ⟨value, device⟩

/-- `MathConstants` (lines 24-81). -/
structure Constants where
  scriptPercentScaleDown : Int16
  scriptScriptPercentScaleDown : Int16
  delimitedSubFormulaMinHeight : UInt16
  displayOperatorMinHeight : UInt16
  mathLeading : Value
  axisHeight : Value
  accentBaseHeight : Value
  flattenedAccentBaseHeight : Value
  subscriptShiftDown : Value
  subscriptTopMax : Value
  subscriptBaselineDropMin : Value
  superscriptShiftUp : Value
  superscriptShiftUpCramped : Value
  superscriptBottomMin : Value
  superscriptBaselineDropMax : Value
  subSuperscriptGapMin : Value
  superscriptBottomMaxWithSubscript : Value
  spaceAfterScript : Value
  upperLimitGapMin : Value
  upperLimitBaselineRiseMin : Value
  lowerLimitGapMin : Value
  lowerLimitBaselineDropMin : Value
  stackTopShiftUp : Value
  stackTopDisplayStyleShiftUp : Value
  stackBottomShiftDown : Value
  stackBottomDisplayStyleShiftDown : Value
  stackGapMin : Value
  stackDisplayStyleGapMin : Value
  stretchStackTopShiftUp : Value
  stretchStackBottomShiftDown : Value
  stretchStackGapAboveMin : Value
  stretchStackGapBelowMin : Value
  fractionNumeratorShiftUp : Value
  fractionNumeratorDisplayStyleShiftUp : Value
  fractionDenominatorShiftDown : Value
  fractionDenominatorDisplayStyleShiftDown : Value
  fractionNumeratorGapMin : Value
  fractionNumDisplayStyleGapMin : Value
  fractionRuleThickness : Value
  fractionDenominatorGapMin : Value
  fractionDenomDisplayStyleGapMin : Value
  skewedFractionHorizontalGap : Value
  skewedFractionVerticalGap : Value
  overbarVerticalGap : Value
  overbarRuleThickness : Value
  overbarExtraAscender : Value
  underbarVerticalGap : Value
  underbarRuleThickness : Value
  underbarExtraDescender : Value
  radicalVerticalGap : Value
  radicalDisplayStyleVerticalGap : Value
  radicalRuleThickness : Value
  radicalExtraAscender : Value
  radicalKernBeforeDegree : Value
  radicalKernAfterDegree : Value
  radicalDegreeBottomRaisePercent : Int16
  deriving DecidableEq, Repr

/-- The derived reader of `MathConstants` (lines 24-81). -/
def readConstants : Reader Constants := do
  let scriptPercentScaleDown ← readI16
  let scriptScriptPercentScaleDown ← readI16
  let delimitedSubFormulaMinHeight ← readU16
  let displayOperatorMinHeight ← readU16
  let mathLeading ← readValue
  let axisHeight ← readValue
  let accentBaseHeight ← readValue
  let flattenedAccentBaseHeight ← readValue
  let subscriptShiftDown ← readValue
  let subscriptTopMax ← readValue
  let subscriptBaselineDropMin ← readValue
  let superscriptShiftUp ← readValue
  let superscriptShiftUpCramped ← readValue
  let superscriptBottomMin ← readValue
  let superscriptBaselineDropMax ← readValue
  let subSuperscriptGapMin ← readValue
  let superscriptBottomMaxWithSubscript ← readValue
  let spaceAfterScript ← readValue
  let upperLimitGapMin ← readValue
  let upperLimitBaselineRiseMin ← readValue
  let lowerLimitGapMin ← readValue
  let lowerLimitBaselineDropMin ← readValue
  let stackTopShiftUp ← readValue
  let stackTopDisplayStyleShiftUp ← readValue
  let stackBottomShiftDown ← readValue
  let stackBottomDisplayStyleShiftDown ← readValue
  let stackGapMin ← readValue
  let stackDisplayStyleGapMin ← readValue
  let stretchStackTopShiftUp ← readValue
  let stretchStackBottomShiftDown ← readValue
  let stretchStackGapAboveMin ← readValue
  let stretchStackGapBelowMin ← readValue
  let fractionNumeratorShiftUp ← readValue
  let fractionNumeratorDisplayStyleShiftUp ← readValue
  let fractionDenominatorShiftDown ← readValue
  let fractionDenominatorDisplayStyleShiftDown ← readValue
  let fractionNumeratorGapMin ← readValue
  let fractionNumDisplayStyleGapMin ← readValue
  let fractionRuleThickness ← readValue
  let fractionDenominatorGapMin ← readValue
  let fractionDenomDisplayStyleGapMin ← readValue
  let skewedFractionHorizontalGap ← readValue
  let skewedFractionVerticalGap ← readValue
  let overbarVerticalGap ← readValue
  let overbarRuleThickness ← readValue
  let overbarExtraAscender ← readValue
  let underbarVerticalGap ← readValue
  let underbarRuleThickness ← readValue
  let underbarExtraDescender ← readValue
  let radicalVerticalGap ← readValue
  let radicalDisplayStyleVerticalGap ← readValue
  let radicalRuleThickness ← readValue
  let radicalExtraAscender ← readValue
  let radicalKernBeforeDegree ← readValue
  let radicalKernAfterDegree ← readValue
  let radicalDegreeBottomRaisePercent ← readI16
  return ⟨scriptPercentScaleDown, scriptScriptPercentScaleDown, delimitedSubFormulaMinHeight,
    displayOperatorMinHeight, mathLeading, axisHeight, accentBaseHeight, flattenedAccentBaseHeight,
    subscriptShiftDown, subscriptTopMax, subscriptBaselineDropMin, superscriptShiftUp, superscriptShiftUpCramped,
    superscriptBottomMin, superscriptBaselineDropMax, subSuperscriptGapMin, superscriptBottomMaxWithSubscript,
    spaceAfterScript, upperLimitGapMin, upperLimitBaselineRiseMin, lowerLimitGapMin, lowerLimitBaselineDropMin,
    stackTopShiftUp, stackTopDisplayStyleShiftUp, stackBottomShiftDown, stackBottomDisplayStyleShiftDown,
    stackGapMin, stackDisplayStyleGapMin, stretchStackTopShiftUp, stretchStackBottomShiftDown,
    stretchStackGapAboveMin, stretchStackGapBelowMin, fractionNumeratorShiftUp,
    fractionNumeratorDisplayStyleShiftUp, fractionDenominatorShiftDown, fractionDenominatorDisplayStyleShiftDown,
    fractionNumeratorGapMin, fractionNumDisplayStyleGapMin, fractionRuleThickness, fractionDenominatorGapMin,
    fractionDenomDisplayStyleGapMin, skewedFractionHorizontalGap, skewedFractionVerticalGap, overbarVerticalGap,
    overbarRuleThickness, overbarExtraAscender, underbarVerticalGap, underbarRuleThickness,
    underbarExtraDescender, radicalVerticalGap, radicalDisplayStyleVerticalGap, radicalRuleThickness,
    radicalExtraAscender, radicalKernBeforeDegree, radicalKernAfterDegree, radicalDegreeBottomRaisePercent⟩

/-- `MathItalicsCorrectionInfo` (lines 89-92) and `MathTopAccentAttachment` (lines 93-96): a coverage table and records.
The base of the offsets is that of MathGlyphInfo. -/
structure Records where
  coverage : Option (List UInt16)
  records : List Value
  deriving DecidableEq, Repr

/-- Goes with `Records` (lines 89-92; lines 93-96). -/
def readRecords : Reader Records := do
  let coverage ← readOffset .w16 Coverage.read
  let records ← readCounted readValue
  return ⟨coverage, records⟩

/-- `MathKern` (lines 203-209); `heightCount` is the number of heights. -/
structure Kern where
  heights : List Value
  kerns : List Value
  deriving DecidableEq, Repr

/-- `MathKern::from_bytes` (lines 211-223). -/
def readKern : Reader Kern := do
  let n ← readU16
  let heights ← deCounted readValue n.toNat
  let kerns ← deCounted readValue (1 + n.toNat)
  return ⟨heights, kerns⟩

/-- `MathKernInfoRecord` (lines 103-108). -/
structure KernRecord where
  topRight : Option Kern
  topLeft : Option Kern
  bottomRight : Option Kern
  bottomLeft : Option Kern
  deriving DecidableEq, Repr

/-- Goes with `KernRecord` (lines 103-108). -/
def readKernRecord : Reader KernRecord := do
  let topRight ← readOffset .w16 readKern
  let topLeft ← readOffset .w16 readKern
  let bottomRight ← readOffset .w16 readKern
  let bottomLeft ← readOffset .w16 readKern
  return ⟨topRight, topLeft, bottomRight, bottomLeft⟩

/-- `MathKernInfo` (lines 97-102). -/
structure KernInfo where
  coverage : Option (List UInt16)
  records : List KernRecord
  deriving DecidableEq, Repr

/-- Goes with `KernInfo` (lines 97-102). -/
def readKernInfo : Reader KernInfo := inTable do
  let coverage ← readOffset .w16 Coverage.read
  let records ← readCounted readKernRecord
  return ⟨coverage, records⟩

/-- `MathGlyphInfo` (lines 82-88). -/
structure Info where
  italics : Option Records
  accents : Option Records
  extended : Option (List UInt16)
  kern : Option KernInfo
  deriving DecidableEq, Repr

/-- Goes with `Info` (lines 82-88). -/
def readInfo : Reader Info := inTable do
  let italics ← readOffset .w16 readRecords
  let accents ← readOffset .w16 readRecords
  let extended ← readOffset .w16 Coverage.read
  let kern ← readOffset .w16 readKernInfo
  return ⟨italics, accents, extended, kern⟩

/-- `GlyphPartRecord` (lines 122-128). -/
structure Part where
  glyph : UInt16
  startConnector : UInt16
  endConnector : UInt16
  fullAdvance : UInt16
  flags : UInt16
  deriving DecidableEq, Repr

/-- Goes with `Part` (lines 122-128). -/
def readPart : Reader Part := do
  let glyph ← readU16
  let startConnector ← readU16
  let endConnector ← readU16
  let fullAdvance ← readU16
  let flags ← readU16
  return ⟨glyph, startConnector, endConnector, fullAdvance, flags⟩

/-- `GlyphAssembly` (lines 118-121). -/
structure Assembly where
  italics : Value
  parts : List Part
  deriving DecidableEq, Repr

/-- Goes with `Assembly` (lines 118-121). -/
def readAssembly : Reader Assembly := do
  let italics ← readValue
  let parts ← readCounted readPart
  return ⟨italics, parts⟩

/-- `MathGlyphVariantRecord` (lines 114-117): glyph and advance. -/
def readVariant : Reader (UInt16 × UInt16) := do
  let glyph ← readU16
  let advance ← readU16
  return (glyph, advance)

/-- `MathGlyphConstruction` (lines 109-113). -/
structure Construction where
  assembly : Option Assembly
  variants : List (UInt16 × UInt16)
  deriving DecidableEq, Repr

/-- Goes with `Construction` (lines 109-113). -/
def readConstruction : Reader Construction := inTable do
  let assembly ← readOffset .w16 readAssembly
  let variants ← readCounted readVariant
  return ⟨assembly, variants⟩

/-- `MathVariants` (lines 143-151). -/
structure Variants where
  minOverlap : UInt16
  vertCoverage : Option (List UInt16)
  horizCoverage : Option (List UInt16)
  vert : List (Option Construction)
  horiz : List (Option Construction)
  deriving DecidableEq, Repr

/-- `MathVariants::from_bytes` (lines 153-179). -/
def readVariants : Reader Variants := inTable do
  let minOverlap ← readU16
  let vertCoverage ← readOffset .w16 Coverage.read
  let horizCoverage ← readOffset .w16 Coverage.read
  let nv ← readU16
  let nh ← readU16
  let vert ← deCounted (readOffset .w16 readConstruction) nv.toNat
  let horiz ← deCounted (readOffset .w16 readConstruction) nh.toNat
  return ⟨minOverlap, vertCoverage, horizCoverage, vert, horiz⟩

/-- `MATHinternal` (lines 17-23), without the version, which is not looked at. -/
structure Core where
  constants : Option Constants
  info : Option Info
  variants : Option Variants
  deriving DecidableEq, Repr

/-- Goes with `Core` (lines 17-23). -/
def readCore : Reader Core := do
  let _ ← readU16
  let _ ← readU16
  let constants ← readOffset .w16 readConstants
  let info ← readOffset .w16 readInfo
  let variants ← readOffset .w16 readVariants
  return ⟨constants, info, variants⟩

/-- `MATH` (lines 225-244); maps and sets as ascending lists. -/
structure MATH where
  constants : Constants
  italics : List (UInt16 × Value)
  accents : List (UInt16 × Value)
  extended : List UInt16
  kerning : List (UInt16 × KernRecord)
  minOverlap : Option UInt16
  vertical : List (UInt16 × Construction)
  horizontal : List (UInt16 × Construction)
  deriving DecidableEq, Repr

/-- `coverage.as_ref().map(|x| x.glyphs.clone()).iter().flatten().zip(records)` collected (lines 251-260, 264-273,
277-286). -/
def zipped {α : Type} (coverage : Option (List UInt16)) (records : List α) : List (UInt16 × α) :=
  BMap.collect ((coverage.getD []).zip records)

/-- The same for linked records, those with null offsets being dropped (lines 302-321). -/
def zippedLinks {α : Type} (coverage : Option (List UInt16)) (records : List (Option α)) : List (UInt16 × α) :=
  BMap.collect (((coverage.getD []).zip records).filterMap (fun x => x.2.map (fun y => (x.1, y))))

/-- `MATH::from_bytes` (lines 241-341) after the structures are read: without constants it is an error. -/
def build (c : Core) : Res MATH := match c.constants with
  | none => .err
  | some k => .ok {
      constants := k
      italics := match c.info.bind Info.italics with
        | some r => zipped r.coverage r.records
        | none => []
      accents := match c.info.bind Info.accents with
        | some r => zipped r.coverage r.records
        | none => []
      extended := match c.info with
        | some i => (BMap.collect ((i.extended.getD []).map (fun g => (g, ())))).map Prod.fst
        | none => []
      kerning := match c.info.bind Info.kern with
        | some r => zipped r.coverage r.records
        | none => []
      minOverlap := c.variants.map Variants.minOverlap
      vertical := match c.variants with
        | some v => zippedLinks v.vertCoverage v.vert
        | none => []
      horizontal := match c.variants with
        | some v => zippedLinks v.horizCoverage v.horiz
        | none => [] }

/-- `MATH::from_bytes` (lines 241-341). -/
def readMath : Reader MATH := do
  let c ← readCore
  Reader.lift (build c)

end FT.Math
