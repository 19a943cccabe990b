import Verif.Model.F32

/-! Tables with a fixed record layout: head, hhea, maxp, gasp, cvt, fpgm, prep.

The `tables!` macro derives `Serialize`/`Deserialize` field by field in declaration order
(crates/otspec_macros); the functions below are those derived functions written out. -/

namespace FT.Tables
open FT Reader

/-- A `chrono::NaiveDateTime`: whole seconds since 1904-01-01 and nanoseconds within the second. -/
structure Date where
  secs : Int
  nanos : Nat
  deriving DecidableEq, Repr

/-- Seconds since 1904 of the first and last representable `NaiveDateTime` (chrono 0.4: years -262144 to
262143). -/
def dateMin : Int := -8332550006400
/-- The last representable date; see `dateMin`. -/
def dateMax : Int := 8212381257599

/-- `LONGDATETIME::to_bytes` (types.rs:231-235): whole seconds, `timestamp()` drops the fraction. -/
def encDate (d : Date) : Bytes := encI64 (Int64.ofInt d.secs)

/-- `LONGDATETIME::from_bytes` (types.rs:241-246): `epoch + Duration::seconds(diff)` panics when the result
is not a representable date. -/
def readDate : Reader Date := do
  let diff ← readI64
  if dateMin ≤ diff.toInt ∧ diff.toInt ≤ dateMax then return ⟨diff.toInt, 0⟩ else crash

/-- `head` (crates/otspec/src/tables/head.rs:5-24). -/
structure Head where
  majorVersion : UInt16
  minorVersion : UInt16
  fontRevision : ℚ
  checksumAdjustment : UInt32
  magicNumber : UInt32
  flags : UInt16
  unitsPerEm : UInt16
  created : Date
  modified : Date
  xMin : Int16
  yMin : Int16
  xMax : Int16
  yMax : Int16
  macStyle : UInt16
  lowestRecPPEM : UInt16
  fontDirectionHint : Int16
  indexToLocFormat : Int16
  glyphDataFormat : Int16

/-- Goes with `Head` (crates/otspec/src/tables/head.rs:5-24). -/
def encHead (h : Head) : Bytes :=
  encU16 h.majorVersion ++ (encU16 h.minorVersion ++ (F32.encFixed h.fontRevision ++
  (encU32 h.checksumAdjustment ++ (encU32 h.magicNumber ++ (encU16 h.flags ++ (encU16 h.unitsPerEm ++
  (encDate h.created ++ (encDate h.modified ++ (encI16 h.xMin ++ (encI16 h.yMin ++ (encI16 h.xMax ++
  (encI16 h.yMax ++ (encU16 h.macStyle ++ (encU16 h.lowestRecPPEM ++ (encI16 h.fontDirectionHint ++
  (encI16 h.indexToLocFormat ++ encI16 h.glyphDataFormat))))))))))))))))

/-- Goes with `Head` (crates/otspec/src/tables/head.rs:5-24). -/
def readHead : Reader Head := do
  let majorVersion ← readU16
  let minorVersion ← readU16
  let fontRevision ← F32.readFixed
  let checksumAdjustment ← readU32
  let magicNumber ← readU32
  let flags ← readU16
  let unitsPerEm ← readU16
  let created ← readDate
  let modified ← readDate
  let xMin ← readI16
  let yMin ← readI16
  let xMax ← readI16
  let yMax ← readI16
  let macStyle ← readU16
  let lowestRecPPEM ← readU16
  let fontDirectionHint ← readI16
  let indexToLocFormat ← readI16
  let glyphDataFormat ← readI16
  return { majorVersion, minorVersion, fontRevision, checksumAdjustment, magicNumber, flags, unitsPerEm,
           created, modified, xMin, yMin, xMax, yMax, macStyle, lowestRecPPEM, fontDirectionHint,
           indexToLocFormat, glyphDataFormat }

/-- `hhea` (src/tables/hhea.rs:8-27). -/
structure Hhea where
  majorVersion : UInt16
  minorVersion : UInt16
  ascender : Int16
  descender : Int16
  lineGap : Int16
  advanceWidthMax : UInt16
  minLeftSideBearing : Int16
  minRightSideBearing : Int16
  xMaxExtent : Int16
  caretSlopeRise : Int16
  caretSlopeRun : Int16
  caretOffset : Int16
  reserved0 : Int16
  reserved1 : Int16
  reserved2 : Int16
  reserved3 : Int16
  metricDataFormat : Int16
  numberOfHMetrics : UInt16
  deriving DecidableEq, Repr

/-- Goes with `Hhea` (src/tables/hhea.rs:8-27). -/
def encHhea (h : Hhea) : Bytes :=
  encU16 h.majorVersion ++ (encU16 h.minorVersion ++ (encI16 h.ascender ++ (encI16 h.descender ++
  (encI16 h.lineGap ++ (encU16 h.advanceWidthMax ++ (encI16 h.minLeftSideBearing ++
  (encI16 h.minRightSideBearing ++ (encI16 h.xMaxExtent ++ (encI16 h.caretSlopeRise ++
  (encI16 h.caretSlopeRun ++ (encI16 h.caretOffset ++ (encI16 h.reserved0 ++ (encI16 h.reserved1 ++
  (encI16 h.reserved2 ++ (encI16 h.reserved3 ++ (encI16 h.metricDataFormat ++
  encU16 h.numberOfHMetrics))))))))))))))))

/-- Goes with `Hhea` (src/tables/hhea.rs:8-27). -/
def readHhea : Reader Hhea := do
  let majorVersion ← readU16
  let minorVersion ← readU16
  let ascender ← readI16
  let descender ← readI16
  let lineGap ← readI16
  let advanceWidthMax ← readU16
  let minLeftSideBearing ← readI16
  let minRightSideBearing ← readI16
  let xMaxExtent ← readI16
  let caretSlopeRise ← readI16
  let caretSlopeRun ← readI16
  let caretOffset ← readI16
  let reserved0 ← readI16
  let reserved1 ← readI16
  let reserved2 ← readI16
  let reserved3 ← readI16
  let metricDataFormat ← readI16
  let numberOfHMetrics ← readU16
  return { majorVersion, minorVersion, ascender, descender, lineGap, advanceWidthMax, minLeftSideBearing,
           minRightSideBearing, xMaxExtent, caretSlopeRise, caretSlopeRun, caretOffset, reserved0, reserved1,
           reserved2, reserved3, metricDataFormat, numberOfHMetrics }

/-- `maxp05` (src/tables/maxp.rs:9-11). -/
structure Maxp05 where
  numGlyphs : UInt16
  deriving DecidableEq, Repr

/-- `maxp10` (src/tables/maxp.rs:13-28). -/
structure Maxp10 where
  numGlyphs : UInt16
  maxPoints : UInt16
  maxContours : UInt16
  maxCompositePoints : UInt16
  maxCompositeContours : UInt16
  maxZones : UInt16
  maxTwilightPoints : UInt16
  maxStorage : UInt16
  maxFunctionDefs : UInt16
  maxInstructionDefs : UInt16
  maxStackElements : UInt16
  maxSizeOfInstructions : UInt16
  maxComponentElements : UInt16
  maxComponentDepth : UInt16
  deriving DecidableEq, Repr

/-- `MaxpVariant` (maxp.rs:36-41). -/
inductive MaxpVariant where
  | v05 (t : Maxp05)
  | v10 (t : Maxp10)
  deriving DecidableEq, Repr

/-- `maxp` (maxp.rs:55-61); the version is a `U16F16`, i.e. its 32 bits. -/
structure Maxp where
  version : UInt32
  table : MaxpVariant
  deriving DecidableEq, Repr

/-- `Version16Dot16::to_bytes` (types.rs:191-199): major `floor` as `u8` (a panic above 255), minor
`frac * 160` truncated to `u8` (exact in `f32`: at most 16 + 8 bits). -/
def encVersion16Dot16 (v : UInt32) : Res Bytes :=
  let major := v.toNat / 65536
  let frac := v.toNat % 65536
  if major > 255 then .panic
  else .ok (encU8 0 ++ encU8 (UInt8.ofNat major) ++ encU8 (UInt8.ofNat (frac * 160 / 65536)) ++ encU8 0)

/-- Generated codec of `maxp10` (src/tables/maxp.rs:13-28). -/
def encMaxp10 (t : Maxp10) : Bytes :=
  encU16 t.numGlyphs ++ (encU16 t.maxPoints ++ (encU16 t.maxContours ++ (encU16 t.maxCompositePoints ++
  (encU16 t.maxCompositeContours ++ (encU16 t.maxZones ++ (encU16 t.maxTwilightPoints ++
  (encU16 t.maxStorage ++ (encU16 t.maxFunctionDefs ++ (encU16 t.maxInstructionDefs ++
  (encU16 t.maxStackElements ++ (encU16 t.maxSizeOfInstructions ++ (encU16 t.maxComponentElements ++
  encU16 t.maxComponentDepth))))))))))))

/-- Generated codec of `maxp10` (src/tables/maxp.rs:13-28). -/
def readMaxp10 : Reader Maxp10 := do
  let numGlyphs ← readU16
  let maxPoints ← readU16
  let maxContours ← readU16
  let maxCompositePoints ← readU16
  let maxCompositeContours ← readU16
  let maxZones ← readU16
  let maxTwilightPoints ← readU16
  let maxStorage ← readU16
  let maxFunctionDefs ← readU16
  let maxInstructionDefs ← readU16
  let maxStackElements ← readU16
  let maxSizeOfInstructions ← readU16
  let maxComponentElements ← readU16
  let maxComponentDepth ← readU16
  return { numGlyphs, maxPoints, maxContours, maxCompositePoints, maxCompositeContours, maxZones,
           maxTwilightPoints, maxStorage, maxFunctionDefs, maxInstructionDefs, maxStackElements,
           maxSizeOfInstructions, maxComponentElements, maxComponentDepth }

/-- Derived `Serialize` for `maxp` and `MaxpVariant` (maxp.rs:43-50, 54). -/
def encMaxp (m : Maxp) : Res Bytes := do
  let v ← encVersion16Dot16 m.version
  match m.table with
  | .v05 t => return v ++ encU16 t.numGlyphs
  | .v10 t => return v ++ encMaxp10 t

/-- `maxp::from_bytes` (maxp.rs:122-143). `U16F16` 0.5 has bits 0x8000, 1.0 has bits 0x10000. -/
def readMaxp : Reader Maxp := do
  let version ← readU32
  if version = 0x00005000 then do
    let n ← readU16
    return ⟨0x8000, .v05 ⟨n⟩⟩
  else if version = 0x00010000 then do
    let t ← readMaxp10
    return ⟨0x10000, .v10 t⟩
  else fail

/-- `maxp::num_glyphs` (maxp.rs:107-112). -/
def Maxp.numGlyphs (m : Maxp) : UInt16 := match m.table with
  | .v05 t => t.numGlyphs
  | .v10 t => t.numGlyphs

/-- `maxp::set_num_glyphs` (maxp.rs:114-119). -/
def Maxp.setNumGlyphs (m : Maxp) (n : UInt16) : Maxp := match m.table with
  | .v05 t => { m with table := .v05 { t with numGlyphs := n } }
  | .v10 t => { m with table := .v10 { t with numGlyphs := n } }

/-- `GaspRecord` (src/tables/gasp.rs:10-13); the flags are their 16 bits, unknown bits kept. -/
structure GaspRecord where
  rangeMaxPPEM : UInt16
  rangeGaspBehavior : UInt16
  deriving DecidableEq, Repr

/-- Goes with `GaspRecord` (src/tables/gasp.rs:10-13). -/
structure Gasp where
  version : UInt16
  gaspRanges : List GaspRecord
  deriving DecidableEq, Repr

/-- Goes with `GaspRecord` (src/tables/gasp.rs:10-13). -/
def encGaspRecord (g : GaspRecord) : Bytes := encU16 g.rangeMaxPPEM ++ encU16 g.rangeGaspBehavior
/-- Goes with `GaspRecord` (src/tables/gasp.rs:10-13). -/
def readGaspRecord : Reader GaspRecord := do
  let rangeMaxPPEM ← readU16
  let rangeGaspBehavior ← readU16
  return ⟨rangeMaxPPEM, rangeGaspBehavior⟩

/-- `gasp` (gasp.rs:15-18). -/
def encGasp (g : Gasp) : Bytes := encU16 g.version ++ encCounted encGaspRecord g.gaspRanges
/-- Goes with `encGasp` (gasp.rs:15-18). -/
def readGasp : Reader Gasp := do
  let version ← readU16
  let gaspRanges ← readCounted readGaspRecord
  return ⟨version, gaspRanges⟩

/-- `cvt::to_bytes` (src/tables/cvt.rs:27-34). -/
def encCvt (l : List Int16) : Bytes := encVec encI16 l

/-- The `while c.ptr < c.input.len()` loop of `cvt::from_bytes` (cvt.rs:16-25); fuel = input length + 1. -/
def readCvtFuel : Nat → Reader (List Int16)
  | 0 => crash
  | k + 1 => fun r =>
    if r.ptr < r.inp.length then
      match readI16 r with
      | .ok (v, r') => match readCvtFuel k r' with
        | .ok (l, r'') => .ok (v :: l, r'')
        | .err => .err
        | .panic => .panic
      | .err => .err
      | .panic => .panic
    else .ok ([], r)

/-- Goes with `readCvtFuel` (cvt.rs:16-25). -/
def readCvt : Reader (List Int16) := fun r => readCvtFuel (r.inp.length + 1) r

/-- `fpgm`/`prep` (src/tables/fpgm.rs:14-26, prep.rs:14-26): the whole input, cursor unmoved. -/
def encProgram (l : Bytes) : Bytes := encVec encU8 l
/-- Goes with `encProgram` (src/tables/fpgm.rs:14-26; prep.rs:14-26). -/
def readProgram : Reader Bytes := getInp

end FT.Tables
