import Verif.Model.MaxpStats
import Verif.Model.Stat
import Verif.Model.Strings

/-! Tables made from scratch: `head::new`, `maxp::new05`, `post::new`, `post::set_version`, `AxisValue::new_format1` to
`new_format4`. (`maxp::new10` is in `Model/MaxpStats.lean`.) -/

namespace FT.NewTables
open FT F32 Tables Strings Stat

/-- `head::new` (src/tables/head.rs:11-39). `now1` and `now2` are what the clock shows at lines 27 and 28; the struct
expression evaluates its fields in the order written. -/
def newHead (now1 now2 : Date) (fontRevision : ℚ) (upm : UInt16) (xMin yMin xMax yMax : Int16) : Head :=
  { majorVersion := 1, minorVersion := 0, fontRevision, checksumAdjustment := 0, magicNumber := 0x5F0F3CF5, flags := 3,
    unitsPerEm := upm, created := now1, modified := now2, xMin, yMin, xMax, yMax, macStyle := 0, lowestRecPPEM := 6,
    fontDirectionHint := 2, indexToLocFormat := 0, glyphDataFormat := 0 }

/-- `maxp::new05` (src/tables/maxp.rs:65-72); `U16F16::from_num(0.5)` has bits 0x8000. -/
def newMaxp05 (n : UInt16) : Maxp := ⟨0x8000, .v05 ⟨n⟩⟩

/-- `U16F16::from_num` of an `f32` (crate `fixed`): the nearest multiple of 1/65536, ties to even; a panic if it does not
fit. -/
def fromNum (v : ℚ) : Res UInt32 :=
  let n := rhe (v * 65536)
  if 0 ≤ n ∧ n < 2 ^ 32 then .ok (UInt32.ofNat n.toNat) else .panic

/-- `post::new` (src/tables/post.rs:315-336). -/
def newPost (version italicAngle : ℚ) (underlinePosition underlineThickness : Int16) (isFixedPitch : Bool)
    (glyphnames : Option (List String)) : Res Post := do
  let v ← fromNum version
  return { version := v, italicAngle, underlinePosition, underlineThickness, isFixedPitch := if isFixedPitch then 1 else 0,
           glyphnames, maxMemType1 := 0, minMemType1 := 0, maxMemType42 := 0, minMemType42 := 0 }

/-- `post::set_version` (post.rs:342-344). -/
def setVersion (p : Post) (version : ℚ) : Res Post := do
  let v ← fromNum version
  return { p with version := v }

/-- `AxisValue::new_format1` (src/tables/STAT.rs:323-333). -/
def newFormat1 (axisIndex flags nameID : UInt16) (value : ℚ) : AxisValue :=
  ⟨some axisIndex, flags, nameID, some value, none, none, none⟩

/-- `AxisValue::new_format2` (STAT.rs:336-353). -/
def newFormat2 (axisIndex flags nameID : UInt16) (value rmin rmax : ℚ) : AxisValue :=
  ⟨some axisIndex, flags, nameID, some value, some (rmin, rmax), none, none⟩

/-- `AxisValue::new_format3` (STAT.rs:356-372). -/
def newFormat3 (axisIndex flags nameID : UInt16) (value linked : ℚ) : AxisValue :=
  ⟨some axisIndex, flags, nameID, some value, none, some linked, none⟩

/-- `AxisValue::new_format4` (STAT.rs:375-385). -/
def newFormat4 (flags nameID : UInt16) (mapping : List (UInt16 × ℚ)) : AxisValue :=
  ⟨none, flags, nameID, none, none, none, some mapping⟩

end FT.NewTables
