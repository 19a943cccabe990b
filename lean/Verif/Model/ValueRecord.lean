import Verif.Model.Device
import Verif.Model.Offsets

/-!
Value records: crates/otspec/src/layout/valuerecord.rs.
-/

namespace FT.VR
open FT Reader FT.Off FT.Device

/-- `ValueRecord` (valuerecord.rs:18-30). `Option<Offset16<Device>>` is `Option (Option Device)`: absent,
null offset, or a device. -/
structure ValueRecord where
  xPlacement : Option Int16 := none
  yPlacement : Option Int16 := none
  xAdvance : Option Int16 := none
  yAdvance : Option Int16 := none
  xPlaDevice : Option (Option Device) := none
  yPlaDevice : Option (Option Device) := none
  xAdvDevice : Option (Option Device) := none
  yAdvDevice : Option (Option Device) := none
  deriving DecidableEq, Repr

/-- `has_any` (valuerecord.rs:64-73). -/
def hasAny (v : ValueRecord) : Bool :=
  v.xPlacement.isSome || v.yPlacement.isSome || v.xAdvance.isSome || v.yAdvance.isSome ||
  v.xPlaDevice.isSome || v.yPlaDevice.isSome || v.xAdvDevice.isSome || v.yAdvDevice.isSome

/-- `if cond { f |= bit }`. -/
def orIf (f : UInt16) (c : Bool) (bit : UInt16) : UInt16 := if c then f ||| bit else f

/-- `flags` (valuerecord.rs:76-103); the sixth test looks at `xPlaDevice` (line 93), as in the source. -/
def flags (v : ValueRecord) : UInt16 :=
  orIf (orIf (orIf (orIf (orIf (orIf (orIf (orIf 0
    v.xPlacement.isSome 0x0001)
    v.yPlacement.isSome 0x0002)
    v.xAdvance.isSome 0x0004)
    v.yAdvance.isSome 0x0008)
    v.xPlaDevice.isSome 0x0010)
    v.xPlaDevice.isSome 0x0020)
    v.xAdvDevice.isSome 0x0040)
    v.yAdvDevice.isSome 0x0080

/-- `flags.contains(bit)`. -/
def has (f bit : UInt16) : Bool := f &&& bit == bit

/-- `if c { Some(c.de()?) } else { None }`. -/
def readIf {α : Type} (c : Bool) (p : Reader α) : Reader (Option α) :=
  if c then (do let a ← p; return some a) else pure none

/-- `from_bytes` (valuerecord.rs:106-137). -/
def read (f : UInt16) : Reader ValueRecord := do
  let a ← readIf (has f 0x0001) readI16
  let b ← readIf (has f 0x0002) readI16
  let c ← readIf (has f 0x0004) readI16
  let d ← readIf (has f 0x0008) readI16
  let e ← readIf (has f 0x0010) (readOffset .w16 Device.read)
  let g ← readIf (has f 0x0020) (readOffset .w16 Device.read)
  let h ← readIf (has f 0x0040) (readOffset .w16 Device.read)
  let i ← readIf (has f 0x0080) (readOffset .w16 Device.read)
  return ⟨a, b, c, d, e, g, h, i⟩

/-- An `Option<int16>` field. -/
def intTab : Option Int16 → Tab
  | none => .nil
  | some x => .bytes (encI16 x)

/-- An `Option<Offset16<Device>>` field of an embedded record. -/
def devTab : Option (Option Device) → Res Tab
  | none => .ok .nil
  | some none => .ok (.nullOff .w16)
  | some (some d) => match Device.toBytes d with
    | .ok bs => .ok (.link .w16 true true none (.bytes bs) .nil)
    | .err => .err
    | .panic => .panic

/-- The fields a value record writes into the table that embeds it (derived `Serialize`, `embedded`). -/
def tab (v : ValueRecord) : Res Tab := do
  let e ← devTab v.xPlaDevice
  let g ← devTab v.yPlaDevice
  let h ← devTab v.xAdvDevice
  let i ← devTab v.yAdvDevice
  return (intTab v.xPlacement).append ((intTab v.yPlacement).append ((intTab v.xAdvance).append
    ((intTab v.yAdvance).append (e.append (g.append (h.append i))))))

/-- One field of `coerce_to_format`. (valuerecord.rs:140-154.) -/
def coerceField (c : Bool) (x : Option Int16) : Option Int16 := if c && x.isNone then some 0 else x

/-- `coerce_to_format` (valuerecord.rs:140-153). -/
def coerceTo (f : UInt16) (v : ValueRecord) : ValueRecord :=
  { v with
    xPlacement := coerceField (has f 0x0001) v.xPlacement
    yPlacement := coerceField (has f 0x0002) v.yPlacement
    xAdvance := coerceField (has f 0x0004) v.xAdvance
    yAdvance := coerceField (has f 0x0008) v.yAdvance }

/-- One field of `simplify`. (valuerecord.rs:156-177.) -/
def dropZero (x : Option Int16) : Option Int16 := if x = some 0 then none else x

/-- `simplify` (valuerecord.rs:156-177). -/
def simplify (v : ValueRecord) : ValueRecord :=
  { v with
    xPlacement := dropZero v.xPlacement
    yPlacement := dropZero v.yPlacement
    xAdvance := dropZero v.xAdvance
    yAdvance := dropZero v.yAdvance }

/-- `highest_format` (valuerecord.rs:181-188). -/
def highestFormat : List ValueRecord → UInt16
  | [] => 0
  | v :: l => l.foldl (fun f w => f ||| flags w) (flags v)

/-- `is_all_the_same` (crates/otspec/src/utils.rs): all elements equal the first; true for none. (utils.rs:18-31.) -/
def allSame {α : Type} [DecidableEq α] : List α → Bool
  | [] => true
  | a :: l => l.all (fun b => decide (b = a))

/-- `coerce_to_same_format` (valuerecord.rs:191-203). -/
def coerceToSame (vrs : List ValueRecord) : List ValueRecord :=
  if allSame (vrs.map flags) then vrs else vrs.map (coerceTo (highestFormat vrs))

end FT.VR
