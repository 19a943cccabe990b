import Verif.Model.AxisMaps

/-! The `avar` and `fvar` tables. -/

namespace FT.AxisMaps
open FT Reader F32

/-- `AxisValueMap` (otspec tables/avar.rs:6-9). -/
def encAxisValue (x : ℚ × ℚ) : Res Bytes := do
  let a ← encF2dot14 x.1
  let b ← encF2dot14 x.2
  return a ++ b
/-- Goes with `encAxisValue` (tables/avar.rs:6-9). -/
def readAxisValue : Reader (ℚ × ℚ) := do
  let a ← readF2dot14
  let b ← readF2dot14
  return (a, b)

/-- `SegmentMap` (otspec tables/avar.rs:10-12, src/tables/avar.rs:46-72). -/
def encSegment (m : List (ℚ × ℚ)) : Res Bytes := do
  let b ← encVecR encAxisValue m
  return encU16 (UInt16.ofNat m.length) ++ b
/-- Goes with `encSegment` (tables/avar.rs:10-12; src/tables/avar.rs:46-72). -/
def readSegment : Reader (List (ℚ × ℚ)) := readCounted readAxisValue

/-- `avar` (otspec tables/avar.rs:14-19; src/tables/avar.rs:21-44 fixes version and reserved field and drops them on
reading). -/
def encAvar (maps : List (List (ℚ × ℚ))) : Res Bytes := do
  let b ← encVecR encSegment maps
  return encU16 1 ++ (encU16 0 ++ (encU16 0 ++ (encU16 (UInt16.ofNat maps.length) ++ b)))
/-- Goes with `encAvar` (tables/avar.rs:14-19; src/tables/avar.rs:21-44). -/
def readAvar : Reader (List (List (ℚ × ℚ))) := do
  let _ ← readU16
  let _ ← readU16
  let _ ← readU16
  readCounted readSegment

/-- `VariationAxisRecord` (fvar.rs:22-29). -/
structure AxisRecord where
  axisTag : Tag
  minValue : ℚ
  defaultValue : ℚ
  maxValue : ℚ
  flags : UInt16
  axisNameID : UInt16

/-- Goes with `AxisRecord` (fvar.rs:22-29). -/
def encAxisRecord (a : AxisRecord) : Bytes :=
  encTag a.axisTag ++ (encFixed a.minValue ++ (encFixed a.defaultValue ++ (encFixed a.maxValue ++
  (encU16 a.flags ++ encU16 a.axisNameID))))
/-- Goes with `AxisRecord` (fvar.rs:22-29). -/
def readAxisRecord : Reader AxisRecord := do
  let axisTag ← readTag
  let minValue ← readFixed
  let defaultValue ← readFixed
  let maxValue ← readFixed
  let flags ← readU16
  let axisNameID ← readU16
  return { axisTag, minValue, defaultValue, maxValue, flags, axisNameID }

/-- `InstanceRecord` (fvar.rs:33-45). -/
structure Instance where
  subfamilyNameID : UInt16
  flags : UInt16
  coordinates : List ℚ
  postscriptNameID : Option UInt16

/-- `InstanceRecord::from_bytes` (fvar.rs:47-73). -/
def readInstance (axisCount : Nat) (hasName : Bool) : Reader Instance := do
  let subfamilyNameID ← readU16
  let flags ← readU16
  let coordinates ← deCounted readFixed axisCount
  if hasName then do
    let n ← readU16
    return { subfamilyNameID, flags, coordinates, postscriptNameID := some n }
  else return { subfamilyNameID, flags, coordinates, postscriptNameID := none }

/-- `fvar` (fvar.rs:76-84). -/
structure Fvar where
  axes : List AxisRecord
  instances : List Instance

/-- One step of the loop of `fvar::from_bytes` (lines 96-103): `axisCount * 4 + 6` is `u16` arithmetic. -/
def readInstanceChecked (axisCount instanceSize : UInt16) : Reader Instance :=
  if axisCount.toNat * 4 + 6 < 65536 then
    readInstance axisCount.toNat (decide (instanceSize.toNat = axisCount.toNat * 4 + 6))
  else crash

/-- `fvar::from_bytes` (fvar.rs:84-108). The pushed table start is not popped. -/
def readFvar : Reader Fvar := do
  pushTop
  let _ ← readU16
  let _ ← readU16
  let axesArrayOffset ← readU16
  let _ ← readU16
  let axisCount ← readU16
  let _ ← readU16
  let instanceCount ← readU16
  let instanceSize ← readU16
  let top ← topOfTable
  setPtr (top + axesArrayOffset.toNat)
  let axes ← deCounted readAxisRecord axisCount.toNat
  let instances ← deCounted (readInstanceChecked axisCount instanceSize) instanceCount.toNat
  return { axes, instances }

/-- Lines 135-148: an instance, by hand; the flags are written as 0. -/
def encInstance (hasName : Bool) (i : Instance) : Res Bytes :=
  let b := encU16 i.subfamilyNameID ++ (encU16 0 ++ encVec encFixed i.coordinates)
  if hasName then match i.postscriptNameID with
    | some n => .ok (b ++ encU16 n)
    | none => .panic
  else .ok b

/-- `fvar::to_bytes` (fvar.rs:110-149). -/
def encFvar (f : Fvar) : Res Bytes :=
  let hasName := f.instances.any fun i => i.postscriptNameID.isSome
  if hasName && !(f.instances.all fun i => i.postscriptNameID.isSome) then .err
  else do
    let ib ← encVecR (encInstance hasName) f.instances
    return encU16 1 ++ (encU16 0 ++ (encU16 16 ++ (encU16 2 ++ (encU16 (UInt16.ofNat f.axes.length) ++ (encU16 20 ++
      (encU16 (UInt16.ofNat f.instances.length) ++
      (encU16 (UInt16.ofNat (f.axes.length * 4 + if hasName then 6 else 4)) ++
      (encVec encAxisRecord f.axes ++ ib))))))))

end FT.AxisMaps
