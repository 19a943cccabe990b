import Verif.Model.Fvar

/-! The `STAT` table: src/tables/STAT.rs, and its instantiation in src/otvar/instancer.rs. -/

namespace FT.Stat
open FT Reader F32

/-- `AxisRecord` (STAT.rs:23-27). -/
structure Axis where
  tag : Tag
  nameID : UInt16
  ordering : UInt16
deriving DecidableEq

/-- Goes with `Axis` (STAT.rs:23-27). -/
def encAxis (a : Axis) : Bytes := encTag a.tag ++ (encU16 a.nameID ++ encU16 a.ordering)
/-- Goes with `Axis` (STAT.rs:23-27). -/
def readAxis : Reader Axis := do
  let tag ← readTag
  let nameID ← readU16
  let ordering ← readU16
  return { tag, nameID, ordering }

/-- `AxisValue` (STAT.rs:86-103). `flags` holds the bits of an `AxisValueFlags`. -/
structure AxisValue where
  axisIndex : Option UInt16
  flags : UInt16
  nameID : UInt16
  nominal : Option ℚ
  range : Option (ℚ × ℚ)
  linked : Option ℚ
  locations : Option (List (UInt16 × ℚ))
deriving DecidableEq

/-- `STAT` (STAT.rs:108-115). -/
structure Table where
  elided : Option UInt16
  axes : List Axis
  values : List AxisValue
deriving DecidableEq

/-- `AxisValueFlags::from_bits_truncate` (STAT.rs:69-78): only bits 0 and 1 are defined. -/
def truncFlags (f : UInt16) : UInt16 := f &&& 3

/-- `AxisValueFormat1` and its conversion (STAT.rs:29-35, 151-163). -/
def readFormat1 : Reader AxisValue := do
  let _ ← readU16
  let axisIndex ← readU16
  let flags ← readU16
  let nameID ← readU16
  let value ← readFixed
  return ⟨some axisIndex, truncFlags flags, nameID, some value, none, none, none⟩

/-- `AxisValueFormat2` and its conversion (STAT.rs:37-45, 165-177). -/
def readFormat2 : Reader AxisValue := do
  let _ ← readU16
  let axisIndex ← readU16
  let flags ← readU16
  let nameID ← readU16
  let value ← readFixed
  let lo ← readFixed
  let hi ← readFixed
  return ⟨some axisIndex, truncFlags flags, nameID, some value, some (lo, hi), none, none⟩

/-- `AxisValueFormat3` and its conversion (STAT.rs:47-54, 178-190). -/
def readFormat3 : Reader AxisValue := do
  let _ ← readU16
  let axisIndex ← readU16
  let flags ← readU16
  let nameID ← readU16
  let value ← readFixed
  let linked ← readFixed
  return ⟨some axisIndex, truncFlags flags, nameID, some value, none, some linked, none⟩

/-- `AxisValueFormat4AxisValue` (STAT.rs:63-66). -/
def encPair (x : UInt16 × ℚ) : Bytes := encU16 x.1 ++ encFixed x.2
/-- Goes with `encPair` (STAT.rs:63-66). -/
def readPair : Reader (UInt16 × ℚ) := do
  let i ← readU16
  let v ← readFixed
  return (i, v)

/-- Format 4 (STAT.rs:56-61, 206-222). -/
def readFormat4 : Reader AxisValue := do
  let _ ← readU16
  let axisCount ← readU16
  let flags ← readU16
  let nameID ← readU16
  let values ← deCounted readPair axisCount.toNat
  return ⟨none, truncFlags flags, nameID, none, none, none, some (BMap.collect values)⟩

/-- The `match` on the two bytes peeked (STAT.rs:193-228). -/
def readByFormat : Bytes → Reader AxisValue
  | [0, 1] => readFormat1
  | [0, 2] => readFormat2
  | [0, 3] => readFormat3
  | [0, 4] => readFormat4
  | _ => fail

/-- `AxisValue::from_bytes` (STAT.rs:191-230). -/
def readAxisValue : Reader AxisValue := do
  let b ← peek 2
  readByFormat b

/-- `self.axis_index.unwrap()` and the four `u16`s all of formats 1 to 3 begin with (STAT.rs:298-327). -/
def encHead (format : UInt16) (v : AxisValue) : Res Bytes := do
  let i ← Res.unwrap v.axisIndex
  return encU16 format ++ (encU16 i ++ (encU16 v.flags ++ encU16 v.nameID))

/-- `AxisValue::to_bytes` (STAT.rs:275-318): the format is chosen by the fields present. -/
def encAxisValue (v : AxisValue) : Res Bytes :=
  match v.locations with
  | some m => .ok (encU16 4 ++ (encU16 (UInt16.ofNat m.length) ++ (encU16 v.flags ++ (encU16 v.nameID ++ encVec encPair m))))
  | none => match v.linked with
    | some l => do
      let h ← encHead 3 v
      return h ++ (encFixed (v.nominal.getD 0) ++ encFixed l)
    | none => match v.range with
      | some (lo, hi) => do
        let h ← encHead 2 v
        return h ++ (encFixed (v.nominal.getD 0) ++ (encFixed lo ++ encFixed hi))
      | none => do
        let h ← encHead 1 v
        return h ++ encFixed (v.nominal.getD 0)

/-- `offset += binary_axis_value.len() as u16` (STAT.rs:270). -/
def addLen (offset : UInt16) (b : Bytes) : Res UInt16 :=
  if offset.toNat + (UInt16.ofNat b.length).toNat < 65536 then .ok (offset + UInt16.ofNat b.length) else .panic

/-- The loop over the axis values (STAT.rs:267-272): offsets written so far, and the bodies kept for later. -/
def encValues : UInt16 → List AxisValue → Res (Bytes × Bytes)
  | _, [] => .ok ([], [])
  | offset, v :: rest => do
    let b ← encAxisValue v
    let offset' ← addLen offset b
    let (os, bs) ← encValues offset' rest
    return (encU16 offset ++ os, b ++ bs)

/-- `2 * self.axis_values.len() as u16` (STAT.rs:266). -/
def firstOffset (n : Nat) : Res UInt16 :=
  if 2 * (UInt16.ofNat n).toNat < 65536 then .ok (2 * UInt16.ofNat n) else .panic

/-- `STATcore` and the fallback name (STAT.rs:235-257). -/
def encCore (t : Table) : Bytes :=
  encU16 1 ++ (encU16 (if t.values.any (fun v => v.locations.isSome) then 2 else 1) ++ (encU16 8 ++
  (encU16 (UInt16.ofNat t.axes.length) ++ (encU32 (if t.axes.isEmpty then 0 else 20) ++
  (encU16 (UInt16.ofNat t.values.length) ++
  (encU32 (if t.values.isEmpty then 0 else UInt32.ofNat (20 + 8 * t.axes.length)) ++
  encU16 (t.elided.getD 17)))))))

/-- `STAT::to_bytes` (STAT.rs:230-272). -/
def encStat (t : Table) : Res Bytes := do
  let offset ← firstOffset t.values.length
  let (os, bs) ← encValues offset t.values
  return encCore t ++ (encVec encAxis t.axes ++ (os ++ bs))

/-- The fallback name, present from version 1.1 (STAT.rs:121-126). -/
def readElided (minor : UInt16) : Reader (Option UInt16) :=
  if minor ≥ 1 then do
    let v ← readU16
    return some v
  else pure none

/-- The loop over the offsets (STAT.rs:136-140). -/
def readValues (start : Nat) : List UInt16 → Reader (List AxisValue)
  | [] => pure []
  | off :: rest => do
    setPtr (start + off.toNat)
    let v ← readAxisValue
    let vs ← readValues start rest
    return v :: vs

/-- `STATcore` with the fallback name (STAT.rs:13-21, 120-126): the number of axes, where they are, the number of values, where
their offsets are. -/
structure Core where
  axisCount : UInt16
  axesOffset : UInt32
  valueCount : UInt16
  valuesOffset : UInt32
  elided : Option UInt16

/-- Goes with `Core` (STAT.rs:13-21, 120-126). -/
def readCore : Reader Core := do
  let _ ← readU16
  let minor ← readU16
  let _ ← readU16
  let axisCount ← readU16
  let axesOffset ← readU32
  let valueCount ← readU16
  let valuesOffset ← readU32
  let elided ← readElided minor
  return { axisCount, axesOffset, valueCount, valuesOffset, elided }

/-- `STAT::from_bytes` (STAT.rs:117-149). The pushed table start is not popped. -/
def readStat : Reader Table := do
  pushTop
  let core ← readCore
  let top ← topOfTable
  setPtr (top + core.axesOffset.toNat)
  let axes ← deCounted readAxis core.axisCount.toNat
  setPtr (top + core.valuesOffset.toNat)
  let offsets ← deCounted readU16 core.valueCount.toNat
  let values ← readValues (top + core.valuesOffset.toNat) offsets
  return { elided := core.elided, axes, values }

end FT.Stat
