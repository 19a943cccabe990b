import Verif.Model.F32
import Verif.Model.Offsets

/-! Item variation stores: src/otvar/itemvariationstore.rs. -/

namespace FT.ItemVar
open FT Reader F32 Off

/-- `RegionAxisCoordinates` (lines 8-12). -/
structure RegionAxis where
  start : ℚ
  peak : ℚ
  stop : ℚ
  deriving DecidableEq

/-- Goes with `RegionAxis` (lines 8-12). -/
def encRegionAxis (x : RegionAxis) : Res Bytes := do
  let a ← encF2dot14 x.start
  let b ← encF2dot14 x.peak
  let c ← encF2dot14 x.stop
  return a ++ (b ++ c)
/-- Goes with `RegionAxis` (lines 8-12). -/
def readRegionAxis : Reader RegionAxis := do
  let start ← readF2dot14
  let peak ← readF2dot14
  let stop ← readF2dot14
  return { start, peak, stop }

/-- `ItemVariationData` (lines 28-35). -/
structure Data where
  regions : List UInt16
  deltas : List (List Int16)
  deriving DecidableEq

/-- One row as written (lines 72-78), from column `ix` on; `short` is the number of two-byte columns; `delta as i8`
keeps the low eight bits. -/
def encRow (short : Nat) : Nat → List Int16 → Bytes
  | _, [] => []
  | ix, d :: l => (if ix < short then encI16 d else encI8 d.toInt8) ++ encRow short (ix + 1) l

/-- A one-byte delta (lines 49-50). -/
def readByteDelta : Reader Int16 := do return (← readI8).toInt16

/-- One row as read (lines 43-52): columns `ix` to `ix + n - 1`. -/
def readRow (short : Nat) : Nat → Nat → Reader (List Int16)
  | _, 0 => return []
  | ix, n + 1 => do
    let d ← if ix < short then readI16 else readByteDelta
    let l ← readRow short (ix + 1) n
    return d :: l

/-- `ItemVariationData::to_bytes` (lines 62-82); header lines 13-17. -/
def encData (d : Data) : Bytes :=
  encU16 (UInt16.ofNat d.deltas.length) ++ (encU16 (UInt16.ofNat d.regions.length) ++
    (encCounted encU16 d.regions ++ encVec (encRow d.regions.length 0) d.deltas))

/-- `ItemVariationData::from_bytes` (lines 37-60). -/
def readData : Reader Data := do
  let itemCount ← readU16
  let shortDeltaCount ← readU16
  let regions ← readCounted readU16
  let deltas ← deCounted (readRow shortDeltaCount.toNat 0 regions.length) itemCount.toNat
  return { regions, deltas }

/-- `VariationRegionList` (lines 86-93). -/
structure RegionList where
  axisCount : UInt16
  regionCount : UInt16
  regions : List (List RegionAxis)

/-- `VariationRegionList::to_bytes` (lines 112-118). -/
def encRegionList (l : RegionList) : Res Bytes := do
  let b ← encVecR (encVecR encRegionAxis) l.regions
  return encU16 l.axisCount ++ (encU16 l.regionCount ++ b)

/-- `VariationRegionList::from_bytes` (lines 95-110). -/
def readRegionList : Reader RegionList := do
  let axisCount ← readU16
  let regionCount ← readU16
  let regions ← deCounted (deCounted readRegionAxis axisCount.toNat) regionCount.toNat
  return { axisCount, regionCount, regions }

/-- `ItemVariationStore` (lines 123-132). -/
structure Store where
  format : UInt16
  axisCount : UInt16
  regions : List (List RegionAxis)
  data : List Data
  deriving DecidableEq

/-- The fields of `ItemVariationStoreInternal` (lines 18-22), given the bytes of the region list. -/
def storeTab (regionBytes : Bytes) (data : List Data) : Tab :=
  (Tab.bytes (encU16 1)).append
    ((Tab.link .w32 false false none (.bytes regionBytes) .nil).append
      ((Tab.bytes (encU16 (UInt16.ofNat data.length))).append
        (Tab.concat (data.map fun d => Tab.link .w32 true false none (.bytes (encData d)) .nil))))

/-- `ItemVariationStore::to_bytes` (lines 152-171): the format is always written as 1. The size of the region list is
found by writing it and unwrapping (otspec lib.rs:142-147), so a coordinate that does not fit F2DOT14 panics. -/
def encStore (s : Store) : Res Bytes :=
  match encRegionList ⟨s.axisCount, UInt16.ofNat s.regions.length, s.regions⟩ with
  | .ok rb => toBytes (storeTab rb s.data)
  | _ => .panic

/-- `ItemVariationStore::from_bytes` (lines 134-150). `ItemVariationStoreInternal` has no `offset_base` field, so its
offsets are relative to the innermost enclosing table, not to the store (otspec_macros de.rs:28-32, 55-59). -/
def readStore : Reader Store := do
  let format ← readU16
  let rl ← readOffset .w32 readRegionList
  let data ← readCounted (readOffset .w32 readData)
  let rl ← Reader.lift (Res.unwrap rl)
  let data ← Reader.lift (Res.mapL Res.unwrap data)
  return { format, axisCount := rl.axisCount, regions := rl.regions, data }

end FT.ItemVar
