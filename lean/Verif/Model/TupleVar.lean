import Verif.Model.F32
import Verif.Model.PackedDeltas
import Verif.Model.PackedPoints

/-!
Tuple variation headers and stores: `src/otvar/tuplevariationheader.rs`, `src/otvar/tuplevariationstore.rs`.
`f32` coordinates are the rationals they denote (`Model/F32.lean`).
-/

namespace FT.TupleVar
open FT Reader FT.F32

/-- `TupleIndexFlags` (tuplevariationheader.rs:13-26); the derived codec keeps all sixteen bits. -/
def EMBEDDED_PEAK_TUPLE : UInt16 := 0x8000
/-- Goes with `EMBEDDED_PEAK_TUPLE` (tuplevariationheader.rs:13-26). -/
def INTERMEDIATE_REGION : UInt16 := 0x4000
/-- Goes with `EMBEDDED_PEAK_TUPLE` (tuplevariationheader.rs:13-26). -/
def PRIVATE_POINT_NUMBERS : UInt16 := 0x2000
/-- Goes with `EMBEDDED_PEAK_TUPLE` (tuplevariationheader.rs:13-26). -/
def TUPLE_INDEX_MASK : UInt16 := 0x0FFF

/-- `flags.contains(m)`. -/
def has (f m : UInt16) : Bool := f &&& m == m

/-- `TupleVariationHeader` (tuplevariationheader.rs:33-48). -/
structure Header where
  size : UInt16
  flags : UInt16
  sharedTupleIndex : UInt16
  peakTuple : Option (List ℚ)
  startTuple : Option (List ℚ)
  endTuple : Option (List ℚ)
  deriving DecidableEq, Repr

/-- `c.de_counted(axis_count)? as Vec<i16>` turned into `f32`s (tuplevariationheader.rs:69-73). -/
def readTuple (axes : Nat) : Reader (List ℚ) := do
  let l ← deCounted readI16 axes
  return l.map (fun p => f2dot14FromPacked p.toInt)

/-- A tuple which is present if the flag is set. -/
def readOptTuple (b : Bool) (axes : Nat) : Reader (Option (List ℚ)) :=
  if b then do
    let l ← readTuple axes
    return some l
  else pure none

/-- `TupleVariationHeader::from_bytes` (tuplevariationheader.rs:52-90). -/
def readHeader (axes : Nat) : Reader Header := do
  let size ← readU16
  let flags ← readU16
  let peak ← readOptTuple (has flags EMBEDDED_PEAK_TUPLE) axes
  let start ← readOptTuple (has flags INTERMEDIATE_REGION) axes
  let stop ← readOptTuple (has flags INTERMEDIATE_REGION) axes
  return ⟨size, flags, flags &&& TUPLE_INDEX_MASK, peak, start, stop⟩

/-- One tuple of the header: a missing tuple whose flag is set panics (tuplevariationheader.rs:100-122). -/
def encOptTuple (b : Bool) (t : Option (List ℚ)) : Res Bytes :=
  if b then
    match t with
    | some l => encVecR encF2dot14 l
    | none => .panic
  else .ok []

/-- `TupleVariationHeader::to_bytes` (tuplevariationheader.rs:96-125). -/
def encHeader (h : Header) : Res Bytes := do
  let peak ← encOptTuple (has h.flags EMBEDDED_PEAK_TUPLE) h.peakTuple
  let start ← encOptTuple (has h.flags INTERMEDIATE_REGION) h.startTuple
  let stop ← encOptTuple (has h.flags INTERMEDIATE_REGION) h.endTuple
  return encU16 h.size ++ encU16 (h.sharedTupleIndex ||| h.flags) ++ peak ++ start ++ stop

/-- `Delta` (otvar.rs:30-36). -/
inductive Delta where
  | d1 (v : Int16)
  | d2 (x y : Int16)
  deriving DecidableEq, Repr

/-- `TupleVariation` (tuplevariationstore.rs:15-16). -/
structure Variation where
  header : Header
  deltas : List (Option Delta)
  deriving DecidableEq, Repr

/-! ### Reading -/

/-- `match pp.points { Some(pts) => pts, None => (0..point_count).collect() }` (tuplevariationstore.rs:97-100, 110-115). -/
def pointsOr (pointCount : UInt16) : Option (List UInt16) → List UInt16
  | some pts => pts
  | none => (List.range pointCount.toNat).map UInt16.ofNat

/-- Reading packed point numbers. -/
def readPoints (pointCount : UInt16) : Reader (List UInt16) := do
  let pp ← PackedPoints.read
  return pointsOr pointCount pp

/-- The deltas of one tuple (tuplevariationstore.rs:120-132). -/
def readDeltas (isGvar : Bool) (n : Nat) : Reader (List Delta) :=
  if isGvar then do
    let xs ← PackedDeltas.read n
    let ys ← PackedDeltas.read n
    return List.zipWith Delta.d2 xs ys
  else do
    let vs ← PackedDeltas.read n
    return vs.map Delta.d1

/-- The loop over `0..point_count` (tuplevariationstore.rs:133-141) from point `i` on: a delta is taken if the next listed
point is `i`; `pop_front().unwrap()` panics if there is none left. -/
def place : Nat → Nat → List UInt16 → List Delta → Res (List (Option Delta))
  | 0, _, _, _ => .ok []
  | n + 1, i, [], ds => do
    let r ← place n (i + 1) [] ds
    return none :: r
  | n + 1, i, p :: ps, ds =>
    if p.toNat = i then
      match ds with
      | d :: ds' => do
        let r ← place n (i + 1) ps ds'
        return some d :: r
      | [] => .panic
    else do
      let r ← place n (i + 1) (p :: ps) ds
      return none :: r

/-- The data of one tuple (tuplevariationstore.rs:104-143). -/
def readVariation (isGvar : Bool) (pointCount : UInt16) (shared : List UInt16) (h : Header) : Reader Variation := do
  let pts ← (if has h.flags PRIVATE_POINT_NUMBERS then readPoints pointCount else pure shared)
  let ds ← readDeltas isGvar pts.length
  let all ← Reader.lift (place pointCount.toNat 0 pts ds)
  return ⟨h, all⟩

/-- `for header in headers` (tuplevariationstore.rs:103-144). -/
def readVariations (isGvar : Bool) (pointCount : UInt16) (shared : List UInt16) : List Header → Reader (List Variation)
  | [] => pure []
  | h :: hs => do
    let v ← readVariation isGvar pointCount shared h
    let vs ← readVariations isGvar pointCount shared hs
    return v :: vs

/-- `TupleVariationStore::from_bytes` (tuplevariationstore.rs:69-147). -/
def readStore (axes : UInt16) (isGvar : Bool) (pointCount : UInt16) : Reader (List Variation) := do
  let packed ← readU16
  let _off ← readU16
  let headers ← deCounted (readHeader axes.toNat) (packed &&& 0x0FFF).toNat
  let shared ← (if packed &&& 0x8000 != 0 then readPoints pointCount else pure [])
  readVariations isGvar pointCount shared headers

/-! ### Writing -/

/-- Indices of the given deltas (tuplevariationstore.rs:170-174), each cast with `as u16`. -/
def givenPoints : Nat → List (Option Delta) → List UInt16
  | _, [] => []
  | i, none :: l => givenPoints (i + 1) l
  | i, some _ :: l => UInt16.ofNat i :: givenPoints (i + 1) l

/-- `dx` (tuplevariationstore.rs:184-196). -/
def deltaX : List (Option Delta) → List Int16
  | [] => []
  | none :: l => deltaX l
  | some (.d1 v) :: l => v :: deltaX l
  | some (.d2 x _) :: l => x :: deltaX l

/-- `dy` (tuplevariationstore.rs:184-196). -/
def deltaY : List (Option Delta) → List Int16
  | [] => []
  | none :: l => deltaY l
  | some (.d1 _) :: l => deltaY l
  | some (.d2 _ y) :: l => y :: deltaY l

/-- `Result::unwrap`. -/
def unwrapR {α : Type} : Res α → Res α
  | .ok a => .ok a
  | .err => .panic
  | .panic => .panic

/-- The header as it is written: the private-points flag is set if a delta is missing (tuplevariationstore.rs:166-168; never
cleared), the size is that of the data (209-214). -/
def finalHeader (v : Variation) (dataLen : Nat) : Header :=
  { v.header with size := UInt16.ofNat dataLen
                  flags := if v.deltas.any Option.isNone then v.header.flags ||| PRIVATE_POINT_NUMBERS else v.header.flags }

/-- Points and deltas of one tuple (tuplevariationstore.rs:165-202). -/
def encData (v : Variation) : Res Bytes := do
  let pts ← (if v.deltas.any Option.isNone then unwrapR (PackedPoints.encode (some (givenPoints 0 v.deltas))) else .ok [])
  let xs ← unwrapR (PackedDeltas.encode (deltaX v.deltas))
  let ys ← (if (deltaY v.deltas).isEmpty then .ok [] else unwrapR (PackedDeltas.encode (deltaY v.deltas)))
  return pts ++ xs ++ ys

/-- One round of the loop (tuplevariationstore.rs:160-224): header and data. -/
def encVariation (v : Variation) : Res (Bytes × Bytes) := do
  let data ← encData v
  let h ← unwrapR (encHeader (finalHeader v data.length))
  return (h, data)

/-- `TupleVariationStore::to_bytes` (tuplevariationstore.rs:146-228): always "shared points", namely the byte 0 for all points;
`4 + (serialized_headers.len() as uint16)` may overflow. -/
def encStore (vs : List Variation) : Res Bytes := do
  let parts ← Res.mapL encVariation vs
  let headers := (parts.map Prod.fst).flatten
  let data := (parts.map Prod.snd).flatten
  if 4 + headers.length % 65536 > 65535 then .panic
  else .ok (encU16 (UInt16.ofNat vs.length ||| 0x8000) ++ encU16 (UInt16.ofNat (4 + headers.length % 65536)) ++ headers ++
    (0 :: data))

end FT.TupleVar
