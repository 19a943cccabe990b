import Verif.Model.Basic
import Verif.Model.BTree

/-!
Coverage and class definition tables: crates/otspec/src/layout/coverage.rs and classdef.rs.
-/

namespace FT

/-- The loop of `consecutive_slices` (coverage.rs:52-65, classdef.rs:77-90): `cur` is
`data[slice_start..i]`, `a` its last element; `brk a b` is the condition that starts a new slice. -/
def slicesGo {α : Type} (brk : α → α → Res Bool) (cur : List α) (a : α) : List α → Res (List (List α))
  | [] => .ok [cur]
  | b :: l => match brk a b with
    | .ok true => match slicesGo brk [b] b l with
      | .ok r => .ok (cur :: r)
      | .err => .err
      | .panic => .panic
    | .ok false => slicesGo brk (cur ++ [b]) b l
    | .err => .err
    | .panic => .panic

/-- `consecutive_slices`. (coverage.rs:52-67, classdef.rs:77-90.) -/
def slices {α : Type} (brk : α → α → Res Bool) : List α → Res (List (List α))
  | [] => .ok []
  | a :: l => slicesGo brk [a] a l

/-- `a + 1` on `u16`: panics on overflow (debug profile). -/
def addOne (a : UInt16) : Res UInt16 :=
  if a.toNat = 65535 then .panic else .ok (UInt16.ofNat (a.toNat + 1))

/-- The range `s..e+1` over `u16` (empty if `e < s`), `e < 65535`. -/
def rangeIncl (s e : UInt16) : List UInt16 :=
  (List.range (e.toNat + 1 - s.toNat)).map (fun i => UInt16.ofNat (s.toNat + i))

namespace Coverage

/-- `data[i - 1] + 1 != data[i]` (coverage.rs:56). -/
def brk (a b : UInt16) : Res Bool := match addOne a with
  | .ok a' => .ok (a' != b)
  | .err => .err
  | .panic => .panic

/-- `is_sorted` (coverage.rs:69-82). -/
def isSortedGo (prev : UInt16) : List UInt16 → Bool
  | [] => true
  | x :: l => if x.toNat < prev.toNat then false else isSortedGo x l
/-- Goes with `isSortedGo` (coverage.rs:69-82). -/
def isSorted : List UInt16 → Bool
  | [] => true
  | x :: l => isSortedGo x l

/-- `most_efficient_format` (coverage.rs:85-96), given the slices. -/
def format (glyphs : List UInt16) (sl : List (List UInt16)) : Nat :=
  if glyphs.isEmpty || !isSorted glyphs || decide (sl.length * 3 ≥ glyphs.length) then 1 else 2

/-- `RangeRecord` (coverage.rs:15-19). -/
structure RangeRecord where
  startG : UInt16
  endG : UInt16
  index : UInt16
  deriving DecidableEq, Repr

/-- Goes with `RangeRecord` (coverage.rs:15-19). -/
def RangeRecord.enc (r : RangeRecord) : Bytes := encU16 r.startG ++ encU16 r.endG ++ encU16 r.index

/-- Goes with `RangeRecord` (coverage.rs:15-19). -/
def RangeRecord.read : Reader RangeRecord := do
  let s ← readU16
  let e ← readU16
  let i ← readU16
  return ⟨s, e, i⟩

/-- The loop writing range records (coverage.rs:108-118); `index += slice.len() as u16` panics on overflow.
`first().unwrap()`, `last().unwrap()` panic on an empty slice. -/
def records (index : UInt16) : List (List UInt16) → Res (List RangeRecord)
  | [] => .ok []
  | sl :: rest => do
    let s ← Res.unwrap sl.head?
    let e ← Res.unwrap sl.getLast?
    let n := index.toNat + (UInt16.ofNat sl.length).toNat
    if n > 65535 then .panic
    else do
      let more ← records (UInt16.ofNat n) rest
      return ⟨s, e, index⟩ :: more

/-- `Coverage::to_bytes` (coverage.rs:98-121). Simplification: Rust writes each record before advancing the
index, so a panic leaves a partly filled buffer; nothing observes it. -/
def toBytes (glyphs : List UInt16) : Res Bytes := do
  let sl ← slices brk glyphs
  if format glyphs sl = 1 then return encU16 1 ++ encCounted encU16 glyphs
  else do
    let recs ← records 0 sl
    return encU16 2 ++ encU16 (UInt16.ofNat sl.length) ++ encVec RangeRecord.enc recs

/-- Glyphs of one range: `startGlyphID..endGlyphID + 1` (coverage.rs:43). -/
def expand (r : RangeRecord) : Res (List UInt16) := match addOne r.endG with
  | .ok _ => .ok (rangeIncl r.startG r.endG)
  | .err => .err
  | .panic => .panic

/-- `Coverage::from_bytes` (coverage.rs:33-50). -/
def read : Reader (List UInt16) := do
  let fmt ← readU16
  if fmt = 1 then readCounted readU16
  else do
    let recs ← readCounted RangeRecord.read
    let gs ← Reader.lift (Res.mapL expand recs)
    return gs.flatten

/-- `ot_binary_size` (coverage.rs:122-130). -/
def binarySize (glyphs : List UInt16) : Res Nat := do
  let sl ← slices brk glyphs
  return 2 + (if format glyphs sl = 1 then 2 + 2 * glyphs.length else 2 + 6 * sl.length)

end Coverage

namespace ClassDef

/-- `data[i - 1].0 + 1 != data[i].0 || data[i - 1].1 != data[i].1` (classdef.rs:81). -/
def brk (a b : UInt16 × UInt16) : Res Bool := match addOne a.1 with
  | .ok a' => .ok (a' != b.1 || a.2 != b.2)
  | .err => .err
  | .panic => .panic

/-- `ClassRangeRecord` (classdef.rs:19-23). -/
structure RangeRecord where
  startG : UInt16
  endG : UInt16
  cls : UInt16
  deriving DecidableEq, Repr

/-- Goes with `RangeRecord` (classdef.rs:19-23). -/
def RangeRecord.enc (r : RangeRecord) : Bytes := encU16 r.startG ++ encU16 r.endG ++ encU16 r.cls

/-- Goes with `RangeRecord` (classdef.rs:19-23). -/
def RangeRecord.read : Reader RangeRecord := do
  let s ← readU16
  let e ← readU16
  let i ← readU16
  return ⟨s, e, i⟩

/-- The record of one slice (classdef.rs:116-120). -/
def record (sl : List (UInt16 × UInt16)) : Res RangeRecord := do
  let s ← Res.unwrap sl.head?
  let e ← Res.unwrap sl.getLast?
  return ⟨s.1, e.1, s.2⟩

/-- `ClassDef::to_bytes` (classdef.rs:92-125); the map `classes` is given by its sorted entries. The
comparison computes in `u16`: `len as u16 * 3` and `2 + last - first` panic on overflow. -/
def toBytes (m : List (UInt16 × UInt16)) : Res Bytes := do
  let sl ← slices brk m
  match m.head?, m.getLast? with
  | some f, some l =>
    let n := (UInt16.ofNat sl.length).toNat * 3
    if n > 65535 then .panic
    else if 2 + l.1.toNat > 65535 then .panic
    else if n > 2 + l.1.toNat - f.1.toNat then
      match addOne l.1 with
      | .ok _ => return encU16 1 ++ encU16 f.1 ++
          encCounted encU16 ((rangeIncl f.1 l.1).map (fun g => (BMap.get? m g).getD 0))
      | .err => .err
      | .panic => .panic
    else do
      let recs ← Res.mapL record sl
      return encU16 2 ++ encU16 (UInt16.ofNat sl.length) ++ encVec RangeRecord.enc recs
  | _, _ => return encU16 2 ++ encCounted RangeRecord.enc []

/-- Insertion loop for format 1 (classdef.rs:61-63): `startGlyphID + ix as uint16` panics on overflow;
`ix < 65536` so the cast is exact. -/
def insertArray (s : UInt16) : (ix : Nat) → List UInt16 → List (UInt16 × UInt16) → Res (List (UInt16 × UInt16))
  | _, [], m => .ok m
  | ix, c :: l, m =>
    if s.toNat + ix > 65535 then .panic
    else insertArray s (ix + 1) l (BMap.insert m (UInt16.ofNat (s.toNat + ix)) c)

/-- Insertion loop for format 2 (classdef.rs:66-70). -/
def insertRanges : List RangeRecord → List (UInt16 × UInt16) → Res (List (UInt16 × UInt16))
  | [], m => .ok m
  | r :: rest, m => match addOne r.endG with
    | .ok _ => insertRanges rest ((rangeIncl r.startG r.endG).foldl (fun m g => BMap.insert m g r.cls) m)
    | .err => .err
    | .panic => .panic

/-- `ClassDef::from_bytes` (classdef.rs:56-74). -/
def read : Reader (List (UInt16 × UInt16)) := do
  let fmt ← readU16
  if fmt = 1 then do
    let s ← readU16
    let arr ← readCounted readU16
    Reader.lift (insertArray s 0 arr [])
  else do
    let recs ← readCounted RangeRecord.read
    Reader.lift (insertRanges recs [])

/-- `get_glyphs` (classdef.rs:38-53), as the sorted list of the resulting set. -/
def getGlyphs (m : List (UInt16 × UInt16)) (cls max : UInt16) : List UInt16 :=
  if cls = 0 then
    ((List.range (max.toNat + 1)).map UInt16.ofNat).filter (fun g => (BMap.get? m g).isNone)
  else (m.filter (fun x => x.2 == cls)).map Prod.fst

end ClassDef
end FT
