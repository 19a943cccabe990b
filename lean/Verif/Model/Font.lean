import Verif.Model.Basic

/-! The font file: `src/font.rs`. -/

namespace FT.Font
open FT Reader

/-- Position of a tag in the `BTreeMap` order: the derived order on `[u8; 4]` is lexicographic, which is the
order of the big-endian numbers. -/
def key (t : Tag) : Nat := t.a.toNat * 16777216 + t.b.toNat * 65536 + t.c.toNat * 256 + t.d.toNat

/-- `head::TAG`. -/
def headTag : Tag := ⟨0x68, 0x65, 0x61, 0x64⟩

/-- Big-endian `u32` of four bytes (`u32::from_be_bytes`). -/
def be32 (a b c d : UInt8) : UInt32 :=
  UInt32.ofNat (a.toNat * 16777216 + b.toNat * 65536 + c.toNat * 256 + d.toNat)

/-- `checksum` (font.rs:152-167): wrapping sum over `chunks(4)`, the last chunk zero-filled. -/
def checksumFrom (sum : UInt32) : Bytes → UInt32
  | [] => sum
  | [a] => sum + be32 a 0 0 0
  | [a, b] => sum + be32 a b 0 0
  | [a, b, c] => sum + be32 a b c 0
  | a :: b :: c :: d :: t => checksumFrom (sum + be32 a b c d) t

/-- Goes with `checksumFrom` (font.rs:152-167). -/
def checksum (x : Bytes) : UInt32 := checksumFrom 0 x

/-- The `while 1u16 << (max_pow2 + 1) <= n` loop (font.rs:178-181); shifting a `u16` by 16 is a panic.
`fuel = 17` rounds suffice since the shift amount grows. -/
def log2Loop (n : Nat) : Nat → Nat → Res Nat
  | 0, _ => .panic
  | k + 1, p =>
    if p + 1 ≥ 16 then .panic
    else if 2 ^ (p + 1) ≤ n then log2Loop n k (p + 1)
    else .ok p

/-- `u16` multiplication, panicking on overflow. -/
def mulU16 (a b : Nat) : Res Nat := if a * b > 65535 then .panic else .ok (a * b)

/-- `get_search_range` (font.rs:177-185): `(search_range, max_pow2, range_shift)`. -/
def getSearchRange (n itemsize : UInt16) : Res (UInt16 × UInt16 × UInt16) := do
  let p ← log2Loop n.toNat 17 0
  let searchRange ← mulU16 (2 ^ p) itemsize.toNat
  let total ← mulU16 n.toNat itemsize.toNat
  return (UInt16.ofNat searchRange, UInt16.ofNat p, UInt16.ofNat (max searchRange total - searchRange))

/-- `while temp.len() % 4 != 0 { temp.push(0) }` (font.rs:212-214). -/
def padTo4 (b : Bytes) : Bytes := b ++ List.replicate ((4 - b.length % 4) % 4) 0

/-- `temp[8..12].fill(0)` (font.rs:208): panics if the table is shorter than 12 bytes. -/
def zeroAdjustment (b : Bytes) : Res Bytes :=
  if b.length < 12 then .panic
  else .ok (b.take 8 ++ [0, 0, 0, 0] ++ b.drop 12)

/-- The bytes that go into the file for a table (font.rs:204-209). -/
def prepare (t : Tag) (raw : Bytes) : Res Bytes :=
  if t = headTag then zeroAdjustment raw else .ok raw

/-- Directory entry (font.rs:215-218); `pos` and the length are cast with `as u32`. -/
def record (t : Tag) (temp : Bytes) (pos : Nat) : Bytes :=
  encTag t ++ encU32 (checksum temp) ++ encU32 (UInt32.ofNat pos) ++ encU32 (UInt32.ofNat temp.length)

/-- The loop over the tables (font.rs:203-221): directory entries, table data, position of `head`. -/
def build : Nat → List (Tag × Bytes) → Res (Bytes × Bytes × Option Nat)
  | _, [] => .ok ([], [], none)
  | pos, (t, raw) :: rest => do
    let temp ← prepare t raw
    let (recs, data, hp) ← build (pos + (padTo4 temp).length) rest
    let hp' := match hp with
      | some p => some p
      | none => if t = headTag then some pos else none
    return (record t temp pos ++ recs, padTo4 temp ++ data, hp')

/-- `output[start..start + 4].copy_from_slice(v)` with `v` of length 4 (font.rs:226-227). -/
def patch4 (out : Bytes) (start : Nat) (v : Bytes) : Res Bytes :=
  if start + 4 > out.length then .panic
  else .ok (out.take start ++ v ++ out.drop (start + 4))

/-- `Font::to_bytes` (font.rs:187-231) on the tables as returned by `write_table`, in `BTreeMap` order. -/
def toBytes (version : UInt32) (tables : List (Tag × Bytes)) : Res Bytes :=
  if tables.length > 65535 then .panic
  else do
    let n : UInt16 := UInt16.ofNat tables.length
    let (sr, mp, rs) ← getSearchRange n 16
    let (recs, data, hp) ← build (16 * tables.length + 12) tables
    let output := encU32 version ++ encU16 n ++ encU16 sr ++ encU16 mp ++ encU16 rs ++ recs ++ data
    let full := 0xB1B0AFBA - checksum output
    match hp with
    | some p => patch4 output (p + 8) (encU32 full)
    | none => .ok output

/-- `SfntVersion::try_from` (font.rs:25-35). -/
def versionOk (v : UInt32) : Bool := v = 0x00010000 || v = 0x4F54544F

/-- `TableRecord` (font.rs:37-44). -/
structure Rec where
  tag : Tag
  checksum : UInt32
  offset : UInt32
  length : UInt32
  deriving DecidableEq, Repr

/-- Goes with `Rec` (font.rs:37-44). -/
def readRec : Reader Rec := do
  let tag ← readTag
  let checksum ← readU32
  let offset ← readU32
  let length ← readU32
  return ⟨tag, checksum, offset, length⟩

/-- `BTreeMap::insert` on the key-sorted association list. -/
def insertTable (t : Tag) (b : Bytes) : List (Tag × Bytes) → List (Tag × Bytes)
  | [] => [(t, b)]
  | (t', b') :: rest =>
    if key t < key t' then (t, b) :: (t', b') :: rest
    else if key t = key t' then (t, b) :: rest
    else (t', b') :: insertTable t b rest

/-- The slicing loop (font.rs:250-254): out-of-range slices panic. -/
def sliceTables (inp : Bytes) : List Rec → List (Tag × Bytes) → Res (List (Tag × Bytes))
  | [], acc => .ok acc
  | tr :: rest, acc =>
    if tr.offset.toNat + tr.length.toNat > inp.length then .panic
    else sliceTables inp rest
      (insertTable tr.tag ((inp.drop tr.offset.toNat).take tr.length.toNat) acc)

/-- Header and directory (font.rs:235-248): version and table records. The header's search fields are
read and ignored; an unknown version is an error. -/
def readDirectory : Reader (UInt32 × List Rec) := do
  let version ← readU32
  let numTables ← readU16
  let _ ← readU16
  let _ ← readU16
  let _ ← readU16
  if versionOk version then do
    let recs ← deCounted readRec numTables.toNat
    return (version, recs)
  else fail

/-- `Font::from_bytes` (font.rs:233-261) up to `raw_tables.finish()`: the version and the raw tables; the
records are sorted by offset first (font.rs:249, a stable sort).
`finish` only parses `head` and `loca` from these bytes (table_store.rs:197-202); see
`Verif.Model.TableStore`. -/
def readTables : Reader (UInt32 × List (Tag × Bytes)) := do
  let (version, recs) ← readDirectory
  let inp ← getInp
  let tabs ← Reader.lift (sliceTables inp (recs.mergeSort (fun a b => a.offset.toNat ≤ b.offset.toNat)) [])
  return (version, tabs)

end FT.Font
