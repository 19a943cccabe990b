import Verif.Model.LayoutBase
import Verif.Model.BTree
import Verif.Model.Font

/-!
Character maps: src/tables/cmap.rs.
-/

namespace FT.Cmap
open FT Reader FT.Off

/-- `BTreeMap<uint32, uint16>`: code points to glyphs. -/
abbrev Map := List (UInt32 × UInt16)

/-! ### Format 0 -/

/-- `cmap0::from_mapping` (cmap.rs:41-49): `unimplemented!`. -/
def encCmap0 : Res Bytes := .panic

/-- `cmap0::from_bytes` (cmap.rs:55-70): the language; `length - 6` panics on underflow. -/
def readCmap0 : Reader UInt16 := do
  let _format ← readU16
  let length ← readU16
  let language ← readU16
  if length.toNat < 6 then crash
  else do
    let _ ← deCounted readU8 (max 256 (length.toNat - 6))
    return language

/-- `cmap0::to_mapping` (cmap.rs:50-52). -/
def toMapping0 : Map := []

/-! ### Format 4 -/

/-- `cmap4` (cmap.rs:76-90). -/
structure Cmap4 where
  format : UInt16
  length : UInt16
  language : UInt16
  segCountX2 : UInt16
  searchRange : UInt16
  entrySelector : UInt16
  rangeShift : UInt16
  endCode : List UInt16
  reservedPad : UInt16
  startCode : List UInt16
  idDelta : List Int16
  idRangeOffsets : List UInt16
  glyphIdArray : List UInt16
  deriving DecidableEq, Repr

/-- `is_contiguous_list` (cmap.rs:92-101): `*a + 1` panics for 65535. -/
def isContiguous : List UInt16 → Res Bool
  | a :: b :: l =>
    if a.toNat = 65535 then .panic
    else if b.toNat ≠ a.toNat + 1 then .ok false
    else isContiguous (b :: l)
  | _ => .ok true

/-- `*map.get(&(code as u32)).unwrap_or(&0)`. -/
def glyphAt (m : Map) (c : Nat) : UInt16 := (BMap.get? m (UInt32.ofNat c)).getD 0

/-- The loop over codes in `split_range` (cmap.rs:111-133): the subranges and the last code. -/
def scan (m : Map) : List Nat → (lastId : UInt16) → (lastCode : Nat) → (inOrder begin_ : Option Nat) →
    List (Option Nat × Nat) × Nat
  | [], _, lastCode, inOrder, begin_ => (if inOrder = some 1 then [(begin_, lastCode)] else [], lastCode)
  | code :: cs, lastId, lastCode, inOrder, begin_ =>
    let g := glyphAt m code
    if 0 < g.toNat ∧ g.toNat - 1 = lastId.toNat then
      if inOrder = none ∨ inOrder = some 0 then scan m cs g code (some 1) (some lastCode)
      else scan m cs g code inOrder begin_
    else if inOrder = some 1 then
      let r := scan m cs g code (some 0) none
      ((begin_, lastCode) :: r.1, r.2)
    else scan m cs g code inOrder begin_

/-- The loop that keeps long subranges (cmap.rs:136-151); `break` if there is only one that covers everything. -/
def longRanges (start end_ : Nat) : List (Option Nat × Nat) → Res (List (Nat × Nat))
  | [] => .ok []
  | (none, _) :: _ => .panic
  | (some b, e) :: l =>
    if b = start ∧ e = end_ then .ok []
    else if e < b ∨ 65535 < e - b + 1 then .panic
    else
      let threshold := if b = start ∨ e = end_ then 4 else 8
      match longRanges start end_ l with
      | .ok r => .ok (if threshold < e - b + 1 then (b, e) :: r else r)
      | .err => .err
      | .panic => .panic

/-- `u32` subtraction. -/
def subR (a b : Nat) : Res Nat := if a < b then .panic else .ok (a - b)

/-- Cover the beginning (cmap.rs:157-159). -/
def fillFirst (start : Nat) : List (Nat × Nat) → Res (List (Nat × Nat))
  | [] => .panic
  | (b, e) :: l => if b ≠ start then do return (start, ← subR b 1) :: (b, e) :: l else .ok ((b, e) :: l)

/-- Cover the end (cmap.rs:160-162). -/
def fillLast (end_ : Nat) (l : List (Nat × Nat)) : Res (List (Nat × Nat)) := match l.getLast? with
  | none => .panic
  | some (_, e) => .ok (if e ≠ end_ then l ++ [(e + 1, end_)] else l)

/-- Cover the gaps (cmap.rs:163-170). -/
def fillGaps : List (Nat × Nat) → Res (List (Nat × Nat))
  | (a, b) :: (c, d) :: l =>
    if b + 1 ≠ c then do
      let x ← subR c 1
      let r ← fillGaps ((c, d) :: l)
      return (a, b) :: (b + 1, x) :: r
    else do
      let r ← fillGaps ((c, d) :: l)
      return (a, b) :: r
  | l => .ok l

/-- `split_range` (cmap.rs:103-180): the codes where a new segment starts, and where segments end. -/
def splitRange (m : Map) (start end_ : Nat) : Res (List Nat × List Nat) :=
  if start = end_ then .ok ([], [end_])
  else match BMap.get? m (UInt32.ofNat start) with
    | none => .panic
    | some g =>
      if end_ = 65535 then .panic
      else
        let r := scan m (List.range' (start + 1) (end_ - start)) g start none none
        if r.2 ≠ end_ then .panic
        else do
          let rs ← longRanges start end_ r.1
          if rs = [] then return ([], [end_])
          else do
            let rs ← fillFirst start rs
            let rs ← fillLast end_ rs
            let rs ← fillGaps rs
            return ((rs.map Prod.fst).drop 1, rs.map Prod.snd)

/-- `u32` to `u16` with `try_into().unwrap()`. -/
def toU16 (c : Nat) : Res Nat := if 65535 < c then .panic else .ok c

/-- The loop over characters in `cmap4::from_mapping` (cmap.rs:191-213): the segment starts after the current one
and all segment ends. `start` is the last element of `start_code`. -/
def segLoop (m : Map) : (start last : Nat) → List Nat → Res (List Nat × List Nat)
  | start, last, [] => do
    let last ← toU16 last
    splitRange m start last
  | start, last, c :: cs =>
    if c = last + 1 then segLoop m start c cs
    else do
      let last ← toU16 last
      let (s, e) ← splitRange m start last
      let c ← toU16 c
      let (s', e') ← segLoop m c c cs
      return (s ++ c :: s', e ++ e')

/-- The loop over segments (cmap.rs:221-237): `n` is the number of segments including the final one. -/
def deltaLoop (m : Map) (n : Nat) : (i : Nat) → List (Nat × Nat) → List UInt16 →
    Res (List Int16 × List UInt16 × List UInt16)
  | _, [], gia => .ok ([], [], gia)
  | i, (s, e) :: l, gia =>
    if e = 65535 then .panic
    else
      let indices := (List.range' s (e + 1 - s)).map (glyphAt m)
      do
        let c ← isContiguous indices
        if c then match indices with
          | [] => .panic
          | g :: _ => do
            let (ds, os, gs) ← deltaLoop m n (i + 1) l gia
            return (Int16.ofInt ((g.toNat : Int) - s) :: ds, 0 :: os, gs)
        else
          let x := (n + gia.length - i) % 65536
          if 65535 < 2 * x then .panic
          else do
            let (ds, os, gs) ← deltaLoop m n (i + 1) l (gia ++ indices)
            return (0 :: ds, UInt16.ofNat (2 * x) :: os, gs)

/-- `cmap4::from_mapping` (cmap.rs:185-259). -/
def fromMapping4 (language : UInt16) (m : Map) : Res Cmap4 :=
  match m.map (fun x => x.1.toNat) with
  | [] => .panic
  | c0 :: cs => do
    let c0 ← toU16 c0
    let (s, e) ← segLoop m c0 c0 cs
    let n := e.length + 1
    let (ds, os, gs) ← deltaLoop m n 0 ((c0 :: s).zip e) []
    let segcount := UInt16.ofNat n
    let (sr, es, rs) ← Font.getSearchRange segcount 2
    if 65535 < segcount.toNat * 2 then .panic
    else return {
      format := 4
      length := UInt16.ofNat (gs.length * 2 + 16 + 8 * segcount.toNat)
      language := language
      segCountX2 := UInt16.ofNat (segcount.toNat * 2)
      searchRange := sr
      entrySelector := es
      rangeShift := rs
      endCode := (e ++ [65535]).map UInt16.ofNat
      reservedPad := 0
      startCode := (c0 :: s ++ [65535]).map UInt16.ofNat
      idDelta := ds ++ [1]
      idRangeOffsets := os ++ [0]
      glyphIdArray := gs }

/-- The loop over the characters of a segment in `cmap4::to_mapping` (cmap.rs:274-290). -/
def expandSeg (gia : List UInt16) (delta : Int16) (rangeOffset : UInt16) (part : Int) : List Nat → Map → Res Map
  | [], m => .ok m
  | c :: cs, m =>
    if rangeOffset = 0 then
      expandSeg gia delta rangeOffset part cs
        (BMap.insert m (UInt32.ofNat c) (UInt16.ofNat (((c : Int) + delta.toInt) % 65536).toNat))
    else
      let index := (c : Int) + part
      if index < 0 ∨ (gia.length : Int) ≤ index then .ok m
      else match gia[index.toNat]? with
        | none => .panic
        | some g =>
          if g.toNat ≠ 0 then
            let x := g.toInt16.toInt + delta.toInt
            if x < -32768 ∨ 32767 < x then .panic
            else expandSeg gia delta rangeOffset part cs
              (BMap.insert m (UInt32.ofNat c) (UInt16.ofNat (x % 65536).toNat))
          else expandSeg gia delta rangeOffset part cs (BMap.insert m (UInt32.ofNat c) 0)

/-- The loop over segments (cmap.rs:263-291). -/
def expandLoop (t : Cmap4) : List Nat → Map → Res Map
  | [], m => .ok m
  | i :: is, m => match t.startCode[i]?, t.endCode[i]?, t.idDelta[i]?, t.idRangeOffsets[i]? with
    | some start, some end_, some delta, some ro =>
      if end_.toNat = 65535 then .ok m
      else
        let part : Int := (ro.toNat / 2 : Nat) - start.toNat + i - t.idRangeOffsets.length
        match expandSeg t.glyphIdArray delta ro part
            (List.range' start.toNat (end_.toNat + 1 - start.toNat)) m with
        | .ok m => expandLoop t is m
        | .err => .err
        | .panic => .panic
    | _, _, _, _ => .panic

/-- `cmap4::to_mapping` (cmap.rs:261-293). -/
def toMapping4 (t : Cmap4) : Res Map :=
  if t.startCode.length = 0 then .panic
  else expandLoop t (List.range (t.startCode.length - 1)) []

/-- Derived `Serialize` of `cmap4` (cmap.rs:73-90). -/
def encCmap4 (t : Cmap4) : Bytes :=
  encU16 t.format ++ (encU16 t.length ++ (encU16 t.language ++ (encU16 t.segCountX2 ++ (encU16 t.searchRange ++
  (encU16 t.entrySelector ++ (encU16 t.rangeShift ++ (encVec encU16 t.endCode ++ (encU16 t.reservedPad ++
  (encVec encU16 t.startCode ++ (encVec encI16 t.idDelta ++ (encVec encU16 t.idRangeOffsets ++
  encVec encU16 t.glyphIdArray)))))))))))

/-- `unwrap_or_default` of a counted read (cmap.rs:311). After an error the cursor is not used again. -/
def orEmpty {α : Type} (p : Reader (List α)) : Reader (List α) := fun r => match p r with
  | .ok x => .ok x
  | .err => .ok ([], r)
  | .panic => .panic

/-- `cmap4::from_bytes` (cmap.rs:296-328). -/
def readCmap4 : Reader Cmap4 := do
  let format ← readU16
  let length ← readU16
  let language ← readU16
  let segCountX2 ← readU16
  let n := segCountX2.toNat / 2
  skip 6
  let endCode ← deCounted readU16 n
  skip 2
  let startCode ← deCounted readU16 n
  let idDelta ← deCounted readI16 n
  let idRangeOffsets ← deCounted readU16 n
  if length.toNat < 16 + n * 2 * 4 then crash
  else do
    let glyphIdArray ← orEmpty (deCounted readU16 ((length.toNat - (16 + n * 2 * 4)) / 2))
    return ⟨format, length, language, segCountX2, 0, 0, 0, endCode, 0, startCode, idDelta, idRangeOffsets, glyphIdArray⟩

/-! ### Format 12 -/

/-- `SequentialMapGroup` (cmap.rs:339-343). -/
structure Group where
  startCharCode : UInt32
  endCharCode : UInt32
  startGlyphID : UInt32
  deriving DecidableEq, Repr

/-- `cmap12` (cmap.rs:331-337). -/
structure Cmap12 where
  format : UInt16
  reserved : UInt16
  length : UInt32
  language : UInt32
  groups : List Group
  deriving DecidableEq, Repr

/-- `in_run` (cmap.rs:346-353): `1 + last_gid` and `1 + lc` may overflow. -/
def inRun (gid lastGid : UInt16) (code : UInt32) (lastCode : Option UInt32) : Res Bool :=
  if lastGid.toNat = 65535 then .panic
  else if gid.toNat ≠ 1 + lastGid.toNat then .ok false
  else match lastCode with
    | none => .ok true
    | some lc => if lc.toNat = 4294967295 then .panic else .ok (decide (code.toNat = 1 + lc.toNat))

/-- The group that is closed (cmap.rs:373-377, 384-388). -/
def closeGroup (startCode : UInt32) (startGid : UInt16) (lastCode : Option UInt32) : Group :=
  ⟨startCode, lastCode.getD startCode, UInt32.ofNat startGid.toNat⟩

/-- The loop of `cmap12::from_mapping` (cmap.rs:370-388). Iterating over the sorted keys and looking each up is
iterating over the map. -/
def groupLoop : Map → (startCode : UInt32) → (startGid : UInt16) → (lastCode : Option UInt32) → (lastGid : UInt16) →
    Res (List Group)
  | [], startCode, startGid, lastCode, _ => .ok [closeGroup startCode startGid lastCode]
  | (code, gid) :: l, startCode, startGid, lastCode, lastGid => do
    let r ← inRun gid lastGid code lastCode
    if r then groupLoop l startCode startGid (some code) gid
    else do
      let gs ← groupLoop l code gid (some code) gid
      return closeGroup startCode startGid lastCode :: gs

/-- `cmap12::from_mapping` (cmap.rs:357-396); `start_gid - 1` may underflow. -/
def fromMapping12 (language : UInt16) : Map → Res Cmap12
  | [] => .panic
  | (startCode, startGid) :: l =>
    let lastCode := if startCode.toNat = 0 then none else some (UInt32.ofNat (startCode.toNat - 1))
    if startGid.toNat = 0 then .panic
    else do
      let groups ← groupLoop l startCode startGid lastCode (UInt16.ofNat (startGid.toNat - 1))
      return ⟨12, 0, UInt32.ofNat (16 + 12 * groups.length), UInt32.ofNat language.toNat, groups⟩

/-- The inner loop of `cmap12::to_mapping` (cmap.rs:401-406): `k` items are left, the next is number `i`.
`startCharCode + i` cannot overflow; the glyph is `startGlyphID as u16 + i as u16`. -/
def expandGroup (g : Group) : (k i : Nat) → Map → Res Map
  | 0, _, m => .ok m
  | k + 1, i, m =>
    let gid := g.startGlyphID.toNat % 65536 + i % 65536
    if 65535 < gid then .panic
    else expandGroup g k (i + 1) (BMap.insert m (UInt32.ofNat (g.startCharCode.toNat + i)) (UInt16.ofNat gid))

/-- The loop over groups (cmap.rs:399-407): `endCharCode - startCharCode` and `1 + …` may overflow. -/
def expandGroups : List Group → Map → Res Map
  | [], m => .ok m
  | g :: gs, m =>
    if g.endCharCode.toNat < g.startCharCode.toNat then .panic
    else
      let n := 1 + (g.endCharCode.toNat - g.startCharCode.toNat)
      if 4294967295 < n then .panic
      else match expandGroup g n 0 m with
        | .ok m => expandGroups gs m
        | .err => .err
        | .panic => .panic

/-- `cmap12::to_mapping` (cmap.rs:397-409). -/
def toMapping12 (t : Cmap12) : Res Map := expandGroups t.groups []

/-- Generated codec of `SequentialMapGroup` (cmap.rs:339-343). -/
def encGroup (g : Group) : Bytes := encU32 g.startCharCode ++ (encU32 g.endCharCode ++ encU32 g.startGlyphID)

/-- Generated codec of `SequentialMapGroup` (cmap.rs:339-343). -/
def readGroup : Reader Group := do
  let s ← readU32
  let e ← readU32
  let g ← readU32
  return ⟨s, e, g⟩

/-- Generated codec of `cmap12` (cmap.rs:331-337); `Counted32` writes the length as `u32`. -/
def encCmap12 (t : Cmap12) : Bytes :=
  encU16 t.format ++ (encU16 t.reserved ++ (encU32 t.length ++ (encU32 t.language ++
  (encU32 (UInt32.ofNat t.groups.length) ++ encVec encGroup t.groups))))

/-- Goes with `encCmap12` (cmap.rs:331-337). -/
def readCmap12 : Reader Cmap12 := do
  let format ← readU16
  let reserved ← readU16
  let length ← readU32
  let language ← readU32
  let n ← readU32
  let groups ← deCounted readGroup n.toNat
  return ⟨format, reserved, length, language, groups⟩

/-! ### Format 14 -/

/-- `UVSMapping` (cmap.rs:435-438); the `uint24` wraps a `u32`. -/
structure UvsMapping where
  unicodeValue : UInt32
  glyphID : UInt16
  deriving DecidableEq, Repr

/-- `UnicodeRange` (cmap.rs:428-431). -/
structure UnicodeRange where
  startUnicodeValue : UInt32
  additionalCount : UInt8
  deriving DecidableEq, Repr

/-- `VariationSelector` (cmap.rs:420-424). -/
structure VarSelector where
  selector : UInt32
  defaultUVS : Option (List UnicodeRange)
  nonDefaultUVS : Option (List UvsMapping)
  deriving DecidableEq, Repr

/-- `cmap14` (cmap.rs:413-419). -/
structure Cmap14 where
  format : UInt16
  length : UInt32
  varSelector : List VarSelector
  deriving DecidableEq, Repr

/-- `BTreeMap<(uint32, uint32), uint16>`: (character, selector) to glyph. -/
abbrev UvsMap := List ((UInt32 × UInt32) × UInt16)

/-- The loop that groups by selector (cmap.rs:458-464). -/
def splitUvs (m : UvsMap) : List (UInt32 × List (UInt32 × UInt16)) :=
  m.foldl (fun acc x => BMap.insert acc x.1.2 ((BMap.get? acc x.1.2).getD [] ++ [(x.1.1, x.2)])) []

/-- Goes with `splitUvs` (cmap.rs:458-464). -/
def selectorOf (x : UInt32 × List (UInt32 × UInt16)) : VarSelector :=
  ⟨x.1, none, some (x.2.map (fun r => ⟨r.1, r.2⟩))⟩

/-- `cmap14::from_uvs_mapping` (cmap.rs:446-489). Simplification: the length is computed without overflow checks
(`u32`, at most 24 bytes per entry). -/
def fromUvs : Option UvsMap → Cmap14
  | none => ⟨14, 10, []⟩
  | some m =>
    let s := splitUvs m
    ⟨14, UInt32.ofNat (10 + (s.map (fun x => 5 * x.2.length + 4 + 11)).sum), s.map selectorOf⟩

/-- The loop over selectors of `cmap14::to_uvs_mapping` (cmap.rs:491-505). -/
def toUvs (t : Cmap14) : UvsMap :=
  t.varSelector.foldl (fun m vs => match vs.nonDefaultUVS with
    | none => m
    | some l => l.foldl (fun m r => BMap.insert m (r.unicodeValue, vs.selector) r.glyphID) m) []

/-- Generated codec of `UVSMapping` (cmap.rs:434-437). -/
def encUvsMapping (x : UvsMapping) : Res Bytes := match encU24 x.unicodeValue with
  | .ok b => .ok (b ++ encU16 x.glyphID)
  | .err => .err
  | .panic => .panic

/-- Generated codec of `UVSMapping` (cmap.rs:434-437). -/
def readUvsMapping : Reader UvsMapping := do
  let u ← readU24
  let g ← readU16
  return ⟨u, g⟩

/-- Generated codec of `UnicodeRange` (cmap.rs:427-430). -/
def encUnicodeRange (x : UnicodeRange) : Res Bytes := match encU24 x.startUnicodeValue with
  | .ok b => .ok (b ++ encU8 x.additionalCount)
  | .err => .err
  | .panic => .panic

/-- Generated codec of `UnicodeRange` (cmap.rs:427-430). -/
def readUnicodeRange : Reader UnicodeRange := do
  let u ← readU24
  let g ← readU8
  return ⟨u, g⟩

/-- A `Counted32` list as a table. -/
def counted32Tab {α : Type} (f : α → Res Bytes) (l : List α) : Res Tab := match Res.mapL f l with
  | .ok bs => .ok (.bytes (encU32 (UInt32.ofNat l.length) ++ bs.flatten))
  | .err => .err
  | .panic => .panic

/-- An `Offset32` in an embedded record. -/
def optOff32 {α : Type} (f : α → Res Tab) : Option α → Res Tab
  | none => .ok (.nullOff .w32)
  | some a => match f a with
    | .ok t => .ok (.link .w32 true false none t .nil)
    | .err => .err
    | .panic => .panic

/-- Fields of a `VariationSelector` (cmap.rs:420-424). -/
def selectorTab (v : VarSelector) : Res Tab := do
  let s ← encU24 v.selector
  let d ← optOff32 (counted32Tab encUnicodeRange) v.defaultUVS
  let n ← optOff32 (counted32Tab encUvsMapping) v.nonDefaultUVS
  return (Tab.bytes s).append (d.append n)

/-- `unwrap` of a serialization result. -/
def orPanic {α : Type} : Res α → Res α
  | .ok a => .ok a
  | _ => .panic

/-- Fields of `cmap14` (cmap.rs:413-419). -/
def cmap14Tab (t : Cmap14) : Res Tab := do
  let ss ← Res.mapL selectorTab t.varSelector
  return (Tab.bytes (encU16 t.format)).append ((Tab.bytes (encU32 t.length)).append
    ((Tab.bytes (encU32 (UInt32.ofNat t.varSelector.length))).append (Tab.concat ss)))

/-- Generated `to_bytes` of `cmap14`: resolving the offsets first asks for the sizes of all tables, and the size of a
`uint24` is found by serializing it and unwrapping (otspec/src/lib.rs:154-159), so a number that does not fit
panics. -/
def encCmap14 (t : Cmap14) : Res Bytes := do toBytes (← orPanic (cmap14Tab t))

/-- Generated reader of `VariationSelector` (cmap.rs:420-424). -/
def readSelector : Reader VarSelector := do
  let s ← readU24
  let d ← readOffset .w32 (readCounted32 readUnicodeRange)
  let n ← readOffset .w32 (readCounted32 readUvsMapping)
  return ⟨s, d, n⟩

/-- Generated reader of `cmap14` (cmap.rs:413-419). -/
def readCmap14 : Reader Cmap14 := Lay.inTable (do
  let format ← readU16
  let length ← readU32
  let n ← readU32
  let ss ← deCounted readSelector n.toNat
  return ⟨format, length, ss⟩)

/-! ### The table -/

/-- `CmapSubtable` (cmap.rs:518-533). -/
structure Subtable where
  format : UInt16
  platformID : UInt16
  encodingID : UInt16
  languageID : UInt16
  mapping : Map
  uvs : Option UvsMap
  deriving DecidableEq, Repr

/-- `is_unicode` (cmap.rs:538-542). -/
def Subtable.isUnicode (s : Subtable) : Bool :=
  s.platformID = 0 || (s.platformID = 3 && (s.encodingID = 0 || s.encodingID = 1 || s.encodingID = 10))

/-- `CmapSubtable::to_bytes` (cmap.rs:550-560). -/
def encSubtable (s : Subtable) : Res Bytes :=
  if s.format = 0 then encCmap0
  else if s.format = 4 then do return encCmap4 (← fromMapping4 s.languageID s.mapping)
  else if s.format = 12 then do return encCmap12 (← fromMapping12 s.languageID s.mapping)
  else if s.format = 14 then encCmap14 (fromUvs s.uvs)
  else .panic

/-- `EncodingRecord` (cmap.rs:17-21). -/
structure EncodingRecord where
  platformID : UInt16
  encodingID : UInt16
  subtableOffset : UInt32
  deriving DecidableEq, Repr

/-- Goes with `EncodingRecord` (cmap.rs:17-21). -/
def encRecord (r : EncodingRecord) : Bytes := encU16 r.platformID ++ (encU16 r.encodingID ++ encU32 r.subtableOffset)

/-- Goes with `EncodingRecord` (cmap.rs:17-21). -/
def readRecord : Reader EncodingRecord := do
  let p ← readU16
  let e ← readU16
  let o ← readU32
  return ⟨p, e, o⟩

/-- The loop of `cmap::to_bytes` (cmap.rs:576-590): `offsets` remembers where the subtable with a given hash of its
*mapping* went; the hash function is a parameter. Errors of subtables are unwrapped. -/
def writeLoop (hash : Map → UInt64) (base : Nat) : List Subtable → (offsets : List (Nat × UInt32)) → (output : Bytes) →
    Res (List EncodingRecord × Bytes)
  | [], _, output => .ok ([], output)
  | st :: l, offsets, output =>
    let h := (hash st.mapping).toNat
    match BMap.get? offsets h with
    | some o => do
      let (rs, out) ← writeLoop hash base l offsets output
      return (⟨st.platformID, st.encodingID, o⟩ :: rs, out)
    | none => do
      let pos := base % 4294967296 + output.length % 4294967296
      if 4294967295 < pos then .panic
      else do
        let bs ← orPanic (encSubtable st)
        let o := UInt32.ofNat pos
        let (rs, out) ← writeLoop hash base l (BMap.insert offsets h o) (output ++ bs)
        return (⟨st.platformID, st.encodingID, o⟩ :: rs, out)

/-- `cmap::to_bytes` (cmap.rs:570-598). -/
def encCmap (hash : Map → UInt64) (sts : List Subtable) : Res Bytes := do
  let (rs, out) ← writeLoop hash (4 + sts.length * 8) sts [] []
  return encU16 0 ++ (encCounted encRecord rs ++ out)

/-- The body of the loop of `cmap::from_bytes` (cmap.rs:605-663). -/
def readSubtable (er : EncodingRecord) : Reader Subtable := do
  let top ← topOfTable
  setPtr (top + er.subtableOffset.toNat)
  let two ← peek 2
  if two = [0, 0] then do
    let language ← readCmap0
    return ⟨0, er.platformID, er.encodingID, language, toMapping0, none⟩
  else if two = [0, 4] then do
    let t ← readCmap4
    let m ← Reader.lift (toMapping4 t)
    return ⟨4, er.platformID, er.encodingID, t.language, m, none⟩
  else if two = [0, 12] then do
    let t ← readCmap12
    let m ← Reader.lift (toMapping12 t)
    return ⟨12, er.platformID, er.encodingID, UInt16.ofNat t.language.toNat, m, none⟩
  else if two = [0, 14] then do
    let t ← readCmap14
    return ⟨14, 0, 5, 0, [], some (toUvs t)⟩
  else fail

/-- Goes with `readSubtable` (cmap.rs:605-663). -/
def readSubtables : List EncodingRecord → Reader (List Subtable)
  | [] => pure []
  | er :: l => do
    let s ← readSubtable er
    let ss ← readSubtables l
    return s :: ss

/-- `cmap::from_bytes` (cmap.rs:600-666). -/
def readCmap : Reader (List Subtable) := do
  let rs ← Lay.inTable (do
    let _version ← readU16
    readCounted readRecord)
  readSubtables rs

/-- `get_mapping` (cmap.rs:671-682). -/
def getMapping (sts : List Subtable) (p e : UInt16) : Option Map := match sts with
  | [] => none
  | st :: l => if st.platformID = p ∧ st.encodingID = e then some st.mapping else getMapping l p e

/-- The loop of `get_best_mapping` (cmap.rs:688-703). -/
def bestOf (sts : List Subtable) : List (UInt16 × UInt16) → Option Map
  | [] => none
  | (p, e) :: l => match getMapping sts p e with
    | some m => some m
    | none => bestOf sts l

/-- `get_best_mapping` (cmap.rs:687-704). -/
def getBestMapping (sts : List Subtable) : Option Map :=
  bestOf sts [(3, 10), (0, 6), (0, 4), (3, 1), (0, 3), (0, 2), (0, 1), (0, 0)]

/-- `HashSet::insert`; the order is never observed. -/
def setInsert (s : List UInt32) (c : UInt32) : List UInt32 := if c ∈ s then s else c :: s

/-- The loops of `reversed` (cmap.rs:707-720). -/
def addReversed (res : List (UInt16 × List UInt32)) (m : Map) : List (UInt16 × List UInt32) :=
  m.foldl (fun res x => BMap.insert res x.2 (setInsert ((BMap.get? res x.2).getD []) x.1)) res

/-- Goes with `addReversed` (cmap.rs:707-720). -/
def reversed (sts : List Subtable) : List (UInt16 × List UInt32) :=
  sts.foldl (fun res st => if st.isUnicode then addReversed res st.mapping else res) []

end FT.Cmap
