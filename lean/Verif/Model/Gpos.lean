import Verif.Model.ValueRecord
import Verif.Model.GsubHigh

/-!
GPOS subtables: crates/otspec/src/layout/{anchor,gpos1,gpos2,gpos3,gpos4,gpos5,gpos6}.rs (binary structures) and
src/layout/{gpos1,gpos2,gpos3,gpos4,gpos5,gpos6}.rs (user-facing rules). Contextual positioning uses the structures
and conversions of contextual substitution (Model/Gsub.lean, Model/GsubHigh.lean).
-/

namespace FT.Gpos
open FT Reader FT.Off FT.Lay FT.VR
open FT.Device (Device)

/-! ### Anchors and arrays of anchors -/

/-- `Anchor` (otspec anchor.rs:9-17). -/
structure Anchor where
  x : Int16
  y : Int16
  point : Option UInt16
  deriving DecidableEq, Repr

/-- `Anchor::default()` (anchor.rs:9). -/
def Anchor.zero : Anchor := ⟨0, 0, none⟩

/-- `Anchor::to_bytes` (anchor.rs:58-69). -/
def Anchor.tab (a : Anchor) : Res Tab := .ok (.bytes (match a.point with
  | none => encU16 1 ++ (encI16 a.x ++ encI16 a.y)
  | some p => encU16 2 ++ (encI16 a.x ++ (encI16 a.y ++ encU16 p))))

/-- The rest of `Anchor::from_bytes` once format and coordinates are read (anchor.rs:35-54). -/
def Anchor.readPoint (format : UInt16) (x y : Int16) : Reader Anchor :=
  if format = 1 then return ⟨x, y, none⟩
  else if format = 2 then (do
    let p ← readU16
    return ⟨x, y, some p⟩)
  else fail

/-- `Anchor::from_bytes` (anchor.rs:30-55): other formats are an error. -/
def Anchor.read : Reader Anchor := do
  let f ← readU16
  let x ← readI16
  let y ← readI16
  Anchor.readPoint f x y

/-- An `Offset16<Anchor>`. -/
abbrev AnchorLink := Option Anchor
/-- Reader of an `Offset16<Anchor>` field (offsets.rs:190-205). -/
def readAnchorLink : Reader AnchorLink := readOffset .w16 Anchor.read

/-- `MarkRecord` (otspec layout/common.rs:71-74): (class, anchor). -/
abbrev MarkRec := UInt16 × AnchorLink
/-- Goes with `MarkRec` (layout/common.rs:71-74). -/
def markRecTab (r : MarkRec) : Res Tab := match optOff true Anchor.tab r.2 with
  | .ok t => .ok ((Tab.bytes (encU16 r.1)).append t)
  | .err => .err
  | .panic => .panic
/-- Goes with `MarkRec` (layout/common.rs:71-74). -/
def readMarkRec : Reader MarkRec := do
  let c ← readU16
  let a ← readAnchorLink
  return (c, a)

/-- A counted, embedded vector of records (`[embed] Counted(T)`). -/
def countedTab {α : Type} (f : α → Res Tab) (l : List α) : Res Tab := match Res.mapL f l with
  | .ok ts => .ok ((Tab.bytes (encU16 (UInt16.ofNat l.length))).append (Tab.concat ts))
  | .err => .err
  | .panic => .panic

/-- `MarkArray` (otspec layout/common.rs:65-69). -/
def markArrayTab (l : List MarkRec) : Res Tab := countedTab markRecTab l
/-- Goes with `markArrayTab` (layout/common.rs:65-69). -/
def readMarkArray : Reader (List MarkRec) := inTable (readCounted readMarkRec)

/-- `BaseRecord` (gpos4.rs:26-56), `ComponentRecord` (gpos5.rs:34-64), `Mark2Record` (gpos6.rs:26-56): one anchor
offset per mark class. -/
abbrev AnchorRow := List AnchorLink
/-- Goes with `AnchorRow` (gpos4.rs:26-56; gpos5.rs:34-64; gpos6.rs:26-56). -/
def rowTab (r : AnchorRow) : Res Tab := match Res.mapL (optOff true Anchor.tab) r with
  | .ok ts => .ok (Tab.concat ts)
  | .err => .err
  | .panic => .panic
/-- `c.de_counted(mark_class_count)` (gpos4.rs:78, gpos5.rs:96-97, gpos6.rs:78). -/
def readRow (n : Nat) : Reader AnchorRow := deCounted readAnchorLink n

/-- `BaseArray` (gpos4.rs:19-23), `LigatureAttach` (gpos5.rs:27-31), `Mark2Array` (gpos6.rs:19-23). -/
def rowsTab (l : List AnchorRow) : Res Tab := countedTab rowTab l
/-- Goes with `rowsTab` (gpos4.rs:19-23; gpos5.rs:27-31; gpos6.rs:19-23). -/
def readRows (n : Nat) : Reader (List AnchorRow) := inTable (readCounted (readRow n))

/-! ### Binary subtables -/

/-- Goes with `rowsTab` (gpos4.rs:19-23; gpos5.rs:27-31; gpos6.rs:19-23). -/
abbrev ClassMap := List (UInt16 × UInt16)
/-- `PairValueRecord` (gpos2.rs:30-38): second glyph, and the adjustments of both glyphs. -/
abbrev PairRec := UInt16 × ValueRecord × ValueRecord

/-- `GPOSSubtable` (otspec GPOS.rs:189-207) without the extension wrapper. Fields that the reader fixes and the
conversions set to the same value (`posFormat` of formats whose reader checks it) are left out. -/
inductive Sub where
  | p1_1 (cov : Cov) (fmt : UInt16) (v : ValueRecord)
  | p1_2 (posFormat : UInt16) (cov : Cov) (fmt : UInt16) (vs : List ValueRecord)
  | p2_1 (cov : Cov) (fmt1 fmt2 : UInt16) (sets : List (Option (List PairRec)))
  | p2_2 (cov : Cov) (fmt1 fmt2 : UInt16) (cls1 cls2 : Option ClassMap) (n1 n2 : UInt16)
      (rows : List (List (ValueRecord × ValueRecord)))
  | p3_1 (fmt : UInt16) (cov : Cov) (recs : List (AnchorLink × AnchorLink))
  | p4_1 (fmt : UInt16) (marks bases : Cov) (classes : UInt16) (markArray : Option (List MarkRec))
      (baseArray : Option (List AnchorRow))
  | p5_1 (fmt : UInt16) (marks ligs : Cov) (classes : UInt16) (markArray : Option (List MarkRec))
      (ligArray : Option (List (Option (List AnchorRow))))
  | p6_1 (fmt : UInt16) (marks bases : Cov) (classes : UInt16) (markArray : Option (List MarkRec))
      (baseArray : Option (List AnchorRow))
  | ctx (s : Gsub.Sub)
  deriving DecidableEq, Repr

/-- A device field of a value record in `SinglePosFormat2.valueRecords`. That vector is not `embed`
(gpos1.rs:26-27), so the offsets are never resolved: writing a device made in memory is an error (offsets.rs:172-180).
Simplification: a device that was itself read from a file still has its old offset there, which would be written
unchanged; links have no stored offset in this model. -/
def looseDev : Option (Option Device) → Res Bytes
  | none => .ok []
  | some none => .ok (encU16 0)
  | some (some _) => .err

/-- Goes with `looseDev` (gpos1.rs:26-27; offsets.rs:172-180). -/
def looseInt : Option Int16 → Bytes
  | none => []
  | some x => encI16 x

/-- A value record in `SinglePosFormat2.valueRecords`. -/
def looseRec (v : ValueRecord) : Res Bytes := do
  let e ← looseDev v.xPlaDevice
  let g ← looseDev v.yPlaDevice
  let h ← looseDev v.xAdvDevice
  let i ← looseDev v.yAdvDevice
  return looseInt v.xPlacement ++ (looseInt v.yPlacement ++ (looseInt v.xAdvance ++ (looseInt v.yAdvance ++
    (e ++ (g ++ (h ++ i))))))

/-- `PairValueRecord` and `Class2Record` (gpos2.rs:30-38, 61-68). They are not `embedded` themselves, so each is
serialized as a table of its own in the middle of its parent (ser.rs:29-62): its devices follow it directly.
Simplification: the parent does not count the bytes of those devices (ser.rs:64-66), so that later offsets would be
off; that is not represented, and the theorems are about records without devices. -/
def inlinePair (pre : Bytes) (a b : ValueRecord) : Res Bytes := do
  let s ← VR.tab a
  let t ← VR.tab b
  Off.toBytes ((Tab.bytes pre).append (s.append t))

/-- `PairSet` (gpos2.rs:22-28). -/
def pairSetTab (l : List PairRec) : Res Tab :=
  match Res.mapL (fun r => inlinePair (encU16 r.1) r.2.1 r.2.2) l with
  | .ok bs => .ok (.bytes (encU16 (UInt16.ofNat l.length) ++ bs.flatten))
  | .err => .err
  | .panic => .panic

/-- One `Class1Record` (gpos2.rs:55-59). -/
def classRowBytes (l : List (ValueRecord × ValueRecord)) : Res Bytes :=
  match Res.mapL (fun r => inlinePair [] r.1 r.2) l with
  | .ok bs => .ok bs.flatten
  | .err => .err
  | .panic => .panic

/-- `EntryExitRecord` (gpos3.rs:15-18). -/
def entryExitTab (r : AnchorLink × AnchorLink) : Res Tab := do
  let a ← optOff true Anchor.tab r.1
  let b ← optOff true Anchor.tab r.2
  return a.append b

/-- `MarkBasePosFormat1` (gpos4.rs:9-17), `MarkMarkPosFormat1` (gpos6.rs:9-17). -/
def markTab (fmt : UInt16) (marks bases : Cov) (classes : UInt16) (ma : Option (List MarkRec))
    (ba : Option (List AnchorRow)) : Res Tab := do
  let m ← optOff false covTab marks
  let b ← optOff false covTab bases
  let x ← optOff false markArrayTab ma
  let y ← optOff false rowsTab ba
  return (Tab.bytes (encU16 fmt)).append (m.append (b.append ((Tab.bytes (encU16 classes)).append (x.append y))))

/-- `LigatureArray` (gpos5.rs:22-25). -/
def ligArrayTab (l : List (Option (List AnchorRow))) : Res Tab := offVec rowsTab l

/-- Serializers of the subtables (`smash_it`, otspec GPOS.rs:209-227). -/
def Sub.tab : Sub → Res Tab
  | .p1_1 cov f v => do
    let c ← optOff false covTab cov
    let t ← VR.tab v
    return (Tab.bytes (encU16 1)).append (c.append ((Tab.bytes (encU16 f)).append t))
  | .p1_2 pf cov f vs => do
    let c ← optOff false covTab cov
    let bs ← Res.mapL looseRec vs
    return (Tab.bytes (encU16 pf)).append (c.append ((Tab.bytes (encU16 f)).append
      (.bytes (encU16 (UInt16.ofNat vs.length) ++ bs.flatten))))
  | .p2_1 cov f g sets => do
    let c ← optOff false covTab cov
    let v ← offVec pairSetTab sets
    return (Tab.bytes (encU16 1)).append (c.append ((Tab.bytes (encU16 f)).append ((Tab.bytes (encU16 g)).append v)))
  | .p2_2 cov f g k1 k2 n1 n2 rows => do
    let c ← optOff false covTab cov
    let a ← optOff false classTab k1
    let b ← optOff false classTab k2
    let bs ← Res.mapL classRowBytes rows
    return (Tab.bytes (encU16 2)).append (c.append ((Tab.bytes (encU16 f)).append ((Tab.bytes (encU16 g)).append
      (a.append (b.append ((Tab.bytes (encU16 n1)).append ((Tab.bytes (encU16 n2)).append (.bytes bs.flatten))))))))
  | .p3_1 f cov recs => do
    let c ← optOff false covTab cov
    let v ← countedTab entryExitTab recs
    return (Tab.bytes (encU16 f)).append (c.append v)
  | .p4_1 f m b n ma ba => markTab f m b n ma ba
  | .p5_1 f m l n ma la => do
    let c ← optOff false covTab m
    let d ← optOff false covTab l
    let x ← optOff false markArrayTab ma
    let y ← optOff false ligArrayTab la
    return (Tab.bytes (encU16 f)).append (c.append (d.append ((Tab.bytes (encU16 n)).append (x.append y))))
  | .p6_1 f m b n ma ba => markTab f m b n ma ba
  | .ctx s => s.tab

/-- Reader of an `Offset16(Coverage)` field (offsets.rs:190-205, coverage.rs:34-50). -/
def readCov : Reader Cov := readOffset .w16 Coverage.read
/-- Reader of an `Offset16(ClassDef)` field (offsets.rs:190-205). -/
def readCls : Reader (Option ClassMap) := readOffset .w16 ClassDef.read

/-- The part of `deserialize_gpos1` after the common fields (gpos1.rs:37-66). Format 2 is stored with `posFormat: 1`
(line 54). -/
def read1Rest (format : UInt16) (cov : Cov) (f : UInt16) : Reader Sub :=
  if format = 1 then (do
    let v ← VR.read f
    return .p1_1 cov f v)
  else if format = 2 then (do
    let n ← readU16
    let vs ← deCounted (VR.read f) n.toNat
    return .p1_2 1 cov f vs)
  else fail

/-- `deserialize_gpos1` (gpos1.rs:30-68). -/
def read1 : Reader Sub := inTable (do
  let format ← readU16
  let cov ← readCov
  let f ← readU16
  read1Rest format cov f)

/-- One record of a pair set (gpos2.rs:91-99). -/
def readPairRec (f g : UInt16) : Reader PairRec := do
  let r ← readU16
  let a ← VR.read f
  let b ← VR.read g
  return (r, a, b)

/-- One round of the loop over coverage and offsets (gpos2.rs:83-106): the offset is followed as it is, null or not. -/
def readPairSet (f g off : UInt16) : Reader (Option (List PairRec)) := do
  let top ← topOfTable
  setPtr (top + off.toNat)
  let l ← readCounted (readPairRec f g)
  return some l

/-- The loop itself, one round per pair of glyph and offset. -/
def readPairSets (f g : UInt16) : List (UInt16 × UInt16) → Reader (List (Option (List PairRec)))
  | [] => return []
  | x :: l => do
    let s ← readPairSet f g x.2
    let r ← readPairSets f g l
    return s :: r

/-- `coverage.as_ref().unwrap()` (gpos2.rs:84): a null coverage panics, even without pair sets. -/
def unwrapCov : Cov → Reader (List UInt16)
  | none => crash
  | some gs => return gs

/-- One pair of value records of a class pair table (gpos2.rs:70-155). -/
def readClassCell (f g : UInt16) : Reader (ValueRecord × ValueRecord) := do
  let a ← VR.read f
  let b ← VR.read g
  return (a, b)

/-- The part of `deserialize_gpos2` after the common fields (gpos2.rs:79-151); an unknown format panics. -/
def read2Rest (format : UInt16) (cov : Cov) (f g : UInt16) : Reader Sub :=
  if format = 1 then (do
    let n ← readU16
    let offs ← deCounted readU16 n.toNat
    let gs ← unwrapCov cov
    let sets ← readPairSets f g (gs.zip offs)
    return .p2_1 cov f g sets)
  else if format = 2 then (do
    let k1 ← readCls
    let k2 ← readCls
    let n1 ← readU16
    let n2 ← readU16
    let rows ← deCounted (deCounted (readClassCell f g) n2.toNat) n1.toNat
    return .p2_2 cov f g k1 k2 n1 n2 rows)
  else crash

/-- `deserialize_gpos2` (gpos2.rs:69-152). -/
def read2 : Reader Sub := inTable (do
  let format ← readU16
  let cov ← readCov
  let f ← readU16
  let g ← readU16
  read2Rest format cov f g)

/-- Generated reader of `EntryExitRecord` (otspec layout/gpos3.rs:15-18). -/
def readEntryExit : Reader (AnchorLink × AnchorLink) := do
  let a ← readAnchorLink
  let b ← readAnchorLink
  return (a, b)

/-- `CursivePosFormat1` (gpos3.rs:8-14, derived reader). -/
def read3 : Reader Sub := inTable (do
  let f ← readU16
  let c ← readCov
  let l ← readCounted readEntryExit
  return .p3_1 f c l)

/-- `c.ptr = c.top_of_table() + offset` (gpos4.rs:70-71). -/
def jump (off : UInt16) : Reader Unit := do
  let top ← topOfTable
  setPtr (top + off.toNat)

/-- `MarkBasePosFormat1::from_bytes` (gpos4.rs:60-97), `MarkMarkPosFormat1::from_bytes` (gpos6.rs:60-97); `mk` says
which of the two. -/
def readMark (mk : UInt16 → Cov → Cov → UInt16 → Option (List MarkRec) → Option (List AnchorRow) → Sub) :
    Reader Sub := inTable (do
  let f ← readU16
  let m ← readCov
  let b ← readCov
  let n ← readU16
  let ma ← readOffset .w16 readMarkArray
  let off ← readU16
  jump off
  let rows ← readRows n.toNat
  return mk f m b n ma (some rows))

/-- One round of the loop over ligatures (gpos5.rs:84-112). The cursor is not put back after the attachment table
has been read. -/
def readLigAttach (n : Nat) : Reader (Option (List AnchorRow)) := do
  let off ← readU16
  followOffset off
  let rows ← readRows n
  return some rows

/-- `MarkLigPosFormat1::from_bytes` (gpos5.rs:68-127). -/
def read5 : Reader Sub := inTable (do
  let f ← readU16
  let m ← readCov
  let l ← readCov
  let n ← readU16
  let ma ← readOffset .w16 readMarkArray
  let off ← readU16
  followOffset off
  let la ← inTable (readCounted (readLigAttach n.toNat))
  return .p5_1 f m l n ma (some la))

/-- A contextual subtable (otspec contextual.rs:161-199), read as by GSUB. -/
def readCtx (ty : Nat) : Reader Sub := do
  let s ← Gsub.Sub.read ty
  return .ctx s

/-- `GPOSSubtable::deserialize` (otspec GPOS.rs:94-128) without extensions; other types are `unimplemented!()`. -/
def Sub.read : Nat → Reader Sub
  | 1 => read1
  | 2 => read2
  | 3 => read3
  | 4 => readMark .p4_1
  | 5 => read5
  | 6 => readMark .p6_1
  | 7 => readCtx 5
  | 8 => readCtx 6
  | _ => crash

/-! ### Single positioning (src/layout/gpos1.rs) -/

/-- `SinglePos.mapping` (gpos1.rs:12-17). -/
abbrev SinglePos := List (UInt16 × ValueRecord)

/-- `to_lowlevel` (gpos1.rs:45-75): with an empty mapping `next().unwrap()` panics. -/
def SinglePos.toLow (m : SinglePos) : Res Sub :=
  let vs := m.map (fun x => simplify x.2)
  let cov := some (m.map Prod.fst)
  if allSame vs then match vs with
    | [] => .panic
    | v :: _ => .ok (.p1_1 cov (flags v) v)
  else match coerceToSame vs with
    | [] => .panic
    | v :: l => .ok (.p1_2 2 cov (flags v) (v :: l))

/-- `from_lowlevel` (gpos1.rs:18-42). -/
def SinglePos.fromLow : Sub → Res SinglePos
  | .p1_1 cov _ v => .ok (BMap.collect ((covGlyphs cov).map (fun g => (g, v))))
  | .p1_2 _ cov _ vs => .ok (BMap.collect ((covGlyphs cov).zip vs))
  | _ => .panic

/-! ### Pair positioning (src/layout/gpos2.rs) -/

/-- `PairPos.mapping` (gpos2.rs:10, 14-19). -/
abbrev PairPos := List ((UInt16 × UInt16) × (ValueRecord × ValueRecord))
/-- `SplitPairPositioningMap` (gpos2.rs:12). -/
abbrev SplitPairs := List (UInt16 × List (UInt16 × (ValueRecord × ValueRecord)))

/-- `split_into_two_layer` (gpos2.rs:78-87). -/
def splitPairs (m : PairPos) : SplitPairs :=
  m.foldl (fun out x => BMap.insert out x.1.1 (BMap.insert ((BMap.get? out x.1.1).getD []) x.1.2 x.2)) []

/-- Simplification of both records (gpos2.rs:106-110). -/
def simplifyPairs (m : PairPos) : PairPos := m.map (fun x => (x.1, (simplify x.2.1, simplify x.2.2)))

/-- `to_format_1` (gpos2.rs:104-144), the only format used (gpos2.rs:90-103). Records are not brought to the common
format. -/
def PairPos.toLow (m : PairPos) : Sub :=
  let split := splitPairs (simplifyPairs m)
  let all := split.flatMap (fun x => x.2.map Prod.snd)
  .p2_1 (some (split.map Prod.fst)) (highestFormat (all.map Prod.fst)) (highestFormat (all.map Prod.snd))
    (split.map (fun x => some (x.2.map (fun y => (y.1, y.2.1, y.2.2)))))

/-- Entries of one class pair (gpos2.rs:49-69): nothing if both records are empty once simplified. -/
def classPairEntries (left right : List UInt16) (c : ValueRecord × ValueRecord) : PairPos :=
  let a := simplify c.1
  let b := simplify c.2
  if hasAny a || hasAny b then left.flatMap (fun l => right.map (fun r => ((l, r), (a, b)))) else []

/-- The two loops over classes (gpos2.rs:41-72), from classes `c1` and `c2` on. The coverage is not looked at. -/
def classRowEntries (left : List UInt16) (k2 : ClassMap) (max : UInt16) :
    Nat → List (ValueRecord × ValueRecord) → PairPos
  | _, [] => []
  | c2, c :: l => classPairEntries left (ClassDef.getGlyphs k2 (UInt16.ofNat c2) max) c ++
      classRowEntries left k2 max (c2 + 1) l
/-- Goes with `classRowEntries` (gpos2.rs:41-72). -/
def classEntries (k1 k2 : ClassMap) (max : UInt16) : Nat → List (List (ValueRecord × ValueRecord)) → PairPos
  | _, [] => []
  | c1, row :: l => classRowEntries (ClassDef.getGlyphs k1 (UInt16.ofNat c1) max) k2 max 0 row ++
      classEntries k1 k2 max (c1 + 1) l

/-- Entries of the pair sets (gpos2.rs:25-38). -/
def pairSetEntries (x : UInt16 × Option (List PairRec)) : PairPos :=
  (x.2.getD []).map (fun r => ((x.1, r.1), (r.2.1, r.2.2)))

/-- `from_lowlevel` (gpos2.rs:21-76). -/
def PairPos.fromLow (max : UInt16) : Sub → Res PairPos
  | .p2_1 cov _ _ sets => .ok (BMap.collect (((covGlyphs cov).zip sets).flatMap pairSetEntries))
  | .p2_2 _ _ _ k1 k2 _ _ rows => .ok (BMap.collect (classEntries (k1.getD []) (k2.getD []) max 0 rows))
  | _ => .panic

/-! ### Cursive attachment (src/layout/gpos3.rs) -/

/-- `CursivePos.mapping` (gpos3.rs:10-15): entry and exit anchors. -/
abbrev CursivePos := List (UInt16 × (Option Anchor × Option Anchor))

/-- `to_lowlevel` (gpos3.rs:38-57). -/
def CursivePos.toLow (m : CursivePos) : Sub := .p3_1 1 (some (m.map Prod.fst)) (m.map Prod.snd)
/-- `from_lowlevel` (gpos3.rs:17-36). -/
def CursivePos.fromLow : Sub → Res CursivePos
  | .p3_1 _ cov l => .ok (BMap.collect ((covGlyphs cov).zip l))
  | _ => .panic

/-! ### Mark attachment (src/layout/gpos4.rs, gpos5.rs, gpos6.rs) -/

/-- Marks: class and anchor of each glyph. -/
abbrev Marks := List (UInt16 × (UInt16 × Anchor))
/-- Anchors by class. -/
abbrev AnchorMap := List (UInt16 × Anchor)

/-- The counting closure (gpos4.rs:68-77, gpos5.rs:77-86, gpos6.rs:77-85): `class + 1` panics on overflow. -/
def classCount : Marks → Nat → Res Nat
  | [], n => .ok n
  | x :: l, n => if x.2.1.toNat + 1 > 65535 then .panic else classCount l (max n (x.2.1.toNat + 1))

/-- Mark records (gpos4.rs:73-76). -/
def markRecs (ms : Marks) : List MarkRec := ms.map (fun x => (x.2.1, some x.2.2))

/-- The anchors of one base for classes below `n` (gpos4.rs:86-93). -/
def anchorRow (n : Nat) (b : AnchorMap) : AnchorRow := (List.range n).map (fun i => BMap.get? b (UInt16.ofNat i))

/-- Reading marks back (gpos4.rs:31-41): `markAnchor.link.unwrap_or_default()`. -/
def marksFrom (cov : Cov) (ma : Option (List MarkRec)) : Marks :=
  BMap.collect ((covGlyphs cov).zip ((ma.getD []).map (fun r => (r.1, r.2.getD Anchor.zero))))

/-- Reading one row of anchors (gpos4.rs:45-52), from class `i` on; `class as u16` truncates. -/
def rowEntries : Nat → AnchorRow → List (UInt16 × Anchor)
  | _, [] => []
  | i, none :: l => rowEntries (i + 1) l
  | i, some a :: l => (UInt16.ofNat i, a) :: rowEntries (i + 1) l
/-- Goes with `rowEntries` (gpos4.rs:45-52). -/
def rowFrom (r : AnchorRow) : AnchorMap := BMap.collect (rowEntries 0 r)

/-- `MarkBasePos` (gpos4.rs:12-20), `MarkMarkPos` (gpos6.rs:12-20). -/
structure MarkPos where
  bases : List (UInt16 × AnchorMap)
  marks : Marks
  deriving DecidableEq, Repr

/-- `MarkBasePos::to_lowlevel` (gpos4.rs:63-113), `MarkMarkPos::to_lowlevel` (gpos6.rs:70-119). -/
def MarkPos.toLow (mk : UInt16 → Cov → Cov → UInt16 → Option (List MarkRec) → Option (List AnchorRow) → Sub)
    (p : MarkPos) : Res Sub := do
  let n ← classCount p.marks 0
  return mk 1 (some (p.marks.map Prod.fst)) (some (p.bases.map Prod.fst)) (UInt16.ofNat n) (some (markRecs p.marks))
    (some (p.bases.map (fun x => anchorRow n x.2)))

/-- The shared part of the two `from_lowlevel` functions (gpos4.rs:25-56, gpos6.rs:25-64). -/
def MarkPos.build (m b : Cov) (ma : Option (List MarkRec)) (ba : Option (List AnchorRow)) : MarkPos :=
  ⟨BMap.collect ((covGlyphs b).zip ((ba.getD []).map rowFrom)), marksFrom m ma⟩

/-- `MarkBasePos::from_lowlevel` (gpos4.rs:22-61). -/
def MarkPos.fromLow4 : Sub → Res MarkPos
  | .p4_1 _ m b _ ma ba => .ok (MarkPos.build m b ma ba)
  | _ => .panic
/-- `MarkMarkPos::from_lowlevel` (gpos6.rs:22-69). -/
def MarkPos.fromLow6 : Sub → Res MarkPos
  | .p6_1 _ m b _ ma ba => .ok (MarkPos.build m b ma ba)
  | _ => .panic

/-- `MarkLigPos` (gpos5.rs:12-20): the anchors of each component of each ligature. -/
structure MarkLigPos where
  ligatures : List (UInt16 × List AnchorMap)
  marks : Marks
  deriving DecidableEq, Repr

/-- `to_lowlevel` (gpos5.rs:72-129). -/
def MarkLigPos.toLow (p : MarkLigPos) : Res Sub := do
  let n ← classCount p.marks 0
  return .p5_1 1 (some (p.marks.map Prod.fst)) (some (p.ligatures.map Prod.fst)) (UInt16.ofNat n)
    (some (markRecs p.marks)) (some (p.ligatures.map (fun x => some (x.2.map (anchorRow n)))))

/-- `from_lowlevel` (gpos5.rs:22-70). -/
def MarkLigPos.fromLow : Sub → Res MarkLigPos
  | .p5_1 _ m l _ ma la => .ok ⟨BMap.collect ((covGlyphs l).zip ((la.getD []).map (fun x => (x.getD []).map rowFrom))),
      marksFrom m ma⟩
  | _ => .panic

end FT.Gpos
