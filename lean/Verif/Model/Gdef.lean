import Verif.Model.LayoutBase
import Verif.Model.Device
import Verif.Model.ItemVar

/-!
The GDEF table: src/tables/GDEF.rs.
-/

namespace FT.Gdef
open FT Reader FT.Off FT.Lay

/-- `GlyphClass` (lines 158-169). -/
inductive GlyphClass where
  | base
  | ligature
  | mark
  | component
  deriving DecidableEq, Repr

/-- `v as u16` (line 301). -/
def GlyphClass.num : GlyphClass → UInt16
  | .base => 1
  | .ligature => 2
  | .mark => 3
  | .component => 4

/-- `From<u16> for GlyphClass` (lines 170-179). -/
def GlyphClass.ofNum (n : UInt16) : GlyphClass :=
  if n = 2 then .ligature else if n = 3 then .mark else if n = 4 then .component else .base

/-- The `Offset16<Device>` of a caret: null; or linked, `known` saying whether the stored offset is set (it is in a
value that was read, and not in a value built with `Offset16::to`, offsets.rs:54-77). -/
inductive DevLink where
  | null
  | dev (known : Bool) (d : Device.Device)
  deriving DecidableEq

/-- `CaretValue` (lines 78-99). -/
inductive Caret where
  | format1 (coordinate : Int16)
  | format2 (pointIndex : UInt16)
  | format3 (coordinate : Int16) (device : DevLink)
  deriving DecidableEq

/-- `CaretValue` as a linked table (lines 100-131). `to_bytes` is hand-written and `ot_binary_size` is the default,
`to_bytes` unwrapped (otspec lib.rs:142-147): as that happens before offsets are resolved, a device whose offset is not
known panics. -/
def caretTab : Caret → Res Tab
  | .format1 c => .ok (.bytes (encU16 1 ++ encI16 c))
  | .format2 p => .ok (.bytes (encU16 2 ++ encU16 p))
  | .format3 c .null => .ok ((Tab.bytes (encU16 3 ++ encI16 c)).append (.nullOff .w16))
  | .format3 _ (.dev false _) => .panic
  | .format3 c (.dev true d) => match Device.toBytes d with
    | .ok bs => .ok ((Tab.bytes (encU16 3 ++ encI16 c)).append (.off16 (.bytes bs)))
    | _ => .panic

/-- A device as read (GDEF.rs:134-150, the third format): no stored offset is kept. -/
def DevLink.ofRead : Option Device.Device → DevLink
  | none => .null
  | some d => .dev true d

/-- `CaretValue::from_bytes` (lines 133-155): no `push`, so the device offset is relative to the enclosing table. -/
def readCaret : Reader Caret := do
  let format ← readU16
  if format = 1 then do
    let c ← readI16
    return .format1 c
  else if format = 2 then do
    let p ← readU16
    return .format2 p
  else if format = 3 then do
    let c ← readI16
    let d ← readOffset .w16 Device.read
    return .format3 c (DevLink.ofRead d)
  else fail

/-- `GDEF` (lines 180-196); maps as ascending lists, sets of glyphs as ascending lists. -/
structure GDEF where
  glyphClass : List (UInt16 × GlyphClass)
  attach : List (UInt16 × List UInt16)
  carets : List (UInt16 × List Caret)
  markClass : List (UInt16 × UInt16)
  markSets : Option (List (List UInt16))
  store : Option ItemVar.Store
  deriving DecidableEq

/-- `AttachList` (lines 51-59) of `apl_to_offset` (lines 306-325). -/
def attachTab (m : List (UInt16 × List UInt16)) : Res Tab := do
  let cov ← covTab (m.map Prod.fst)
  let pts ← offVec (fun l => .ok (.bytes (u16s l))) (m.map (fun x => some x.2))
  return (Tab.off16 cov).append pts

/-- `LigGlyph` (lines 67-70). -/
def ligGlyphTab (l : List (Option Caret)) : Res Tab := offVec caretTab l

/-- `LigCaretList` (lines 61-65) of `lcl_to_offset` (lines 335-361). -/
def caretsTab (m : List (UInt16 × List Caret)) : Res Tab := do
  let cov ← covTab (m.map Prod.fst)
  let gs ← offVec ligGlyphTab (m.map (fun x => some (x.2.map some)))
  return (Tab.off16 cov).append gs

/-- An offset to a coverage table in `MarkGlyphSets`. (GDEF.rs:71-74.) -/
def setLink (gs : List UInt16) : Res Tab := do
  let c ← covTab gs
  return .link .w32 true false none c .nil

/-- `MarkGlyphSets` (lines 72-75) of `mgs_to_offset` (lines 362-379). -/
def setsTab (l : List (List UInt16)) : Res Tab := do
  let ts ← Res.mapL setLink l
  return (Tab.bytes (encU16 1 ++ encU16 (UInt16.ofNat l.length))).append (Tab.concat ts)

/-- `gcd_to_offset` and the others give null for an empty map (lines 292-361). -/
def mapOff {α : Type} (f : List α → Res Tab) (m : List α) : Res Tab :=
  if m.isEmpty then .ok (.nullOff .w16) else optOff false f (some m)

/-- The itemVarStore field of `gdefcore13` (lines 40-49, 407-411): the store writes itself, with offsets relative to its
own start; its size is found by unwrapping `to_bytes`. -/
def storeLink (s : ItemVar.Store) : Res Tab := match ItemVar.encStore s with
  | .ok bs => .ok (.link .w32 false false none (.bytes bs) .nil)
  | _ => .panic

/-- The field of the item variation store when the table is written (GDEF.rs:283-293). -/
def storeField : Option ItemVar.Store → Res Tab
  | none => .ok .nil
  | some s => storeLink s

/-- `gdefcore12` and `gdefcore13` of a GDEF table (lines 30-49, 382-413); version 1.3 if there is an item variation
store (lines 278-288). -/
def gdefTab (g : GDEF) : Res Tab := do
  let gc ← mapOff classTab (g.glyphClass.map (fun x => (x.1, x.2.num)))
  let al ← mapOff attachTab g.attach
  let lc ← mapOff caretsTab g.carets
  let mc ← mapOff classTab g.markClass
  let ms ← optOff false setsTab g.markSets
  let st ← storeField g.store
  return (Tab.bytes (encU16 1)).append ((Tab.bytes (encU16 (if g.store.isSome then 3 else 2))).append
    (gc.append (al.append (lc.append (mc.append (ms.append st))))))

/-- `GDEF::to_bytes`. (GDEF.rs:283-293.) -/
def encGdef (g : GDEF) : Res Bytes := do toBytes (← gdefTab g)

/-- One glyph of `From<AttachList>`. (GDEF.rs:208-223.) -/
def attachEntry (p : UInt16 × Option (List UInt16)) : Res (UInt16 × List UInt16) := do
  let pts ← Res.unwrap p.2
  return (p.1, pts)

/-- `From<AttachList>` (lines 209-226): null offsets panic. -/
def attachMap (x : Cov × List (Option (List UInt16))) : Res (List (UInt16 × List UInt16)) := do
  let gs ← Res.unwrap x.1
  let l ← Res.mapL attachEntry (gs.zip x.2)
  return BMap.collect l

/-- One glyph of `From<LigCaretList>`. (GDEF.rs:225-243.) -/
def caretEntry (p : UInt16 × Option (List (Option Caret))) : Res (Option (UInt16 × List Caret)) := match p.2 with
  | none => .ok none
  | some cs => do
    let v ← Res.mapL Res.unwrap cs
    return some (p.1, v)

/-- `From<LigCaretList>` (lines 228-248): glyphs with a null offset are skipped, null carets panic. -/
def caretMap (x : Cov × List (Option (List (Option Caret)))) : Res (List (UInt16 × List Caret)) := do
  let l ← Res.mapL caretEntry ((covGlyphs x.1).zip x.2)
  return BMap.collect (l.filterMap id)

/-- `BTreeSet::from_iter`. (GDEF.rs:202.) -/
def setOf (gs : List UInt16) : List UInt16 := (BMap.collect (gs.map (fun g => (g, ())))).map Prod.fst

/-- `From<MarkGlyphSets>` (lines 198-207). -/
def setList (l : List Cov) : Res (List (List UInt16)) :=
  Res.mapL (fun c => do
    let gs ← Res.unwrap c
    return setOf gs) l

/-- Generated reader of `AttachList` (GDEF.rs:51-55). -/
def readAttachList : Reader (Cov × List (Option (List UInt16))) := inTable do
  let c ← readOffset .w16 Coverage.read
  let l ← readOffVec readU16s
  return (c, l)

/-- Generated reader of `LigGlyph` (GDEF.rs:67-70). -/
def readLigGlyph : Reader (List (Option Caret)) := inTable (readOffVec readCaret)

/-- Generated reader of `LigCaretList` (GDEF.rs:61-65). -/
def readLigCaretList : Reader (Cov × List (Option (List (Option Caret)))) := inTable do
  let c ← readOffset .w16 Coverage.read
  let l ← readOffVec readLigGlyph
  return (c, l)

/-- `MarkGlyphSets` has no `offset_base`: its offsets are relative to the enclosing table. (GDEF.rs:72-75.) -/
def readMarkSets : Reader (List Cov) := do
  let _ ← readU16
  readCounted (readOffset .w32 Coverage.read)

/-- `link.map_or_else(BTreeMap::new, …)`. -/
def orEmpty {α β : Type} (f : α → Res (List β)) : Option α → Res (List β)
  | none => .ok []
  | some a => f a

/-- `internal.link.map(|x| x.into())` (line 255). -/
def optInto {α β : Type} (f : α → Res β) : Option α → Res (Option β)
  | none => .ok none
  | some a => match f a with
    | .ok b => .ok (some b)
    | .err => .err
    | .panic => .panic

/-- Goes with `optInto` (line 255). -/
def readSetsField (minor : UInt16) : Reader (Option (List (List UInt16))) :=
  if minor.toNat > 1 then do
    let o ← readOffset .w16 readMarkSets
    Reader.lift (optInto setList o)
  else return none

/-- Goes with `optInto` (line 255). -/
def readStoreField (minor : UInt16) : Reader (Option ItemVar.Store) :=
  if minor.toNat > 2 then readOffset .w32 ItemVar.readStore else return none

/-- `GDEF::from_bytes` (lines 247-280). The core has no `offset_base`: offsets are relative to the start of the data. -/
def readGdef : Reader GDEF := do
  let _ ← readU16
  let minor ← readU16
  let gc ← readOffset .w16 ClassDef.read
  let al ← readOffset .w16 readAttachList
  let lc ← readOffset .w16 readLigCaretList
  let mc ← readOffset .w16 ClassDef.read
  let markSets ← readSetsField minor
  let store ← readStoreField minor
  let attach ← Reader.lift (orEmpty attachMap al)
  let carets ← Reader.lift (orEmpty caretMap lc)
  return { glyphClass := (gc.getD []).map (fun x => (x.1, GlyphClass.ofNum x.2)), attach, carets,
           markClass := mc.getD [], markSets, store }

end FT.Gdef
