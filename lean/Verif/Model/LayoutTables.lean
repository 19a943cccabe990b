import Verif.Model.LayoutBase
import Verif.Model.BTree

/-!
Script lists, feature lists, lookup lists and the GSUB/GPOS header, for any kind of subtable:
crates/otspec/src/layout/common.rs, crates/otspec/src/tables/{GSUB,GPOS}.rs (which contain the same code twice)
and src/layout/common.rs.
-/

namespace FT

/-- The derived `Ord` on `Tag([u8; 4])` (tag.rs:14) is lexicographic, which is the order of the big-endian numbers. -/
def Tag.num (t : Tag) : Nat := t.a.toNat * 16777216 + t.b.toNat * 65536 + t.c.toNat * 256 + t.d.toNat

instance : Key Tag where
  lt a b := decide (a.num < b.num)
  irrefl a := by simp
  trans a b c h1 h2 := by simp at *; omega
  tri a b h1 h2 := by
    have h1 := of_decide_eq_false h1
    have h2 := of_decide_eq_false h2
    obtain ⟨a1, a2, a3, a4⟩ := a
    obtain ⟨b1, b2, b3, b4⟩ := b
    simp only [Tag.num] at h1 h2
    have := a1.toNat_lt; have := a2.toNat_lt; have := a3.toNat_lt; have := a4.toNat_lt
    have := b1.toNat_lt; have := b2.toNat_lt; have := b3.toNat_lt; have := b4.toNat_lt
    rw [UInt8.toNat_inj.mp (show a1.toNat = b1.toNat by omega), UInt8.toNat_inj.mp (show a2.toNat = b2.toNat by omega),
      UInt8.toNat_inj.mp (show a3.toNat = b3.toNat by omega), UInt8.toNat_inj.mp (show a4.toNat = b4.toNat by omega)]

end FT

namespace FT.Lay
open FT Reader FT.Off

/-! ### Binary structures -/

/-- `LangSys` (otspec layout/common.rs:29-33). -/
structure LangSys where
  lookupOrder : UInt16
  required : UInt16
  features : List UInt16
  deriving DecidableEq, Repr

/-- Goes with `LangSys` (layout/common.rs:29-33). -/
def LangSys.tab (l : LangSys) : Res Tab := .ok (.bytes (encU16 l.lookupOrder ++ (encU16 l.required ++ u16s l.features)))
/-- No `offset_base`, so no table base is pushed. (common.rs:29-33.) -/
def LangSys.read : Reader LangSys := do
  let a ← readU16
  let b ← readU16
  let c ← readU16s
  return ⟨a, b, c⟩

/-- A counted, embedded vector of records (tag, 16-bit offset): `ScriptRecord` (common.rs:15-18), `LangSysRecord`
(25-28), `FeatureRecord` (39-42). -/
def tagRecTab {α : Type} (f : α → Res Tab) (x : Tag × Option α) : Res Tab := match optOff true f x.2 with
  | .ok t => .ok ((Tab.bytes (encTag x.1)).append t)
  | .err => .err
  | .panic => .panic
/-- Goes with `tagRecTab` (common.rs:15-18). -/
def tagRecs {α : Type} (f : α → Res Tab) (l : List (Tag × Option α)) : Res Tab :=
  match Res.mapL (tagRecTab f) l with
  | .ok ts => .ok ((Tab.bytes (encU16 (UInt16.ofNat l.length))).append (Tab.concat ts))
  | .err => .err
  | .panic => .panic

/-- Goes with `tagRecTab` (common.rs:15-18). -/
def readTagRec {α : Type} (q : Reader α) : Reader (Tag × Option α) := do
  let t ← readTag
  let x ← readOffset .w16 q
  return (t, x)

/-- Goes with `tagRecTab` (common.rs:15-18). -/
def readTagRecs {α : Type} (q : Reader α) : Reader (List (Tag × Option α)) := readCounted (readTagRec q)

/-- `Script` (common.rs:19-24). -/
structure ScriptLow where
  dflt : Option LangSys
  langs : List (Tag × Option LangSys)
  deriving DecidableEq, Repr

/-- Goes with `ScriptLow` (common.rs:19-24). -/
def ScriptLow.tab (s : ScriptLow) : Res Tab := do
  let d ← optOff false LangSys.tab s.dflt
  let r ← tagRecs LangSys.tab s.langs
  return d.append r
/-- Goes with `ScriptLow` (common.rs:19-24). -/
def ScriptLow.read : Reader ScriptLow := inTable (do
  let d ← readOffset .w16 LangSys.read
  let r ← readTagRecs LangSys.read
  return ⟨d, r⟩)

/-- `ScriptList` (common.rs:10-14). -/
abbrev ScriptListLow := List (Tag × Option ScriptLow)
/-- Goes with `ScriptListLow` (common.rs:10-14). -/
def scriptListTab (l : ScriptListLow) : Res Tab := tagRecs ScriptLow.tab l
/-- Goes with `ScriptListLow` (common.rs:10-14). -/
def readScriptList : Reader ScriptListLow := inTable (readTagRecs ScriptLow.read)

/-- `FeatureTable` (common.rs:43-46). The parameter offset is a plain number here: it is not followed. -/
structure FeatureTable where
  params : UInt16
  lookups : List UInt16
  deriving DecidableEq, Repr

/-- Goes with `FeatureTable` (common.rs:43-46). -/
def FeatureTable.tab (t : FeatureTable) : Res Tab := .ok (.bytes (encU16 t.params ++ u16s t.lookups))
/-- Goes with `FeatureTable` (common.rs:43-46). -/
def FeatureTable.read : Reader FeatureTable := do
  let a ← readU16
  let b ← readU16s
  return ⟨a, b⟩

/-- `FeatureList` (common.rs:34-38). -/
abbrev FeatureListLow := List (Tag × Option FeatureTable)
/-- Goes with `FeatureListLow` (common.rs:34-38). -/
def featureListTab (l : FeatureListLow) : Res Tab := tagRecs FeatureTable.tab l
/-- Goes with `FeatureListLow` (common.rs:34-38). -/
def readFeatureList : Reader FeatureListLow := inTable (readTagRecs FeatureTable.read)

/-- `GSUBLookup` / `GPOSLookup` (GSUB.rs:54-60, GPOS.rs:53-59). Simplification: every subtable offset is linked (the
reader always links, GSUB.rs:139-147, and `to_lowlevel` never makes null links). -/
structure LookupLow (S : Type) where
  type : UInt16
  flag : UInt16
  subs : List S
  mfs : Option UInt16
  deriving DecidableEq, Repr

/-- `lookupFlag.contains(LookupFlags::USE_MARK_FILTERING_SET)`. (common.rs:164.) -/
def usesMfs (flag : UInt16) : Bool := flag &&& 0x10 == 0x10

/-- The mark filtering set (GSUB.rs:68-73): `data.put(self.markFilteringSet)?` if the flag is set; `None` writes
nothing. Simplification: in that last case `ot_binary_size` counts two bytes that are not written
(GSUB.rs:81-91), so everything after the lookup would be misplaced; theorems about lookups assume that the set is
given exactly if the flag says so. -/
def mfsTab (flag : UInt16) (mfs : Option UInt16) : Tab :=
  if usesMfs flag then (match mfs with
    | some x => .bytes (encU16 x)
    | none => .nil)
  else .nil

/-- `GSUBLookup::to_bytes` (GSUB.rs:62-92) / `GPOSLookup::to_bytes` (GPOS.rs:61-92), `f` writing a subtable. -/
def lookupTab {S : Type} (f : S → Res Tab) (l : LookupLow S) : Res Tab :=
  match Res.mapL (fun s => optOff true f (some s)) l.subs with
  | .ok ts => .ok ((Tab.bytes (encU16 l.type)).append ((Tab.bytes (encU16 l.flag)).append
      ((Tab.bytes (encU16 (UInt16.ofNat l.subs.length))).append ((Tab.concat ts).append (mfsTab l.flag l.mfs)))))
  | .err => .err
  | .panic => .panic

/-- One round of the subtable loop (GSUB.rs:139-147): the offset is followed without checking for null or for the end
of the input. -/
def readSubAt {S : Type} (q : Reader S) : Reader S := do
  let off ← readU16
  let save ← getPtr
  let top ← topOfTable
  setPtr (top + off.toNat)
  let s ← q
  setPtr save
  return s

/-- The mark filtering set, read when the flag says so (otspec GSUB.rs:146-151, GPOS.rs:149-154). -/
def readMfs (flag : UInt16) : Reader (Option UInt16) :=
  if usesMfs flag then (do let x ← readU16; return some x) else pure none

/-- `GSUBLookup::from_bytes` (GSUB.rs:128-160) / `GPOSLookup::from_bytes` (GPOS.rs:130-163). -/
def readLookup {S : Type} (q : Nat → Reader S) : Reader (LookupLow S) := inTable (do
  let ty ← readU16
  let flag ← readU16
  let n ← readU16
  let subs ← deCounted (readSubAt (q ty.toNat)) n.toNat
  let mfs ← readMfs flag
  return ⟨ty, flag, subs, mfs⟩)

/-- `GSUBLookupList` (GSUB.rs:32-35). -/
abbrev LookupListLow (S : Type) := List (Option (LookupLow S))
/-- Goes with `LookupListLow` (GSUB.rs:32-35). -/
def lookupListTab {S : Type} (f : S → Res Tab) (l : LookupListLow S) : Res Tab := offVec (lookupTab f) l
/-- Goes with `LookupListLow` (GSUB.rs:32-35). -/
def readLookupList {S : Type} (q : Nat → Reader S) : Reader (LookupListLow S) := inTable (readOffVec (readLookup q))

/-- `GSUB10` (GSUB.rs:17-23), `GPOS10` (GPOS.rs:18-24). -/
structure TableLow (S : Type) where
  major : UInt16
  minor : UInt16
  scripts : Option ScriptListLow
  features : Option FeatureListLow
  lookups : Option (LookupListLow S)
  deriving DecidableEq, Repr

/-- Goes with `TableLow` (GSUB.rs:17-23; GPOS.rs:18-24). -/
def TableLow.tab {S : Type} (f : S → Res Tab) (t : TableLow S) : Res Tab := do
  let s ← optOff false scriptListTab t.scripts
  let fe ← optOff false featureListTab t.features
  let l ← optOff false (lookupListTab f) t.lookups
  return (Tab.bytes (encU16 t.major)).append ((Tab.bytes (encU16 t.minor)).append (s.append (fe.append l)))

/-- The header has no `offset_base`: its offsets count from the bottom of the reader's stack. (GSUB.rs:17-23,
GPOS.rs:18-24.) -/
def TableLow.read {S : Type} (q : Nat → Reader S) : Reader (TableLow S) := do
  let a ← readU16
  let b ← readU16
  let s ← readOffset .w16 readScriptList
  let f ← readOffset .w16 readFeatureList
  let l ← readOffset .w16 (readLookupList q)
  return ⟨a, b, s, f, l⟩

/-! ### User-facing structures (src/layout/common.rs) -/

/-- `LanguageSystem` (common.rs:53-61). -/
structure LanguageSystem where
  required : Option Nat
  features : List Nat
  deriving DecidableEq, Repr

/-- `From<&LangSys> for LanguageSystem` (common.rs:63-74). -/
def LanguageSystem.ofLow (l : LangSys) : LanguageSystem :=
  ⟨if l.required.toNat ≠ 0xFFFF then some l.required.toNat else none, l.features.map UInt16.toNat⟩

/-- `From<&LanguageSystem> for LangSys` (common.rs:76-84); `as u16` truncates. -/
def LanguageSystem.toLow (l : LanguageSystem) : LangSys :=
  ⟨0, UInt16.ofNat (l.required.getD 0xFFFF), l.features.map UInt16.ofNat⟩

/-- `Script` (common.rs:43-49): the language map in key order. -/
structure Script where
  dflt : Option LanguageSystem
  langs : List (Tag × LanguageSystem)
  deriving DecidableEq, Repr

/-- `x.link.unwrap()` on the link of a tagged record. -/
def unwrapRec {α β : Type} (f : α → Res β) (x : Tag × Option α) : Res (Tag × β) := match x.2 with
  | none => .panic
  | some a => match f a with
    | .ok b => .ok (x.1, b)
    | .err => .err
    | .panic => .panic

/-- `From<&ScriptLowLevel> for Script` (common.rs:86-99). -/
def Script.ofLow (s : ScriptLow) : Res Script :=
  match Res.mapL (unwrapRec (fun l => .ok (LanguageSystem.ofLow l))) s.langs with
  | .ok l => .ok ⟨s.dflt.map LanguageSystem.ofLow, BMap.collect l⟩
  | .err => .err
  | .panic => .panic

/-- `From<&Script> for ScriptLowLevel` (common.rs:101-125). -/
def Script.toLow (s : Script) : ScriptLow :=
  ⟨s.dflt.map LanguageSystem.toLow, s.langs.map (fun x => (x.1, some x.2.toLow))⟩

/-- `ScriptList` (common.rs:35-39). -/
abbrev ScriptList := List (Tag × Script)

/-- `From<&ScriptList> for ScriptListLowLevel` (common.rs:127-144). -/
def ScriptList.toLow (l : ScriptList) : ScriptListLow := l.map (fun x => (x.1, some x.2.toLow))

/-- `From<ScriptListLowLevel> for ScriptList` (common.rs:146-156). -/
def ScriptList.ofLow (l : ScriptListLow) : Res ScriptList := match Res.mapL (unwrapRec Script.ofLow) l with
  | .ok l => .ok (BMap.collect l)
  | .err => .err
  | .panic => .panic

/-- `FeatureParams` (otspec layout/common.rs:137-149). -/
inductive FeatureParams where
  | stylisticSet (version nameId : UInt16)
  | sizeFeature (designSize subfamily nameId smallest largest : UInt16)
  | characterVariant (format label tooltip sample count first : UInt16)
  deriving DecidableEq, Repr

/-- `FeatureList` (common.rs:170-175): (tag, lookup indices, parameters). -/
abbrev FeatureList := List (Tag × List Nat × Option FeatureParams)

/-- `From<FeatureListLowLevel> for FeatureList` (common.rs:216-227). -/
def FeatureList.ofLow (l : FeatureListLow) : Res FeatureList :=
  Res.mapL (unwrapRec (fun t => .ok (t.lookups.map UInt16.toNat, none))) l

/-- `From<&FeatureList> for FeatureListLowLevel` (common.rs:229-246): the parameters are dropped. -/
def FeatureList.toLow (l : FeatureList) : FeatureListLow :=
  l.map (fun x => (x.1, some ⟨0, x.2.1.map UInt16.ofNat⟩))

/-- `Lookup<T>` (common.rs:158-167). -/
structure Lookup (R : Type) where
  flags : UInt16
  mfs : Option UInt16
  rule : R
  deriving DecidableEq, Repr

/-- `GPOSGSUB<T>` (common.rs:248-259). -/
structure GposGsub (R : Type) where
  lookups : List (Lookup R)
  scripts : ScriptList
  features : FeatureList
  deriving DecidableEq, Repr

/-- `Lookup::to_lowlevel` (GSUB.rs:204-255, GPOS.rs:210-271), given the type number and subtables of a rule. -/
def Lookup.toLow {R S : Type} (ty : R → UInt16) (subs : R → Res (List S)) (l : Lookup R) : Res (LookupLow S) :=
  match subs l.rule with
  | .ok ss => .ok ⟨ty l.rule, l.flags, ss, l.mfs⟩
  | .err => .err
  | .panic => .panic

/-- `GSUB::to_lowlevel` (src/tables/GSUB.rs:256-273), `GPOS::to_lowlevel` (src/tables/GPOS.rs:272-289). -/
def GposGsub.toLow {R S : Type} (ty : R → UInt16) (subs : R → Res (List S)) (g : GposGsub R) : Res (TableLow S) :=
  match Res.mapL (Lookup.toLow ty subs) g.lookups with
  | .ok ls => .ok ⟨1, 0, some g.scripts.toLow, some g.features.toLow, some (ls.map some)⟩
  | .err => .err
  | .panic => .panic

/-- `to_bytes` (src/tables/GSUB.rs:274-281, GPOS.rs:290-297). -/
def GposGsub.toBytes {R S : Type} (ty : R → UInt16) (subs : R → Res (List S)) (f : S → Res Tab) (g : GposGsub R) :
    Res Bytes := do
  let low ← g.toLow ty subs
  let t ← TableLow.tab f low
  Off.toBytes t

/-- One lookup of the loop in `from_lowlevel` (GSUB.rs:178-194, GPOS.rs:183-200). -/
def Lookup.ofLow {R S : Type} (rule : Nat → List S → Res R) (l : LookupLow S) : Res (Lookup R) :=
  match rule l.type.toNat l.subs with
  | .ok r => .ok ⟨l.flag, l.mfs, r⟩
  | .err => .err
  | .panic => .panic

/-- `from_lowlevel` (src/tables/GSUB.rs:173-202, GPOS.rs:178-208): null lookups are skipped, null lists are empty. -/
def GposGsub.ofLow {R S : Type} (rule : Nat → List S → Res R) (t : TableLow S) : Res (GposGsub R) := do
  let ls ← Res.mapL (Lookup.ofLow rule) ((t.lookups.getD []).filterMap id)
  let s ← ScriptList.ofLow (t.scripts.getD [])
  let f ← FeatureList.ofLow (t.features.getD [])
  return ⟨ls, s, f⟩

/-- `from_bytes` (src/tables/GSUB.rs:74-91, GPOS.rs:78-95). -/
def GposGsub.read {R S : Type} (q : Nat → Reader S) (rule : Nat → List S → Res R) : Reader (GposGsub R) := do
  let v ← peek 4
  if v = [0, 1, 0, 0] then do
    let t ← TableLow.read q
    Reader.lift (GposGsub.ofLow rule t)
  else fail

end FT.Lay
