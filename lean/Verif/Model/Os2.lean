import Verif.Model.SimpleTables

/-! The `OS/2` table: src/tables/os2.rs, and the bit fields of crates/otspec/src/utils.rs. -/

namespace FT.Os2
open FT Reader

/-! ### Bit fields -/

/-- Checked addition of `u32`. -/
def addU32 (a b : UInt32) : Res UInt32 := if a.toNat + b.toNat < 2 ^ 32 then .ok (a + b) else .panic

/-- `2_u32.pow(k)`. -/
def pow2 (k : Nat) : Res UInt32 := if k < 32 then .ok (UInt32.ofNat (2 ^ k)) else .panic

/-- `filtered_bitset_to_num` (utils.rs:11-15): the iterator is the list of its items. -/
def filteredBitset (bs : List UInt8) (low high : UInt8) : Res UInt32 := go (bs.filter fun x => decide (low ≤ x) && decide (x ≤ high)) 0
where
  go : List UInt8 → UInt32 → Res UInt32
    | [], acc => .ok acc
    | x :: rest, acc => do
      let p ← pow2 (x - low).toNat
      let s ← addU32 acc p
      go rest s

/-- `int_list_to_num` (utils.rs:2-8): shifting by 32 or more is an overflow. -/
def intListToNum (l : List UInt8) : Res UInt32 := go l 0
where
  go : List UInt8 → UInt32 → Res UInt32
    | [], acc => .ok acc
    | x :: rest, acc => if x.toNat < 32 then go rest (acc ||| UInt32.ofNat (2 ^ x.toNat)) else .panic

/-! ### The table -/

/-- `Panose` (os2.rs:215-226). -/
structure Panose where
  panose0 : UInt8
  panose1 : UInt8
  panose2 : UInt8
  panose3 : UInt8
  panose4 : UInt8
  panose5 : UInt8
  panose6 : UInt8
  panose7 : UInt8
  panose8 : UInt8
  panose9 : UInt8
deriving DecidableEq

/-- Goes with `Panose` (os2.rs:215-226). -/
def encPanose (p : Panose) : Bytes :=
  encU8 p.panose0 ++ (encU8 p.panose1 ++ (encU8 p.panose2 ++ (encU8 p.panose3 ++ (encU8 p.panose4 ++ (encU8 p.panose5 ++ (encU8 p.panose6 ++ (encU8 p.panose7 ++ (encU8 p.panose8 ++ (encU8 p.panose9)))))))))
/-- Goes with `Panose` (os2.rs:215-226). -/
def readPanose : Reader Panose := do
  let panose0 ← readU8
  let panose1 ← readU8
  let panose2 ← readU8
  let panose3 ← readU8
  let panose4 ← readU8
  let panose5 ← readU8
  let panose6 ← readU8
  let panose7 ← readU8
  let panose8 ← readU8
  let panose9 ← readU8
  return { panose0, panose1, panose2, panose3, panose4, panose5, panose6, panose7, panose8, panose9 }

/-- `os2core` (os2.rs:227-258). -/
structure Core where
  version : UInt16
  xAvgCharWidth : Int16
  usWeightClass : UInt16
  usWidthClass : UInt16
  fsType : UInt16
  ySubscriptXSize : Int16
  ySubscriptYSize : Int16
  ySubscriptXOffset : Int16
  ySubscriptYOffset : Int16
  ySuperscriptXSize : Int16
  ySuperscriptYSize : Int16
  ySuperscriptXOffset : Int16
  ySuperscriptYOffset : Int16
  yStrikeoutSize : Int16
  yStrikeoutPosition : Int16
  sFamilyClass : Int16
  panose : Panose
  ulUnicodeRange1 : UInt32
  ulUnicodeRange2 : UInt32
  ulUnicodeRange3 : UInt32
  ulUnicodeRange4 : UInt32
  achVendID : Tag
  fsSelection : UInt16
  usFirstCharIndex : UInt16
  usLastCharIndex : UInt16
  sTypoAscender : Int16
  sTypoDescender : Int16
  sTypoLineGap : Int16
  usWinAscent : UInt16
  usWinDescent : UInt16
deriving DecidableEq

/-- Goes with `Core` (os2.rs:227-258). -/
def encCore (c : Core) : Bytes :=
  encU16 c.version ++ (encI16 c.xAvgCharWidth ++ (encU16 c.usWeightClass ++ (encU16 c.usWidthClass ++ (
  encU16 c.fsType ++ (encI16 c.ySubscriptXSize ++ (encI16 c.ySubscriptYSize ++ (encI16 c.ySubscriptXOffset ++ (
  encI16 c.ySubscriptYOffset ++ (encI16 c.ySuperscriptXSize ++ (encI16 c.ySuperscriptYSize ++ (
  encI16 c.ySuperscriptXOffset ++ (encI16 c.ySuperscriptYOffset ++ (encI16 c.yStrikeoutSize ++ (
  encI16 c.yStrikeoutPosition ++ (encI16 c.sFamilyClass ++ (encPanose c.panose ++ (encU32 c.ulUnicodeRange1 ++ (
  encU32 c.ulUnicodeRange2 ++ (encU32 c.ulUnicodeRange3 ++ (encU32 c.ulUnicodeRange4 ++ (encTag c.achVendID ++ (
  encU16 c.fsSelection ++ (encU16 c.usFirstCharIndex ++ (encU16 c.usLastCharIndex ++ (encI16 c.sTypoAscender ++ (
  encI16 c.sTypoDescender ++ (encI16 c.sTypoLineGap ++ (encU16 c.usWinAscent ++ (
  encU16 c.usWinDescent)))))))))))))))))))))))))))))
/-- Goes with `Core` (os2.rs:227-258). -/
def readCore : Reader Core := do
  let version ← readU16
  let xAvgCharWidth ← readI16
  let usWeightClass ← readU16
  let usWidthClass ← readU16
  let fsType ← readU16
  let ySubscriptXSize ← readI16
  let ySubscriptYSize ← readI16
  let ySubscriptXOffset ← readI16
  let ySubscriptYOffset ← readI16
  let ySuperscriptXSize ← readI16
  let ySuperscriptYSize ← readI16
  let ySuperscriptXOffset ← readI16
  let ySuperscriptYOffset ← readI16
  let yStrikeoutSize ← readI16
  let yStrikeoutPosition ← readI16
  let sFamilyClass ← readI16
  let panose ← readPanose
  let ulUnicodeRange1 ← readU32
  let ulUnicodeRange2 ← readU32
  let ulUnicodeRange3 ← readU32
  let ulUnicodeRange4 ← readU32
  let achVendID ← readTag
  let fsSelection ← readU16
  let usFirstCharIndex ← readU16
  let usLastCharIndex ← readU16
  let sTypoAscender ← readI16
  let sTypoDescender ← readI16
  let sTypoLineGap ← readI16
  let usWinAscent ← readU16
  let usWinDescent ← readU16
  return ⟨version, xAvgCharWidth, usWeightClass, usWidthClass, fsType, ySubscriptXSize, ySubscriptYSize,
    ySubscriptXOffset, ySubscriptYOffset, ySuperscriptXSize, ySuperscriptYSize, ySuperscriptXOffset,
    ySuperscriptYOffset, yStrikeoutSize, yStrikeoutPosition, sFamilyClass, panose, ulUnicodeRange1,
    ulUnicodeRange2, ulUnicodeRange3, ulUnicodeRange4, achVendID, fsSelection, usFirstCharIndex, usLastCharIndex,
    sTypoAscender, sTypoDescender, sTypoLineGap, usWinAscent, usWinDescent⟩

/-- `os2` (os2.rs:281-360): the code repeats the fields of `os2core`. -/
structure Os2 where
  core : Core
  ulCodePageRange1 : Option UInt32
  ulCodePageRange2 : Option UInt32
  sxHeight : Option Int16
  sCapHeight : Option Int16
  usDefaultChar : Option UInt16
  usBreakChar : Option UInt16
  usMaxContext : Option UInt16
  usLowerOpticalPointSize : Option UInt16
  usUpperOpticalPointSize : Option UInt16
deriving DecidableEq

/-- Lines 408-414. -/
def encV1 (o : Os2) : Bytes :=
  if o.core.version > 0 then encU32 (o.ulCodePageRange1.getD 0) ++ encU32 (o.ulCodePageRange2.getD 0) else []
/-- Lines 415-424. -/
def encV2 (o : Os2) : Bytes :=
  if o.core.version > 1 then encI16 (o.sxHeight.getD 0) ++ (encI16 (o.sCapHeight.getD 0) ++
    (encU16 (o.usDefaultChar.getD 0) ++ (encU16 (o.usBreakChar.getD 0) ++ encU16 (o.usMaxContext.getD 0)))) else []
/-- Lines 425-431. -/
def encV5 (o : Os2) : Bytes :=
  if o.core.version > 4 then encU16 (o.usLowerOpticalPointSize.getD 0) ++ encU16 (o.usUpperOpticalPointSize.getD 0) else []
/-- `os2::to_bytes` (os2.rs:362-434). -/
def encOs2 (o : Os2) : Bytes := encCore o.core ++ (encV1 o ++ (encV2 o ++ encV5 o))

/-- Lines 480-484. -/
def readV1 (o : Os2) : Reader Os2 :=
  if o.core.version > 0 then do
    let a ← readU32
    let b ← readU32
    return { o with ulCodePageRange1 := some a, ulCodePageRange2 := some b }
  else pure o
/-- Lines 485-492. -/
def readV2 (o : Os2) : Reader Os2 :=
  if o.core.version > 1 then do
    let a ← readI16
    let b ← readI16
    let c ← readU16
    let d ← readU16
    let e ← readU16
    return { o with sxHeight := some a, sCapHeight := some b, usDefaultChar := some c, usBreakChar := some d, usMaxContext := some e }
  else pure o
/-- Lines 493-497. -/
def readV5 (o : Os2) : Reader Os2 :=
  if o.core.version > 4 then do
    let a ← readU16
    let b ← readU16
    return { o with usLowerOpticalPointSize := some a, usUpperOpticalPointSize := some b }
  else pure o
/-- `os2::from_bytes` (os2.rs:436-500). -/
def readOs2 : Reader Os2 := do
  let core ← readCore
  let a ← readV1 ⟨core, none, none, none, none, none, none, none, none, none⟩
  let b ← readV2 a
  readV5 b

/-! ### Unicode ranges -/

/-- A row of `OS2_UNICODE_RANGES`: bit, first and last code point. The name is not modelled. (os2.rs:15-196.) -/
structure Range where
  bit : Nat
  low : Nat
  high : Nat
deriving DecidableEq

/-- `OS2_UNICODE_RANGES` (os2.rs:15-196), in the order of the code. -/
def ranges : List Range := [
  ⟨0, 0x0000, 0x007F⟩, ⟨1, 0x0080, 0x00FF⟩, ⟨2, 0x0100, 0x017F⟩, ⟨3, 0x0180, 0x024F⟩, ⟨4, 0x0250, 0x02AF⟩,
  ⟨4, 0x1D00, 0x1D7F⟩, ⟨4, 0x1D80, 0x1DBF⟩, ⟨5, 0x02B0, 0x02FF⟩, ⟨5, 0xA700, 0xA71F⟩, ⟨6, 0x0300, 0x036F⟩,
  ⟨6, 0x1DC0, 0x1DFF⟩, ⟨7, 0x0370, 0x03FF⟩, ⟨8, 0x2C80, 0x2CFF⟩, ⟨9, 0x0400, 0x04FF⟩, ⟨9, 0x0500, 0x052F⟩,
  ⟨9, 0x2DE0, 0x2DFF⟩, ⟨9, 0xA640, 0xA69F⟩, ⟨10, 0x0530, 0x058F⟩, ⟨11, 0x0590, 0x05FF⟩, ⟨12, 0xA500, 0xA63F⟩,
  ⟨13, 0x0600, 0x06FF⟩, ⟨13, 0x0750, 0x077F⟩, ⟨14, 0x07C0, 0x07FF⟩, ⟨15, 0x0900, 0x097F⟩, ⟨16, 0x0980, 0x09FF⟩,
  ⟨17, 0x0A00, 0x0A7F⟩, ⟨18, 0x0A80, 0x0AFF⟩, ⟨19, 0x0B00, 0x0B7F⟩, ⟨20, 0x0B80, 0x0BFF⟩, ⟨21, 0x0C00, 0x0C7F⟩,
  ⟨22, 0x0C80, 0x0CFF⟩, ⟨23, 0x0D00, 0x0D7F⟩, ⟨24, 0x0E00, 0x0E7F⟩, ⟨25, 0x0E80, 0x0EFF⟩, ⟨26, 0x10A0, 0x10FF⟩,
  ⟨26, 0x2D00, 0x2D2F⟩, ⟨27, 0x1B00, 0x1B7F⟩, ⟨28, 0x1100, 0x11FF⟩, ⟨29, 0x1E00, 0x1EFF⟩, ⟨29, 0x2C60, 0x2C7F⟩,
  ⟨29, 0xA720, 0xA7FF⟩, ⟨30, 0x1F00, 0x1FFF⟩, ⟨31, 0x2000, 0x206F⟩, ⟨31, 0x2E00, 0x2E7F⟩, ⟨32, 0x2070, 0x209F⟩,
  ⟨33, 0x20A0, 0x20CF⟩, ⟨34, 0x20D0, 0x20FF⟩, ⟨35, 0x2100, 0x214F⟩, ⟨36, 0x2150, 0x218F⟩, ⟨37, 0x2190, 0x21FF⟩,
  ⟨37, 0x27F0, 0x27FF⟩, ⟨37, 0x2900, 0x297F⟩, ⟨37, 0x2B00, 0x2BFF⟩, ⟨38, 0x2200, 0x22FF⟩, ⟨38, 0x2A00, 0x2AFF⟩,
  ⟨38, 0x27C0, 0x27EF⟩, ⟨38, 0x2980, 0x29FF⟩, ⟨39, 0x2300, 0x23FF⟩, ⟨40, 0x2400, 0x243F⟩, ⟨41, 0x2440, 0x245F⟩,
  ⟨42, 0x2460, 0x24FF⟩, ⟨43, 0x2500, 0x257F⟩, ⟨44, 0x2580, 0x259F⟩, ⟨45, 0x25A0, 0x25FF⟩, ⟨46, 0x2600, 0x26FF⟩,
  ⟨47, 0x2700, 0x27BF⟩, ⟨48, 0x3000, 0x303F⟩, ⟨49, 0x3040, 0x309F⟩, ⟨50, 0x30A0, 0x30FF⟩, ⟨50, 0x31F0, 0x31FF⟩,
  ⟨51, 0x3100, 0x312F⟩, ⟨51, 0x31A0, 0x31BF⟩, ⟨52, 0x3130, 0x318F⟩, ⟨53, 0xA840, 0xA87F⟩, ⟨54, 0x3200, 0x32FF⟩,
  ⟨55, 0x3300, 0x33FF⟩, ⟨56, 0xAC00, 0xD7AF⟩, ⟨57, 0x10000, 0x10FFFF⟩, ⟨58, 0x10900, 0x1091F⟩, ⟨59, 0x4E00, 0x9FFF⟩,
  ⟨59, 0x2E80, 0x2EFF⟩, ⟨59, 0x2F00, 0x2FDF⟩, ⟨59, 0x2FF0, 0x2FFF⟩, ⟨59, 0x3400, 0x4DBF⟩, ⟨59, 0x20000, 0x2A6DF⟩,
  ⟨59, 0x3190, 0x319F⟩, ⟨60, 0xE000, 0xF8FF⟩, ⟨61, 0x31C0, 0x31EF⟩, ⟨61, 0xF900, 0xFAFF⟩, ⟨61, 0x2F800, 0x2FA1F⟩,
  ⟨62, 0xFB00, 0xFB4F⟩, ⟨63, 0xFB50, 0xFDFF⟩, ⟨64, 0xFE20, 0xFE2F⟩, ⟨65, 0xFE10, 0xFE1F⟩, ⟨65, 0xFE30, 0xFE4F⟩,
  ⟨66, 0xFE50, 0xFE6F⟩, ⟨67, 0xFE70, 0xFEFF⟩, ⟨68, 0xFF00, 0xFFEF⟩, ⟨69, 0xFFF0, 0xFFFF⟩, ⟨70, 0x0F00, 0x0FFF⟩,
  ⟨71, 0x0700, 0x074F⟩, ⟨72, 0x0780, 0x07BF⟩, ⟨73, 0x0D80, 0x0DFF⟩, ⟨74, 0x1000, 0x109F⟩, ⟨75, 0x1200, 0x137F⟩,
  ⟨75, 0x1380, 0x139F⟩, ⟨75, 0x2D80, 0x2DDF⟩, ⟨76, 0x13A0, 0x13FF⟩, ⟨77, 0x1400, 0x167F⟩, ⟨78, 0x1680, 0x169F⟩,
  ⟨79, 0x16A0, 0x16FF⟩, ⟨80, 0x1780, 0x17FF⟩, ⟨80, 0x19E0, 0x19FF⟩, ⟨81, 0x1800, 0x18AF⟩, ⟨82, 0x2800, 0x28FF⟩,
  ⟨83, 0xA000, 0xA48F⟩, ⟨83, 0xA490, 0xA4CF⟩, ⟨84, 0x1700, 0x171F⟩, ⟨84, 0x1720, 0x173F⟩, ⟨84, 0x1740, 0x175F⟩,
  ⟨84, 0x1760, 0x177F⟩, ⟨85, 0x10300, 0x1032F⟩, ⟨86, 0x10330, 0x1034F⟩, ⟨87, 0x10400, 0x1044F⟩,
  ⟨88, 0x1D000, 0x1D0FF⟩, ⟨88, 0x1D100, 0x1D1FF⟩, ⟨88, 0x1D200, 0x1D24F⟩, ⟨89, 0x1D400, 0x1D7FF⟩,
  ⟨90, 0xF0000, 0xFFFFD⟩, ⟨90, 0x100000, 0x10FFFD⟩, ⟨91, 0xFE00, 0xFE0F⟩, ⟨91, 0xE0100, 0xE01EF⟩,
  ⟨92, 0xE0000, 0xE007F⟩, ⟨93, 0x1900, 0x194F⟩, ⟨94, 0x1950, 0x197F⟩, ⟨95, 0x1980, 0x19DF⟩, ⟨96, 0x1A00, 0x1A1F⟩,
  ⟨97, 0x2C00, 0x2C5F⟩, ⟨98, 0x2D30, 0x2D7F⟩, ⟨99, 0x4DC0, 0x4DFF⟩, ⟨100, 0xA800, 0xA82F⟩, ⟨101, 0x10000, 0x1007F⟩,
  ⟨101, 0x10080, 0x100FF⟩, ⟨101, 0x10100, 0x1013F⟩, ⟨102, 0x10140, 0x1018F⟩, ⟨103, 0x10380, 0x1039F⟩,
  ⟨104, 0x103A0, 0x103DF⟩, ⟨105, 0x10450, 0x1047F⟩, ⟨106, 0x10480, 0x104AF⟩, ⟨107, 0x10800, 0x1083F⟩,
  ⟨108, 0x10A00, 0x10A5F⟩, ⟨109, 0x1D300, 0x1D35F⟩, ⟨110, 0x12000, 0x123FF⟩, ⟨110, 0x12400, 0x1247F⟩,
  ⟨111, 0x1D360, 0x1D37F⟩, ⟨112, 0x1B80, 0x1BBF⟩, ⟨113, 0x1C00, 0x1C4F⟩, ⟨114, 0x1C50, 0x1C7F⟩,
  ⟨115, 0xA880, 0xA8DF⟩, ⟨116, 0xA900, 0xA92F⟩, ⟨117, 0xA930, 0xA95F⟩, ⟨118, 0xAA00, 0xAA5F⟩,
  ⟨119, 0x10190, 0x101CF⟩, ⟨120, 0x101D0, 0x101FF⟩, ⟨121, 0x102A0, 0x102DF⟩, ⟨121, 0x10280, 0x1029F⟩,
  ⟨121, 0x10920, 0x1093F⟩, ⟨122, 0x1F030, 0x1F09F⟩, ⟨122, 0x1F000, 0x1F02F⟩]

/-- The closure of os2.rs:201-209. -/
def Range.cmp (c : Nat) (r : Range) : Ordering := if c < r.low then .gt else if c > r.high then .lt else .eq

/-- `binary_search_by` of Rust 1.52 to 1.83: between `l` and `r`. -/
def search152 (c : Nat) (l r : Nat) : Option Nat :=
  if h : l < r then
    match ranges[l + (r - l) / 2]? with
    | none => none
    | some x => match x.cmp c with
      | .lt => search152 c (l + (r - l) / 2 + 1) r
      | .gt => search152 c l (l + (r - l) / 2)
      | .eq => some (l + (r - l) / 2)
  else none
termination_by r - l
decreasing_by all_goals omega

/-- The loop of `binary_search_by` of Rust 1.84 and later (and before 1.52, but for stopping early). -/
def search184Loop (c : Nat) (base size : Nat) : Nat :=
  if h : size > 1 then
    match ranges[base + size / 2]? with
    | none => base
    | some x => search184Loop c (if x.cmp c = .gt then base else base + size / 2) (size - size / 2)
  else base
termination_by size
decreasing_by omega

/-- `binary_search_by` of Rust 1.84 and later. -/
def search184 (c : Nat) : Option Nat :=
  match ranges[search184Loop c 0 ranges.length]? with
  | none => none
  | some x => if x.cmp c = .eq then some (search184Loop c 0 ranges.length) else none

/-- `glyph_unicode_range` (os2.rs:199-212): `search` is `binary_search_by` on the table, whose result the library does not
specify as the table is not sorted. -/
def glyphRange (search : Nat → Option Nat) (c : UInt32) : Res Nat := do
  let r ← Res.unwrap ranges[(search c.toNat).getD 0]?
  return r.bit

/-- `calc_unicode_ranges` (os2.rs:504-515). `shuffle` is the order in which the hash set is walked. -/
def calcUnicodeRanges (search : Nat → Option Nat) (shuffle : List UInt8 → List UInt8) (keys : List UInt32) (o : Os2) : Res Os2 := do
  let bits ← Res.mapL (glyphRange search) keys
  let set := shuffle (bits.map UInt8.ofNat).dedup
  let a ← filteredBitset set 0 31
  let b ← filteredBitset set 32 63
  let c ← filteredBitset set 64 95
  let d ← filteredBitset set 96 127
  return { o with core := { o.core with ulUnicodeRange1 := a, ulUnicodeRange2 := b, ulUnicodeRange3 := c, ulUnicodeRange4 := d } }

/-! ### Code pages -/

/-- Goes with `calcUnicodeRanges` (os2.rs:504-515). -/
def setIf (b : Bool) (l : List UInt8) : List UInt8 := if b then l else []

/-- The bits of `calc_code_page_ranges` (os2.rs:520-628), before the fallback. -/
def codePageBits (keys : List UInt32) : List UInt8 :=
  let has := fun c : UInt32 => keys.contains c
  let ascii := (List.range' 0x20 0x5E).all fun x => keys.contains (UInt32.ofNat x)
  let lineart := has 0x2524
  setIf (has 0x00DE && ascii) [0] ++
  setIf (has 0x013D && ascii) [1] ++
  setIf (has 0x0411) [2] ++
  setIf (has 0x0411 && has 0x0405 && lineart) [57] ++
  setIf (has 0x0411 && has 0x255C && lineart) [49] ++
  setIf (has 0x0386) [3] ++
  setIf (has 0x0386 && has 0x00BD && lineart) [48] ++
  setIf (has 0x0386 && has 0x221A && lineart) [60] ++
  setIf (has 0x0130 && ascii) [4] ++
  setIf (has 0x0130 && ascii && lineart) [56] ++
  setIf (has 0x05D0) [5] ++
  setIf (has 0x05D0 && lineart && has 0x221A) [53] ++
  setIf (has 0x0631) [6] ++
  setIf (has 0x0631 && has 0x221A) [51] ++
  setIf (has 0x0631 && lineart) [61] ++
  setIf (has 0x0157 && ascii) [7] ++
  setIf (has 0x0157 && ascii && lineart) [59] ++
  setIf (has 0x20AB && ascii) [8] ++
  setIf (has 0x0E45) [16] ++
  setIf (has 0x30A8) [17] ++
  setIf (has 0x3105) [18] ++
  setIf (has 0x3131) [19] ++
  setIf (has 0x592E) [20] ++
  setIf (has 0xACF4) [21] ++
  setIf (has 0x2665 && ascii) [30] ++
  setIf (has 0x00FE && ascii && lineart) [54] ++
  setIf (has 0x255A && ascii) [62] ++
  setIf (has 0x255A && ascii) [63] ++
  setIf (ascii && lineart && has 0x221A && has 0x00C5) [50] ++
  setIf (ascii && lineart && has 0x221A && has 0x00E9) [52] ++
  setIf (ascii && lineart && has 0x221A && has 0x00F5) [55] ++
  setIf (ascii && has 0x2030 && has 0x2211) [29]

/-- Lines 629-634. -/
def codePageSet (keys : List UInt32) : List UInt8 :=
  if (codePageBits keys).isEmpty then [0] else (codePageBits keys).dedup

/-- `calc_code_page_ranges` (os2.rs:520-638). -/
def calcCodePages (shuffle : List UInt8 → List UInt8) (keys : List UInt32) (o : Os2) : Res Os2 := do
  let set := shuffle (codePageSet keys)
  let a ← filteredBitset set 0 31
  let b ← filteredBitset set 32 63
  return { o with ulCodePageRange1 := some a, ulCodePageRange2 := some b }

end FT.Os2
