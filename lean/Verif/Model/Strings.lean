import Verif.Model.F32
import Verif.Model.SimpleTables

/-! The `name` and `post` tables. -/

namespace FT.Strings
open FT Reader F32 Tables

/-! ### name -/

/-- The encodings of the `encoding` crate named in `get_encoding`. (name.rs:14-45.) -/
inductive Encoding where
  | utf16be | macCyrillic | macRoman | windows1252 | windows31j | gbk | big5 | windows949
  deriving DecidableEq, Repr

/-- `get_encoding` (name.rs:14-46); `unimplemented!()` panics. -/
def getEncoding (platform encoding : UInt16) : Res Encoding :=
  if platform = 0 then .ok .utf16be
  else if platform = 1 then (if encoding = 7 then .ok .macCyrillic else .ok .macRoman)
  else if platform = 2 then
    (if encoding = 0 then .ok .windows1252
     else if encoding = 1 then .ok .utf16be
     else if encoding = 2 then .ok .windows1252
     else .panic)
  else if platform = 3 then
    (if encoding = 0 then .ok .utf16be
     else if encoding = 1 then .ok .utf16be
     else if encoding = 2 then .ok .windows31j
     else if encoding = 3 then .ok .gbk
     else if encoding = 4 then .ok .big5
     else if encoding = 5 then .ok .windows949
     else if encoding = 6 then .panic
     else .ok .utf16be)
  else .panic

/-- `UTF_16BE.encode` of the `encoding` crate: one code unit per character up to U+FFFF, two surrogates above. -/
def utf16Char (c : Char) : Bytes :=
  if c.toNat < 0x10000 then encU16 (UInt16.ofNat c.toNat)
  else encU16 (UInt16.ofNat (0xD800 + (c.toNat - 0x10000) / 1024)) ++
    encU16 (UInt16.ofNat (0xDC00 + (c.toNat - 0x10000) % 1024))
/-- `UTF_16BE.encode` on a string; see `utf16Char`. -/
def utf16Encode (s : List Char) : Bytes := s.flatMap utf16Char

/-- Code units to characters; what does not decode becomes U+FFFD (`DecoderTrap::Replace`). -/
def utf16Units : List Nat → List Char
  | [] => []
  | [u] => if 0xD800 ≤ u ∧ u ≤ 0xDFFF then [Char.ofNat 0xFFFD] else [Char.ofNat u]
  | u :: v :: rest =>
    if 0xD800 ≤ u ∧ u ≤ 0xDBFF then
      if 0xDC00 ≤ v ∧ v ≤ 0xDFFF then
        Char.ofNat (0x10000 + (u - 0xD800) * 1024 + (v - 0xDC00)) :: utf16Units rest
      else Char.ofNat 0xFFFD :: utf16Units (v :: rest)
    else if 0xDC00 ≤ u ∧ u ≤ 0xDFFF then Char.ofNat 0xFFFD :: utf16Units (v :: rest)
    else Char.ofNat u :: utf16Units (v :: rest)

/-- `UTF_16BE.decode`. Behaviour on ill-formed input (not used by any theorem) is simplified: each bad code unit, and a
trailing odd byte, becomes one replacement character. -/
def pairUp : Bytes → List Nat
  | a :: b :: rest => (a.toNat * 256 + b.toNat) :: pairUp rest
  | [_] => [0xDC00]
  | [] => []
/-- `UTF_16BE.decode` on bytes; see `utf16Units`. -/
def utf16Decode (bs : Bytes) : List Char := utf16Units (pairUp bs)

/-- The legacy encodings of the `encoding` crate, which is not part of the repository: any total functions. -/
structure Legacy where
  encode : Encoding → List Char → Bytes
  decode : Encoding → Bytes → List Char

/-- `encoder.encode(.., EncoderTrap::Replace).unwrap()`. (name.rs:209.) -/
def encodeString (lib : Legacy) (e : Encoding) (s : List Char) : Bytes := match e with
  | .utf16be => utf16Encode s
  | e => lib.encode e s
/-- `encoding.decode(.., DecoderTrap::Replace).unwrap()`. (name.rs:183.) -/
def decodeString (lib : Legacy) (e : Encoding) (b : Bytes) : List Char := match e with
  | .utf16be => utf16Decode b
  | e => lib.decode e b

/-- `NameRecord` (name.rs:123-135). -/
structure NameRecord where
  platformID : UInt16
  encodingID : UInt16
  languageID : UInt16
  nameID : UInt16
  string : List Char
  deriving DecidableEq, Repr

/-- `NameRecordInternal` (name.rs:110-119). -/
structure NameInternal where
  platformID : UInt16
  encodingID : UInt16
  languageID : UInt16
  nameID : UInt16
  length : UInt16
  stringOffset : UInt16
  deriving DecidableEq, Repr

/-- Goes with `NameInternal` (name.rs:110-119). -/
def encNameInternal (r : NameInternal) : Bytes :=
  encU16 r.platformID ++ (encU16 r.encodingID ++ (encU16 r.languageID ++ (encU16 r.nameID ++
  (encU16 r.length ++ encU16 r.stringOffset))))
/-- Goes with `NameInternal` (name.rs:110-119). -/
def readNameInternal : Reader NameInternal := do
  let platformID ← readU16
  let encodingID ← readU16
  let languageID ← readU16
  let nameID ← readU16
  let length ← readU16
  let stringOffset ← readU16
  return { platformID, encodingID, languageID, nameID, length, stringOffset }

/-- `NameRecord::windows_unicode` (name.rs:141-158). -/
def windowsUnicode (n : UInt16) (s : List Char) : NameRecord :=
  ⟨3, if s.any (fun c => decide (0xffff < c.toNat)) then 10 else 1, 0x409, n, s⟩

/-- The `NameRecordInternal` built in `name::to_bytes` (name.rs:212-219). -/
def internalRecord (r : NameRecord) (length used : Nat) : NameInternal :=
  ⟨r.platformID, r.encodingID, r.languageID, r.nameID, UInt16.ofNat length, UInt16.ofNat used⟩

/-- The loop of `name::to_bytes` (name.rs:207-223): record bytes and string pool; `used` is the pool's length so far. -/
def encNames (lib : Legacy) : Nat → List NameRecord → Res (Bytes × Bytes)
  | _, [] => .ok ([], [])
  | used, r :: rs => do
    let e ← getEncoding r.platformID r.encodingID
    let s := encodeString lib e r.string
    let (recs, pool) ← encNames lib (used + s.length) rs
    return (encNameInternal (internalRecord r s.length used) ++ recs, s ++ pool)

/-- `name::to_bytes` (name.rs:200-226). `12 * self.records.len() as uint16` is a `u16` product. -/
def encName (lib : Legacy) (rs : List NameRecord) : Res Bytes :=
  let n := rs.length % 65536
  if 6 + 12 * n < 65536 then do
    let (recs, pool) ← encNames lib 0 rs
    return encU16 0 ++ (encU16 (UInt16.ofNat rs.length) ++ (encU16 (UInt16.ofNat (6 + 12 * n)) ++ (recs ++ pool)))
  else .panic

/-- One record of `name::from_bytes` (lines 179-193). -/
def readOneName (lib : Legacy) (ir : NameInternal) : Reader NameRecord := do
  let top ← topOfTable
  setPtr (top + ir.stringOffset.toNat)
  let bs ← deCounted readU8 ir.length.toNat
  let e ← Reader.lift (getEncoding ir.platformID ir.encodingID)
  return { platformID := ir.platformID, encodingID := ir.encodingID, languageID := ir.languageID,
           nameID := ir.nameID, string := decodeString lib e bs }
/-- Goes with `readOneName` (lines 179-193). -/
def readNames (lib : Legacy) : List NameInternal → Reader (List NameRecord)
  | [] => pure []
  | ir :: irs => do
    let r ← readOneName lib ir
    let rs ← readNames lib irs
    return r :: rs

/-- `name::from_bytes` (name.rs:170-198): the format and the storage offset are skipped; strings are taken to start right
after the records. -/
def readName (lib : Legacy) : Reader (List NameRecord) := do
  skip 2
  let count ← readU16
  skip 2
  let irs ← deCounted readNameInternal count.toNat
  pushTop
  let records ← readNames lib irs
  popTop
  return records

/-! ### post -/

/-- `APPLE_NAMES` (post.rs:13-272). -/
def appleNames : List String :=
  [".notdef", ".null", "nonmarkingreturn", "space", "exclam", "quotedbl", "numbersign", "dollar", "percent",
   "ampersand", "quotesingle", "parenleft", "parenright", "asterisk", "plus", "comma", "hyphen", "period",
   "slash", "zero", "one", "two", "three", "four", "five", "six", "seven", "eight", "nine", "colon",
   "semicolon", "less", "equal", "greater", "question", "at", "A", "B", "C", "D", "E", "F", "G", "H", "I", "J",
   "K", "L", "M", "N", "O", "P", "Q", "R", "S", "T", "U", "V", "W", "X", "Y", "Z", "bracketleft", "backslash",
   "bracketright", "asciicircum", "underscore", "grave", "a", "b", "c", "d", "e", "f", "g", "h", "i", "j", "k",
   "l", "m", "n", "o", "p", "q", "r", "s", "t", "u", "v", "w", "x", "y", "z", "braceleft", "bar", "braceright",
   "asciitilde", "Adieresis", "Aring", "Ccedilla", "Eacute", "Ntilde", "Odieresis", "Udieresis", "aacute",
   "agrave", "acircumflex", "adieresis", "atilde", "aring", "ccedilla", "eacute", "egrave", "ecircumflex",
   "edieresis", "iacute", "igrave", "icircumflex", "idieresis", "ntilde", "oacute", "ograve", "ocircumflex",
   "odieresis", "otilde", "uacute", "ugrave", "ucircumflex", "udieresis", "dagger", "degree", "cent",
   "sterling", "section", "bullet", "paragraph", "germandbls", "registered", "copyright", "trademark", "acute",
   "dieresis", "notequal", "AE", "Oslash", "infinity", "plusminus", "lessequal", "greaterequal", "yen", "mu",
   "partialdiff", "summation", "product", "pi", "integral", "ordfeminine", "ordmasculine", "Omega", "ae",
   "oslash", "questiondown", "exclamdown", "logicalnot", "radical", "florin", "approxequal", "Delta",
   "guillemotleft", "guillemotright", "ellipsis", "nonbreakingspace", "Agrave", "Atilde", "Otilde", "OE", "oe",
   "endash", "emdash", "quotedblleft", "quotedblright", "quoteleft", "quoteright", "divide", "lozenge",
   "ydieresis", "Ydieresis", "fraction", "currency", "guilsinglleft", "guilsinglright", "fi", "fl",
   "daggerdbl", "periodcentered", "quotesinglbase", "quotedblbase", "perthousand", "Acircumflex",
   "Ecircumflex", "Aacute", "Edieresis", "Egrave", "Iacute", "Icircumflex", "Idieresis", "Igrave", "Oacute",
   "Ocircumflex", "apple", "Ograve", "Uacute", "Ucircumflex", "Ugrave", "dotlessi", "circumflex", "tilde",
   "macron", "breve", "dotaccent", "ring", "cedilla", "hungarumlaut", "ogonek", "caron", "Lslash", "lslash",
   "Scaron", "scaron", "Zcaron", "zcaron", "brokenbar", "Eth", "eth", "Yacute", "yacute", "Thorn", "thorn",
   "minus", "multiply", "onesuperior", "twosuperior", "threesuperior", "onehalf", "onequarter",
   "threequarters", "franc", "Gbreve", "gbreve", "Idotaccent", "Scedilla", "scedilla", "Cacute", "cacute",
   "Ccaron", "ccaron", "dcroat"]

/-- `Version16Dot16::from_bytes` (types.rs:204-212): `major + minor / 160` in `f32`, then `U16F16::from_num` (nearest, ties
to even), kept as its 32 bits. -/
def readVersion16Dot16 : Reader UInt32 := do
  let _ ← readU8
  let major ← readU8
  let minor ← readU8
  let _ ← readU8
  return UInt32.ofNat (rhe (rne ((major.toNat : ℚ) + rne ((minor.toNat : ℚ) / 160)) * 65536)).toNat

/-- `post` (post.rs:288-310); the version is a `U16F16`, i.e. its 32 bits. -/
structure Post where
  version : UInt32
  italicAngle : ℚ
  underlinePosition : Int16
  underlineThickness : Int16
  isFixedPitch : UInt32
  minMemType42 : UInt32
  maxMemType42 : UInt32
  minMemType1 : UInt32
  maxMemType1 : UInt32
  glyphnames : Option (List String)

/-- `str::as_bytes`. -/
def utf8 (s : String) : Bytes := s.toUTF8.data.toList
/-- `String::from_utf8(..).unwrap()`. -/
def fromUtf8 (b : Bytes) : Res String := Res.unwrap (String.fromUTF8? ⟨b.toArray⟩)

/-- The loop of `post::to_bytes` (post.rs:367-381): glyph name indices and the bytes of the names not in the standard list;
`items` of them were stored before. -/
def encGlyphNames : Nat → List String → Bytes × Bytes
  | _, [] => ([], [])
  | items, n :: ns =>
    match appleNames.idxOf? n with
    | some i =>
      let (a, b) := encGlyphNames items ns
      (encU16 (UInt16.ofNat i) ++ a, b)
    | none =>
      let (a, b) := encGlyphNames (items + 1) ns
      (encU16 (UInt16.ofNat (258 + items)) ++ a, encU8 (UInt8.ofNat (utf8 n).length) ++ (utf8 n ++ b))

/-- `postcore` (post.rs:274-284). -/
def encPostCore (p : Post) : Res Bytes := do
  let v ← encVersion16Dot16 p.version
  return v ++ (encFixed p.italicAngle ++ (encI16 p.underlinePosition ++ (encI16 p.underlineThickness ++
    (encU32 p.isFixedPitch ++ (encU32 p.minMemType42 ++ (encU32 p.maxMemType42 ++ (encU32 p.minMemType1 ++
    encU32 p.maxMemType1)))))))

/-- `post::to_bytes` (post.rs:346-386); version 2.0 has bits 0x20000. -/
def encPost (p : Post) : Res Bytes := do
  let core ← encPostCore p
  if p.version = 0x20000 then
    match p.glyphnames with
    | some v =>
      let (idx, names) := encGlyphNames 0 v
      return core ++ (encU16 (UInt16.ofNat v.length) ++ (idx ++ names))
    | none => return core
  else return core

/-- The loop reading stored names until the input ends (post.rs:396-404). -/
def readStored : Nat → Reader (List String)
  | 0 => pure []
  | k + 1 => fun r => match readU8 r with
    | .ok (n, r') => (do
        let bs ← deCounted readU8 n.toNat
        let s ← Reader.lift (fromUtf8 bs)
        let rest ← readStored k
        return s :: rest) r'
    | .err => .ok ([], r)
    | .panic => .panic

/-- Indexing (post.rs:405-412); out of range panics. -/
def glyphNameAt (stored : List String) (o : UInt16) : Res String :=
  if o.toNat < 258 then Res.unwrap appleNames[o.toNat]? else Res.unwrap stored[o.toNat - 258]?

/-- Reading `postcore`, kept as a table without names. (post.rs:274-284.) -/
def readPostCore : Reader Post := do
  let version ← readVersion16Dot16
  let italicAngle ← readFixed
  let underlinePosition ← readI16
  let underlineThickness ← readI16
  let isFixedPitch ← readU32
  let minMemType42 ← readU32
  let maxMemType42 ← readU32
  let minMemType1 ← readU32
  let maxMemType1 ← readU32
  return { version, italicAngle, underlinePosition, underlineThickness, isFixedPitch, minMemType42, maxMemType42,
           minMemType1, maxMemType1, glyphnames := none }

/-- Lines 392-413. The number of rounds of the reading loop is bounded by the input length plus one; each round consumes a
byte. -/
def readGlyphNames : Reader (List String) := do
  let n ← readU16
  let offsets ← deCounted readU16 n.toNat
  let inp ← getInp
  let stored ← readStored (inp.length + 1)
  Reader.lift (Res.mapL (glyphNameAt stored) offsets)

/-- `post::from_bytes` (post.rs:386-425). -/
def readPost : Reader Post := do
  let core ← readPostCore
  if core.version = 0x20000 then do
    let names ← readGlyphNames
    return { core with glyphnames := some names }
  else return core

end FT.Strings
