import Verif.Model.Cli
import Verif.Model.Math
import Verif.Model.Os2
import Verif.Model.Gdef
import Verif.Model.GsubTable
import Verif.Model.GposTable

/-!
A font with all tables that the library knows (src/table_store.rs, src/font.rs): loading a file, loading every table, and the
number of glyphs. The tables that `Model/Cli` leaves open are filled in here.
-/

namespace FT.Whole
open FT FT.Store FT.Save FT.Tables FT.Glyf FT.Strings FT.Cli

/-- The tag of the table (src/tables/cvt.rs:8). -/
def tagCvt : Tag := ⟨0x63, 0x76, 0x74, 0x20⟩
/-- The tag of the table (src/tables/fpgm.rs:7). -/
def tagFpgm : Tag := ⟨0x66, 0x70, 0x67, 0x6D⟩
/-- The tag of the table (src/tables/GDEF.rs:16). -/
def tagGDEF : Tag := ⟨0x47, 0x44, 0x45, 0x46⟩
/-- The tag of the table (src/tables/name.rs:12). -/
def tagName : Tag := ⟨0x6E, 0x61, 0x6D, 0x65⟩
/-- The tag of the table (src/tables/os2.rs:11). -/
def tagOS2 : Tag := ⟨0x4F, 0x53, 0x2F, 0x32⟩

/-- The variants of `LoadedTable` (table_store.rs:71-120) that are not in `Save.Loaded` and `Cli.Other`. -/
inductive More where
  | unknown (b : Bytes)
  | cvt (l : List Int16)
  | fpgm (b : Bytes)
  | prep (b : Bytes)
  | gdef (g : Gdef.GDEF)
  | gpos (g : Gpos.GPOS)
  | gsub (g : Gsub.GSUB)
  | math (m : Math.MATH)
  | name (l : List NameRecord)
  | os2 (o : Os2.Os2)

/-- What the code takes from elsewhere: the legacy encodings of the `encoding` crate, the hash function of `cmap::to_bytes`, and
what is left in the buffer when the writer of GPOS or GSUB reports an error. -/
structure Env where
  lib : Legacy
  hash : Cmap.Map → UInt64
  leftover : More → Bytes

/-- `num_glyphs` of the `maxp` that is read first (table_store.rs:334-347). -/
def withGlyphs {α : Type} (p : UInt16 → Reader α) (b : Bytes) : Option (Val More) → Res α
  | some (.maxp m) => runAll (p m.numGlyphs) b
  | _ => .panic

/-- `deserialize_table` (table_store.rs:326-394), the remaining arms. -/
def parseMore (E : Env) (t : Tag) (b : Bytes) (d : Option (Val More)) : Res More :=
  if t = tagCvt then (do return .cvt (← runAll readCvt b))
  else if t = tagFpgm then (do return .fpgm (← runAll readProgram b))
  else if t = tagGDEF then (do return .gdef (← runAll Gdef.readGdef b))
  else if t = tagGPOS then (do return .gpos (← withGlyphs Gpos.GPOS.read b d))
  else if t = tagGSUB then (do return .gsub (← withGlyphs Gsub.GSUB.read b d))
  else if t = tagMATH then (do return .math (← runAll Math.readMath b))
  else if t = tagName then (do return .name (← runAll (readName E.lib) b))
  else if t = tagOS2 then (do return .os2 (← runAll Os2.readOs2 b))
  else if t = tagPrep then (do return .prep (← runAll readProgram b))
  else .ok (.unknown b)

/-- `LoadedTable::to_bytes` (table_store.rs:639-666), the remaining arms. -/
def serMore (E : Env) : More → Res Bytes
  | .unknown b => .ok b
  | .cvt l => .ok (encCvt l)
  | .fpgm b => .ok (encProgram b)
  | .prep b => .ok (encProgram b)
  | .gdef g => Gdef.encGdef g
  | .gpos _ => .panic
  | .gsub _ => .panic
  | .math _ => .panic
  | .name l => encName E.lib l
  | .os2 o => .ok (Os2.encOs2 o)

/-- What `GPOS::to_bytes` and `GSUB::to_bytes` leave in the buffer (table_store.rs:486-502). -/
def laid (E : Env) (x : More) : Res Bytes → Res (Bytes × Bool)
  | .ok b => .ok (b, false)
  | .err => .ok (E.leftover x, true)
  | .panic => .panic

/-- The writers of `GPOS` and `GSUB` that `write_table` calls (table_store.rs:486-502). -/
def layMore (E : Env) : More → Res (Bytes × Bool)
  | .gpos g => laid E (.gpos g) g.toBytes
  | .gsub g => laid E (.gsub g) g.toBytes
  | _ => .panic

/-- All tables. (table_store.rs:326-386.) -/
def rest (E : Env) : Rest More := ⟨parseMore E, fun _ x => serMore E x, fun _ x _ => layMore E x, E.hash⟩

/-- All formats that `deserialize_table` knows (table_store.rs:326-386), with the declarations above. -/
abbrev Formats (E : Env) : Fmt Glyph (Other More) := fmt (rest E)

/-- The set of tables of a font (`TableSet`, table_store.rs:44-46). -/
abbrev Tables := Store.St (Val More)

/-- `load_if_needed` (table_store.rs:310-324). -/
def loadTable (E : Env) (t : Tag) (s : Tables) : Res (Bool × Tables) := s.load (parser (Formats E)) 4 t

/-- `load_if_needed(t)?`. (table_store.rs:310-324.) -/
def need (E : Env) (t : Tag) (s : Tables) : Res Tables := do
  let (ok, s) ← loadTable E t s
  if ok then .ok s else .err

/-- `Font::from_bytes` (font.rs:233-261): the version and the tables. `head` and `loca` are read at once (table_store.rs:197-202). -/
def fromBytes (E : Env) (input : Bytes) : Res (UInt32 × Tables) := match Font.readTables (Rd.new input) with
  | .ok ((version, tables), _) => do
    let s ← need E tagHead (Store.fresh tables)
    let s ← need E tagLoca s
    return (version, s)
  | .err => .err
  | .panic => .panic

/-- `load_if_needed(t)?` in a function that changes the tables and may report an error. (table_store.rs:217-232.) -/
def andThen (r : Res (Bool × Tables)) (f : Tables → Res (Bool × Tables)) : Res (Bool × Tables) := match r with
  | .ok (true, s) => f s
  | .ok (false, s) => .ok (false, s)
  | .err => .err
  | .panic => .panic

/-- The loop over all tags (table_store.rs:227-231): errors are only logged. -/
def loadEach (E : Env) : List Tag → Tables → Res Tables
  | [], s => .ok s
  | t :: ts, s => match loadTable E t s with
    | .ok (_, s) => loadEach E ts s
    | .err => .err
    | .panic => .panic

/-- The last part of `fully_deserialize`. (table_store.rs:226-231.) -/
def loadAll (E : Env) (s : Tables) : Res (Bool × Tables) := match loadEach E (s.store.map Prod.fst) s with
  | .ok s => .ok (true, s)
  | .err => .err
  | .panic => .panic

/-- The glyphs, if there are any (table_store.rs:222-225). -/
def loadGlyphs (E : Env) (s : Tables) : Res (Bool × Tables) :=
  if (BMap.get? s.store tagGlyf).isSome then andThen (loadTable E tagLoca s) (loadTable E tagGlyf) else .ok (true, s)

/-- `TableSet::fully_deserialize` (table_store.rs:217-233); the flag is `false` for an error. -/
def tryDeserialize (E : Env) (s : Tables) : Res (Bool × Tables) :=
  andThen (loadTable E tagHead s) fun s => andThen (loadTable E tagMaxp s) fun s => andThen (loadGlyphs E s) (loadAll E)

/-- `Font::fully_deserialize` (font.rs:106-108), which unwraps. -/
def fullyDeserialize (E : Env) (s : Tables) : Res Tables := match tryDeserialize E s with
  | .ok (true, s) => .ok s
  | _ => .panic

/-- `Font` (font.rs:57-64). -/
structure Font where
  version : UInt32
  tables : Tables
  numGlyphs : Option UInt16

/-- The number in `maxp` (font.rs:130-136): without a readable `maxp` this panics. -/
def countGlyphs (E : Env) (s : Tables) : Res (UInt16 × Tables) := do
  let (i, s) ← require (storeMachine (Formats E)) tagMaxp s
  let v ← valueOf (storeMachine (Formats E)) i s
  let s ← exec (storeMachine (Formats E)) (.drop i) s
  match v with
  | .maxp m => .ok (m.numGlyphs, s)
  | _ => .panic

/-- `Font::num_glyphs` (font.rs:128-138): the number is looked up once. -/
def Font.countOf (E : Env) (f : Font) : Res (UInt16 × Font) := match f.numGlyphs with
  | some n => .ok (n, f)
  | none => do
    let (n, s) ← countGlyphs E f.tables
    return (n, { f with tables := s, numGlyphs := some n })

end FT.Whole
