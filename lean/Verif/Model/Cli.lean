import Verif.Model.FontSave
import Verif.Model.Outline
import Verif.Model.Gvar
import Verif.Model.Stat
import Verif.Model.Cmap
import Verif.Model.Strings

/-!
Command line tools that rewrite a font file (crates/fonttools-cli/src), as functions from the bytes of the input file to
the bytes of the output file. Arguments and file names are not modelled; every reported error ends in `expect` or
`unwrap`, so a tool either writes a file or panics.
-/

namespace FT.Cli
open FT FT.Store FT.Save FT.Tables FT.Glyf FT.Strings

/-- The tag of the table (src/tables/gasp.rs:7). -/
def tagGasp : Tag := ⟨0x67, 0x61, 0x73, 0x70⟩
/-- The tag of the table (src/tables/prep.rs:7). -/
def tagPrep : Tag := ⟨0x70, 0x72, 0x65, 0x70⟩
/-- The tag `DSIG` (bin/ttf-add-minimal-dsig.rs:11). -/
def tagDSIG : Tag := ⟨0x44, 0x53, 0x49, 0x47⟩
/-- The tag of the table (src/tables/post.rs:8). -/
def tagPost : Tag := ⟨0x70, 0x6F, 0x73, 0x74⟩
/-- The tag of the table (src/tables/cmap.rs:13). -/
def tagCmap : Tag := ⟨0x63, 0x6D, 0x61, 0x70⟩
/-- The tag of the table (src/tables/fvar.rs:9). -/
def tagFvar : Tag := ⟨0x66, 0x76, 0x61, 0x72⟩
/-- The tag of the table (src/tables/avar.rs:7). -/
def tagAvar : Tag := ⟨0x61, 0x76, 0x61, 0x72⟩
/-- The tag of the table (src/tables/STAT.rs:11). -/
def tagSTAT : Tag := ⟨0x53, 0x54, 0x41, 0x54⟩
/-- The tag `CFF2` (instancer.rs:210). -/
def tagCFF2 : Tag := ⟨0x43, 0x46, 0x46, 0x32⟩

/-- The remaining tables that the tools look into; all others are `rest`, over any type of parsed contents. -/
inductive Other (X : Type) where
  | post (p : Post)
  | cmap (l : List Cmap.Subtable)
  | gasp (g : Gasp)
  | gvar (g : Gvar.Gvar)
  | fvar (f : AxisMaps.Fvar)
  | avar (l : List (List (ℚ × ℚ)))
  | stat (t : Stat.Table)
  | rest (x : X)

/-- Everything about the remaining tables. -/
structure Rest (X : Type) where
  parse : Tag → Bytes → Option (Loaded Glyph (Other X)) → Res X
  ser : Tag → X → Res Bytes
  serLayout : Tag → X → UInt16 → Res (Bytes × Bool)
  /-- The hash function of `cmap::to_bytes`. -/
  hash : Cmap.Map → UInt64

variable {X : Type}

/-- The glyph of a `None` location (src/tables/glyf.rs:48-57). -/
def emptyGlyph : Glyph := ⟨0, 0, 0, 0, [], [], [], false⟩

/-- Parsing `gvar` with the point numbering of the glyphs (table_store.rs:380-391). -/
def parseGvar (b : Bytes) : Option (Loaded Glyph (Other X)) → Res Gvar.Gvar
  | some (.glyf gs) => do
    let ce ← Res.mapL gvarCoordsAndEnds gs
    runAll (Gvar.readGvar ce) b
  | _ => .panic

/-- `deserialize_table` (table_store.rs:326-394) for the tables besides those in `Save.parse`. -/
def parseRest (R : Rest X) (t : Tag) (b : Bytes) (d : Option (Loaded Glyph (Other X))) : Res (Other X) :=
  if t = tagPost then (do return .post (← runAll readPost b))
  else if t = tagCmap then (do return .cmap (← runAll Cmap.readCmap b))
  else if t = tagGasp then (do return .gasp (← runAll readGasp b))
  else if t = tagGvar then (do return .gvar (← parseGvar b d))
  else if t = tagFvar then (do return .fvar (← runAll AxisMaps.readFvar b))
  else if t = tagAvar then (do return .avar (← runAll AxisMaps.readAvar b))
  else if t = tagSTAT then (do return .stat (← runAll Stat.readStat b))
  else (do return .rest (← R.parse t b d))

/-- `to_bytes` of these tables; `gvar` is never written this way (table_store.rs:636-666). -/
def serRest (R : Rest X) (t : Tag) : Other X → Res Bytes
  | .post p => encPost p
  | .cmap l => Cmap.encCmap R.hash l
  | .gasp g => .ok (encGasp g)
  | .gvar _ => .panic
  | .fvar f => AxisMaps.encFvar f
  | .avar l => AxisMaps.encAvar l
  | .stat s => Stat.encStat s
  | .rest x => R.ser t x

/-- `to_bytes` of GPOS and GSUB. (table_store.rs:486-502.) -/
def serLayoutRest (R : Rest X) (t : Tag) : Other X → UInt16 → Res (Bytes × Bool)
  | .rest x, n => R.serLayout t x n
  | _, _ => .panic

/-- The formats with the real glyphs. -/
def fmt (R : Rest X) : Fmt Glyph (Other X) where
  isEmpty := Glyph.isEmpty
  serGlyph := encGlyph
  parseGlyf := fun b l => runAll (Loca.readGlyphs emptyGlyph readGlyph l) b
  parseOther := parseRest R
  serOther := serRest R
  serLayout := serLayoutRest R

/-- What a loaded table holds (table_store.rs:326-386). -/
abbrev Val (X : Type) := Loaded Glyph (Other X)

variable {S : Type}

/-- `load_if_needed` in `TableLoader::finish` (table_store.rs:197-202); the error is passed on and ends in `expect`. -/
def preload {V : Type} (M : Machine V S) (t : Tag) (s : S) : Res S := match M.step (.get t) s with
  | .ok (.failed, _) => .panic
  | .ok (.done, s') => exec M (.drop (M.next s)) s'
  | .ok (_, s') => .ok s'
  | .err => .panic
  | .panic => .panic

/-- `contains` (table_store.rs:257-263): only entries of the map have a serialization state. -/
def contains {V : Type} (M : Machine V S) (s : S) (t : Tag) : Bool := (M.isSer s t).isSome

/-- `open_font` (crates/fonttools-cli/src/lib.rs:39-47) after the tables were cut out. -/
def openTables {V : Type} (M : Machine V S) (s : S) : Res S := do
  let s ← preload M tagHead s
  preload M tagLoca s

/-- `save_font` (lib.rs:49-56). -/
def saveFont (R : Rest X) (version : UInt32) (s : Store.St (Val X)) : Res Bytes :=
  match save (fmt R) version s with
  | .ok b => .ok b
  | .err => .panic
  | .panic => .panic

/-- A tool: open the font, work on its tables, save it. -/
def tool (R : Rest X) (body : Store.St (Val X) → Res (Store.St (Val X))) (input : Bytes) : Res Bytes :=
  match Font.readTables (Rd.new input) with
  | .ok ((version, tables), _) => do
    let s ← openTables (storeMachine (fmt R)) (Store.fresh tables)
    let s ← body s
    saveFont R version s
  | .err => .panic
  | .panic => .panic

/-- `ttf-fix-checksum` (bin/ttf-fix-checksum.rs). (bin/ttf-fix-checksum.rs:3-10.) -/
def fixChecksum (R : Rest X) (input : Bytes) : Res Bytes := tool R .ok input

/-- The body of `ttf-add-minimal-dsig` (bin/ttf-add-minimal-dsig.rs:11-16). -/
def dsigBody (M : Machine (Val X) S) (s : S) : Res S :=
  if contains M s tagDSIG then .ok s
  else exec M (.insertRaw tagDSIG [0x00, 0x00, 0x00, 0x01, 0x00, 0x00, 0x00, 0x00]) s

/-- Goes with `dsigBody` (bin/ttf-add-minimal-dsig.rs:11-16). -/
def addMinimalDsig (R : Rest X) (input : Bytes) : Res Bytes := tool R (dsigBody (storeMachine (fmt R))) input

/-- The new `gasp` (bin/ttf-fix-non-hinted.rs:19-31), with the flags of src/tables/gasp.rs:24-31. -/
def smoothGasp : Gasp := ⟨1, [⟨65535, 0x0008 ||| 0x0002 ||| 0x0001 ||| 0x0004⟩]⟩

/-- ttf-fix-non-hinted.rs:18-33. -/
def gaspBody (M : Machine (Val X) S) (s : S) : Res S :=
  if contains M s tagGasp then .ok s
  else exec M (.insertNew tagGasp (.other tagGasp (.gasp smoothGasp))) s

/-- The body of `ttf-fix-non-hinted` (ttf-fix-non-hinted.rs:18-36). -/
def nonHintedBody (M : Machine (Val X) S) (s : S) : Res S := do
  let s ← gaspBody M s
  exec M (.insertRaw tagPrep [0xb8, 0x01, 0xff, 0x85, 0xb0, 0x04, 0x8d]) s

/-- Goes with `nonHintedBody` (ttf-fix-non-hinted.rs:18-36). -/
def fixNonHinted (R : Rest X) (input : Bytes) : Res Bytes := tool R (nonHintedBody (storeMachine (fmt R))) input

/-- `.unwrap().unwrap()` on an accessor. -/
def require {V : Type} (M : Machine V S) (t : Tag) (s : S) : Res (Nat × S) := do
  let (i, s) ← access M t s
  match i with
  | some i => .ok (i, s)
  | none => .panic

/-- The outlines in variable `i`. -/
def glyphsOf (M : Machine (Val X) S) (i : Nat) (s : S) : Res (List Glyph) := do
  let v ← valueOf M i s
  match v with
  | .glyf gs => .ok gs
  | _ => .panic

/-- The variations in variable `i`. -/
def gvarOf (M : Machine (Val X) S) (i : Nat) (s : S) : Res Gvar.Gvar := do
  let v ← valueOf M i s
  match v with
  | .other _ (.gvar g) => .ok g
  | _ => .panic

/-- `gvar::to_bytes`, given the function `most_common` (src/tables/gvar.rs:278). -/
def encGvarWith (order : List Bytes → List Bytes) (glyf : Option (List Glyph)) (g : Gvar.Gvar) : Res Bytes := do
  let keys ← Res.mapL Gvar.peakBytes (Gvar.allSets g)
  Gvar.encGvar (order keys) glyf g

/-- The body of `ttf-optimize-gvar` (bin/ttf-optimize-gvar.rs:13-25). -/
def gvarBody (order : List Bytes → List Bytes) (M : Machine (Val X) S) (s : S) : Res S :=
  if contains M s tagGvar then do
    let (_, s) ← require M tagHead s
    let (_, s) ← require M tagMaxp s
    let (_, s) ← require M tagLoca s
    let (i, s) ← require M tagGlyf s
    let (j, s) ← require M tagGvar s
    let gs ← glyphsOf M i s
    let g ← gvarOf M j s
    let b ← Cmap.orPanic (encGvarWith order (some gs) g)
    exec M (.insertRaw tagGvar b) s
  else .ok s

/-- Goes with `gvarBody` (bin/ttf-optimize-gvar.rs:13-25). -/
def optimizeGvar (R : Rest X) (order : List Bytes → List Bytes) (input : Bytes) : Res Bytes :=
  tool R (gvarBody order (storeMachine (fmt R))) input

/-- The body of `ttf-flatten-components` (bin/ttf-flatten-components.rs:11-17). -/
def flattenBody (M : Machine (Val X) S) (s : S) : Res S := do
  let (i, s) ← require M tagGlyf s
  let gs ← glyphsOf M i s
  let flat ← flattenTable gs
  let s ← exec M (.modify i (fun _ => .glyf flat)) s
  exec M (.insertHolder i) s

/-- Goes with `flattenBody` (bin/ttf-flatten-components.rs:11-17). -/
def flattenComponents (R : Rest X) (input : Bytes) : Res Bytes := tool R (flattenBody (storeMachine (fmt R))) input

/-- One digit of `{:X}`. -/
def hexDigit (d : Nat) : Char := Char.ofNat (if d < 10 then 48 + d else 55 + d)

/-- The digits of `{:X}`. -/
def hexDigits (n : Nat) : List Char :=
  if _h : n < 16 then [hexDigit n] else hexDigits (n / 16) ++ [hexDigit (n % 16)]

/-- `{:04X}`. -/
def hex4 (n : Nat) : List Char := List.replicate (4 - (hexDigits n).length) '0' ++ hexDigits n

/-- The smallest code point, `unicodes.iter().sorted().next().unwrap()` (bin/ttf-rename-glyphs.rs:11). -/
def smallest : List UInt32 → Res UInt32
  | [] => .panic
  | c :: l => .ok (l.foldl (fun m x => if x.toNat < m.toNat then x else m) c)

/-- `build_production_name` (ttf-rename-glyphs.rs:7-19). -/
def productionName (name : String) : Option (List UInt32) → Res String
  | none => .ok name
  | some l => do
    let first ← smallest l
    if first = 0x20 then .ok "space"
    else if first.toNat > 0xFFFF then .ok (String.ofList ('u' :: hex4 first.toNat))
    else .ok (String.ofList ('u' :: 'n' :: 'i' :: hex4 first.toNat))

/-- The loop `for i in 0..num_glyphs` (ttf-rename-glyphs.rs:56-60), from glyph `i` on with `n` glyphs left. -/
def renameFrom (rev : List (UInt16 × List UInt32)) : (i n : Nat) → List String → Res (List String)
  | _, 0, l => .ok l
  | _, _ + 1, [] => .panic
  | i, n + 1, x :: l => do
    let y ← productionName x (BMap.get? rev (UInt16.ofNat i))
    let l ← renameFrom rev (i + 1) n l
    return y :: l

/-- The character map turned round (ttf-rename-glyphs.rs:40-44). -/
def reversedMap (M : Machine (Val X) S) (s : S) : Res (List (UInt16 × List UInt32) × S) := do
  let (i, s) ← access M tagCmap s
  match i with
  | none => .ok ([], s)
  | some i => do
    let v ← valueOf M i s
    match v with
    | .other _ (.cmap sts) => .ok (Cmap.reversed sts, s)
    | _ => .panic

/-- `num_glyphs` (src/font.rs:128-138). -/
def countGlyphs (M : Machine (Val X) S) (s : S) : Res (UInt16 × S) := do
  let (i, s) ← require M tagMaxp s
  let v ← valueOf M i s
  match v with
  | .maxp m => .ok (m.numGlyphs, s)
  | _ => .panic

/-- `post.set_version(3.0)` (ttf-rename-glyphs.rs:50). -/
def dropNames : Val X → Val X
  | .other t (.post p) => .other t (.post { p with version := 0x30000 })
  | x => x

/-- ttf-rename-glyphs.rs:52-61 on the `post` table in variable `j`. -/
def renamePost (M : Machine (Val X) S) (rev : List (UInt16 × List UInt32)) (n : UInt16) (j : Nat) (s : S) : Res S := do
  let v ← valueOf M j s
  match v with
  | .other t (.post p) => match p.glyphnames with
    | none => .panic
    | some names => do
      let names ← renameFrom rev 0 n.toNat names
      let s ← exec M (.modify j (fun _ => .other t (.post { p with glyphnames := some names }))) s
      exec M (.insertHolder j) s
  | _ => .panic

/-- The body of `ttf-rename-glyphs` (ttf-rename-glyphs.rs:38-63); `drop` is the option `-d`. -/
def renameBody (drop : Bool) (M : Machine (Val X) S) (s : S) : Res S := do
  let (n, s) ← countGlyphs M s
  let (rev, s) ← reversedMap M s
  let (j, s) ← access M tagPost s
  match j with
  | none => .ok s
  | some j => if drop then exec M (.modify j dropNames) s else renamePost M rev n j s

/-- Goes with `renameBody` (ttf-rename-glyphs.rs:38-63). -/
def renameGlyphs (R : Rest X) (drop : Bool) (input : Bytes) : Res Bytes :=
  tool R (renameBody drop (storeMachine (fmt R))) input

end FT.Cli
