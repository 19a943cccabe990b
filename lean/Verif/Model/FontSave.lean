import Verif.Model.TableStore
import Verif.Model.HmtxLoca
import Verif.Model.SimpleTables
import Verif.Model.Font

/-!
Saving a font: `Font::write` (src/font.rs:117-123) with the compilation steps of the table set
(src/table_store.rs:408-504).
-/

namespace FT.Save
open FT FT.Store FT.Tables

/-- The tag of the table (src/tables/head.rs:4). -/
def tagHead : Tag := ⟨0x68, 0x65, 0x61, 0x64⟩
/-- The tag of the table (src/tables/hhea.rs:6). -/
def tagHhea : Tag := ⟨0x68, 0x68, 0x65, 0x61⟩
/-- The tag of the table (src/tables/hmtx.rs:8). -/
def tagHmtx : Tag := ⟨0x68, 0x6D, 0x74, 0x78⟩
/-- The tag of the table (src/tables/maxp.rs:6). -/
def tagMaxp : Tag := ⟨0x6D, 0x61, 0x78, 0x70⟩
/-- The tag `loca` (src/tables/loca.rs:4). -/
def tagLoca : Tag := ⟨0x6C, 0x6F, 0x63, 0x61⟩
/-- The tag `glyf` (src/tables/glyf.rs:21). -/
def tagGlyf : Tag := ⟨0x67, 0x6C, 0x79, 0x66⟩
/-- The tag of the table (src/tables/gvar.rs:16). -/
def tagGvar : Tag := ⟨0x67, 0x76, 0x61, 0x72⟩
/-- The tag of the table (src/tables/MATH.rs:10). -/
def tagMATH : Tag := ⟨0x4D, 0x41, 0x54, 0x48⟩
/-- The tag of the table (src/tables/GPOS.rs:17). -/
def tagGPOS : Tag := ⟨0x47, 0x50, 0x4F, 0x53⟩
/-- The tag of the table (src/tables/GSUB.rs:16). -/
def tagGSUB : Tag := ⟨0x47, 0x53, 0x55, 0x42⟩

/-- `LoadedTable` (table_store.rs:71-120): the tables that saving looks into; all others are `other`, over any type of
parsed contents. Glyphs are a parameter as in C26. -/
inductive Loaded (G O : Type) where
  | head (t : Head)
  | hhea (t : Hhea)
  | hmtx (l : List Hmtx.Metric)
  | maxp (t : Maxp)
  | loca (l : List (Option UInt32))
  | glyf (l : List G)
  | other (tag : Tag) (x : O)

/-- Everything about glyphs and the remaining tables. -/
structure Fmt (G O : Type) where
  isEmpty : G → Bool
  serGlyph : G → Res Bytes
  parseGlyf : Bytes → List (Option UInt32) → Res (List G)
  parseOther : Tag → Bytes → Option (Loaded G O) → Res O
  /-- `to_bytes` of the remaining tables. -/
  serOther : Tag → O → Res Bytes
  /-- The buffer after `GPOS::to_bytes` / `GSUB::to_bytes`, and whether it reported an error. -/
  serLayout : Tag → O → UInt16 → Res (Bytes × Bool)

variable {G O : Type}

/-- Running a reader on a whole table. -/
def runAll {α : Type} (p : Reader α) (b : Bytes) : Res α := match p (Rd.new b) with
  | .ok (a, _) => .ok a
  | .err => .err
  | .panic => .panic

/-- `deserialize_table` (table_store.rs:326-386). A dependency of the wrong kind would be a panic
(table_store.rs:600). -/
def parse (F : Fmt G O) (t : Tag) (b : Bytes) (d : Option (Loaded G O)) : Res (Loaded G O) :=
  if t = tagHead then (do return .head (← runAll readHead b))
  else if t = tagHhea then (do return .hhea (← runAll readHhea b))
  else if t = tagMaxp then (do return .maxp (← runAll readMaxp b))
  else if t = tagHmtx then (match d with
    | some (.hhea h) => (do return .hmtx (← runAll (Hmtx.fromBytes h.numberOfHMetrics) b))
    | _ => .panic)
  else if t = tagLoca then (match d with
    | some (.head h) => (do return .loca (← runAll (Loca.fromBytes (h.indexToLocFormat == 1)) b))
    | _ => .panic)
  else if t = tagGlyf then (match d with
    | some (.loca l) => (do return .glyf (← F.parseGlyf b l))
    | _ => .panic)
  else (do return .other t (← F.parseOther t b d))

/-- The table that another needs to be read (table_store.rs:326-386). -/
def dep (t : Tag) : Option Tag :=
  if t = tagGPOS ∨ t = tagGSUB then some tagMaxp
  else if t = tagHmtx then some tagHhea
  else if t = tagLoca then some tagHead
  else if t = tagGlyf then some tagLoca
  else if t = tagGvar then some tagGlyf
  else none

/-- `LoadedTable::to_bytes` (table_store.rs:636-666): `hmtx`, `glyf`, `loca`, `gvar`, `MATH`,
`GPOS` and `GSUB` are `unimplemented!`. -/
def ser (F : Fmt G O) : Loaded G O → Res Bytes
  | .head t => .ok (encHead t)
  | .hhea t => .ok (encHhea t)
  | .maxp t => encMaxp t
  | .hmtx _ => .panic
  | .loca _ => .panic
  | .glyf _ => .panic
  | .other t x => if t = tagGPOS ∨ t = tagGSUB ∨ t = tagGvar ∨ t = tagMATH then .panic else F.serOther t x

/-- Goes with `ser` (table_store.rs:636-666). -/
def parser (F : Fmt G O) : Parser (Loaded G O) := ⟨dep, parse F, ser F⟩

/-- The interface that the compilation steps use; instantiated with the store below. -/
structure Machine (V S : Type) where
  step : Op V → S → Res (Obs V × S)
  /-- Index of the next variable. -/
  next : S → Nat
  /-- `is_serialized` (table_store.rs:408-415). -/
  isSer : S → Tag → Option Bool

/-- `is_serialized` (table_store.rs:408-415) on the store. -/
def isSerialized {V : Type} (s : Store.St V) (t : Tag) : Option Bool := match BMap.get? s.store t with
  | none => none
  | some (.unloaded _) => some true
  | some (.loaded tb) => some tb.raw.isSome

/-- The store as an instance of the interface. -/
def storeMachine (F : Fmt G O) : Machine (Loaded G O) (Store.St (Loaded G O)) :=
  ⟨Store.step (parser F), fun s => s.holders.length, isSerialized⟩

variable {S : Type}

/-- `self.xxxx().unwrap()`: the index of the new variable, `none` if there is no such table; errors panic. -/
def access {V : Type} (M : Machine V S) (t : Tag) (s : S) : Res (Option Nat × S) :=
  match M.step (.open_ t) s with
  | .ok (.done, s') => .ok (some (M.next s), s')
  | .ok (.absent, s') => .ok (none, s')
  | .ok (_, _) => .panic
  | .err => .panic
  | .panic => .panic

/-- The value of a variable. -/
def valueOf {V : Type} (M : Machine V S) (i : Nat) (s : S) : Res V := match M.step (.read i) s with
  | .ok (.value v, _) => .ok v
  | _ => .panic

/-- One operation on the tables whose result is not looked at. -/
def exec {V : Type} (M : Machine V S) (op : Op V) (s : S) : Res S := match M.step op s with
  | .ok (_, s') => .ok s'
  | .err => .err
  | .panic => .panic

/-- `maxp.set_num_glyphs(n)` on the loaded table (table_store.rs:469-470). -/
def setCount (n : Nat) : Loaded G O → Loaded G O
  | .maxp m => .maxp (m.setNumGlyphs (UInt16.ofNat n))
  | x => x

/-- Assigning `head.indexToLocFormat` (table_store.rs:473). -/
def setFormat (is32 : Bool) : Loaded G O → Loaded G O
  | .head h => .head { h with indexToLocFormat := if is32 then 1 else 0 }
  | x => x

/-- Assigning `hhea.numberOfHMetrics` (table_store.rs:478). -/
def setMetricCount (n : UInt16) : Loaded G O → Loaded G O
  | .hhea h => .hhea { h with numberOfHMetrics := n }
  | x => x

/-- The maxp part (table_store.rs:469-470): the count is set in a variable which is then dropped without being
inserted. -/
def compileMaxp (M : Machine (Loaded G O) S) (count : Nat) (s : S) : Res S := do
  let (j, s) ← access M tagMaxp s
  match j with
  | none => .panic
  | some j =>
    if count > 65535 then .panic
    else do
      let s ← exec M (.modify j (setCount count)) s
      exec M (.drop j) s

/-- The head part (table_store.rs:472-474). -/
def compileHead (M : Machine (Loaded G O) S) (is32 : Bool) (s : S) : Res S := do
  let (j, s) ← access M tagHead s
  match j with
  | none => .panic
  | some j => do
    let s ← exec M (.modify j (setFormat is32)) s
    exec M (.insertHolder j) s

/-- The hhea part (table_store.rs:476-481). -/
def compileHhea (M : Machine (Loaded G O) S) (s : S) : Res S := do
  let (j, s) ← access M tagHmtx s
  match j with
  | none => return s
  | some j => do
    let v ← valueOf M j s
    match v with
    | .hmtx l => do
      let n ← Hmtx.numberOfHMetrics l
      let s ← exec M (.drop j) s
      let (k, s) ← access M tagHhea s
      match k with
      | none => return s
      | some k => do
        let s ← exec M (.modify k (setMetricCount n)) s
        exec M (.insertHolder k) s
    | _ => .panic

/-- `compile_glyf_loca_maxp` (table_store.rs:417-482). Variables are dropped as soon as they are no longer used; with
copy-on-write this is not observable (C24). -/
def compileGlyf (F : Fmt G O) (M : Machine (Loaded G O) S) (s : S) : Res S :=
  if (M.isSer s tagGlyf).getD true && (M.isSer s tagLoca).getD true && (M.isSer s tagMaxp).getD true then .ok s
  else do
    let (i, s) ← access M tagGlyf s
    match i with
    | none => return s
    | some i => do
      let v ← valueOf M i s
      match v with
      | .glyf gs => do
        let (out, loca, is32) ← Loca.compile F.isEmpty F.serGlyph gs
        let s ← exec M (.drop i) s
        let s ← exec M (.insertRaw tagGlyf out) s
        let s ← exec M (.insertRaw tagLoca loca) s
        let s ← compileMaxp M gs.length s
        let s ← compileHead M is32 s
        compileHhea M s
      | _ => .panic

/-- One half of `compile_gsub_gpos` (table_store.rs:486-494): the buffer is inserted even if serialization failed. -/
def compileLayout (F : Fmt G O) (M : Machine (Loaded G O) S) (n : UInt16) (t : Tag) (s : S) : Res S :=
  if (M.isSer s t).getD true then .ok s
  else do
    let (i, s) ← access M t s
    match i with
    | none => return s
    | some i => do
      let v ← valueOf M i s
      match v with
      | .other _ x => do
        let (bytes, _failed) ← F.serLayout t x n
        let s ← exec M (.drop i) s
        exec M (.insertRaw t bytes) s
      | _ => .panic

/-- `compile_gsub_gpos` (table_store.rs:484-504); without maxp this panics. -/
def compileLayouts (F : Fmt G O) (M : Machine (Loaded G O) S) (s : S) : Res S := do
  let (i, s) ← access M tagMaxp s
  match i with
  | none => .panic
  | some i => do
    let v ← valueOf M i s
    match v with
    | .maxp m => do
      let s ← exec M (.drop i) s
      let s ← compileLayout F M m.numGlyphs tagGPOS s
      compileLayout F M m.numGlyphs tagGSUB s
    | _ => .panic

/-- The compilation steps of `Font::write` (font.rs:118-119). -/
def compileAll (F : Fmt G O) (M : Machine (Loaded G O) S) (s : S) : Res S := do
  let s ← compileGlyf F M s
  compileLayouts F M s

/-- All tables as bytes, in tag order (font.rs:201-209); the first error or panic ends the save.
Simplification: in the code a `head` shorter than 12 bytes panics at its place in this loop, here in `toBytes`. -/
def writeAll (F : Fmt G O) (s : Store.St (Loaded G O)) : Res (List (Tag × Bytes)) :=
  Res.mapL (fun t => match s.write (parser F) t with
    | .ok b => .ok (t, b)
    | .err => .err
    | .panic => .panic) (s.store.map Prod.fst)

/-- `Font::write` (font.rs:117-123): the bytes of the file. -/
def save (F : Fmt G O) (version : UInt32) (s : Store.St (Loaded G O)) : Res Bytes := do
  let s ← compileAll F (storeMachine F) s
  let tables ← writeAll F s
  Font.toBytes version tables

end FT.Save
