import Verif.Model.Cli
import Verif.Model.Instancer

/-!
`ttf-instantiate` (crates/fonttools-cli/src/bin/ttf-instantiate.rs): `instantiate_variable_font`
(src/otvar/instancer.rs:603-648) on the tables of a font file. What is done to each table is in Model/Instancer; here is
when the tables are opened, put back and removed.

The options of the tool other than the locations are not used by the code; the names of files are not modelled.
-/

namespace FT.Cli
open FT FT.Store FT.Save FT.Glyf FT.AxisMaps FT.Instancer

variable {X S : Type}

/-! ### Arguments -/

/-- The regular expression class `\w` on ASCII; a tag with other characters is refused by `Tag::from_raw`. -/
def isWord (c : Char) : Bool := c.isAlphanum || c == '_'

/-- The part before the first `c` and, if there is a `c`, the part after it. -/
def cutAt (c : Char) : List Char → List Char × Option (List Char)
  | [] => ([], none)
  | x :: l => if x = c then ([], some l) else (x :: (cutAt c l).1, (cutAt c l).2)

/-- `str_to_fixed_to_float` (ttf-instantiate.rs:71-73). `num` stands for `str::parse::<f32>`; infinities and NaN are not
modelled. -/
def readNumber (num : List Char → Option ℚ) (s : List Char) : Res ℚ := do
  let v ← Res.unwrap (num s)
  return F32.fixedFromPacked (F32.fixedAsPacked v)

/-- The limit of one argument (lines 83-104), from the part after the `=`. -/
def readLimit (num : List Char → Option ℚ) (s : List Char) : Res UserLimit :=
  if s = "drop".toList then .ok .drop
  else match cutAt ':' s with
    | ([], _) => .panic
    | (lo, none) => do
      let a ← readNumber num lo
      return .full a
    | (lo, some hi) =>
      if hi.isEmpty || hi.contains '\n' then .panic
      else do
        let a ← readNumber num lo
        let b ← readNumber num hi
        if b = a then return .full a
        else if b < a then .panic
        else return .range a b

/-- One argument (lines 78-105): what does not match the regular expression of line 77 panics. -/
def readArg (num : List Char → Option ℚ) (s : List Char) : Res (Tag × UserLimit) :=
  match cutAt '=' s with
  | (name, some rest) =>
    if name.all isWord then do
      let tag ← Cmap.orPanic (Tag.fromRaw (name.map fun c => UInt8.ofNat c.toNat))
      let l ← readLimit num rest
      return (tag, l)
    else .panic
  | (_, none) => .panic

/-- `parse_locargs` (lines 75-107). -/
def readArgs (num : List Char → Option ℚ) (args : List (List Char)) : Res UserLimits := do
  let l ← Res.mapL (readArg num) args
  return BMap.collect l

/-! ### Tables -/

/-- A table that must be there. -/
def look (M : Machine (Val X) S) (t : Tag) (s : S) : Res (Val X × S) := do
  let (i, s) ← require M t s
  let v ← valueOf M i s
  return (v, s)

/-- `font.tables.fvar()?.unwrap()` in instancer.rs:603-648; the accessor is table_store.rs:609-612. -/
def lookFvar (M : Machine (Val X) S) (s : S) : Res (Fvar × S) := do
  let (v, s) ← look M tagFvar s
  match v with
  | .other _ (.fvar f) => .ok (f, s)
  | _ => .panic

/-- `font.tables.glyf()?.unwrap()` in instancer.rs:603-648; the accessor is table_store.rs:609-612. -/
def lookGlyf (M : Machine (Val X) S) (s : S) : Res (List Glyph × S) := do
  let (v, s) ← look M tagGlyf s
  match v with
  | .glyf gs => .ok (gs, s)
  | _ => .panic

/-- `font.tables.gvar()?.unwrap()` in instancer.rs:603-648; the accessor is table_store.rs:609-612. -/
def lookGvar (M : Machine (Val X) S) (s : S) : Res (Gvar.Gvar × S) := do
  let (v, s) ← look M tagGvar s
  match v with
  | .other _ (.gvar g) => .ok (g, s)
  | _ => .panic

/-- `font.tables.avar()?.unwrap()` in instancer.rs:603-648; the accessor is table_store.rs:609-612. -/
def lookAvar (M : Machine (Val X) S) (s : S) : Res (List (List (ℚ × ℚ)) × S) := do
  let (v, s) ← look M tagAvar s
  match v with
  | .other _ (.avar l) => .ok (l, s)
  | _ => .panic

/-- `font.tables.STAT()?.unwrap()` in instancer.rs:603-648; the accessor is table_store.rs:609-612. -/
def lookStat (M : Machine (Val X) S) (s : S) : Res (Stat.Table × S) := do
  let (v, s) ← look M tagSTAT s
  match v with
  | .other _ (.stat t) => .ok (t, s)
  | _ => .panic

/-- `font.tables.avar().unwrap()` (instancer.rs:554). -/
def maybeAvar (M : Machine (Val X) S) (s : S) : Res (Option (List (List (ℚ × ℚ))) × S) := do
  let (i, s) ← access M tagAvar s
  match i with
  | none => .ok (none, s)
  | some i => do
    let v ← valueOf M i s
    match v with
    | .other _ (.avar l) => .ok (some l, s)
    | _ => .panic

/-- Putting back a table: `insert` of a variable that was changed, or of a new value. -/
def putBack (M : Machine (Val X) S) (t : Tag) (v : Val X) (s : S) : Res S := exec M (.insertNew t v) s

/-- `remove` or `insert`. -/
def putOr (M : Machine (Val X) S) (t : Tag) (v : Option (Val X)) (s : S) : Res S := match v with
  | none => exec M (.remove t) s
  | some v => putBack M t v s

/-- `normalize_axis_limits` (instancer.rs:534-601). -/
def normalizeIn (M : Machine (Val X) S) (limits : UserLimits) (useAvar : Bool) (s : S) : Res (Limits × S) := do
  let (f, s) ← lookFvar M s
  let (maps, s) ← maybeAvar M s
  let n ← normLimits F32.rne f.axes (if useAvar then maps else none) limits
  return (n, s)

/-- Lines 613-616 with `instantiate_gvar` (lines 243-268). -/
def gvarIn (M : Machine (Val X) S) (norm : Limits) (s : S) : Res S :=
  if contains M s tagGvar then do
    let (f, s) ← lookFvar M s
    let (v, s) ← lookGvar M s
    let (gs, s) ← lookGlyf M s
    let r ← instantiateGvar F32.rne (f.axes.map AxisRecord.axisTag) norm gs v
    let s ← putOr M tagGvar (r.2.map fun g => .other tagGvar (.gvar g)) s
    putBack M tagGlyf (.glyf r.1) s
  else .ok s

/-- Lines 631-634 with `instantiate_avar` (lines 270-352). `instantiateAvar` normalises the limits again, as lines 273 does on
tables which are open. -/
def avarIn (M : Machine (Val X) S) (limits : UserLimits) (s : S) : Res S :=
  if contains M s tagAvar then do
    let (maps, s) ← lookAvar M s
    let (f, s) ← lookFvar M s
    let r ← instantiateAvar F32.rne f.axes limits maps
    putOr M tagAvar (r.map fun l => .other tagAvar (.avar l)) s
  else .ok s

/-- Lines 635-637 with `instantiate_STAT` (lines 446-500): a table without axes or without values is not put back. -/
def statIn (M : Machine (Val X) S) (limits : UserLimits) (s : S) : Res S :=
  if contains M s tagSTAT then do
    let (t, s) ← lookStat M s
    if t.axes.isEmpty || t.values.isEmpty then .ok s
    else do
      let r ← instantiateStat F32.rne limits t
      putBack M tagSTAT (.other tagSTAT (.stat r)) s
  else .ok s

/-- `instantiate_fvar` (lines 365-444). -/
def fvarIn (M : Machine (Val X) S) (limits : UserLimits) (s : S) : Res S := do
  let (f, s) ← lookFvar M s
  let r ← instantiateFvar F32.rne limits f
  putOr M tagFvar (r.map fun f => .other tagFvar (.fvar f)) s

/-- Lines 639-643: only a font without a glyf table gets here, and panics. -/
def overlapIn (M : Machine (Val X) S) (s : S) : Res S :=
  if contains M s tagFvar || contains M s tagGlyf then .ok s else .panic

/-- `sanity_check` (lines 206-213). -/
def sane (M : Machine (Val X) S) (s : S) : Bool := contains M s tagFvar && !contains M s tagCFF2

/-- `instantiate_variable_font` (lines 603-648). -/
def instanceBody (limits : UserLimits) (M : Machine (Val X) S) (s : S) : Res S :=
  if sane M s then do
    let (f, s) ← lookFvar M s
    let limits ← populate f.axes limits
    let (norm, s) ← normalizeIn M limits true s
    let (_, s) ← access M tagGlyf s
    let (_, s) ← access M tagGvar s
    let s ← gvarIn M norm s
    let s ← avarIn M limits s
    let s ← statIn M limits s
    let s ← fvarIn M limits s
    overlapIn M s
  else .panic

/-- The main program after the arguments were read (ttf-instantiate.rs:47-68): the file that is written, `none` for none. -/
def instantiateFile (R : Rest X) (limits : UserLimits) (input : Bytes) : Res (Option Bytes) :=
  match Font.readTables (Rd.new input) with
  | .ok ((version, tables), _) => do
    let s ← openTables (storeMachine (fmt R)) (Store.fresh tables)
    if contains (storeMachine (fmt R)) s tagFvar then do
      let s ← instanceBody limits (storeMachine (fmt R)) s
      let b ← saveFont R version s
      return some b
    else return none
  | .err => .panic
  | .panic => .panic

/-- The main program (ttf-instantiate.rs:11-69): two limits for one axis are reported, and no file is written. -/
def instantiateTool (R : Rest X) (num : List Char → Option ℚ) (args : List (List Char)) (input : Bytes) : Res (Option Bytes) := do
  let limits ← readArgs num args
  if limits.length = args.length then instantiateFile R limits input else return none

end FT.Cli
