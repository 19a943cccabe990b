import Verif.Model.AllTables
import Verif.Model.Fvar
import Verif.Model.MaxpStats

/-!
Designspace documents (crates/designspace/src/lib.rs): locations, the default master, the variation model, and adding a
designspace to a font. Reading the XML is not modelled; a document is given by its fields. Axis maps and normalisation are in
Model/AxisMaps.
-/

namespace FT.Design
open FT FT.Store FT.Save FT.Cli FT.Whole FT.Strings FT.AxisMaps

/-- `Axis` (lib.rs:233-253). The tag is given by its UTF-8 bytes; `labelname` is not used by the code. -/
structure DsAxis where
  name : List Char
  tag : Bytes
  scale : AxisMaps.Axis
  hidden : Option Bool

/-- `Dimension` (lib.rs:412-421); `yvalue` is not used by the code. -/
structure Dimension where
  name : List Char
  xvalue : ℚ

/-- `Location` (lib.rs:405-410). -/
abbrev Place := List Dimension

/-- `Instance` (lib.rs:430-449), the fields that are used. -/
structure DsInstance where
  stylename : List Char
  postscriptfontname : Option (List Char)
  location : Place

/-- `Source` (lib.rs:379-394), the fields that are used. -/
structure Source where
  filename : List Char
  location : Place

/-- `Designspace` (lib.rs:28-38). No `instances` element is the same as an empty one. -/
structure Designspace where
  axes : List DsAxis
  sources : List Source
  instances : List DsInstance

/-- `tag_as_tag` (lib.rs:321-323). -/
def DsAxis.asTag (a : DsAxis) : Res Tag := Cmap.orPanic (Tag.fromRaw a.tag)

/-- `axis_order` (lib.rs:148-150). -/
def axisOrder (d : Designspace) : Res (List Tag) := Res.mapL DsAxis.asTag d.axes

/-- `tag_to_name` (lib.rs:138-144): of axes with the same tag the last one counts. The hash map is given by its entries in order
of tags; the code only looks tags up. -/
def tagToName (d : Designspace) : Res (List (Tag × List Char)) := do
  let l ← Res.mapL (fun a => do
    let t ← a.asTag
    return (t, a.name)) d.axes
  return BMap.collect l

/-- `default_location` (lib.rs:153-155). -/
def defaultLocation (d : Designspace) : List ℤ := d.axes.map fun a => a.scale.default

/-- `default_designspace_location` (lib.rs:158-164). -/
def defaultDesignLocation (rd : ℚ → ℚ) (d : Designspace) : Res (List ℤ) :=
  Res.mapL (fun a => do
    let x ← toDesign rd a.scale a.scale.default
    return toInt x) d.axes

/-- One step of the loop of `location_to_tuple` (lib.rs:178-186). -/
def tupleEntry (rd : ℚ → ℚ) (names : List (Tag × List Char)) (loc : Place) (x : Tag × ℤ) : Res ℚ :=
  match BMap.get? names x.1 with
  | none => .panic
  | some n => match loc.find? fun e => decide (e.name = n) with
    | some e => .ok e.xvalue
    | none => .ok (rd x.2)

/-- `location_to_tuple` (lib.rs:175-188). -/
def locationToTuple (rd : ℚ → ℚ) (d : Designspace) (loc : Place) : Res (List ℚ) := do
  let names ← tagToName d
  let order ← axisOrder d
  Res.mapL (tupleEntry rd names loc) (order.zip (defaultLocation d))

/-- `source_location` (lib.rs:167-172). -/
def sourceLocation (rd : ℚ → ℚ) (d : Designspace) (s : Source) : Res (List ℤ) := do
  let l ← locationToTuple rd d s.location
  return l.map toInt

/-- `find` in `default_master` (lib.rs:194-197). -/
def findSource (rd : ℚ → ℚ) (d : Designspace) (expected : List ℤ) : List Source → Res (Option Source)
  | [] => .ok none
  | s :: rest => do
    let l ← sourceLocation rd d s
    if l = expected then return some s else findSource rd d expected rest

/-- `default_master` (lib.rs:192-198). -/
def defaultMaster (rd : ℚ → ℚ) (d : Designspace) : Res (Option Source) := do
  let expected ← defaultDesignLocation rd d
  findSource rd d expected d.sources

/-- `normalize_location` (lib.rs:201-208). -/
def normalizeLocation (rd : ℚ → ℚ) (d : Designspace) (loc : List ℤ) : Res (List ℚ) :=
  Res.mapL (fun x : DsAxis × ℤ => normDesign rd x.1.scale (rd x.2)) (d.axes.zip loc)

/-- The location of a source in the variation model (lib.rs:214-218). -/
def masterLocation (rd : ℚ → ℚ) (d : Designspace) (s : Source) : Res Var.Loc := do
  let l ← sourceLocation rd d s
  let v ← normalizeLocation rd d l
  let order ← axisOrder d
  return BMap.collect (order.zip v)

/-- `variation_model` (lib.rs:211-222). -/
def variationModel (rd : ℚ → ℚ) (d : Designspace) : Res Var.Model := do
  let locs ← Res.mapL (masterLocation rd d) d.sources
  let order ← axisOrder d
  Var.newModel rd locs order

/-- `to_variation_axis_record` (lib.rs:255-272); `none` is the error. -/
def axisRecord (rd : ℚ → ℚ) (a : DsAxis) (ix : UInt16) : Res (Option AxisRecord) :=
  if a.tag.length ≠ 4 then .ok none
  else do
    let t ← a.asTag
    return some ⟨t, rd a.scale.minimum, rd a.scale.default, rd a.scale.maximum, if a.hidden.getD false then 1 else 0, ix⟩

/-- What the loop over the axes collects. -/
structure AxesOut where
  axes : List AxisRecord
  maps : List (List (ℚ × ℚ))
  names : List NameRecord
  ix : UInt16

/-- The loop over the axes (lib.rs:75-101); `none` is the error of line 76. -/
def addAxes (rd : ℚ → ℚ) : UInt16 → List DsAxis → Res (Option AxesOut)
  | ix, [] => .ok (some ⟨[], [], [], ix⟩)
  | ix, a :: rest => do
    let r ← axisRecord rd a ix
    match r with
    | none => .ok none
    | some r => do
      let next ← Glyf.addU16 ix 1
      let m ← segmentOf rd a.scale
      let out ← addAxes rd next rest
      return out.map fun o => ⟨r :: o.axes, m :: o.maps, windowsUnicode ix a.name :: o.names, o.ix⟩

/-- The loop over the instances (lib.rs:103-124): the instances and the new names. -/
def addInstances (rd : ℚ → ℚ) (d : Designspace) : UInt16 → List DsInstance → Res (List Instance × List NameRecord)
  | _, [] => .ok ([], [])
  | ix, i :: rest => do
    let c ← locationToTuple rd d i.location
    let next ← Glyf.addU16 ix 1
    match i.postscriptfontname with
    | none => do
      let out ← addInstances rd d next rest
      return (⟨ix, 0, c, none⟩ :: out.1, windowsUnicode ix i.stylename :: out.2)
    | some ps => do
      let after ← Glyf.addU16 next 1
      let out ← addInstances rd d after rest
      return (⟨ix, 0, c, some next⟩ :: out.1, windowsUnicode ix i.stylename :: windowsUnicode next ps :: out.2)

/-- The new tables: `fvar`, `avar` and the names to be added (lib.rs:65-124, 126, 131). -/
def newTables (rd : ℚ → ℚ) (d : Designspace) : Res (Option (Fvar × List (List (ℚ × ℚ)) × List NameRecord)) := do
  let r ← addAxes rd 255 d.axes
  match r with
  | none => .ok none
  | some o => do
    let i ← addInstances rd d o.ix d.instances
    return some (⟨o.axes, i.1⟩, o.maps, o.names ++ i.2)

variable {S : Type}

/-- `add_to_font` (lib.rs:64-135); the flag is `false` for an error. -/
def addToFont (rd : ℚ → ℚ) (d : Designspace) (M : Machine (Val More) S) (s : S) : Res (Bool × S) := do
  let (i, s) ← require M tagName s
  let v ← valueOf M i s
  match v with
  | .other t (.rest (.name l)) => do
    let new ← newTables rd d
    match new with
    | none => do
      let s ← exec M (.drop i) s
      return (false, s)
    | some (f, maps, names) => do
      let s ← exec M (.insertNew tagFvar (.other tagFvar (.fvar f))) s
      let s ← exec M (.modify i (fun _ => .other t (.rest (.name (l ++ names))))) s
      let s ← exec M (.insertHolder i) s
      let s ← exec M (.insertNew tagAvar (.other tagAvar (.avar maps))) s
      return (true, s)
  | _ => .panic

end FT.Design
