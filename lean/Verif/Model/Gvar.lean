import Verif.Model.Iup

/-!
The gvar table: src/tables/gvar.rs. Coordinates are the rationals they denote.
-/

namespace FT.Gvar
open FT Reader FT.F32 FT.TupleVar FT.Iup FT.Glyf

/-- `DeltaSet` (lines 33-46). -/
structure DeltaSet where
  peak : List ℚ
  start : List ℚ
  stop : List ℚ
  deltas : List Pt
  deriving DecidableEq

/-- `gvar` (lines 147-161): for each glyph its `GlyphVariationData`. -/
abbrev Gvar := List (Option (List DeltaSet))

/-- `gvarcore` (lines 21-31). -/
structure GvarCore where
  majorVersion : UInt16
  minorVersion : UInt16
  axisCount : UInt16
  sharedTupleCount : UInt16
  sharedTuplesOffset : UInt32
  glyphCount : UInt16
  flags : UInt16
  dataOffset : UInt32
  deriving DecidableEq

/-- The derived `Serialize` of `gvarcore`. (gvar.rs:21-32.) -/
def encGvarCore (c : GvarCore) : Bytes :=
  encU16 c.majorVersion ++ (encU16 c.minorVersion ++ (encU16 c.axisCount ++ (encU16 c.sharedTupleCount ++
    (encU32 c.sharedTuplesOffset ++ (encU16 c.glyphCount ++ (encU16 c.flags ++ encU32 c.dataOffset))))))

/-- The derived `Deserialize` of `gvarcore`. (gvar.rs:21-32.) -/
def readGvarCore : Reader GvarCore := do
  let majorVersion ← readU16
  let minorVersion ← readU16
  let axisCount ← readU16
  let sharedTupleCount ← readU16
  let sharedTuplesOffset ← readU32
  let glyphCount ← readU16
  let flags ← readU16
  let dataOffset ← readU32
  return { majorVersion, minorVersion, axisCount, sharedTupleCount, sharedTuplesOffset, glyphCount, flags, dataOffset }

/-- The bytes of a peak tuple (lines 54-57, 271-274). -/
def peakBytes (d : DeltaSet) : Res Bytes := unwrapR (encVecR encF2dot14 d.peak)

/-- The header made by `to_tuple_variation` (lines 58-91), given the position of the peak among the shared tuples. -/
def tupleHeader (d : DeltaSet) (index : Option Nat) : Header :=
  let inter := d.peak ≠ d.start ∨ d.peak ≠ d.stop
  { size := 0
    flags := (if index.isNone then EMBEDDED_PEAK_TUPLE else 0) ||| (if inter then INTERMEDIATE_REGION else 0)
    sharedTupleIndex := match index with
      | some i => UInt16.ofNat i
      | none => 0
    peakTuple := if index.isNone then some d.peak else none
    startTuple := if inter then some d.start else none
    endTuple := if inter then some d.stop else none }

/-- `Some(Delta::Delta2D((*x, *y)))` (lines 93-97). -/
def fullDeltas (d : DeltaSet) : List (Option Delta) := d.deltas.map (fun p => some (.d2 p.1 p.2))

/-- The choice between all deltas and those kept by the optimiser (lines 98-123). -/
def chooseDeltas (h : Header) (full : List (Option Delta)) (g : Glyph) : Res (List (Option Delta)) := do
  let opt ← optimizeDeltas full g
  if opt.all Option.isNone then return full
  else do
    let b1 ← unwrapR (encStore [⟨h, full⟩])
    let b2 ← unwrapR (encStore [⟨h, opt⟩])
    return if b2.length < b1.length then opt else full

/-- `DeltaSet::to_tuple_variation` (lines 49-125). -/
def toTupleVariation (shared : List Bytes) (g : Option Glyph) (d : DeltaSet) : Res Variation := do
  let pb ← peakBytes d
  let h := tupleHeader d (shared.findIdx? (· == pb))
  match g with
  | none => return ⟨h, fullDeltas d⟩
  | some g => do
    let ds ← chooseDeltas h (fullDeltas d) g
    return ⟨h, ds⟩

/-- `has_effect` (tuplevariationstore.rs:50-58); the deltas of glyphs are pairs. -/
def hasEffect (v : Variation) : Bool := v.deltas.any (fun o => match o with
  | some (.d2 x y) => x != 0 || y != 0
  | _ => false)

/-- The bytes of one glyph (lines 316-325), before padding. -/
def glyphData (shared : List Bytes) (g : Option Glyph) (ds : List DeltaSet) : Res Bytes := do
  let vs ← Res.mapL (toTupleVariation shared g) ds
  unwrapR (encStore (vs.filter hasEffect))

/-- Padding to an even length (lines 326-329). -/
def padEven (bs : Bytes) : Bytes := if bs.length % 2 ≠ 0 then bs ++ [0] else bs

/-- The glyph given by `glyf.map(|g| &g.glyphs[ix])` (line 307). -/
def outlineAt (glyf : Option (List Glyph)) (ix : Nat) : Res (Option Glyph) := match glyf with
  | none => .ok none
  | some l => match l[ix]? with
    | some g => .ok (some g)
    | none => .panic

/-- The loop over the glyphs (lines 296-331) from glyph `ix` on: offsets and `serialized_tvs`. -/
def glyphLoop (shared : List Bytes) (glyf : Option (List Glyph)) : Nat → Gvar → List Nat → Bytes →
    Res (List Nat × Bytes)
  | _, [], offs, tvs => .ok (offs, tvs)
  | ix, none :: l, offs, tvs => glyphLoop shared glyf (ix + 1) l (offs ++ [tvs.length]) tvs
  | ix, some ds :: l, offs, tvs => do
    let g ← outlineAt glyf ix
    let b ← glyphData shared g ds
    glyphLoop shared glyf (ix + 1) l (offs ++ [tvs.length]) (padEven (tvs ++ b))

/-- All deltasets in order. -/
def allSets (g : Gvar) : List DeltaSet := (g.filterMap id).flatten

/-- `Counter::most_common` (line 278): the distinct keys, the more frequent ones first. Which of two equally frequent keys
comes first depends on the hash function; so this is a relation. -/
def MostCommon (keys : List Bytes) (shared : List Bytes) : Prop :=
  shared.Nodup ∧ (∀ b, b ∈ shared ↔ b ∈ keys) ∧ shared.Pairwise (fun a b => keys.count b ≤ keys.count a)

/-- `gvar::to_bytes` (lines 261-361), given the shared tuples in the order chosen by `most_common`. Offsets are always 32
bits wide. `len() as u32` and `len() as u16` wrap; the sums are checked. -/
def encGvar (shared : List Bytes) (glyf : Option (List Glyph)) (g : Gvar) : Res Bytes := do
  let _ ← Res.mapL peakBytes (allSets g)
  if shared.isEmpty then .panic
  else do
    let r ← glyphLoop shared glyf 0 g [] []
    let offs := encVec (fun n => encU32 (UInt32.ofNat n)) (r.1 ++ [r.2.length])
    let tuples := shared.flatten
    let o1 := 20 + offs.length % 4294967296
    let o2 := o1 + tuples.length % 4294967296
    if o2 > 4294967295 then .panic
    else .ok (encGvarCore
      { majorVersion := 1, minorVersion := 0
        axisCount := UInt16.ofNat ((allSets g).getLast?.elim 0 (fun d => d.peak.length))
        sharedTupleCount := UInt16.ofNat shared.length
        sharedTuplesOffset := UInt32.ofNat o1
        glyphCount := UInt16.ofNat g.length
        flags := 1
        dataOffset := UInt32.ofNat o2 } ++ (offs ++ (tuples ++ r.2)))

/-- `gvar::to_bytes` may return `bs`. -/
def MayWrite (glyf : Option (List Glyph)) (g : Gvar) (bs : Bytes) : Prop :=
  ∃ keys shared, Res.mapL peakBytes (allSets g) = .ok keys ∧ MostCommon keys shared ∧ encGvar shared glyf g = .ok bs

/-! ### Reading -/

/-- `x * 2` on `u16` (line 177): checked. -/
def doubled (x : UInt16) : Res Nat := if 2 * x.toNat ≤ 65535 then .ok (2 * x.toNat) else .panic

/-- A `u32` offset used as `usize` (gvar.rs). -/
def readU32Nat : Reader Nat := do return (← readU32).toNat

/-- The offsets (lines 173-180). -/
def readOffsets (flags : UInt16) (n : Nat) : Reader (List Nat) :=
  if flags &&& 1 = 0 then do
    let l ← deCounted readU16 n
    Reader.lift (Res.mapL doubled l)
  else deCounted readU32Nat n

/-- `start` of a region given only by its peak (lines 231-236). -/
def defaultStart (peak : List ℚ) : List ℚ := peak.map (fun x => if x > 0 then 0 else -1)
/-- `end` of a region given only by its peak (lines 237-242). -/
def defaultStop (peak : List ℚ) : List ℚ := peak.map (fun x => if x > 0 then 1 else 0)

/-- The deltaset of one tuple variation (lines 218-249). The check of the index lets through an index one too large, which
then panics. -/
def toDeltaSet (shared : List (List ℚ)) (coords : List Pt) (ends : List Nat) (v : Variation) : Res DeltaSet := do
  let deltas ← iupDelta v.deltas coords ends
  let index := v.header.sharedTupleIndex.toNat
  if index > shared.length then .err
  else do
    let peak ← match v.header.peakTuple with
      | some p => .ok p
      | none => Res.unwrap shared[index]?
    return { peak, start := v.header.startTuple.getD (defaultStart peak),
             stop := v.header.endTuple.getD (defaultStop peak), deltas }

/-- `a + b` on `u32`: checked. -/
def addU32 (a b : Nat) : Res Nat := if a + b ≤ 4294967295 then .ok (a + b) else .panic

/-- The data of one glyph, which is not empty (lines 209-250). -/
def readGlyphSets (axes : UInt16) (shared : List (List ℚ)) (coords : List Pt) (ends : List Nat) (offset : Nat) :
    Reader (List DeltaSet) := do
  let top ← topOfTable
  setPtr (top + offset)
  let vs ← readStore axes true (UInt16.ofNat coords.length)
  Reader.lift (Res.mapL (toDeltaSet shared coords ends) vs)

/-- The loop over the glyphs (lines 194-252): `n` glyphs from `i` on. The subtraction is checked; `coords_and_ends[i]` may be
out of bounds. -/
def readGlyphs (axes : UInt16) (shared : List (List ℚ)) (base : Nat) (offs : List Nat)
    (ce : List (List Pt × List Nat)) : Nat → Nat → Reader Gvar
  | 0, _ => return []
  | n + 1, i => do
    let a ← Reader.lift (Res.unwrap offs[i]?)
    let offset ← Reader.lift (addU32 a base)
    let b ← Reader.lift (Res.unwrap offs[i + 1]?)
    let next ← Reader.lift (addU32 b base)
    if next < offset then crash
    else if next = offset then do
      let r ← readGlyphs axes shared base offs ce n (i + 1)
      return none :: r
    else do
      let c ← Reader.lift (Res.unwrap ce[i]?)
      let ds ← readGlyphSets axes shared c.1 c.2 offset
      let r ← readGlyphs axes shared base offs ce n (i + 1)
      return some ds :: r

/-- `from_bytes` (lines 166-257). `glyphCount + 1` and `sharedTupleCount + 1` are checked `u16` sums; one tuple more than there
are is read. -/
def readGvar (ce : List (List Pt × List Nat)) : Reader Gvar := do
  pushTop
  let core ← readGvarCore
  if core.glyphCount.toNat = 65535 then crash
  else do
    let offs ← readOffsets core.flags (core.glyphCount.toNat + 1)
    let top ← topOfTable
    setPtr (top + core.sharedTuplesOffset.toNat)
    if core.sharedTupleCount.toNat = 65535 then crash
    else do
      let shared ← deCounted (deCounted readF2dot14 core.axisCount.toNat) (core.sharedTupleCount.toNat + 1)
      readGlyphs core.axisCount shared core.dataOffset.toNat offs ce core.glyphCount.toNat 0

end FT.Gvar
