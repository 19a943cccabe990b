import Verif.Model.F32

/-!
Glyph descriptions: `src/tables/glyf/{point,glyph,component}.rs`.

`f64` values (component transformations) are modelled as rationals; `f64` arithmetic is exact here, conversions to `f32`
and `F2DOT14` are the ones of Model/F32.
-/

namespace FT.Glyf
open FT Reader FT.F32

/-- `Point` (point.rs:6-13). -/
structure Point where
  x : Int16
  y : Int16
  onCurve : Bool
  deriving DecidableEq, Repr

/-- `kurbo::Affine`, coefficients in the order of `as_coeffs`: the point `(x, y)` goes to
`(a x + c y + e, b x + d y + f)`. -/
structure Affine where
  a : ℚ
  b : ℚ
  c : ℚ
  d : ℚ
  e : ℚ
  f : ℚ
  deriving DecidableEq, Repr

/-- `Component` (component.rs:55-70). -/
structure Component where
  glyphIndex : UInt16
  transformation : Affine
  matchPoints : Option (UInt16 × UInt16)
  flags : UInt16
  deriving DecidableEq, Repr

/-- `Glyph` (glyph.rs:45-64). -/
structure Glyph where
  xMin : Int16
  xMax : Int16
  yMin : Int16
  yMax : Int16
  contours : List (List Point)
  instructions : List UInt8
  components : List Component
  overlap : Bool
  deriving DecidableEq, Repr

/-- Goes with `Glyph` (glyph.rs:45-64). -/
def Glyph.hasComponents (g : Glyph) : Bool := !g.components.isEmpty

/-- `is_empty` (glyph.rs:220-222). -/
def Glyph.isEmpty (g : Glyph) : Bool := g.components.isEmpty && g.contours.isEmpty

/-! ### Simple glyphs -/

/-- `SimpleGlyphFlags::contains` for single bits (glyph.rs:23-35). -/
def has (f m : UInt8) : Bool := f &&& m == m

/-- Goes with `has` (glyph.rs:23-35). -/
def ON_CURVE_POINT : UInt8 := 0x01
/-- Goes with `has` (glyph.rs:23-35). -/
def X_SHORT_VECTOR : UInt8 := 0x02
/-- Goes with `has` (glyph.rs:23-35). -/
def Y_SHORT_VECTOR : UInt8 := 0x04
/-- Goes with `has` (glyph.rs:23-35). -/
def REPEAT_FLAG : UInt8 := 0x08
/-- Goes with `has` (glyph.rs:23-35). -/
def X_SAME : UInt8 := 0x10
/-- Goes with `has` (glyph.rs:23-35). -/
def Y_SAME : UInt8 := 0x20
/-- Goes with `has` (glyph.rs:23-35). -/
def OVERLAP_SIMPLE : UInt8 := 0x40

/-- Checked `i16` addition and subtraction. -/
def addI16 (a b : Int16) : Res Int16 :=
  let s := a.toInt + b.toInt
  if -32768 ≤ s ∧ s ≤ 32767 then .ok (Int16.ofInt s) else .panic

/-- Checked `i16` subtraction. -/
def subI16 (a b : Int16) : Res Int16 :=
  let s := a.toInt - b.toInt
  if -32768 ≤ s ∧ s ≤ 32767 then .ok (Int16.ofInt s) else .panic

/-- `end_points` (glyph.rs:244-253) after the running count `count`; `len() as i16` wraps, the addition is checked. -/
def endPoints (count : Int16) : List (List Point) → Res (List UInt16)
  | [] => .ok []
  | c :: cs => do
    let count ← addI16 count (Int16.ofInt c.length)
    let l ← endPoints count cs
    return count.toUInt16 :: l

/-- One coordinate in `_compile_deltas_greedy` (glyph.rs:284-296 for x, 297-309 for y): flag bits and bytes for the
step `d`. -/
def compileCoord (short same : UInt8) (d : Int16) : UInt8 × Bytes :=
  if d.toInt = 0 then (same, [])
  else if -255 ≤ d.toInt ∧ d.toInt ≤ 255 then
    if 0 < d.toInt then (short ||| same, [UInt8.ofNat d.toInt.toNat])
    else (short, [UInt8.ofNat (-d.toInt).toNat])
  else (0, encI16 d)

/-- `_compile_deltas_greedy` (glyph.rs:268-316): flags, x bytes, y bytes. -/
def compileDeltas : (lastX lastY : Int16) → List Point → Res (Bytes × Bytes × Bytes)
  | _, _, [] => .ok ([], [], [])
  | lastX, lastY, p :: ps => do
    let dx ← subI16 p.x lastX
    let dy ← subI16 p.y lastY
    let f := if p.onCurve then ON_CURVE_POINT else 0
    let (fx, bx) := compileCoord X_SHORT_VECTOR X_SAME dx
    let (fy, b_y) := compileCoord Y_SHORT_VECTOR Y_SAME dy
    let (fs, xs, ys) ← compileDeltas p.x p.y ps
    return ((f ||| fx ||| fy) :: fs, bx ++ xs, b_y ++ ys)

/-- The bounding box fields (glyph.rs:13-20). -/
def encCore (g : Glyph) : Bytes := encI16 g.xMin ++ (encI16 g.yMin ++ (encI16 g.xMax ++ encI16 g.yMax))

/-- The part after the bounding box for a glyph without components (glyph.rs:508-521). -/
def encSimple (g : Glyph) : Res Bytes := do
  let ends ← endPoints (-1) g.contours
  let (fs, xs, ys) ← compileDeltas 0 0 g.contours.flatten
  let instr := if g.instructions.isEmpty then encU16 0
    else encU16 (UInt16.ofNat g.instructions.length) ++ g.instructions
  return encVec encU16 ends ++ (instr ++ (fs ++ (xs ++ ys)))

/-! ### Components -/

/-- `ComponentFlags::contains` for single bits (component.rs:8-43). -/
def cHas (f m : UInt16) : Bool := f &&& m == m

/-- Goes with `cHas` (component.rs:8-43). -/
def ARGS_ARE_WORDS : UInt16 := 0x0001
/-- Goes with `cHas` (component.rs:8-43). -/
def ARGS_ARE_XY : UInt16 := 0x0002
/-- Goes with `cHas` (component.rs:8-43). -/
def ROUND_XY_TO_GRID : UInt16 := 0x0004
/-- Goes with `cHas` (component.rs:8-43). -/
def WE_HAVE_A_SCALE : UInt16 := 0x0008
/-- Goes with `cHas` (component.rs:8-43). -/
def MORE_COMPONENTS : UInt16 := 0x0020
/-- Goes with `cHas` (component.rs:8-43). -/
def X_AND_Y_SCALE : UInt16 := 0x0040
/-- Goes with `cHas` (component.rs:8-43). -/
def TWO_BY_TWO : UInt16 := 0x0080
/-- Goes with `cHas` (component.rs:8-43). -/
def HAVE_INSTRUCTIONS : UInt16 := 0x0100
/-- Goes with `cHas` (component.rs:8-43). -/
def USE_MY_METRICS : UInt16 := 0x0200
/-- Goes with `cHas` (component.rs:8-43). -/
def OVERLAP_COMPOUND : UInt16 := 0x0400
/-- Goes with `cHas` (component.rs:8-43). -/
def SCALED_OFFSET : UInt16 := 0x0800
/-- Goes with `cHas` (component.rs:8-43). -/
def UNSCALED_OFFSET : UInt16 := 0x1000

/-- `f64::EPSILON`. -/
def epsilon : ℚ := 1 / 4503599627370496

/-- The flags for the position arguments (component.rs:88-101). -/
def argFlags (c : Component) : UInt16 := match c.matchPoints with
  | some (x, y) => if x.toNat ≤ 255 ∧ y.toNat ≤ 255 then 0 else ARGS_ARE_WORDS
  | none =>
    let t := c.transformation
    if (-128 ≤ t.e ∧ t.e ≤ 127) ∧ (-128 ≤ t.f ∧ t.f ≤ 127) then ARGS_ARE_XY else ARGS_ARE_XY ||| ARGS_ARE_WORDS

/-- The flags for the scale (component.rs:102-108). -/
def scaleFlags (t : Affine) : UInt16 :=
  if t.b ≠ 0 ∨ t.c ≠ 0 then TWO_BY_TWO
  else if epsilon < |t.a - t.d| then X_AND_Y_SCALE
  else if epsilon < |t.a - 1| then WE_HAVE_A_SCALE
  else 0

/-- `recompute_flags` (component.rs:75-109). -/
def recomputeFlags (c : Component) (more instructions : Bool) : UInt16 :=
  let keep := c.flags &&& (ROUND_XY_TO_GRID ||| USE_MY_METRICS ||| SCALED_OFFSET ||| UNSCALED_OFFSET ||| OVERLAP_COMPOUND)
  let m := if more then MORE_COMPONENTS else if instructions then HAVE_INSTRUCTIONS else 0
  keep ||| m ||| argFlags c ||| scaleFlags c.transformation

/-- Saturating conversions of an integer to `i16` and `i8`. -/
def satI16 (z : ℤ) : Int16 := Int16.ofInt (max (-32768) (min z 32767))
/-- Saturating conversion of an integer to `i8`. -/
def satI8 (z : ℤ) : Int8 := Int8.ofInt (max (-128) (min z 127))

/-- `f64::round`: half away from zero. -/
def roundAway (q : ℚ) : ℤ := if 0 ≤ q then ⌊q + 1 / 2⌋ else -⌊-q + 1 / 2⌋

/-- Conversion of an `f64` to an integer: towards zero. -/
def truncQ (q : ℚ) : ℤ := if 0 ≤ q then ⌊q⌋ else -⌊-q⌋

/-- The position arguments (glyph.rs:478-494). -/
def encArgs (c : Component) (flags : UInt16) : Res Bytes :=
  let t := c.transformation
  if cHas flags ARGS_ARE_XY then
    if cHas flags ARGS_ARE_WORDS then .ok (encI16 (satI16 (roundAway t.e)) ++ encI16 (satI16 (truncQ t.f)))
    else .ok (encI8 (satI8 (roundAway t.e)) ++ encI8 (satI8 (truncQ t.f)))
  else match c.matchPoints with
    | none => .panic
    | some (x, y) =>
      if cHas flags ARGS_ARE_WORDS then .ok (encI16 x.toInt16 ++ encI16 y.toInt16)
      else .ok (encI8 (Int8.ofInt x.toNat) ++ encI8 (Int8.ofInt y.toNat))

/-- `F2DOT14(x as f32)` (glyph.rs:496-504). -/
def encScale (q : ℚ) : Res Bytes := encF2dot14 (rne q)

/-- The scale (glyph.rs:495-505). -/
def encScales (t : Affine) (flags : UInt16) : Res Bytes :=
  if cHas flags TWO_BY_TWO then do
    let a ← encScale t.a
    let b ← encScale t.b
    let c ← encScale t.c
    let d ← encScale t.d
    return a ++ (b ++ (c ++ d))
  else if cHas flags X_AND_Y_SCALE then do
    let a ← encScale t.a
    let d ← encScale t.d
    return a ++ d
  else if cHas flags WE_HAVE_A_SCALE then encScale t.a
  else .ok []

/-- The loop over components (glyph.rs:470-511). -/
def encComponents (instr : List UInt8) : List Component → Res Bytes
  | [] => .ok []
  | c :: cs => do
    let flags := recomputeFlags c (!cs.isEmpty) (!instr.isEmpty)
    let args ← encArgs c flags
    let scales ← encScales c.transformation flags
    let i := if cHas flags HAVE_INSTRUCTIONS then encU16 (UInt16.ofNat instr.length) ++ instr else []
    let rest ← encComponents instr cs
    return encU16 flags ++ (encU16 c.glyphIndex ++ (args ++ (scales ++ (i ++ rest))))

/-- `Glyph::to_bytes` (glyph.rs:451-526). -/
def encGlyph (g : Glyph) : Res Bytes :=
  if g.isEmpty then .ok []
  else if g.hasComponents then do
    let b ← encComponents g.instructions g.components
    return encI16 (-1) ++ (encCore g ++ b)
  else do
    let b ← encSimple g
    return encI16 (Int16.ofInt g.contours.length) ++ (encCore g ++ b)

/-! ### Reading -/

/-- `unwrap` of a deserialization result. -/
def orCrash {α : Type} (p : Reader α) : Reader α := fun r => match p r with
  | .ok x => .ok x
  | _ => .panic

/-- Reading the flags (glyph.rs:117-131), `left` points are still to come. Each round accounts for at least one point, so
`fuel = left` suffices. -/
def readFlags : (fuel left : Nat) → Reader (List UInt8)
  | _, 0 => pure []
  | 0, _ + 1 => crash
  | k + 1, left + 1 => do
    let f ← readU8
    if has f REPEAT_FLAG then do
      let n ← readU8
      let fs ← readFlags k (left - n.toNat)
      return f :: (List.replicate n.toNat f ++ fs)
    else do
      let fs ← readFlags k left
      return f :: fs

/-- One coordinate (glyph.rs:137-154 for x, 157-173 for y). -/
def readCoord (short same : UInt8) (f : UInt8) (last : Int16) : Reader Int16 :=
  if has f short then do
    let c ← readU8
    if has f same then Reader.lift (addI16 last (Int16.ofInt c.toNat))
    else Reader.lift (subI16 last (Int16.ofInt c.toNat))
  else if has f same then pure last
  else do
    let c ← readI16
    Reader.lift (addI16 last c)

/-- Goes with `readCoord` (glyph.rs:137-154). -/
def readCoords (short same : UInt8) : (last : Int16) → List UInt8 → Reader (List Int16)
  | _, [] => pure []
  | last, f :: fs => do
    let x ← readCoord short same f last
    let xs ← readCoords short same x fs
    return x :: xs

/-- `izip!` of coordinates and flags (glyph.rs:179-185). -/
def pointsOf : List Int16 → List Int16 → List UInt8 → List Point
  | x :: xs, y :: ys, f :: fs => ⟨x, y, has f ON_CURVE_POINT⟩ :: pointsOf xs ys fs
  | _, _, _ => []

/-- Slicing into contours (glyph.rs:186-190); slices out of range panic. -/
def sliceContours (points : List Point) : (start : Nat) → List Nat → Res (List (List Point))
  | _, [] => .ok []
  | s, e :: es =>
    if e < s ∨ points.length < e then .panic
    else match sliceContours points e es with
      | .ok cs => .ok ((points.drop s).take (e - s) :: cs)
      | .err => .err
      | .panic => .panic

/-- The instructions (glyph.rs:94-99, 106-109): the count is read as `i16`. -/
def readInstructions : Reader (List UInt8) := do
  let n ← readI16
  if 0 < n.toInt then deCounted readU8 n.toInt.toNat else pure []

/-- The rest of a simple glyph (glyph.rs:98-190): contours, instructions, overlap. -/
def readSimple (numContours : Nat) : Reader (List (List Point) × List UInt8 × Bool) := do
  let ends ← deCounted (orCrash readU16) numContours
  let ends := ends.map (fun x => 1 + x.toNat)
  let instr ← readInstructions
  match ends.getLast? with
  | none => fail
  | some n => do
    let flags ← readFlags n n
    let xs ← readCoords X_SHORT_VECTOR X_SAME 0 flags
    let ys ← readCoords Y_SHORT_VECTOR Y_SAME 0 flags
    let contours ← Reader.lift (sliceContours (pointsOf xs ys flags) 0 ends)
    return (contours, instr, flags.any (fun f => has f OVERLAP_SIMPLE))

/-- The position arguments (component.rs:124-155): match points and offset. The test for a scale demands all three scale
flags at once. -/
def readArgs (flags : UInt16) : Reader (Option (UInt16 × UInt16) × Int16 × Int16) :=
  if cHas flags ARGS_ARE_XY then
    if cHas flags ARGS_ARE_WORDS then do
      let x ← readI16
      let y ← readI16
      return (none, x, y)
    else do
      let x ← readI8
      let y ← readI8
      return (none, Int16.ofInt x.toInt, Int16.ofInt y.toInt)
  else do
    let m ← (if cHas flags ARGS_ARE_WORDS then do
        let x ← readU16
        let y ← readU16
        return (x, y)
      else do
        let x ← readU8
        let y ← readU8
        return (UInt16.ofNat x.toNat, UInt16.ofNat y.toNat))
    if cHas flags (WE_HAVE_A_SCALE ||| X_AND_Y_SCALE ||| TWO_BY_TWO) then fail
    else return (some m, 0, 0)

/-- The scale (component.rs:156-173): `a, b, c, d`. -/
def readScales (flags : UInt16) : Reader (ℚ × ℚ × ℚ × ℚ) :=
  if cHas flags WE_HAVE_A_SCALE then do
    let a ← readF2dot14
    return (a, 0, 0, a)
  else if cHas flags X_AND_Y_SCALE then do
    let a ← readF2dot14
    let d ← readF2dot14
    return (a, 0, 0, d)
  else if cHas flags TWO_BY_TWO then do
    let a ← readF2dot14
    let b ← readF2dot14
    let c ← readF2dot14
    let d ← readF2dot14
    return (a, b, c, d)
  else return (1, 0, 0, 1)

/-- `Component::from_bytes` (component.rs:118-189). -/
def readComponent : Reader Component := do
  let flags ← readU16
  let glyphIndex ← readU16
  let (m, x, y) ← readArgs flags
  let (a, b, c, d) ← readScales flags
  return ⟨glyphIndex, ⟨a, b, c, d, x.toInt, y.toInt⟩, m, flags⟩

/-- The component loop (glyph.rs:82-93). Each component takes at least six bytes, so the input length bounds the number
of rounds. -/
def readComponentsFuel : Nat → Reader (List Component)
  | 0 => crash
  | k + 1 => do
    let c ← readComponent
    if cHas c.flags MORE_COMPONENTS then do
      let cs ← readComponentsFuel k
      return c :: cs
    else return [c]

/-- Goes with `readComponentsFuel` (glyph.rs:82-93). -/
def readComponents : Reader (List Component) := fun r => readComponentsFuel (r.inp.length + 1) r

/-- `Glyph::from_bytes` (glyph.rs:66-211). -/
def readGlyph : Reader Glyph := do
  let n ← readI16
  let xMin ← readI16
  let yMin ← readI16
  let xMax ← readI16
  let yMax ← readI16
  if n.toInt < 1 then do
    let cs ← readComponents
    let instr ← (if cs.any (fun c => cHas c.flags HAVE_INSTRUCTIONS) then readInstructions else pure [])
    return ⟨xMin, xMax, yMin, yMax, [], instr, cs, cs.any (fun c => cHas c.flags OVERLAP_COMPOUND)⟩
  else do
    let (contours, instr, overlap) ← readSimple n.toInt.toNat
    return ⟨xMin, xMax, yMin, yMax, contours, instr, [], overlap⟩

end FT.Glyf
