import Verif.Model.Glyf

/-!
Contours and the `glyf` table as a whole: `contourutils.rs`, the methods of `glyf` in `src/tables/glyf.rs`, and the methods
of `Glyph` which look at outlines. Affine maps are kurbo's (`kurbo::Affine`, not part of the repository); its `f64`
arithmetic is modelled by exact rational arithmetic.
-/

namespace FT.Glyf

/-! ### Contour utilities -/

/-- Division of an `i16` by two, towards zero. -/
def halfI16 (a : Int16) : Int16 := Int16.ofInt (a.toInt.tdiv 2)

/-- The point halfway (contourutils.rs:10-14): checked additions. -/
def midPoint (p q : Point) : Res Point := do
  let x ← addI16 p.x q.x
  let y ← addI16 p.y q.y
  return ⟨halfI16 x, halfI16 y, true⟩

/-- The loop of `insert_explicit_oncurves` (contourutils.rs:6-17), for `i` from `k - 1` down to `0`; the two indexings are
in range by construction. -/
def insertLoop : Nat → List Point → Res (List Point)
  | 0, c => .ok c
  | i + 1, c => match c[i]?, c[i + 1]? with
    | some p, some q =>
      if !p.onCurve && !q.onCurve then do
        let m ← midPoint p q
        insertLoop i (c.take (i + 1) ++ m :: c.drop (i + 1))
      else insertLoop i c
    | _, _ => .panic

/-- `insert_explicit_oncurves` (contourutils.rs:5-18): `len() - 1` underflows for an empty contour. -/
def insertExplicit (c : List Point) : Res (List Point) :=
  if c.length = 0 then .panic else insertLoop (c.length - 1) c

/-- The test in `remove_implied_oncurves` (contourutils.rs:29-34), with its short circuits; true means that the point
stays. -/
def staysTest (prev this next : Point) : Res Bool :=
  if !this.onCurve || prev.onCurve || next.onCurve then .ok true
  else do
    let sx ← addI16 prev.x next.x
    if this.x ≠ halfI16 sx then return true
    else do
      let sy ← addI16 prev.y next.y
      return decide (this.y ≠ halfI16 sy)

/-- The loop of `remove_implied_oncurves` (contourutils.rs:22-39). Each round moves on or shortens the contour, so
`fuel = len - i` suffices. -/
def removeLoop : (fuel i : Nat) → List Point → Res (List Point)
  | 0, _, c => .ok c
  | k + 1, i, c =>
    if c.length ≤ i then .ok c
    else match c[i]?, c[(i + 1) % c.length]?, c[if i = 0 then c.length - 1 else i - 1]? with
      | some this, some next, some prev => match staysTest prev this next with
        | .ok true => removeLoop k (i + 1) c
        | .ok false => removeLoop k i (c.eraseIdx i)
        | .err => .err
        | .panic => .panic
      | _, _, _ => .panic

/-- `remove_implied_oncurves` (contourutils.rs:21-40). -/
def removeImplied (c : List Point) : Res (List Point) := removeLoop c.length 0 c

/-! ### Affine maps -/

/-- `Affine * Affine`. -/
def Affine.mul (s o : Affine) : Affine :=
  ⟨s.a * o.a + s.c * o.b, s.b * o.a + s.d * o.b, s.a * o.c + s.c * o.d, s.b * o.c + s.d * o.d,
    s.a * o.e + s.c * o.f + s.e, s.b * o.e + s.d * o.f + s.f⟩

/-- `Affine * Point`. -/
def Affine.apply (t : Affine) (x y : ℚ) : ℚ × ℚ := (t.a * x + t.c * y + t.e, t.b * x + t.d * y + t.f)

/-- `kurbo::Rect`. -/
structure Rect where
  x0 : ℚ
  y0 : ℚ
  x1 : ℚ
  y1 : ℚ
deriving DecidableEq

/-- `Rect::from_points`: sorted coordinates. -/
def Rect.fromPoints (p q : ℚ × ℚ) : Rect := ⟨min p.1 q.1, min p.2 q.2, max p.1 q.1, max p.2 q.2⟩

/-- `Rect::union`. -/
def Rect.union (r s : Rect) : Rect := ⟨min r.x0 s.x0, min r.y0 s.y0, max r.x1 s.x1, max r.y1 s.y1⟩

/-- `Affine::transform_rect_bbox`. -/
def Affine.bbox (t : Affine) (r : Rect) : Rect :=
  (Rect.fromPoints (t.apply r.x0 r.y0) (t.apply r.x0 r.y1)).union (Rect.fromPoints (t.apply r.x1 r.y0) (t.apply r.x1 r.y1))

/-- `bounds_rect` (glyph.rs:225-232). -/
def Glyph.boundsRect (g : Glyph) : Rect := ⟨g.xMin.toInt, g.yMin.toInt, g.xMax.toInt, g.yMax.toInt⟩

/-- `f64 as i16`: towards zero, saturating. -/
def qToI16 (q : ℚ) : Int16 := satI16 (truncQ q)

/-- `set_bounds_rect` (glyph.rs:234-239), with kurbo's `min_x` etc. -/
def Glyph.setBounds (g : Glyph) (r : Rect) : Glyph :=
  { g with xMin := qToI16 (min r.x0 r.x1), xMax := qToI16 (max r.x0 r.x1), yMin := qToI16 (min r.y0 r.y1), yMax := qToI16 (max r.y0 r.y1) }

/-- `Point::transform` (point.rs:20-27). -/
def Point.transform (p : Point) (t : Affine) : Point :=
  let q := t.apply p.x.toInt p.y.toInt
  ⟨qToI16 q.1, qToI16 q.2, p.onCurve⟩

/-! ### Flattening -/

/-- Indexing `self.glyphs[i]`. -/
def glyphAt (gs : List Glyph) (i : UInt16) : Res Glyph := match gs[i.toNat]? with
  | some g => .ok g
  | none => .panic

/-- Placing the flattened components of a component (glyf.rs:90-93). -/
def placeIn (comp f : Component) : Component := { f with transformation := comp.transformation.mul f.transformation }

/-- The loop over the components (glyf.rs:86-98), given the function for the recursive call. -/
def flatLoop (gs : List Glyph) (rec : Glyph → Res (List Component)) : List Component → Res (List Component)
  | [] => .ok []
  | comp :: cs => do
    let g ← glyphAt gs comp.glyphIndex
    let here ← (if g.hasComponents then do
        let fl ← rec g
        return fl.map (placeIn comp)
      else return [comp])
    let rest ← flatLoop gs rec cs
    return here ++ rest

/-- `_flat_components` (glyf.rs:77-100); `n` is how many more levels are allowed, `65 - depth`. -/
def flatDepth (gs : List Glyph) : Nat → Glyph → Res (List Component)
  | 0, _ => .ok []
  | n + 1, g => flatLoop gs (flatDepth gs n) g.components

/-- `flat_components` (glyf.rs:74-76). -/
def flatComponents (gs : List Glyph) (g : Glyph) : Res (List Component) := flatDepth gs 65 g

/-- One glyph in `flatten_components` (glyf.rs:106-117): assigning an equal list changes nothing. -/
def flattenOne (gs : List Glyph) (g : Glyph) : Res Glyph :=
  if g.hasComponents then do
    let fl ← flatComponents gs g
    return if g.components ≠ fl then { g with components := fl } else g
  else .ok g

/-- `flatten_components` (glyf.rs:104-118). -/
def flattenTable (gs : List Glyph) : Res (List Glyph) := Res.mapL (flattenOne gs) gs

/-! ### Bounds -/

/-- `*l.iter().min().unwrap_or(&0)` and the same with `max`. -/
def minOr0 : List Int16 → Int16
  | [] => 0
  | a :: l => l.foldl (fun m x => if x.toInt < m.toInt then x else m) a

/-- `*l.iter().max().unwrap_or(&0)`. -/
def maxOr0 : List Int16 → Int16
  | [] => 0
  | a :: l => l.foldl (fun m x => if m.toInt ≤ x.toInt then x else m) a

/-- The first pass of `recalc_bounds` (glyf.rs:124-133). -/
def boundsSimple (g : Glyph) : Glyph :=
  if g.hasComponents then g
  else
    let pts := g.contours.flatten
    { g with xMin := minOr0 (pts.map Point.x), xMax := maxOr0 (pts.map Point.x),
             yMin := minOr0 (pts.map Point.y), yMax := maxOr0 (pts.map Point.y) }

/-- Indexing `boxes[i]`. -/
def boxAt (boxes : List Rect) (i : UInt16) : Res Rect := match boxes[i.toNat]? with
  | some r => .ok r
  | none => .panic

/-- The box of one component (glyf.rs:157-160). -/
def componentBox (boxes : List Rect) (c : Component) : Res Rect := do
  let r ← boxAt boxes c.glyphIndex
  return c.transformation.bbox r

/-- `reduce(|a, b| a.union(b)).unwrap()` (glyf.rs:161-162); the list is not empty where it is called. -/
def unionAll : List Rect → Res Rect
  | [] => .panic
  | r :: rs => .ok (rs.foldl Rect.union r)

/-- The second pass for one glyph (glyf.rs:139-165). -/
def boundsComposite (boxes : List Rect) (g : Glyph) : Res Glyph :=
  if g.hasComponents then
    match g.components.find? (fun c => cHas c.flags USE_MY_METRICS) with
    | some c => do
      let r ← boxAt boxes c.glyphIndex
      return g.setBounds r
    | none => do
      let rs ← Res.mapL (componentBox boxes) g.components
      let r ← unionAll rs
      return g.setBounds r
  else .ok g

/-- `recalc_bounds` (glyf.rs:121-167). -/
def recalcBounds (gs : List Glyph) : Res (List Glyph) := do
  let gs ← flattenTable gs
  let gs := gs.map boundsSimple
  Res.mapL (boundsComposite (gs.map Glyph.boundsRect)) gs

/-! ### Decomposing -/

/-- The contours one component contributes (glyph.rs:334-349). -/
def componentContours (gs : List Glyph) (c : Component) : List (List Point) := match gs[c.glyphIndex.toNat]? with
  | none => []
  | some g => g.contours.map (fun ct => ct.map (fun p => p.transform c.transformation))

/-- `Glyph::decompose` (glyph.rs:319-356). -/
def decompose (gs : List Glyph) (g : Glyph) : Glyph :=
  ⟨0, 0, 0, 0, g.contours ++ g.components.flatMap (componentContours gs), [], [], g.overlap⟩

/-! ### Points for `gvar` -/

/-- The scan over contour lengths (glyph.rs:362-370): `acc - 1` underflows for an empty first contour. -/
def contourEnds (acc : Nat) : List (List Point) → Res (List Nat)
  | [] => .ok []
  | c :: cs =>
    if acc + c.length = 0 then .panic
    else do
      let l ← contourEnds (acc + c.length) cs
      return (acc + c.length - 1) :: l

/-- `ends.iter().max().map(|x| x + 1).unwrap_or(0)`. -/
def nextEnd (ends : List Nat) : Nat := match ends with
  | [] => 0
  | e :: es => es.foldl max e + 1

/-- Pushing one coordinate pair with its own end (glyph.rs:378-382, 389-396). -/
def pushPoint (xy : Int16 × Int16) (s : List (Int16 × Int16) × List Nat) : List (Int16 × Int16) × List Nat :=
  (s.1 ++ [xy], s.2 ++ [nextEnd s.2])

/-- `gvar_coords_and_ends` (glyph.rs:361-406) with its final assertion. -/
def gvarCoordsAndEnds (g : Glyph) : Res (List (Int16 × Int16) × List Nat) := do
  let ends ← contourEnds 0 g.contours
  let coords := g.contours.flatten.map (fun p => (p.x, p.y))
  let s := (g.components.map (fun c => (qToI16 c.transformation.e, qToI16 c.transformation.f))).foldl
    (fun s xy => pushPoint xy s) (coords, ends)
  let s := pushPoint (0, 0) (pushPoint (0, 0) (pushPoint (0, 0) (pushPoint (0, 0) s)))
  if s.2.getLast? = some (s.1.length - 1) then return s else .panic

end FT.Glyf
