import Verif.Model.Outline

/-!
Paths and contours: `kurbo_contour_to_glyf_contour` and `glyf_contour_to_kurbo_contour` in
`src/tables/glyf/contourutils.rs`. `BezPath`, its elements and `segments()` belong to kurbo, which is not part of the
repository; they are modelled from its documentation, coordinates being exact rationals.
-/

namespace FT.Glyf

/-- `kurbo::Point`. -/
structure Pt where
  x : ℚ
  y : ℚ
deriving DecidableEq

/-- `kurbo::PathEl`. -/
inductive PathEl where
  | moveTo (p : Pt)
  | lineTo (p : Pt)
  | quadTo (c p : Pt)
  | curveTo (c d p : Pt)
  | closePath
deriving DecidableEq

/-- `kurbo::PathSeg`. -/
inductive PathSeg where
  | line (p q : Pt)
  | quad (p c q : Pt)
  | cubic (p c d q : Pt)
deriving DecidableEq

/-- `Segments::next` of kurbo, called until it is done, once there is a start and a last point. -/
def segmentsFrom (start last : Pt) : List PathEl → List PathSeg
  | [] => []
  | .moveTo p :: l => segmentsFrom p p l
  | .lineTo p :: l => .line last p :: segmentsFrom start p l
  | .quadTo c p :: l => .quad last c p :: segmentsFrom start p l
  | .curveTo c d p :: l => .cubic last c d p :: segmentsFrom start p l
  | .closePath :: l => if last ≠ start then .line last start :: segmentsFrom start start l else segmentsFrom start last l

/-- `BezPath::segments` of kurbo: the first element sets the start, and panics if it is a `ClosePath`. -/
def segments : List PathEl → Res (List PathSeg)
  | [] => .ok []
  | .moveTo p :: l => .ok (segmentsFrom p p (.moveTo p :: l))
  | .lineTo p :: l => .ok (segmentsFrom p p (.lineTo p :: l))
  | .quadTo c p :: l => .ok (segmentsFrom p p (.quadTo c p :: l))
  | .curveTo c d p :: l => .ok (segmentsFrom p p (.curveTo c d p :: l))
  | .closePath :: _ => .panic

/-- `Point { x: p.x as i16, y: p.y as i16, on_curve }` (contourutils.rs:48-52, 56-60, ...). -/
def Pt.toPoint (p : Pt) (on : Bool) : Point := ⟨qToI16 p.x, qToI16 p.y, on⟩

/-- The points pushed for a segment (contourutils.rs:54-88). `quads` stands for `CubicBez::to_quads` of kurbo with the given
tolerance: the middle and last control points of the quadratics replacing a cubic. -/
def pushSegment (quads : Pt → Pt → Pt → Pt → List (Pt × Pt)) : PathSeg → List Point
  | .line _ q => [q.toPoint true]
  | .quad _ c q => [c.toPoint false, q.toPoint true]
  | .cubic p c d q => (quads p c d q).flatMap (fun s => [s.1.toPoint false, s.2.toPoint true])

/-- `kurbo_contour_to_glyf_contour` (contourutils.rs:45-95): indexing the first element panics for an empty path. -/
def fromPath (quads : Pt → Pt → Pt → Pt → List (Pt × Pt)) (path : List PathEl) : Res (List Point) := do
  let first ← (match path with
    | [] => Res.panic
    | .moveTo p :: _ => .ok [p.toPoint true]
    | _ :: _ => .ok [])
  let segs ← segments path
  return (first ++ segs.flatMap (pushSegment quads)).reverse

/-- `(p.x as f64, p.y as f64)`. -/
def Point.pt (p : Point) : Pt := ⟨p.x.toInt, p.y.toInt⟩

/-- What is drawn when an on-curve point ends a segment (contourutils.rs:107-118). -/
def drawSegment : List Point → List PathEl
  | [p] => [.lineTo p.pt]
  | [p, q] => [.quadTo p.pt q.pt]
  | _ => []

/-- The loop over the points after the first (contourutils.rs:104-121): the elements drawn, and the segment left over. -/
def drawLoop (segment : List Point) : List Point → List PathEl × List Point
  | [] => ([], segment)
  | p :: l =>
    if p.onCurve then
      let r := drawLoop [] l
      (drawSegment (segment ++ [p]) ++ r.1, r.2)
    else drawLoop (segment ++ [p]) l

/-- The end of the path (contourutils.rs:122-131). -/
def drawEnd (first last : Point) : List Point → List PathEl
  | s :: _ => [.quadTo s.pt first.pt, .closePath]
  | [] => if first.onCurve && last.onCurve then [.lineTo first.pt, .closePath] else [.closePath]

/-- `glyf_contour_to_kurbo_contour` (contourutils.rs:98-132). -/
def toPath (contour : List Point) : Res (List PathEl) := do
  let c ← insertExplicit contour
  match c, c.getLast? with
  | first :: rest, some last =>
    let r := drawLoop [] rest
    return .moveTo first.pt :: r.1 ++ drawEnd first last r.2
  | _, _ => Res.panic

end FT.Glyf
