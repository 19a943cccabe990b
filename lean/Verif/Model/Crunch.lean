import Verif.Model.KurboPath
import Verif.Model.Overlap

/-!
`fontcrunch` (crates/fonttools-cli/src/bin/fontcrunch.rs): how a contour is cut into stretches and put together again. What is done to
one stretch, `Thetas::new(..).optimize(1.0)` (lines 120-505), is numerical and not modelled: it is a function given from
outside. `f64` arithmetic is modelled by exact rational arithmetic.
-/

namespace FT.Crunch
open FT.Glyf

/-- `kurbo::QuadBez`. -/
structure Quad where
  p0 : Pt
  p1 : Pt
  p2 : Pt
deriving DecidableEq

/-- `f64_is_close` (fontcrunch.rs:23-25). -/
def isClose (a b : ℚ) : Bool := decide (|a - b| < 1 / 100000000)

/-- `Point::lerp(.., 0.5)` of kurbo. -/
def midPt (p q : Pt) : Pt := ⟨p.x + (q.x - p.x) / 2, p.y + (q.y - p.y) / 2⟩

/-- `is_line` (fontcrunch.rs:98-100) with `is_close` (78-80). -/
def Quad.isLine (q : Quad) : Bool := isClose q.p1.x (midPt q.p0 q.p2).x && isClose q.p1.y (midPt q.p0 q.p2).y

/-- From the start to the end of a segment (fontcrunch.rs:517-527). -/
def chord : PathSeg → Res (ℚ × ℚ)
  | .line p q => .ok (q.x - p.x, q.y - p.y)
  | .quad p _ q => .ok (q.x - p.x, q.y - p.y)
  | .cubic _ _ _ _ => .panic

/-- `segs[i]`. -/
def segAt (segs : List PathSeg) (i : Nat) : Res PathSeg := match segs[i]? with
  | some s => .ok s
  | none => .panic

/-- The first loop of `segment_sp` (fontcrunch.rs:511-540), over `i` from `2 * len - k` on; `x` and `y` are `xsg` and `ysg`. -/
def signLoop (segs : List PathSeg) : (k : Nat) → (x y : ℚ) → (res : List Nat) → Res (List Nat)
  | 0, _, _, res => .ok res
  | k + 1, x, y, res => do
    let i := (2 * segs.length - (k + 1)) % segs.length
    let s ← segAt segs i
    let (x1, y1) ← chord s
    if x * x1 < 0 ∨ y * y1 < 0 then signLoop segs k x1 y1 (i :: res)
    else signLoop segs k (if isClose x 0 then x1 else x) (if isClose y 0 then y1 else y) res

/-- The direction in which a segment arrives (fontcrunch.rs:549-559). -/
def arrives : PathSeg → Res (ℚ × ℚ)
  | .line p q => .ok (q.x - p.x, q.y - p.y)
  | .quad _ c q => .ok (q.x - c.x, q.y - c.y)
  | .cubic _ _ _ _ => .panic

/-- The direction in which a segment leaves (fontcrunch.rs:560-570). -/
def leaves : PathSeg → Res (ℚ × ℚ)
  | .line p q => .ok (q.x - p.x, q.y - p.y)
  | .quad p c _ => .ok (c.x - p.x, c.y - p.y)
  | .cubic _ _ _ _ => .panic

/-- Whether there is a corner (fontcrunch.rs:571-581). `bend / (hypot * hypot)` has an absolute value above `0.02` iff its square is
above `0.0004`. -/
def isCorner (d0 d1 : ℚ × ℚ) : Bool :=
  let bend := d1.1 * d0.2 - d0.1 * d1.2
  (isClose d0.1 0 && isClose d0.2 0) || (isClose d1.1 0 && isClose d1.2 0) ||
    decide (bend * bend > 4 / 10000 * (d0.1 * d0.1 + d0.2 * d0.2) * (d1.1 * d1.1 + d1.2 * d1.2))

/-- The second loop of `segment_sp` (fontcrunch.rs:543-582), over `i` from `len - k` on. -/
def cornerLoop (segs : List PathSeg) : (k : Nat) → (res : List Nat) → Res (List Nat)
  | 0, res => .ok res
  | k + 1, res => do
    let i := segs.length - (k + 1)
    let s0 ← segAt segs (if i = 0 then segs.length - 1 else i - 1)
    let d0 ← arrives s0
    let s1 ← segAt segs i
    let d1 ← leaves s1
    cornerLoop segs k (if isCorner d0 d1 then i :: res else res)

/-- `segment_sp` (fontcrunch.rs:509-585): the numbers in ascending order, as they are in a `BTreeSet`; all of them are below the
length. -/
def breaks (segs : List PathSeg) : Res (List Nat) := do
  let res ← signLoop segs (2 * segs.length) 0 0 []
  let res ← cornerLoop segs segs.length res
  return (List.range segs.length).filter (fun i => res.contains i)

/-- A segment as a quadratic curve (fontcrunch.rs:601-605). -/
def asQuad : PathSeg → Res Quad
  | .line p q => .ok ⟨p, midPt p q, q⟩
  | .quad p c q => .ok ⟨p, c, q⟩
  | .cubic _ _ _ _ => .panic

/-- fontcrunch.rs:613-617. -/
def quadEl (q : Quad) : PathEl := if q.isLine then .lineTo q.p2 else .quadTo q.p1 q.p2

/-- fontcrunch.rs:620-624. -/
def segEl : PathSeg → List PathEl
  | .quad _ c q => [.quadTo c q]
  | .line _ q => [.lineTo q]
  | .cubic _ _ _ _ => []

/-- Goes with `segEl` (fontcrunch.rs:620-624). -/
def isQuad : PathSeg → Bool
  | .quad _ _ _ => true
  | _ => false

/-- The optimiser: what it makes of a stretch, or `None`. -/
abbrev Optimiser := List Quad → Res (Option (List Quad))

/-- The loop over two neighbouring breaks each (fontcrunch.rs:594-627); `none` means that the path is returned as it was. -/
def crunchLoop (opt : Optimiser) (segs : List PathSeg) : List Nat → Res (Option (List PathEl))
  | b0 :: b1 :: l => do
    let s ← segAt segs b0
    if b1 ≠ (b0 + 1) % segs.length ∨ isQuad s then do
      let qs ← Res.mapL asQuad ((segs.take b1).drop b0)
      let new ← opt qs
      match new with
      | none => return none
      | some new => do
        let rest ← crunchLoop opt segs (b1 :: l)
        return rest.map (new.map quadEl ++ ·)
    else do
      let rest ← crunchLoop opt segs (b1 :: l)
      return rest.map (segEl s ++ ·)
  | _ => .ok (some [])

/-- `crunch_contour` (fontcrunch.rs:586-630). -/
def crunchPath (opt : Optimiser) (path : List PathEl) : Res (List PathEl) := do
  let segs ← segments path
  let bks ← breaks segs
  match path with
  | [] => .panic
  | first :: _ => do
    let new ← crunchLoop opt segs bks
    match new with
    | none => return path
    | some els => return first :: els

/-- What is done to one contour (fontcrunch.rs:638-643). -/
def crunchContour (opt : Optimiser) (quads : Pt → Pt → Pt → Pt → List (Pt × Pt)) (c : List Point) : Res (List Point) := do
  let path ← toPath c
  let new ← crunchPath opt path
  let c ← fromPath quads new
  removeImplied c

/-- `crunch_glyph` (fontcrunch.rs:632-647). -/
def crunchGlyph (opt : Optimiser) (quads : Pt → Pt → Pt → Pt → List (Pt × Pt)) (g : Glyph) : Res Glyph := do
  let cs ← Res.mapL (crunchContour opt quads) g.contours
  return { g with contours := cs }

end FT.Crunch
