import Verif.Model.KurboPath
import Verif.Model.Cli

/-!
`ttf-remove-overlap` (crates/fonttools-cli/src/bin/ttf-remove-overlap.rs). The path and `simplify` are Skia's, not part of the
repository: a path is the list of what was drawn, and `simplify` is a function given from outside.
-/

namespace FT.Glyf

/-- What a Skia path consists of. -/
inductive SkEl where
  | move (p : Pt)
  | line (p : Pt)
  | quad (c p : Pt)
  | conic (c p : Pt)
  | cubic (c d p : Pt)
  | close
deriving DecidableEq

/-- The verbs, as numbered by Skia: `Path::get_verbs`. -/
def SkEl.verb : SkEl → Nat
  | .move _ => 0
  | .line _ => 1
  | .quad _ _ => 2
  | .conic _ _ => 3
  | .cubic _ _ _ => 4
  | .close => 5

/-- The points: `Path::get_points`. -/
def SkEl.points : SkEl → List Pt
  | .move p => [p]
  | .line p => [p]
  | .quad c p => [c, p]
  | .conic c p => [c, p]
  | .cubic c d p => [c, d, p]
  | .close => []

/-- What is drawn when an on-curve point ends a segment (ttf-remove-overlap.rs:18-37). -/
def skSegment : List Point → List SkEl
  | [p] => [.line p.pt]
  | [p, q] => [.quad p.pt q.pt]
  | [p, q, r] => [.cubic p.pt q.pt r.pt]
  | _ => []

/-- The loop over the points after the first (ttf-remove-overlap.rs:15-39): what is drawn, and the segment left over. -/
def skLoop (segment : List Point) : List Point → List SkEl × List Point
  | [] => ([], segment)
  | p :: l =>
    if p.onCurve then
      let r := skLoop [] l
      (skSegment (segment ++ [p]) ++ r.1, r.2)
    else skLoop (segment ++ [p]) l

/-- ttf-remove-overlap.rs:40-46. -/
def skEnd (first : Point) : List Point → List SkEl
  | s :: _ => [.quad s.pt first.pt, .close]
  | [] => [.close]

/-- One contour of the path (ttf-remove-overlap.rs:12-47): indexing an empty contour panics. -/
def skContour : List Point → Res (List SkEl)
  | [] => .panic
  | first :: rest =>
    let r := skLoop [] rest
    .ok (.move first.pt :: r.1 ++ skEnd first r.2)

/-- The points of a verb (ttf-remove-overlap.rs:72-80); the last one is on the curve. -/
def verbPoints (points : List Pt) (cur : Nat) : Nat → Res (List Point)
  | 0 => .ok []
  | n + 1 => match points[cur]? with
    | none => .panic
    | some p => do
      let l ← verbPoints points (cur + 1) n
      return p.toPoint (n == 0) :: l

/-- The loop over the verbs (ttf-remove-overlap.rs:64-81). -/
def verbLoop (points : List Pt) : (verbs : List Nat) → (cur : Nat) → (contour : List Point) → (glyph : List (List Point)) →
    Res (List (List Point))
  | [], _, _, glyph => .ok glyph
  | v :: vs, cur, contour, glyph =>
    if v > 4 then verbLoop points vs cur [] (glyph ++ [contour.reverse])
    else
      let n := if v < 2 then 1 else 2
      do
        let ps ← verbPoints points cur n
        verbLoop points vs (cur + n) (contour ++ ps) glyph

/-- `skia_to_glyf` (ttf-remove-overlap.rs:53-83). -/
def skiaToGlyf (path : List SkEl) : Res (List (List Point)) :=
  verbLoop (path.flatMap SkEl.points) (path.map SkEl.verb) 0 [] []

/-- `remove_overlap` (ttf-remove-overlap.rs:7-51). -/
def removeOverlap (simplify : List SkEl → Option (List SkEl)) (g : Glyph) : Res Glyph :=
  if g.hasComponents || g.isEmpty then .ok g
  else do
    let cs ← Res.mapL insertExplicit g.contours
    let path ← Res.mapL skContour cs
    match simplify path.flatten with
    | some p => do
      let cs ← skiaToGlyf p
      return { g with contours := cs }
    | none => return { g with contours := cs }

end FT.Glyf

namespace FT.Cli
open FT.Glyf FT.Tables FT.Save FT.Store

variable {X S : Type}

/-- What `ttf-remove-overlap` does to the glyphs (ttf-remove-overlap.rs:88-91). -/
def withoutOverlap (simplify : List SkEl → Option (List SkEl)) (gs : List Glyph) : Res (List Glyph) := do
  let gs ← Res.mapL (removeOverlap simplify) gs
  recalcBounds gs

/-- A tool which replaces the glyphs. -/
def glyphBody (f : List Glyph → Res (List Glyph)) (M : Machine (Val X) S) (s : S) : Res S := do
  let (i, s) ← require M tagGlyf s
  let gs ← glyphsOf M i s
  let new ← f gs
  let s ← exec M (.modify i (fun _ => .glyf new)) s
  exec M (.insertHolder i) s

/-- `ttf-remove-overlap` (ttf-remove-overlap.rs:85-94). -/
def removeOverlaps (R : Rest X) (simplify : List SkEl → Option (List SkEl)) (input : Bytes) : Res Bytes :=
  tool R (glyphBody (withoutOverlap simplify) (storeMachine (fmt R))) input

end FT.Cli
