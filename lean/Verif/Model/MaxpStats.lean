import Verif.Model.Outline
import Verif.Model.SimpleTables

/-!
The statistics which `glyf::as_maxp10` collects for a maxp table (`src/tables/glyf.rs:170-211`,
`src/tables/glyf/glyph.rs:408-448`). The nesting depth is a `u16` whose overflow panics; that the call stack may be exhausted
before is not modelled.
-/

namespace FT.Glyf
open FT FT.Tables

/-- `CompositeMaxpValues` (glyph.rs:36-41). -/
structure CompositeValues where
  numPoints : UInt16
  numContours : UInt16
  maxDepth : UInt16
deriving DecidableEq, Repr

/-- Checked `u16` addition. -/
def addU16 (a b : UInt16) : Res UInt16 := if a.toNat + b.toNat < 65536 then .ok (a + b) else .panic

/-- `num_points` (glyph.rs:409-411). -/
def Glyph.numPoints (g : Glyph) : Nat := (g.contours.map List.length).sum

/-- `num_contours` (glyph.rs:414-416). -/
def Glyph.numContours (g : Glyph) : Nat := g.contours.length

/-- `core::cmp::max` on `u16`. -/
def maxU16 (a b : UInt16) : UInt16 := if a.toNat ≤ b.toNat then b else a

/-- The body of the loop (glyph.rs:438-445), given the function for the recursive call. -/
def compositeStep (rec : Glyph → Res (Option CompositeValues)) (info : CompositeValues) (g : Glyph) : Res CompositeValues :=
  if !g.hasComponents then do
    let p ← addU16 info.numPoints (UInt16.ofNat g.numPoints)
    let c ← addU16 info.numContours (UInt16.ofNat g.numContours)
    return ⟨p, c, info.maxDepth⟩
  else do
    match ← rec g with
    | none => return info
    | some o => do
      let p ← addU16 info.numPoints o.numPoints
      let c ← addU16 info.numContours o.numContours
      return ⟨p, c, maxU16 info.maxDepth o.maxDepth⟩

/-- The loop over the components (glyph.rs:432-446); components which are not in the table are passed over. -/
def compositeLoop (gs : List Glyph) (rec : Glyph → Res (Option CompositeValues)) :
    CompositeValues → List Component → Res CompositeValues
  | info, [] => .ok info
  | info, c :: cs => match gs[c.glyphIndex.toNat]? with
    | none => compositeLoop gs rec info cs
    | some g => do
      let info ← compositeStep rec info g
      compositeLoop gs rec info cs

/-- `_composite_maxp_values` up to the recursive call (glyph.rs:423-448). -/
def compositeWith (gs : List Glyph) (rec : Glyph → Res (Option CompositeValues)) (depth : UInt16) (g : Glyph) :
    Res (Option CompositeValues) :=
  if !g.hasComponents then .ok none
  else do
    let info ← compositeLoop gs rec ⟨0, 0, depth⟩ g.components
    return some info

/-- `_composite_maxp_values` (glyph.rs:423-448); `n` is `65535 - depth`, and `depth + 1` overflows if that is zero. -/
def compositeDepth (gs : List Glyph) : Nat → Glyph → Res (Option CompositeValues)
  | 0 => compositeWith gs (fun _ => .panic) 65535
  | n + 1 => compositeWith gs (compositeDepth gs n) (UInt16.ofNat (65535 - (n + 1)))

/-- `composite_maxp_values` (glyph.rs:420-422). -/
def compositeMaxpValues (gs : List Glyph) (g : Glyph) : Res (Option CompositeValues) := compositeDepth gs 65534 g

/-- The function folded over the values (glyf.rs:192-196). -/
def CompositeValues.max (l r : CompositeValues) : CompositeValues :=
  ⟨maxU16 l.numPoints r.numPoints, maxU16 l.numContours r.numContours, maxU16 l.maxDepth r.maxDepth⟩

/-- `.max().unwrap_or(0)` on `usize`. -/
def maxNat (l : List Nat) : Nat := l.foldl Nat.max 0

/-- `maxp::new10` (maxp.rs:77-107). -/
def new10 (numGlyphs maxPoints maxContours maxCompositePoints maxCompositeContours maxComponentElements maxComponentDepth : UInt16) :
    Maxp :=
  ⟨0x10000, .v10 ⟨numGlyphs, maxPoints, maxContours, maxCompositePoints, maxCompositeContours, 1, 0, 0, 0, 0, 0, 0,
    maxComponentElements, maxComponentDepth⟩⟩

/-- `as_maxp10` (glyf.rs:170-211). -/
def asMaxp10 (gs : List Glyph) : Res Maxp := do
  let vals ← Res.mapL (compositeMaxpValues gs) (gs.filter Glyph.hasComponents)
  let info := (vals.filterMap id).foldl CompositeValues.max ⟨0, 0, 0⟩
  return new10 (UInt16.ofNat gs.length) (UInt16.ofNat (maxNat (gs.map Glyph.numPoints)))
    (UInt16.ofNat (maxNat (gs.map Glyph.numContours))) info.numPoints info.numContours
    (UInt16.ofNat (maxNat (gs.map (fun g => g.components.length)))) info.maxDepth

end FT.Glyf
