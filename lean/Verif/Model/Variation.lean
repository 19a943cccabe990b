import Verif.Model.F32
import Verif.Model.LayoutTables

/-!
Variation regions and the variation model: src/otvar/locations.rs.

Every `f32` operation is followed by the rounding function `rd`. The code is `rd = F32.rne`; `rd = id` is the same
computation in exact arithmetic. Comparisons are exact. NaN and infinities are not modelled.
-/

namespace FT.Var
open FT

/-- `Location` (locations.rs:16). -/
abbrev Loc := List (Tag × ℚ)
/-- `Support` (locations.rs:14): lower, peak and upper of each axis. -/
abbrev Region := List (Tag × (ℚ × ℚ × ℚ))

/-- `f32::EPSILON`. -/
def eps : ℚ := 1 / 8388608

/-- What one axis does to the running product in `support_scalar`. (locations.rs:36-63.) -/
inductive Step where
  | skip
  | stop
  | times (f : ℚ)
  deriving DecidableEq

/-- The body of the loop of `support_scalar` (locations.rs:39-60). -/
def axisStep (rd : ℚ → ℚ) (v lower peak upper : ℚ) : Step :=
  if peak = 0 then .skip
  else if lower > peak ∨ peak > upper then .skip
  else if lower < 0 ∧ upper > 0 then .skip
  else if |rd (v - peak)| < eps then .skip
  else if v ≤ lower ∨ upper ≤ v then .stop
  else if v < peak then .times (rd (rd (v - lower) / rd (peak - lower)))
  else .times (rd (rd (v - upper) / rd (peak - upper)))

/-- `loc.get(&axis).unwrap_or(&0.0)` (locations.rs:48). -/
def coord (loc : Loc) (axis : Tag) : ℚ := match BMap.get? loc axis with
  | some v => v
  | none => 0

/-- The loop of `support_scalar` (locations.rs:38-61). -/
def scalarLoop (rd : ℚ → ℚ) (loc : Loc) : Region → ℚ → ℚ
  | [], s => s
  | (axis, lower, peak, upper) :: rest, s => match axisStep rd (coord loc axis) lower peak upper with
    | .skip => scalarLoop rd loc rest s
    | .stop => 0
    | .times f => scalarLoop rd loc rest (rd (s * f))

/-- `support_scalar` (locations.rs:36-63). -/
def supportScalar (rd : ℚ → ℚ) (loc : Loc) (support : Region) : ℚ := scalarLoop rd loc support 1

/-! ### Regions of the masters -/

/-- `axis_maximum` (with `max`) or `axis_minimum` (with `min`) of an axis (locations.rs:66-77). -/
def extreme (f : ℚ → ℚ → ℚ) (axis : Tag) : List Loc → Option ℚ → Option ℚ
  | [], acc => acc
  | loc :: rest, acc => match BMap.get? loc axis with
    | none => extreme f axis rest acc
    | some v => match acc with
      | none => extreme f axis rest (some v)
      | some a => extreme f axis rest (some (f a v))

/-- One axis of one region (locations.rs:83-90). -/
def axisRegion (locs : List Loc) (x : Tag × ℚ) : Res (Tag × (ℚ × ℚ × ℚ)) :=
  if x.2 > 0 then
    match extreme max x.1 locs none with
    | some m => .ok (x.1, 0, x.2, m)
    | none => .panic
  else
    match extreme min x.1 locs none with
    | some m => .ok (x.1, m, x.2, 0)
    | none => .panic

/-- `locations_to_regions` (locations.rs:65-95). -/
def regions (locs : List Loc) : Res (List Region) := Res.mapL (Res.mapL (axisRegion locs)) locs

/-- Whether an earlier master lies in the box of a region (locations.rs:226-239). -/
def relevant (rd : ℚ → ℚ) (prev : Region) : Region → Bool
  | [] => true
  | (axis, lower, peak, upper) :: rest => match BMap.get? prev axis with
    | none => false
    | some (_, prevPeak, _) =>
      if |rd (prevPeak - peak)| < eps ∨ (lower < prevPeak ∧ prevPeak < upper) then relevant rd prev rest else false

/-- `prev_loc_axes.is_subset(&loc_axes)` (locations.rs:219-223). -/
def subsetKeys (prev region : Region) : Bool := prev.all fun x => (BMap.get? region x.1).isSome

/-- Lines 259-265: keep the candidates with the best ratio. -/
def bestStep (rd : ℚ → ℚ) (axis : Tag) (triple : ℚ × ℚ × ℚ) (ratio : ℚ) (best : Region × ℚ) : Region × ℚ :=
  let b := if ratio > best.2 then ([], ratio) else best
  if |rd (ratio - b.2)| < eps then (BMap.insert b.1 axis triple, b.2) else b

/-- The loop over the axes of an earlier master (locations.rs:245-266). -/
def bestLoop (rd : ℚ → ℚ) (region : Region) : Region → Region × ℚ → Res Region
  | [], best => .ok best.1
  | (axis, _, val, _) :: rest, best => match BMap.get? region axis with
    | none => .panic
    | some (lower, locV, upper) =>
      if val < locV then
        bestLoop rd region rest (bestStep rd axis (val, locV, upper) (rd (rd (val - locV) / rd (lower - locV))) best)
      else if locV < val then
        bestLoop rd region rest (bestStep rd axis (lower, locV, val) (rd (rd (val - locV) / rd (upper - locV))) best)
      else bestLoop rd region rest best

/-- `for (axis, triple) in best_axes.iter() { region_copy.insert(..) }` (locations.rs:267-269). -/
def insertAll (copy best : Region) : Region := best.foldl (fun m x => BMap.insert m x.1 x.2) copy

/-- One turn of the loop over the earlier masters (locations.rs:221-270). Cuts are computed from `region`, the region
before any cut. -/
def cutBy (rd : ℚ → ℚ) (region : Region) (copy prev : Region) : Res Region :=
  if subsetKeys prev region then
    if relevant rd prev region then
      match bestLoop rd region prev ([], -1) with
      | .ok best => .ok (insertAll copy best)
      | .err => .err
      | .panic => .panic
    else .ok copy
  else .ok copy

/-- The loop over the earlier masters. (locations.rs:220-270.) -/
def cutAll (rd : ℚ → ℚ) (region : Region) : List Region → Region → Res Region
  | [], copy => .ok copy
  | prev :: rest, copy => match cutBy rd region copy prev with
    | .ok c => cutAll rd region rest c
    | .err => .err
    | .panic => .panic

/-- `_compute_master_supports` (locations.rs:215-273): `done` are the regions before the current one. -/
def supportsFrom (rd : ℚ → ℚ) : List Region → List Region → Res (List Region)
  | _, [] => .ok []
  | done, r :: rest => match cutAll rd r done r with
    | .ok s => match supportsFrom rd (done ++ [r]) rest with
      | .ok ss => .ok (s :: ss)
      | .err => .err
      | .panic => .panic
    | .err => .err
    | .panic => .panic

/-- Goes with `supportsFrom` (locations.rs:215-273). -/
def supports (rd : ℚ → ℚ) (locs : List Loc) : Res (List Region) := match regions locs with
  | .ok rs => supportsFrom rd [] rs
  | .err => .err
  | .panic => .panic

/-- One row of `_compute_delta_weights` (locations.rs:278-284): index and weight of each earlier support with
influence, starting at index `j`. -/
def weightsFrom (rd : ℚ → ℚ) (loc : Loc) : Nat → List Region → List (Nat × ℚ)
  | _, [] => []
  | j, s :: rest =>
    if supportScalar rd loc s ≠ 0 then (j, supportScalar rd loc s) :: weightsFrom rd loc (j + 1) rest
    else weightsFrom rd loc (j + 1) rest

/-- `_compute_delta_weights` (locations.rs:275-287). -/
def weights (rd : ℚ → ℚ) (locs : List Loc) (sups : List Region) : List (List (Nat × ℚ)) :=
  locs.zipIdx.map fun x => weightsFrom rd x.1 0 (sups.take x.2)

/-! ### Order of the masters -/

/-- `axis_points` (locations.rs:111-119): the packed coordinates of the masters with one axis. `none` where packing
fails. -/
def axisPoints (locs : List Loc) : List (Tag × Option ℤ) :=
  (locs.filter fun l => l.length == 1).flatMap fun l => l.flatMap fun x => [(x.1, packed 0), (x.1, packed x.2)]
where
  /-- The `Hash` and `Eq` of `F2DOT14` go through `as_packed` (types.rs:131-157). -/
  packed (v : ℚ) : Option ℤ := match F32.f2dot14AsPacked v with
    | .ok p => some p
    | _ => none

/-- `on_point_count` (locations.rs:120-130). -/
def onPointCount (points : List (Tag × Option ℤ)) (loc : Loc) : Nat :=
  (loc.filter fun x => points.contains (x.1, axisPoints.packed x.2)).length

/-- `a_ordered_axes` (locations.rs:144-163), given by the result of its sort: axes in the axis order first, each part
in tag order. -/
def orderedAxes (axisOrder : List Tag) (loc : Loc) : List Tag :=
  (loc.map (·.1)).filter (fun t => axisOrder.contains t) ++ (loc.map (·.1)).filter (fun t => !axisOrder.contains t)

/-- Lines 164-177 for one pair of axes. -/
def cmpPos (axisOrder : List Tag) (l r : Tag) : Ordering :=
  match axisOrder.idxOf? l, axisOrder.idxOf? r with
  | some _, none => .lt
  | none, some _ => .gt
  | some i, some j => compare i j
  | none, none => .eq

/-- First non-equal result along two zipped lists. -/
def cmpZip {α : Type} (c : α → α → Ordering) : List α → List α → Ordering
  | x :: xs, y :: ys => match c x y with
    | .eq => cmpZip c xs ys
    | o => o
  | _, _ => .eq

/-- Lexicographic comparison (`Iterator::partial_cmp`). -/
def cmpLex {α : Type} (c : α → α → Ordering) : List α → List α → Ordering
  | [], [] => .eq
  | [], _ :: _ => .lt
  | _ :: _, [] => .gt
  | x :: xs, y :: ys => match c x y with
    | .eq => cmpLex c xs ys
    | o => o

/-- The derived `Ord` of tags. -/
def cmpTag (x y : Tag) : Ordering := compare x.num y.num

/-- `f32::signum` (locations.rs:186-187); the negative zero is not modelled. -/
def signum (x : ℚ) : ℚ := if x < 0 then -1 else 1

/-- Lines 186-190. -/
def cmpSign (rd : ℚ → ℚ) (x y : ℚ) : Ordering :=
  if |rd (signum x - signum y)| > eps then compare (signum x) (signum y) else .eq
/-- Lines 193-197. -/
def cmpAbs (rd : ℚ → ℚ) (x y : ℚ) : Ordering :=
  if |rd (|x| - |y|)| > eps then compare |x| |y| else .eq

/-- Lines 185-198: both maps are looked up at the axes of the first (the axes are equal at this point). -/
def cmpVals (c : ℚ → ℚ → Ordering) (a b : Loc) : List Tag → Ordering
  | [] => .eq
  | t :: ts => match c (coord a t) (coord b t) with
    | .eq => cmpVals c a b ts
    | o => o

/-- The comparison of masters (locations.rs:131-200); the axes are compared at lines 179-183. -/
def cmpLoc (rd : ℚ → ℚ) (axisOrder : List Tag) (points : List (Tag × Option ℤ)) (a b : Loc) : Ordering :=
  match compare a.length b.length with
  | .eq => match compare (onPointCount points b) (onPointCount points a) with
    | .eq => match cmpZip (cmpPos axisOrder) (orderedAxes axisOrder a) (orderedAxes axisOrder b) with
      | .eq => match cmpLex cmpTag (orderedAxes axisOrder a) (orderedAxes axisOrder b) with
        | .eq => match cmpVals (cmpSign rd) a b (orderedAxes axisOrder a) with
          | .eq => cmpVals (cmpAbs rd) a b (orderedAxes axisOrder a)
          | o => o
        | o => o
      | o => o
    | o => o
  | o => o

/-- Stable insertion into a sorted list. -/
def insertBy {α : Type} (c : α → α → Ordering) (x : α) : List α → List α
  | [] => [x]
  | y :: ys => if c x y = .gt then y :: insertBy c x ys else x :: y :: ys

/-- A stable sort (any stable sort gives this result when the comparison is a total preorder). -/
def sortBy {α : Type} (c : α → α → Ordering) (l : List α) : List α := l.foldr (insertBy c) []

/-- `VariationModel` (locations.rs:22-33); `order` gives for each rearranged location its index among the given
ones (`sort_order.apply_inv_idx`). -/
structure Model where
  locations : List Loc
  order : List Nat
  supports : List Region
  deltaWeights : List (List (Nat × ℚ))
  deriving DecidableEq

/-- `l2.retain(|_, v| *v != 0.0)` (locations.rs:102-109). -/
def dropZeros (l : Loc) : Loc := l.filter fun x => x.2 ≠ 0

/-- The masters in order, with their indices (locations.rs:131-203). -/
def arranged (rd : ℚ → ℚ) (axisOrder : List Tag) (locs : List Loc) : List (Loc × Nat) :=
  sortBy (fun a b => cmpLoc rd axisOrder (axisPoints (locs.map dropZeros)) a.1 b.1) (locs.map dropZeros).zipIdx

/-- `VariationModel::new` (locations.rs:100-213). Hashing a coordinate that does not fit `F2DOT14` panics; the model
panics if any coordinate does not fit, the code only for coordinates it hashes. -/
def newModel (rd : ℚ → ℚ) (locs : List Loc) (axisOrder : List Tag) : Res Model :=
  if locs.all fun l => l.all fun x => (axisPoints.packed x.2).isSome then
    match supports rd ((arranged rd axisOrder locs).map (·.1)) with
    | .ok ss => .ok ⟨(arranged rd axisOrder locs).map (·.1), (arranged rd axisOrder locs).map (·.2), ss,
        weights rd ((arranged rd axisOrder locs).map (·.1)) ss⟩
    | .err => .err
    | .panic => .panic
  else .panic

/-! ### Deltas -/

/-- The inner loop of `get_deltas_and_supports` (locations.rs:310-312). -/
def subtractAll {V : Type} [AddCommGroup V] [SMul ℚ V] (out : List (V × Region)) : List (Nat × ℚ) → V → Res V
  | [], d => .ok d
  | (j, w) :: rest, d => match out[j]? with
    | some x => subtractAll out rest (d - w • x.1)
    | none => .panic

/-- The outer loop (locations.rs:307-314) over index of the value, weights and support. -/
def deltasLoop {V : Type} [AddCommGroup V] [SMul ℚ V] (values : List V) :
    List (Nat × List (Nat × ℚ) × Region) → List (V × Region) → Res (List (V × Region))
  | [], out => .ok out
  | (ix, ws, s) :: rest, out => match values[ix]? with
    | none => .panic
    | some v => match subtractAll out ws v with
      | .ok d => deltasLoop values rest (out ++ [(d, s)])
      | .err => .err
      | .panic => .panic

/-- `get_deltas_and_supports` (locations.rs:292-316) of the model built from `locs`. -/
def getDeltas {V : Type} [AddCommGroup V] [SMul ℚ V] (rd : ℚ → ℚ) (locs : List Loc) (axisOrder : List Tag)
    (values : List (Option V)) : Res (List (V × Region)) :=
  match newModel rd ((locs.zip values).filterMap fun x => x.2.map fun _ => x.1) axisOrder with
  | .ok m =>
    if (values.filterMap id).length = m.deltaWeights.length then
      deltasLoop (values.filterMap id) (m.order.zip (m.deltaWeights.zip m.supports)) []
    else .panic
  | .err => .err
  | .panic => .panic

end FT.Var
