import Verif.Model.Variation
import Verif.Model.Glyf

/-!
Axis maps and normalisation: src/tables/avar.rs, crates/designspace/src/lib.rs, src/otvar/instancer.rs.

As in Model/Variation, every `f32` operation is followed by `rd`; the code is `rd = F32.rne`.
-/

namespace FT.AxisMaps
open FT FT.Var FT.Glyf

/-! ### avar segment maps -/

/-- `va + (vb - va) * (val - a) / (b - a)` (avar.rs:103, designspace lib.rs:59). -/
def lerp (rd : ℚ → ℚ) (a va b vb val : ℚ) : ℚ := rd (va + rd (rd (rd (vb - va) * rd (val - a)) / rd (b - a)))

/-- `from.iter().position(|&r| r > val)` and what follows (avar.rs:98-106): `prev` is the point before. -/
def segBetween (rd : ℚ → ℚ) (val : ℚ) : Option (ℚ × ℚ) → List (ℚ × ℚ) → Res ℚ
  | _, [] => .panic
  | prev, x :: rest =>
    if x.1 > val then
      match prev with
      | none => .panic
      | some p => .ok (lerp rd p.1 p.2 x.1 x.2 val)
    else segBetween rd val (some x) rest

/-- `SegmentMap::piecewise_linear_map` (avar.rs:86-107). -/
def segMap (rd : ℚ → ℚ) (m : List (ℚ × ℚ)) (val : ℚ) : Res ℚ :=
  if val ≤ -1 then .ok (-1)
  else if val ≥ 1 then .ok 1
  else match m.find? fun x => decide (|rd (x.1 - val)| < eps) with
    | some x => .ok x.2
    | none => segBetween rd val none m

/-- Lines 117-125: whether a pair counts as one of the three required ones. -/
def isZeroPair (x : ℚ × ℚ) : Bool := decide (x.1 = 0 ∧ x.2 = 0)
/-- Goes with `isZeroPair` (Lines 117-125). -/
def isPair (rd : ℚ → ℚ) (c : ℚ) (x : ℚ × ℚ) : Bool := decide (|rd (x.1 - c)| < eps ∧ |rd (x.2 - c)| < eps)

/-- Lines 128-131: the `to` coordinates do not decrease. -/
def toOrdered : ℚ → List (ℚ × ℚ) → Bool
  | _, [] => true
  | prev, x :: rest => if x.2 < prev then false else toOrdered x.2 rest

/-- `SegmentMap::is_valid` (avar.rs:111-138). The order of `from` coordinates is not looked at. -/
def segValid (rd : ℚ → ℚ) (m : List (ℚ × ℚ)) : Bool :=
  toOrdered (-2) m && m.countP isZeroPair == 1 && m.countP (isPair rd 1) == 1 && m.countP (isPair rd (-1)) == 1

/-- `SegmentMap::new` (avar.rs:77-83). -/
def segNew (rd : ℚ → ℚ) (m : List (ℚ × ℚ)) : Res (List (ℚ × ℚ)) := if segValid rd m then .ok m else .panic

/-! ### designspace axes -/

instance : Key ℤ where
  lt a b := decide (a < b)
  irrefl a := by simp
  trans a b c h1 h2 := by simp at *; omega
  tri a b h1 h2 := by simp at *; omega

/-- `i32` subtraction. -/
def subI32 (a b : ℤ) : Res ℤ := if -2 ^ 31 ≤ a - b ∧ a - b < 2 ^ 31 then .ok (a - b) else .panic

/-- Largest key below `v` with its value. Keys are in increasing order. -/
def below (v : ℤ) : List (ℤ × ℚ) → Option (ℤ × ℚ)
  | [] => none
  | x :: rest => if x.1 < v then (match below v rest with | some y => some y | none => some x) else none

/-- Smallest key above `v` with its value. -/
def above (v : ℤ) (m : List (ℤ × ℚ)) : Option (ℤ × ℚ) := m.find? fun x => decide (v < x.1)

/-- `piecewise_linear_map` (designspace lib.rs:40-60). The hash map is given by its entries in increasing order of
keys; the code only looks at the set of entries. -/
def dsMap (rd : ℚ → ℚ) (m : List (ℤ × ℚ)) (v : ℤ) : Res ℚ :=
  match BMap.get? m v with
  | some o => .ok o
  | none => match below v m, above v m with
    | none, none => .ok (rd v)
    | none, some b => .ok (rd (rd (rd v + b.2) - rd b.1))
    | some a, none => .ok (rd (rd (rd v + a.2) - rd a.1))
    | some a, some b => do
      let d ← subI32 v a.1
      let e ← subI32 b.1 a.1
      return rd (a.2 + rd (rd (rd (b.2 - a.2) * rd d) / rd e))

/-- The fields of `Axis` (designspace lib.rs:233-253) used here; a map point is (input, output). -/
structure Axis where
  minimum : ℤ
  default : ℤ
  maximum : ℤ
  map : Option (List (ℚ × ℚ))
  deriving DecidableEq

/-- `f32 as i32`. -/
def toInt (x : ℚ) : ℤ := F32.toI32 (truncQ x)

/-- The three points of an axis without a map (lib.rs:282-284). -/
def plainMap (rd : ℚ → ℚ) (ax : Axis) : List (ℤ × ℚ) :=
  BMap.collect [(ax.minimum, rd ax.minimum), (ax.default, rd ax.default), (ax.maximum, rd ax.maximum)]

/-- `userspace_to_designspace` (lib.rs:275-288). -/
def toDesign (rd : ℚ → ℚ) (ax : Axis) (l : ℤ) : Res ℚ := match ax.map with
  | some m => dsMap rd (BMap.collect (m.map fun x => (toInt x.1, x.2))) l
  | none => dsMap rd (plainMap rd ax) l

/-- `designspace_to_userspace` (lib.rs:291-304). -/
def toUser (rd : ℚ → ℚ) (ax : Axis) (l : ℤ) : Res ℚ := match ax.map with
  | some m => dsMap rd (BMap.collect (m.map fun x => (toInt x.2, x.1))) l
  | none => dsMap rd (plainMap rd ax) l

/-- Lines 306-311: bring a value between two bounds. -/
def clampTo (lo hi l : ℚ) : ℚ :=
  let l := if l < lo then lo else l
  if l > hi then hi else l

/-- `normalize_userspace_value` (lib.rs:305-319). -/
def normUser (rd : ℚ → ℚ) (ax : Axis) (l : ℚ) : Res ℚ :=
  let l := clampTo (rd ax.minimum) (rd ax.maximum) l
  if l < rd ax.default then do
    let d ← subI32 ax.default ax.minimum
    return rd (-(rd (rd ax.default - l)) / rd d)
  else if l > rd ax.default then do
    let d ← subI32 ax.maximum ax.default
    return rd (rd (l - rd ax.default) / rd d)
  else .ok 0

/-- Smallest output of a map (lib.rs:330-336); `x` is the first. -/
def leastOut (x : ℚ) : List (ℚ × ℚ) → ℚ
  | [] => x
  | y :: rest => leastOut (min x y.2) rest
/-- Largest output of a map (lib.rs:337-343). -/
def greatestOut (x : ℚ) : List (ℚ × ℚ) → ℚ
  | [] => x
  | y :: rest => greatestOut (max x y.2) rest

/-- `normalize_designspace_value` (lib.rs:325-350). A map whose outputs are all the same makes the code divide zero by
zero; the model gives 0 there. -/
def normDesign (rd : ℚ → ℚ) (ax : Axis) (l : ℚ) : Res ℚ := match ax.map with
  | none => normUser rd ax l
  | some [] => normUser rd ax l
  | some (x :: rest) =>
    let lo := leastOut x.2 rest
    let hi := greatestOut x.2 rest
    .ok (rd (rd (clampTo lo hi l - lo) / rd (hi - lo)))

/-- Lines 82-98 of `add_to_font`: the segment map of an axis. -/
def segmentOf (rd : ℚ → ℚ) (ax : Axis) : Res (List (ℚ × ℚ)) := match ax.map with
  | some m => match Res.mapL (fun x => match normUser rd ax x.1, normDesign rd ax x.2 with
      | .ok a, .ok b => .ok (a, b)
      | _, _ => .panic) m with
    | .ok sm => segNew rd ((-1, -1) :: sm)
    | .err => .err
    | .panic => .panic
  | none => segNew rd [(-1, -1), (0, 0), (1, 1)]

/-! ### Limits of the instancer -/

/-- `F2DOT14::round` (types.rs:127-129). -/
def roundF2dot14 (x : ℚ) : Res ℚ := match F32.f2dot14AsPacked x with
  | .ok p => .ok (F32.f2dot14FromPacked p)
  | _ => .panic

/-- `normalize` (instancer.rs:525-532); `f32::clamp` panics unless its bounds are in order. For a range of one point the
code divides zero by zero; the model gives 0 there. -/
def normLimit (rd : ℚ → ℚ) (value minv _default maxv : ℚ) (seg : Option (List (ℚ × ℚ))) : Res ℚ :=
  if minv ≤ maxv then do
    let v := rd (rd (clampTo minv maxv value - minv) / rd (maxv - minv))
    match seg with
    | none => roundF2dot14 v
    | some m => do roundF2dot14 (← segMap rd m v)
  else .panic

end FT.AxisMaps
