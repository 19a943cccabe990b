import Verif.Model.F32

/-!
How `F2DOT14` numbers are compared and hashed (crates/otspec/src/types.rs:131-157). As everywhere for `f32`, NaN and
infinities are not modelled.
-/

namespace FT.F32
open FT

/-- `PartialEq for F2DOT14` (types.rs:131-135): the results of `as_packed` are compared. All its errors are equal, as
`TryFromIntError` has no contents. -/
def f2dot14Eq (x y : ℚ) : Bool := match f2dot14AsPacked x, f2dot14AsPacked y with
  | .ok p, .ok q => p == q
  | .ok _, _ => false
  | _, .ok _ => false
  | _, _ => true

/-- `Ord for F2DOT14` (types.rs:144-148). -/
def f2dot14Cmp (x y : ℚ) : Res Ordering := match f2dot14AsPacked x, f2dot14AsPacked y with
  | .ok p, .ok q => .ok (compare p q)
  | _, _ => .panic

/-- `PartialOrd for F2DOT14` (types.rs:137-143). -/
def f2dot14PartialCmp (x y : ℚ) : Res (Option Ordering) := match f2dot14AsPacked x with
  | .ok p => (match f2dot14AsPacked y with
    | .ok q => .ok (some (compare p q))
    | _ => .panic)
  | _ => .panic

/-- `Hash for F2DOT14` (types.rs:150-157): the `i16` that is given to the hasher. -/
def f2dot14Hash (x : ℚ) : Res Int16 := match f2dot14AsPacked x with
  | .ok p => .ok (Int16.ofInt p)
  | _ => .panic

end FT.F32
