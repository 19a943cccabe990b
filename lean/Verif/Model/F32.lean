import Mathlib.Data.Int.Log
import Mathlib.Data.Rat.Floor
import Verif.Model.Basic

/-!
Single-precision arithmetic as used by `crates/otspec/src/types.rs`.

A finite `f32` is modelled by the rational it denotes; every operation rounds its exact result with IEEE
round-to-nearest-even (`rne`). Not modelled: NaN, infinities and the sign of zero, so results must stay below
2^128 in magnitude (all uses here are far below that).
-/

namespace FT.F32
open FT

/-- Nearest integer, ties to even. -/
def rhe (q : ℚ) : ℤ :=
  if q - ⌊q⌋ < 1 / 2 then ⌊q⌋
  else if 1 / 2 < q - ⌊q⌋ then ⌊q⌋ + 1
  else if ⌊q⌋ % 2 = 0 then ⌊q⌋
  else ⌊q⌋ + 1

/-- Exponent of the unit in the last place of the binade of `x` (24-bit significand, subnormals below 2^-126). -/
def ue (x : ℚ) : ℤ := max (Int.log 2 |x| - 23) (-149)

/-- IEEE binary32 round-to-nearest-even (no overflow to infinity). -/
def rne (x : ℚ) : ℚ := rhe (x / 2 ^ ue x) * 2 ^ ue x

/-- Rust's saturating `f32 as i32`. -/
def toI32 (x : ℤ) : ℤ := max (-2 ^ 31) (min x (2 ^ 31 - 1))

/-- `ot_round` (types.rs:70-75) on an `f32` argument: `(value + 0.5).floor() as i32`. -/
def otRound (x : ℚ) : ℤ := toI32 ⌊rne (x + 1 / 2)⌋

/-- `Fixed::from_packed` (types.rs:81-83). -/
def fixedFromPacked (p : ℤ) : ℚ := rne (rne p / 65536)

/-- `Fixed::as_packed` (types.rs:78-80). -/
def fixedAsPacked (f : ℚ) : ℤ := otRound (rne (f * 65536))

/-- `F2DOT14::from_packed` (types.rs:123-125). -/
def f2dot14FromPacked (p : ℤ) : ℚ := rne (rne p / 16384)

/-- `F2DOT14::as_packed` (types.rs:120-122): error if it does not fit `i16`. -/
def f2dot14AsPacked (f : ℚ) : Res ℤ :=
  let r := otRound (rne (f * 16384))
  if -32768 ≤ r ∧ r ≤ 32767 then .ok r else .err

/-- `F2DOT14::to_bytes` (types.rs:160-165). -/
def encF2dot14 (f : ℚ) : Res Bytes := do return encI16 (Int16.ofInt (← f2dot14AsPacked f))

/-- `F2DOT14::from_bytes` (types.rs:171-174). -/
def readF2dot14 : Reader ℚ := do return f2dot14FromPacked (← readI16).toInt

/-- `Fixed::to_bytes` (types.rs:90-93). -/
def encFixed (f : ℚ) : Bytes := encI32 (Int32.ofInt (fixedAsPacked f))

/-- `Fixed::from_bytes` (types.rs:99-102). -/
def readFixed : Reader ℚ := do return fixedFromPacked (← readI32).toInt

end FT.F32
