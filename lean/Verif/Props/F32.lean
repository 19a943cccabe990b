import Verif.Lemmas.F32
import Verif.Props.Primitives

/-!
# C04: `F2DOT14` and `Fixed`

`rne` is IEEE round-to-nearest-even to 24 significant bits; each `f32` operation of the code is one `rne`.
-/

namespace FT.Props
open FT FT.F32

/-- What makes `rne` the right rounding: it is exact on every number with at most 24 significant bits, ... -/
theorem C04_rounding_exact (m k : ℤ) (hm : |m| ≤ 2 ^ 24) (hk : -149 ≤ k) :
    rne ((m : ℚ) * 2 ^ k) = m * 2 ^ k := rne_exact m k hm hk

/-- ... and otherwise off by at most half a unit in the last place. -/
theorem C04_rounding_error (x : ℚ) : |rne x - x| ≤ 2 ^ ue x / 2 := by
  have hp := two_zpow_pos (ue x)
  obtain ⟨h1, h2⟩ := rhe_bounds (x / 2 ^ ue x)
  have e : x = x / 2 ^ ue x * 2 ^ ue x := by field_simp
  unfold rne
  generalize (2 : ℚ) ^ ue x = s at *
  rw [abs_le]
  constructor <;> nlinarith

/-- C04: every packed `F2DOT14` survives decoding and re-encoding. -/
theorem C04_f2dot14 (p : Int16) : f2dot14AsPacked (f2dot14FromPacked p.toInt) = .ok p.toInt :=
  f2dot14_roundtrip p.toInt (by have := p.le_toInt; omega) (by have := p.toInt_lt; omega)

/-- The decoded value is the packed value over 16384, exactly. -/
theorem C04_f2dot14_value (p : Int16) : f2dot14FromPacked p.toInt = (p.toInt : ℚ) / 16384 := by
  have h1 := p.le_toInt
  have h2 := p.toInt_lt
  have hp : |p.toInt| ≤ 2 ^ 24 := by rw [abs_le]; constructor <;> omega
  unfold f2dot14FromPacked
  rw [rne_int _ hp]
  have : (p.toInt : ℚ) / 16384 = p.toInt * 2 ^ (-14 : ℤ) := by
    rw [zpow_neg]; norm_num; ring
  rw [this, rne_exact _ _ hp (by norm_num)]

theorem reads_f2dot14 (p : Int16) : Reads readF2dot14 (encI16 p) (f2dot14FromPacked p.toInt) := by
  unfold readF2dot14
  generalize f2dot14FromPacked = g
  exact (reads_i16 p).map (fun x : Int16 => g x.toInt)

theorem reads_fixed (p : Int32) : Reads readFixed (encI32 p) (fixedFromPacked p.toInt) := by
  unfold readFixed
  generalize fixedFromPacked = g
  exact (reads_i32 p).map (fun x : Int32 => g x.toInt)

/-- The serialized form of a decoded `F2DOT14` reads back as the same value anywhere in a buffer. -/
theorem C04_f2dot14_bytes (p : Int16) :
    ∃ bs, encF2dot14 (f2dot14FromPacked p.toInt) = .ok bs ∧ bs.length = 2 ∧
      RoundTripsAt readF2dot14 bs (f2dot14FromPacked p.toInt) := by
  refine ⟨encI16 p, ?_, rfl, ?_⟩
  · unfold encF2dot14
    rw [C04_f2dot14]
    simp [Res.ok_bind]
  · exact reads_f2dot14 p

/-- C04: every packed `Fixed` of magnitude at most 2^23 survives decoding and re-encoding. -/
theorem C04_fixed (p : ℤ) (h : |p| ≤ 2 ^ 23) : fixedAsPacked (fixedFromPacked p) = p := fixed_roundtrip p h

/-- Its serialized form reads back as the same value anywhere in a buffer. -/
theorem C04_fixed_bytes (p : Int32) (h : |p.toInt| ≤ 2 ^ 23) :
    encFixed (fixedFromPacked p.toInt) = encI32 p ∧
      RoundTripsAt readFixed (encFixed (fixedFromPacked p.toInt)) (fixedFromPacked p.toInt) := by
  have e : encFixed (fixedFromPacked p.toInt) = encI32 p := by
    unfold encFixed; rw [C04_fixed _ h]; simp
  refine ⟨e, ?_⟩
  rw [e]
  exact reads_fixed p

/-- C04, other side: no larger odd packed value does (2^31 - 1, where the conversion saturates, excepted). -/
theorem C04_fixed_large_odd_changes (p : Int32) (hodd : p.toInt % 2 = 1) (h : 2 ^ 23 < |p.toInt|)
    (hmax : p.toInt ≠ 2 ^ 31 - 1) : fixedAsPacked (fixedFromPacked p.toInt) ≠ p.toInt :=
  fixed_odd p.toInt hodd h hmax ⟨by have := p.le_toInt; omega, by have := p.toInt_lt; omega⟩

/-- Values outside `[-2, 2)` are refused by `F2DOT14` rather than wrapped: 2.0 is an error. -/
theorem C04_f2dot14_two_refused : f2dot14AsPacked 2 = .err := by
  unfold f2dot14AsPacked
  have h1 : rne (2 * 16384) = 32768 := by
    have := rne_int 32768 (by norm_num)
    norm_num at this ⊢
    exact this
  have h2 := otRound_small 32768 (by norm_num)
  simp only [h1]
  norm_num at h2
  rw [h2]
  norm_num

example : f2dot14AsPacked (f2dot14FromPacked (-32768)) = .ok (-32768) := C04_f2dot14 (-32768)
example : fixedAsPacked (fixedFromPacked 0x00010000) = 0x00010000 := C04_fixed _ (by norm_num)
/-- 128 + 1/65536, an ordinary axis value, is changed. -/
example : fixedAsPacked (fixedFromPacked 8388609) ≠ 8388609 :=
  C04_fixed_large_odd_changes 8388609 (by decide) (by decide) (by decide)

end FT.Props
