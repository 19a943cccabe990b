import Verif.Props.DesignMap

/-!
C54: `Axis::normalize_userspace_value` of crates/designspace. C49: `normalize` of the instancer. Both in `f32` arithmetic.
-/

namespace FT.Props
open FT FT.Var FT.AxisMaps FT.F32

/-! ### C54 -/

/-- An axis with its three values in order, none above 2^24 in size. -/
structure AxisOrder (ax : Axis) : Prop where
  low : ax.minimum ≤ ax.default
  high : ax.default ≤ ax.maximum
  small : |ax.minimum| ≤ 2 ^ 24 ∧ |ax.maximum| ≤ 2 ^ 24

/-- A user value brought into the range of the axis. -/
def inRange (ax : Axis) (l : ℚ) : ℚ := max (ax.minimum : ℚ) (min l ax.maximum)

/-- The normalised value in exact arithmetic: distance from the default over the width of the side it lies on. -/
def position (ax : Axis) (l : ℚ) : ℚ :=
  if inRange ax l < ax.default then -((ax.default - inRange ax l) / (ax.default - ax.minimum))
  else if (ax.default : ℚ) < inRange ax l then (inRange ax l - ax.default) / (ax.maximum - ax.default)
  else 0

theorem clampTo_eq {lo hi l : ℚ} (h : lo ≤ hi) : clampTo lo hi l = max lo (min l hi) := by
  unfold clampTo
  simp only
  rcases lt_or_ge l lo with h1 | h1
  · rw [if_pos h1]
    rw [if_neg (by linarith), min_eq_left (by linarith), max_eq_left (by linarith)]
  · rw [if_neg (not_lt.2 h1)]
    rcases lt_or_ge hi l with h2 | h2
    · rw [if_pos h2, min_eq_right (by linarith), max_eq_right h]
    · rw [if_neg (by linarith), min_eq_left h2, max_eq_right h1]

theorem AxisOrder.exact {ax : Axis} (h : AxisOrder ax) : rne ax.minimum = ax.minimum ∧ rne ax.default = ax.default ∧
    rne ax.maximum = ax.maximum ∧ (ax.minimum : ℚ) ≤ ax.default ∧ (ax.default : ℚ) ≤ ax.maximum := by
  obtain ⟨h1, h2⟩ := abs_le.1 h.small.1
  obtain ⟨h3, h4⟩ := abs_le.1 h.small.2
  have := h.low
  have := h.high
  exact ⟨rne_int _ h.small.1, rne_int _ (by rw [abs_le]; constructor <;> omega), rne_int _ h.small.2,
    by exact_mod_cast h.low, by exact_mod_cast h.high⟩

theorem inRange_le {ax : Axis} (h : AxisOrder ax) (l : ℚ) : (ax.minimum : ℚ) ≤ inRange ax l ∧
    inRange ax l ≤ ax.maximum := by
  obtain ⟨_, _, _, e1, e2⟩ := h.exact
  exact ⟨le_max_left _ _, max_le (by linarith) (min_le_right _ _)⟩

/-- Which of its three branches the code takes. -/
theorem normUser_cases {ax : Axis} (h : AxisOrder ax) (l : ℚ) :
    (inRange ax l < ax.default ∧ normUser rne ax l = .ok (rne (-(rne (ax.default - inRange ax l)) /
      rne (ax.default - ax.minimum)))) ∨
    ((ax.default : ℚ) < inRange ax l ∧ normUser rne ax l = .ok (rne (rne (inRange ax l - ax.default) /
      rne (ax.maximum - ax.default)))) ∨
    (inRange ax l = ax.default ∧ normUser rne ax l = .ok 0) := by
  obtain ⟨f1, f2, f3, e1, e2⟩ := h.exact
  obtain ⟨h1, h2⟩ := abs_le.1 h.small.1
  obtain ⟨h3, h4⟩ := abs_le.1 h.small.2
  have hlo := h.low
  have hhi := h.high
  have e3 : subI32 ax.default ax.minimum = .ok (ax.default - ax.minimum) := by
    unfold subI32; rw [if_pos]; constructor <;> omega
  have e4 : subI32 ax.maximum ax.default = .ok (ax.maximum - ax.default) := by
    unfold subI32; rw [if_pos]; constructor <;> omega
  have e : normUser rne ax l = if inRange ax l < ax.default then
      .ok (rne (-(rne (ax.default - inRange ax l)) / rne (ax.default - ax.minimum)))
      else if inRange ax l > ax.default then
      .ok (rne (rne (inRange ax l - ax.default) / rne (ax.maximum - ax.default))) else .ok 0 := by
    unfold normUser
    rw [f1, f2, f3, clampTo_eq (by linarith), e3, e4]
    simp only [Res.ok_bind, Int.cast_sub]
    rfl
  rcases lt_trichotomy (inRange ax l) ax.default with g | g | g
  · left; exact ⟨g, by rw [e, if_pos g]⟩
  · right; right; exact ⟨g, by rw [e, if_neg (by linarith), if_neg (by linarith)]⟩
  · right; left; exact ⟨g, by rw [e, if_neg (by linarith), if_pos g]⟩

/-- A rounded quotient of a part by the whole lies in [0, 1]. -/
theorem part_unit {n d : ℚ} (h0 : 0 ≤ n) (h1 : n ≤ d) : 0 ≤ rne (rne n / rne d) ∧ rne (rne n / rne d) ≤ 1 := by
  have hn := rne_nonneg h0
  have hd := rne_mono h1
  constructor
  · exact rne_nonneg (div_nonneg hn (le_trans hn hd))
  · calc _ ≤ rne 1 := rne_mono (div_le_one_of_le₀ hd (le_trans hn hd))
      _ = 1 := rne_one

/-- Every user value is normalised, and the result lies in [-1, 1]. -/
theorem C54_range {ax : Axis} (h : AxisOrder ax) (l : ℚ) : ∃ y, normUser rne ax l = .ok y ∧ -1 ≤ y ∧ y ≤ 1 := by
  obtain ⟨g1, g2⟩ := inRange_le h l
  rcases normUser_cases h l with ⟨g, e⟩ | ⟨g, e⟩ | ⟨g, e⟩
  · have := part_unit (n := ax.default - inRange ax l) (d := ax.default - ax.minimum) (by linarith) (by linarith)
    rw [neg_div, rne_neg] at e
    exact ⟨_, e, by linarith, by linarith⟩
  · have := part_unit (n := inRange ax l - ax.default) (d := ax.maximum - ax.default) (by linarith) (by linarith)
    exact ⟨_, e, by linarith, by linarith⟩
  · exact ⟨_, e, by norm_num, by norm_num⟩

/-- The default goes to 0. -/
theorem C54_default {ax : Axis} (h : AxisOrder ax) : normUser rne ax ax.default = .ok 0 := by
  obtain ⟨_, _, _, e1, e2⟩ := h.exact
  have hr : inRange ax ax.default = ax.default := by
    unfold inRange; rw [min_eq_left e2, max_eq_right e1]
  rcases normUser_cases h ax.default with ⟨g, e⟩ | ⟨g, e⟩ | ⟨g, e⟩
  · linarith
  · linarith
  · exact e

theorem rne_pos_int {a b : ℤ} (h : a < b) : 0 < rne ((b : ℚ) - a) := by
  have : (1 : ℚ) ≤ (b : ℚ) - a := by
    have : (a : ℚ) + 1 ≤ b := by exact_mod_cast h
    linarith
  have := rne_mono this
  rw [rne_one] at this
  linarith

/-- The minimum, and everything below it, goes to -1 (if the axis extends below its default at all). -/
theorem C54_minimum {ax : Axis} (h : AxisOrder ax) (hlt : ax.minimum < ax.default) {l : ℚ} (hl : l ≤ ax.minimum) :
    normUser rne ax l = .ok (-1) := by
  obtain ⟨_, _, _, e1, e2⟩ := h.exact
  have hlt' : (ax.minimum : ℚ) < ax.default := by exact_mod_cast hlt
  have hr : inRange ax l = ax.minimum := by
    unfold inRange; rw [min_eq_left (by linarith), max_eq_left hl]
  rcases normUser_cases h l with ⟨g, e⟩ | ⟨g, e⟩ | ⟨g, e⟩
  · rw [e, hr, neg_div, div_self (ne_of_gt (rne_pos_int hlt)), rne_neg, rne_one]
  · linarith
  · linarith

/-- The maximum, and everything above it, goes to 1. -/
theorem C54_maximum {ax : Axis} (h : AxisOrder ax) (hlt : ax.default < ax.maximum) {l : ℚ} (hl : ax.maximum ≤ l) :
    normUser rne ax l = .ok 1 := by
  obtain ⟨_, _, _, e1, e2⟩ := h.exact
  have hlt' : (ax.default : ℚ) < ax.maximum := by exact_mod_cast hlt
  have hr : inRange ax l = ax.maximum := by
    unfold inRange; rw [min_eq_right hl, max_eq_right (by linarith)]
  rcases normUser_cases h l with ⟨g, e⟩ | ⟨g, e⟩ | ⟨g, e⟩
  · linarith
  · rw [e, hr, div_self (ne_of_gt (rne_pos_int hlt)), rne_one]
  · linarith

theorem inRange_mono (ax : Axis) {l k : ℚ} (h : l ≤ k) : inRange ax l ≤ inRange ax k :=
  max_le_max (le_refl _) (min_le_min h (le_refl _))

/-- Normalisation does not decrease. -/
theorem C54_monotone {ax : Axis} (h : AxisOrder ax) {l k y z : ℚ} (hlk : l ≤ k) (hy : normUser rne ax l = .ok y)
    (hz : normUser rne ax k = .ok z) : y ≤ z := by
  obtain ⟨_, _, _, e1, e2⟩ := h.exact
  obtain ⟨g1, g2⟩ := inRange_le h l
  obtain ⟨k1, k2⟩ := inRange_le h k
  have hm := inRange_mono ax hlk
  rcases normUser_cases h l with ⟨g, e⟩ | ⟨g, e⟩ | ⟨g, e⟩ <;> rw [hy] at e <;> cases e <;>
    rcases normUser_cases h k with ⟨i, e⟩ | ⟨i, e⟩ | ⟨i, e⟩ <;> rw [hz] at e <;> cases e
  · apply rne_mono
    apply div_le_div_of_nonneg_right _ (rne_nonneg (by linarith))
    have := rne_mono (x := ax.default - inRange ax k) (y := ax.default - inRange ax l) (by linarith)
    linarith
  · rw [neg_div, rne_neg]
    have := part_unit (n := ax.default - inRange ax l) (d := ax.default - ax.minimum) (by linarith) (by linarith)
    have := part_unit (n := inRange ax k - ax.default) (d := ax.maximum - ax.default) (by linarith) (by linarith)
    linarith
  · rw [neg_div, rne_neg]
    have := part_unit (n := ax.default - inRange ax l) (d := ax.default - ax.minimum) (by linarith) (by linarith)
    linarith
  · linarith
  · apply rne_mono
    apply div_le_div_of_nonneg_right _ (rne_nonneg (by linarith))
    exact rne_mono (by linarith)
  · linarith
  · linarith
  · have := part_unit (n := inRange ax k - ax.default) (d := ax.maximum - ax.default) (by linarith) (by linarith)
    linarith
  · exact le_refl _

/-- Rounding errors of a quotient of a part by the whole. -/
theorem part_error {n d : ℚ} (h0 : 0 ≤ n) (h1 : n ≤ d) (hd : 1 / 65536 ≤ d) :
    |rne (rne n / rne d) - n / d| ≤ 1 / 2 ^ 22 := by
  have d0 : 0 < d := by linarith
  have hK : (2 : ℚ) ^ (-126 : ℤ) ≤ d := le_trans (by norm_num) hd
  have en := rne_err (z := n) hK (by rw [abs_of_nonneg h0]; exact h1)
  have ed := rne_err (z := d) hK (by rw [abs_of_pos d0])
  obtain ⟨ed1, ed2⟩ := abs_le.1 ed
  have hn := rne_nonneg h0
  have hnd := rne_mono h1
  obtain ⟨N, hN⟩ : ∃ N, N = rne n := ⟨_, rfl⟩
  obtain ⟨E, hE⟩ : ∃ E, E = rne d := ⟨_, rfl⟩
  rw [← hN] at en hn hnd ⊢
  rw [← hE] at ed1 ed2 ed hnd ⊢
  have E0 : d / 2 ≤ E := by linarith
  have Ep : 0 < E := by linarith
  have q0 : 0 ≤ N / E := div_nonneg hn (le_of_lt Ep)
  have q1 : N / E ≤ 1 := div_le_one_of_le₀ hnd (le_of_lt Ep)
  have er := rne_unit_error q0 q1
  have t0 : 0 ≤ n / d := div_nonneg h0 (le_of_lt d0)
  have t1 : n / d ≤ 1 := div_le_one_of_le₀ h1 (le_of_lt d0)
  have key : |N / E - n / d| ≤ (5 / 2) / 2 ^ 24 := by
    have e : N / E - n / d = ((N - n) - (n / d) * (E - d)) / E := by field_simp; ring
    rw [e, abs_div, abs_of_pos Ep, div_le_iff₀ Ep]
    have k1 : |(n / d) * (E - d)| ≤ d / 2 ^ 24 := by
      rw [abs_mul, abs_of_nonneg t0]
      calc n / d * |E - d| ≤ 1 * |E - d| := mul_le_mul_of_nonneg_right t1 (abs_nonneg _)
        _ ≤ _ := by rw [one_mul]; exact ed
    have k2 : |(N - n) - (n / d) * (E - d)| ≤ d / 2 ^ 24 + d / 2 ^ 24 := le_trans (abs_sub _ _) (add_le_add en k1)
    refine le_trans k2 ?_
    linarith
  obtain ⟨a1, a2⟩ := abs_le.1 key
  obtain ⟨b1, b2⟩ := abs_le.1 er
  rw [abs_le]; constructor <;> linarith

/-- The result is the exact position to within 2^-22. -/
theorem C54_precision {ax : Axis} (h : AxisOrder ax) {l y : ℚ} (hy : normUser rne ax l = .ok y) :
    |y - position ax l| ≤ 1 / 2 ^ 22 := by
  obtain ⟨_, _, _, e1, e2⟩ := h.exact
  obtain ⟨g1, g2⟩ := inRange_le h l
  unfold position
  rcases normUser_cases h l with ⟨g, e⟩ | ⟨g, e⟩ | ⟨g, e⟩ <;> rw [hy] at e <;> cases e
  · rw [if_pos g, neg_div, rne_neg]
    have hd : (1 : ℚ) ≤ ax.default - ax.minimum := by
      have : ax.minimum < ax.default := by
        have : (ax.minimum : ℚ) < ax.default := by linarith
        exact_mod_cast this
      have : (ax.minimum : ℚ) + 1 ≤ ax.default := by exact_mod_cast this
      linarith
    have := part_error (n := ax.default - inRange ax l) (d := ax.default - ax.minimum) (by linarith) (by linarith)
      (by linarith)
    rw [abs_sub_comm]
    rw [neg_sub_neg]; exact this
  · rw [if_neg (by linarith), if_pos g]
    have hd : (1 : ℚ) ≤ ax.maximum - ax.default := by
      have : ax.default < ax.maximum := by
        have : (ax.default : ℚ) < ax.maximum := by linarith
        exact_mod_cast this
      have : (ax.default : ℚ) + 1 ≤ ax.maximum := by exact_mod_cast this
      linarith
    exact part_error (by linarith) (by linarith) (by linarith)
  · rw [if_neg (by linarith), if_neg (by linarith)]; norm_num

/-- Past 2^24 the conversion to `f32` can push a result out of [-1, 1]: on the axis 1, 16777219, 16777219 the minimum goes
below -1. -/
theorem C54_large : ∃ y, normUser rne ⟨1, 16777219, 16777219, none⟩ 1 = .ok y ∧ y < -1 := by
  have r1 : rne 16777219 = 16777220 := by
    have hl : Int.log 2 |(16777219 : ℚ)| = 24 := by
      rw [abs_of_pos (by norm_num)]
      have := Int.log_natCast (R := ℚ) 2 16777219
      rw [show ((16777219 : ℕ) : ℚ) = 16777219 by norm_num] at this
      rw [this]
      have : Nat.log 2 16777219 = 24 := by
        rw [Nat.log_eq_iff (by norm_num)]; norm_num
      rw [this]; rfl
    have hu : ue 16777219 = 1 := by unfold ue; rw [hl]; norm_num
    unfold rne
    rw [hu]
    have : rhe (16777219 / 2 ^ (1 : ℤ)) = 8388610 := by decide +kernel
    rw [this]; norm_num
  have r2 : rne 1 = 1 := rne_one
  have r3 : rne 16777218 = 16777218 := by
    have := rne_exact 8388609 1 (by norm_num) (by norm_num)
    norm_num at this; exact this
  refine ⟨rne (-(16777220) / 16777218), ?_, ?_⟩
  · unfold normUser clampTo subI32
    simp only [Int.cast_ofNat, Int.cast_one, r1, r2]
    norm_num [Res.ok_bind, Res.pure_eq]
    rw [r1, r3]; norm_num
  · rw [neg_div, rne_neg]
    have e := rne_rel (x := 16777220 / 16777218) (by
      rw [abs_of_pos (by norm_num)]
      refine le_trans ?_ (show (1 : ℚ) ≤ _ by norm_num)
      norm_num)
    rw [abs_of_pos (show (0 : ℚ) < 16777220 / 16777218 by norm_num)] at e
    obtain ⟨e1, _⟩ := abs_le.1 e
    norm_num at e1
    have : (1 : ℚ) < rne (16777220 / 16777218) := by norm_num; linarith
    linarith

/-- The usual weight axis meets the hypotheses. -/
example : AxisOrder ⟨100, 400, 900, none⟩ := ⟨by decide, by decide, by decide⟩

/-! ### C49 -/

/-- `F2DOT14::as_packed` before the range check. -/
def pk (x : ℚ) : ℤ := otRound (rne (x * 16384))

theorem pk_mono {x y : ℚ} (h : x ≤ y) : pk x ≤ pk y := by
  unfold pk otRound toI32
  have h1 := rne_mono (x := x * 16384) (y := y * 16384) (by linarith)
  have h2 := rne_mono (x := rne (x * 16384) + 1 / 2) (y := rne (y * 16384) + 1 / 2) (by linarith)
  have h3 := Int.floor_mono h2
  omega

theorem pk_grid (k : ℤ) (h1 : -32768 ≤ k) (h2 : k ≤ 32767) : pk ((k : ℚ) / 16384) = k := by
  have h := C04_f2dot14 (Int16.ofInt k)
  rw [C04_f2dot14_value, int16_ofInt h1 h2] at h
  unfold f2dot14AsPacked at h
  unfold pk
  simp only at h
  split_ifs at h with hc
  · exact Res.ok.inj h

theorem pk_unit {x : ℚ} (h1 : -1 ≤ x) (h2 : x ≤ 1) : -16384 ≤ pk x ∧ pk x ≤ 16384 ∧
    roundF2dot14 x = .ok ((pk x : ℚ) / 16384) := by
  have a := pk_mono h1
  have b := pk_mono h2
  have c := pk_grid 16384 (by norm_num) (by norm_num)
  have d := pk_grid (-16384) (by norm_num) (by norm_num)
  norm_num at c d
  rw [c] at b; rw [d] at a
  refine ⟨a, b, ?_⟩
  unfold roundF2dot14 f2dot14AsPacked
  simp only
  rw [show otRound (rne (x * 16384)) = pk x from rfl, if_pos ⟨by omega, by omega⟩]
  simp only
  have := C04_f2dot14_value (Int16.ofInt (pk x))
  rw [int16_ofInt (by omega) (by omega)] at this
  rw [this]

theorem pk_error {x : ℚ} (h1 : -1 ≤ x) (h2 : x ≤ 1) : |(pk x : ℚ) / 16384 - x| ≤ 33 / 2 ^ 20 := by
  have a := pk_mono h1
  have b := pk_mono h2
  have c := pk_grid 16384 (by norm_num) (by norm_num)
  have d := pk_grid (-16384) (by norm_num) (by norm_num)
  norm_num at c d
  rw [c] at b; rw [d] at a
  have e1 := rne_err (z := x * 16384) (K := 16384) (by norm_num) (by rw [abs_le]; constructor <;> linarith)
  obtain ⟨p1, p2⟩ := abs_le.1 e1
  have e2 := rne_err (z := rne (x * 16384) + 1 / 2) (K := 16386) (by norm_num)
    (by rw [abs_le]; constructor <;> linarith)
  obtain ⟨q1, q2⟩ := abs_le.1 e2
  have f1 := Int.floor_le (rne (rne (x * 16384) + 1 / 2))
  have f2 := Int.lt_floor_add_one (rne (rne (x * 16384) + 1 / 2))
  have hp : pk x = ⌊rne (rne (x * 16384) + 1 / 2)⌋ := by
    unfold pk otRound toI32 at a b ⊢
    omega
  rw [← hp] at f1 f2
  rw [abs_le]; constructor <;> linarith

/-- The share of the way from `lo` to `hi` at which `v` stands, once brought into that range. -/
def share (lo hi v : ℚ) : ℚ := (max lo (min v hi) - lo) / (hi - lo)

theorem normLimit_none {lo d hi v : ℚ} (h : lo < hi) :
    ∃ x, x = rne (rne (max lo (min v hi) - lo) / rne (hi - lo)) ∧ 0 ≤ x ∧ x ≤ 1 ∧
      normLimit rne v lo d hi none = .ok ((pk x : ℚ) / 16384) := by
  refine ⟨_, rfl, ?_⟩
  have m1 : lo ≤ max lo (min v hi) := le_max_left _ _
  have m2 : max lo (min v hi) ≤ hi := max_le (le_of_lt h) (min_le_right _ _)
  obtain ⟨u1, u2⟩ := part_unit (n := max lo (min v hi) - lo) (d := hi - lo) (by linarith) (by linarith)
  refine ⟨u1, u2, ?_⟩
  unfold normLimit
  rw [if_pos (le_of_lt h), clampTo_eq (le_of_lt h)]
  exact (pk_unit (by linarith) u2).2.2

/-- Without an `avar` map every limit is normalised to an F2DOT14 value in [0, 1]. -/
theorem C49_range {lo d hi : ℚ} (h : lo < hi) (v : ℚ) :
    ∃ y, normLimit rne v lo d hi none = .ok y ∧ 0 ≤ y ∧ y ≤ 1 ∧ OnGrid y := by
  obtain ⟨x, _, h0, h1, e⟩ := normLimit_none (d := d) (v := v) h
  obtain ⟨a, b, _⟩ := pk_unit (x := x) (by linarith) h1
  have c := pk_mono h0
  have c' := pk_grid 0 (by norm_num) (by norm_num)
  norm_num at c'
  rw [c'] at c
  have c1 : (0 : ℚ) ≤ pk x := by exact_mod_cast c
  have c2 : (pk x : ℚ) ≤ 16384 := by exact_mod_cast b
  exact ⟨_, e, by linarith, by linarith, pk x, by omega, by omega, rfl⟩

/-- The axis minimum, and everything below, goes to 0. -/
theorem C49_minimum {lo d hi v : ℚ} (h : lo < hi) (hv : v ≤ lo) : normLimit rne v lo d hi none = .ok 0 := by
  obtain ⟨x, ex, _, _, e⟩ := normLimit_none (d := d) (v := v) h
  rw [min_eq_left (by linarith), max_eq_left hv, sub_self, rne_zero, zero_div, rne_zero] at ex
  have := pk_grid 0 (by norm_num) (by norm_num)
  norm_num at this
  rw [e, ex, this]; norm_num

/-- The axis maximum, and everything above, goes to 1. -/
theorem C49_maximum {lo d hi v : ℚ} (flo : IsF32 lo) (fhi : IsF32 hi) (h : lo < hi) (hv : hi ≤ v) :
    normLimit rne v lo d hi none = .ok 1 := by
  obtain ⟨x, ex, _, _, e⟩ := normLimit_none (d := d) (v := v) h
  rw [min_eq_right hv, max_eq_right (le_of_lt h), div_self (ne_of_gt (rne_sub_pos flo fhi h)), rne_one] at ex
  have := pk_grid 16384 (by norm_num) (by norm_num)
  norm_num at this
  rw [e, ex, this]; norm_num

/-- Normalisation of limits does not decrease. -/
theorem C49_monotone {lo d hi v w y z : ℚ} (h : lo < hi) (hvw : v ≤ w) (hy : normLimit rne v lo d hi none = .ok y)
    (hz : normLimit rne w lo d hi none = .ok z) : y ≤ z := by
  obtain ⟨x, ex, _, _, e⟩ := normLimit_none (d := d) (v := v) h
  obtain ⟨x', ex', _, _, e'⟩ := normLimit_none (d := d) (v := w) h
  rw [hy] at e; rw [hz] at e'; cases e; cases e'
  have hx : x ≤ x' := by
    rw [ex, ex']
    apply rne_mono
    apply div_le_div_of_nonneg_right _ (rne_nonneg (by linarith))
    apply rne_mono
    have := max_le_max (le_refl lo) (min_le_min hvw (le_refl hi))
    linarith
  have : (pk x : ℚ) ≤ pk x' := by exact_mod_cast pk_mono hx
  linarith

/-- The result is the share of the way from minimum to maximum, to within 2^-14. -/
theorem C49_precision {lo d hi v y : ℚ} (h : 1 / 65536 ≤ hi - lo) (hy : normLimit rne v lo d hi none = .ok y) :
    |y - share lo hi v| ≤ 1 / 2 ^ 14 := by
  have hlt : lo < hi := by linarith
  obtain ⟨x, ex, h0, h1, e⟩ := normLimit_none (d := d) (v := v) hlt
  rw [hy] at e; cases e
  have m1 : lo ≤ max lo (min v hi) := le_max_left _ _
  have m2 : max lo (min v hi) ≤ hi := max_le (le_of_lt hlt) (min_le_right _ _)
  have k1 := part_error (n := max lo (min v hi) - lo) (d := hi - lo) (by linarith) (by linarith) h
  rw [← ex] at k1
  have k2 := pk_error (x := x) (by linarith) h1
  unfold share
  obtain ⟨a1, a2⟩ := abs_le.1 k1
  obtain ⟨b1, b2⟩ := abs_le.1 k2
  rw [abs_le]; constructor <;> linarith

/-- So the default is not sent to 0: whenever it stands clear of the minimum, pinning the axis at its default gives a
positive coordinate. -/
theorem C49_default_not_zero {lo d hi y : ℚ} (h : 1 / 65536 ≤ hi - lo) (h1 : lo + (hi - lo) / 2 ^ 13 ≤ d) (h2 : d ≤ hi)
    (hy : normLimit rne d lo d hi none = .ok y) : 0 < y := by
  have hp := (abs_le.1 (C49_precision h hy)).1
  have hlt : 0 < hi - lo := by linarith
  have : 1 / 2 ^ 13 ≤ share lo hi d := by
    unfold share
    rw [min_eq_left h2, max_eq_right (by linarith), le_div_iff₀ hlt]
    linarith
  have e : (1 : ℚ) / 2 ^ 13 = 1 / 8192 := by norm_num
  have e' : (1 : ℚ) / 2 ^ 14 = 1 / 16384 := by norm_num
  rw [e] at this; rw [e'] at hp
  linarith

/-- On the usual weight axis 100, 400, 900 the default goes to 3/8 and pinning never reaches a negative coordinate. -/
theorem C49_weight_axis : normLimit rne 400 100 400 900 none = .ok (3 / 8) := by
  obtain ⟨x, ex, _, _, e⟩ := normLimit_none (lo := 100) (d := 400) (hi := 900) (v := 400) (by norm_num)
  rw [e]
  have r1 := rne_int 300 (by norm_num)
  have r2 := rne_int 800 (by norm_num)
  have r3 := rne_exact 3 (-3) (by norm_num) (by norm_num)
  norm_num at r1 r2 r3
  have e1 : (max 100 (min 400 900) - 100 : ℚ) = 300 := by norm_num
  have e2 : (900 - 100 : ℚ) = 800 := by norm_num
  have e3 : (300 / 800 : ℚ) = 3 / 8 := by norm_num
  rw [e1, e2, r1, r2, e3, r3] at ex
  have := pk_grid 6144 (by norm_num) (by norm_num)
  norm_num at this
  rw [ex, this]; norm_num

/-- With an `avar` map that keeps 0 in place, minimum and maximum still go to 0 and 1. -/
theorem C49_avar_ends {lo d hi : ℚ} (flo : IsF32 lo) (fhi : IsF32 hi) (h : lo < hi) {m : List (ℚ × ℚ)} (hm : AvarMap m)
    (h0 : ((0 : ℚ), (0 : ℚ)) ∈ m) :
    normLimit rne lo lo d hi (some m) = .ok 0 ∧ normLimit rne hi lo d hi (some m) = .ok 1 := by
  constructor
  · unfold normLimit
    rw [if_pos (le_of_lt h), clampTo_eq (le_of_lt h), min_eq_left (le_of_lt h), max_self, sub_self, rne_zero, zero_div,
      rne_zero]
    simp only
    rw [C47_segment_points hm h0, Res.ok_bind, (pk_unit (by norm_num) (by norm_num)).2.2]
    have := pk_grid 0 (by norm_num) (by norm_num)
    norm_num at this
    simp only [this]; norm_num
  · unfold normLimit
    rw [if_pos (le_of_lt h), clampTo_eq (le_of_lt h), min_self, max_eq_right (le_of_lt h),
      div_self (ne_of_gt (rne_sub_pos flo fhi h)), rne_one]
    simp only
    rw [C47_segment_points hm hm.right, Res.ok_bind, (pk_unit (by norm_num) (by norm_num)).2.2]
    have := pk_grid 16384 (by norm_num) (by norm_num)
    norm_num at this
    simp only [this]; norm_num

/-- An axis whose bounds are out of order panics. -/
theorem C49_disordered {lo d hi v : ℚ} (h : hi < lo) (seg : Option (List (ℚ × ℚ))) :
    normLimit rne v lo d hi seg = .panic := by
  unfold normLimit; rw [if_neg (by linarith)]

example : IsF32 100 ∧ IsF32 900 ∧ (100 : ℚ) < 900 ∧ (1 / 65536 : ℚ) ≤ 900 - 100 ∧
    (100 : ℚ) + (900 - 100) / 2 ^ 13 ≤ 400 :=
  ⟨rne_int 100 (by norm_num), rne_int 900 (by norm_num), by norm_num, by norm_num, by norm_num⟩

/-! ### Designspace values, and the segment map written for a mapped axis -/

theorem leastOut_le : ∀ (l : List (ℚ × ℚ)) (x : ℚ), leastOut x l ≤ x ∧ (∀ y ∈ l, leastOut x l ≤ y.2) ∧
    (leastOut x l = x ∨ ∃ y ∈ l, leastOut x l = y.2)
  | [], x => by simp [leastOut]
  | z :: l, x => by
    obtain ⟨h1, h2, h3⟩ := leastOut_le l (min x z.2)
    simp only [leastOut]
    refine ⟨le_trans h1 (min_le_left _ _), ?_, ?_⟩
    · intro y hy
      rcases List.mem_cons.1 hy with e | e
      · rw [e]; exact le_trans h1 (min_le_right _ _)
      · exact h2 y e
    · rcases h3 with e | ⟨y, hy, e⟩
      · rcases min_choice x z.2 with c | c
        · left; rw [e, c]
        · right; exact ⟨z, by simp, by rw [e, c]⟩
      · right; exact ⟨y, List.mem_cons_of_mem _ hy, e⟩

theorem greatestOut_ge : ∀ (l : List (ℚ × ℚ)) (x : ℚ), x ≤ greatestOut x l ∧ (∀ y ∈ l, y.2 ≤ greatestOut x l) ∧
    (greatestOut x l = x ∨ ∃ y ∈ l, greatestOut x l = y.2)
  | [], x => by simp [greatestOut]
  | z :: l, x => by
    obtain ⟨h1, h2, h3⟩ := greatestOut_ge l (max x z.2)
    simp only [greatestOut]
    refine ⟨le_trans (le_max_left _ _) h1, ?_, ?_⟩
    · intro y hy
      rcases List.mem_cons.1 hy with e | e
      · rw [e]; exact le_trans (le_max_right _ _) h1
      · exact h2 y e
    · rcases h3 with e | ⟨y, hy, e⟩
      · rcases max_choice x z.2 with c | c
        · left; rw [e, c]
        · right; exact ⟨z, by simp, by rw [e, c]⟩
      · right; exact ⟨y, List.mem_cons_of_mem _ hy, e⟩

/-- With a map, the designspace value is the share of the way from the least to the greatest output, again whatever the
default is. -/
theorem C49_design_value {ax : Axis} {m : List (ℚ × ℚ)} (hm : ax.map = some m) {lo hi : ℚ × ℚ} (hlo : lo ∈ m)
    (hhi : hi ∈ m) (hl : ∀ x ∈ m, lo.2 ≤ x.2) (hh : ∀ x ∈ m, x.2 ≤ hi.2) (l : ℚ) :
    normDesign rne ax l = .ok (rne (rne (max lo.2 (min l hi.2) - lo.2) / rne (hi.2 - lo.2))) := by
  cases m with
  | nil => simp at hlo
  | cons x r =>
    have e1 : leastOut x.2 r = lo.2 := by
      obtain ⟨h1, h2, h3⟩ := leastOut_le r x.2
      apply le_antisymm
      · rcases List.mem_cons.1 hlo with e | e
        · rw [e]; exact h1
        · exact h2 lo e
      · rcases h3 with e | ⟨y, hy, e⟩
        · rw [e]; exact hl x (by simp)
        · rw [e]; exact hl y (List.mem_cons_of_mem _ hy)
    have e2 : greatestOut x.2 r = hi.2 := by
      obtain ⟨h1, h2, h3⟩ := greatestOut_ge r x.2
      apply le_antisymm
      · rcases h3 with e | ⟨y, hy, e⟩
        · rw [e]; exact hh x (by simp)
        · rw [e]; exact hh y (List.mem_cons_of_mem _ hy)
      · rcases List.mem_cons.1 hhi with e | e
        · rw [e]; exact h1
        · exact h2 hi e
    unfold normDesign
    rw [hm]
    simp only
    rw [e1, e2, clampTo_eq (hl hi hhi)]

theorem rne_quot_pos {n d : ℚ} (hn : 1 / 65536 ≤ n) (hd : n ≤ d) (hd2 : d ≤ 2 ^ 26) : 0 < rne (rne n / rne d) := by
  have x := rne_exact 1 (-16) (by norm_num) (by norm_num)
  norm_num at x
  have h1 := rne_mono hn
  rw [x] at h1
  have h2 := rne_mono hd
  have h3 : rne d ≤ 2 ^ 26 := by
    have y := rne_exact 1 26 (by norm_num) (by norm_num)
    norm_num at y
    have := rne_mono hd2
    norm_num at this ⊢; rw [y] at this; exact this
  have hdp : 0 < rne d := by linarith
  have h4 : (1 / 2 ^ 42 : ℚ) ≤ rne n / rne d := by
    rw [le_div_iff₀ hdp]
    have : (1 / 2 ^ 42 : ℚ) * rne d ≤ 1 / 2 ^ 42 * 2 ^ 26 := mul_le_mul_of_nonneg_left h3 (by norm_num)
    refine le_trans this (le_trans ?_ h1)
    norm_num
  have h5 := rne_mono h4
  have z := rne_exact 1 (-42) (by norm_num) (by norm_num)
  norm_num at z
  norm_num at h5
  rw [z] at h5
  refine lt_of_lt_of_le ?_ h5
  norm_num

theorem mem_mapL {α β : Type} {f : α → Res β} {z : β} : ∀ {l : List α} {r : List β}, Res.mapL f l = .ok r → z ∈ r →
    ∃ x ∈ l, f x = .ok z
  | [], r, h, hz => by simp only [Res.mapL] at h; cases h; simp at hz
  | x :: l, r, h, hz => by
    rw [mapL_cons'] at h
    cases hx : f x with
    | err => rw [hx] at h; simp at h
    | panic => rw [hx] at h; simp at h
    | ok y =>
      rw [hx, Res.ok_bind] at h
      cases hl : Res.mapL f l with
      | err => rw [hl] at h; simp at h
      | panic => rw [hl] at h; simp at h
      | ok ys =>
        rw [hl, Res.ok_bind] at h; cases h
        rcases List.mem_cons.1 hz with e | e
        · exact ⟨x, by simp, by rw [hx, e]⟩
        · obtain ⟨w, hw, e'⟩ := mem_mapL hl e
          exact ⟨w, List.mem_cons_of_mem _ hw, e'⟩

/-- Because of that, writing a mapped axis into a font (`add_to_font`) panics whenever the default does not map to the
least output: no listed point can be the (0, 0) that a valid segment map has to contain. -/
theorem C49_mapped_axis_panics {ax : Axis} (h : AxisOrder ax) {m : List (ℚ × ℚ)} (hm : ax.map = some m)
    (hint : ∀ x ∈ m, ∃ n : ℤ, x.1 = n) (hrange : ∀ x ∈ m, (ax.minimum : ℚ) ≤ x.1 ∧ x.1 ≤ ax.maximum)
    (hfine : ∀ x ∈ m, |x.2| ≤ 2 ^ 20 ∧ ∃ n : ℤ, x.2 = (n : ℚ) / 65536) {lo hi : ℚ × ℚ} (hlo : lo ∈ m)
    (hhi : hi ∈ m) (hl : ∀ x ∈ m, lo.2 ≤ x.2) (hh : ∀ x ∈ m, x.2 ≤ hi.2)
    (hdef : ∀ x ∈ m, x.1 = ax.default → lo.2 < x.2) : segmentOf rne ax = .panic := by
  have zero : ∀ x ∈ m, ∀ a b, normUser rne ax x.1 = .ok a → normDesign rne ax x.2 = .ok b →
      isZeroPair (a, b) = false := by
    intro x hx a b ha hb
    unfold isZeroPair
    rw [decide_eq_false_iff_not]
    rintro ⟨za, zb⟩
    simp only at za zb
    obtain ⟨r1, r2⟩ := hrange x hx
    have hr : inRange ax x.1 = x.1 := by unfold inRange; rw [min_eq_left r2, max_eq_right r1]
    have hxd : x.1 = ax.default := by
      obtain ⟨n, hn⟩ := hint x hx
      obtain ⟨_, _, _, e1, e2⟩ := h.exact
      have s1 : -(2 : ℚ) ^ 24 ≤ ax.minimum := by exact_mod_cast (abs_le.1 h.small.1).1
      have s2 : (ax.maximum : ℚ) ≤ 2 ^ 24 := by exact_mod_cast (abs_le.1 h.small.2).2
      rcases normUser_cases h x.1 with ⟨g, e⟩ | ⟨g, e⟩ | ⟨g, e⟩
      · rw [hr] at g e; rw [ha] at e; cases e
        rw [neg_div, rne_neg] at za
        have : (1 : ℚ) ≤ ax.default - x.1 := by
          rw [hn] at g ⊢
          have g' : n < ax.default := by exact_mod_cast g
          have : (n : ℚ) + 1 ≤ ax.default := by exact_mod_cast g'
          linarith
        have := rne_quot_pos (n := ax.default - x.1) (d := ax.default - ax.minimum) (by linarith) (by linarith)
          (by linarith)
        linarith
      · rw [hr] at g e; rw [ha] at e; cases e
        have : (1 : ℚ) ≤ x.1 - ax.default := by
          rw [hn] at g ⊢
          have g' : ax.default < n := by exact_mod_cast g
          have : (ax.default : ℚ) + 1 ≤ n := by exact_mod_cast g'
          linarith
        have := rne_quot_pos (n := x.1 - ax.default) (d := ax.maximum - ax.default) (by linarith) (by linarith)
          (by linarith)
        linarith
      · rw [← hr]; exact g
    have hgt := hdef x hx hxd
    rw [C49_design_value hm hlo hhi hl hh, min_eq_left (hh x hx), max_eq_right (hl x hx)] at hb
    cases hb
    have g := fine_gap (hfine lo hlo).2 (hfine x hx).2 hgt
    have b1 := abs_le.1 (hfine lo hlo).1
    have b2 := abs_le.1 (hfine hi hhi).1
    have := rne_quot_pos (n := x.2 - lo.2) (d := hi.2 - lo.2) (by linarith) (by linarith [hh x hx]) (by linarith)
    linarith
  unfold segmentOf
  rw [hm]
  simp only
  have key : ∀ (l : List (ℚ × ℚ)) (sm : List (ℚ × ℚ)), (∀ x ∈ l, x ∈ m) →
      Res.mapL (fun x => match normUser rne ax x.1, normDesign rne ax x.2 with
        | .ok a, .ok b => .ok (a, b)
        | _, _ => .panic) l = .ok sm → sm.countP isZeroPair = 0 := by
    intro l sm hsub hsm
    rw [List.countP_eq_zero]
    intro z hz
    obtain ⟨x, hx, e⟩ := mem_mapL hsm hz
    cases h1 : normUser rne ax x.1 with
    | err => rw [h1] at e; simp at e
    | panic => rw [h1] at e; simp at e
    | ok a =>
      cases h2 : normDesign rne ax x.2 with
      | err => rw [h1, h2] at e; simp at e
      | panic => rw [h1, h2] at e; simp at e
      | ok b =>
        rw [h1, h2] at e; simp only at e; cases e
        simp [zero x (hsub x hx) a b h1 h2]
  have noerr : ∀ (l : List (ℚ × ℚ)), Res.mapL (fun x => match normUser rne ax x.1, normDesign rne ax x.2 with
        | .ok a, .ok b => .ok (a, b)
        | _, _ => .panic) l ≠ (.err : Res (List (ℚ × ℚ))) := by
    intro l
    induction l with
    | nil => simp [Res.mapL]
    | cons x l ih =>
      rw [mapL_cons']
      cases h1 : normUser rne ax x.1 with
      | err => simp
      | panic => simp
      | ok a =>
        cases h2 : normDesign rne ax x.2 with
        | err => simp
        | panic => simp
        | ok b =>
          simp only [Res.ok_bind]
          intro hh
          revert ih hh
          generalize Res.mapL _ l = r
          intro ih hh
          cases r with
          | err => exact ih rfl
          | panic => simp at hh
          | ok v => simp at hh
  cases hr : Res.mapL (fun x => match normUser rne ax x.1, normDesign rne ax x.2 with
        | .ok a, .ok b => .ok (a, b)
        | _, _ => .panic) m with
  | err => exact absurd hr (noerr m)
  | panic => simp
  | ok sm =>
    simp only
    have := key m sm (fun _ hx => hx) hr
    unfold segNew segValid
    rw [List.countP_cons, this]
    have : isZeroPair (-1, -1) = false := by decide +kernel
    simp [this]

/-- The weight axis 100, 400, 900 mapped to 20, 80, 200 meets the hypotheses. -/
example : segmentOf rne ⟨100, 400, 900, some [(100, 20), (400, 80), (900, 200)]⟩ = .panic := by
  refine C49_mapped_axis_panics (lo := (100, 20)) (hi := (900, 200)) ⟨by decide, by decide, by decide⟩ rfl ?_
    (by decide +kernel) ?_ (by simp) (by simp) (by decide +kernel) (by decide +kernel) (by decide +kernel)
  · intro x hx
    simp only [List.mem_cons, List.not_mem_nil, or_false] at hx
    rcases hx with rfl | rfl | rfl
    · exact ⟨100, by norm_num⟩
    · exact ⟨400, by norm_num⟩
    · exact ⟨900, by norm_num⟩
  · intro x hx
    simp only [List.mem_cons, List.not_mem_nil, or_false] at hx
    rcases hx with rfl | rfl | rfl
    · exact ⟨by decide +kernel, 1310720, by norm_num⟩
    · exact ⟨by decide +kernel, 5242880, by norm_num⟩
    · exact ⟨by decide +kernel, 13107200, by norm_num⟩

end FT.Props
