import Verif.Props.IupSegment

/-!
Rounding to single precision is monotone, and differences of single-precision numbers do not round to nought.
-/

namespace FT.F32
open FT FT.Props

theorem rhe_mono {x y : ℚ} (h : x ≤ y) : rhe x ≤ rhe y := by
  have fx := Int.floor_le x
  have fy := Int.lt_floor_add_one x
  rcases lt_or_eq_of_le (Int.floor_mono h) with hf | hf
  · have h1 : rhe x ≤ ⌊x⌋ + 1 := rhe_le x (⌊x⌋ + 1) (by push_cast; linarith)
    have h2 : ⌊y⌋ ≤ rhe y := le_rhe y _ (Int.floor_le y)
    omega
  · unfold rhe
    rw [← hf]
    have g1 : x - ⌊x⌋ ≤ y - ⌊x⌋ := by linarith
    by_cases h1 : y - ⌊x⌋ < 1 / 2
    · rw [if_pos (by linarith), if_pos h1]
    · rw [if_neg h1]
      by_cases h2 : 1 / 2 < y - ⌊x⌋
      · rw [if_pos h2]; split_ifs <;> omega
      · rw [if_neg h2]
        by_cases h3 : x - ⌊x⌋ < 1 / 2
        · rw [if_pos h3]; split_ifs <;> omega
        · rw [if_neg h3, if_neg (by linarith)]

theorem rne_zero : rne 0 = 0 := by simpa using rne_int 0 (by norm_num)
theorem rne_one : rne 1 = 1 := by simpa using rne_int 1 (by norm_num)

theorem rne_nonneg {x : ℚ} (h : 0 ≤ x) : 0 ≤ rne x := by
  unfold rne
  have hp := two_zpow_pos (ue x)
  have : (0 : ℤ) ≤ rhe (x / 2 ^ ue x) := le_rhe _ 0 (by push_cast; positivity)
  have : (0 : ℚ) ≤ (rhe (x / 2 ^ ue x) : ℚ) := by exact_mod_cast this
  positivity

/-- A power of two at or above `x` is not passed by rounding. -/
theorem rne_le_pow {x : ℚ} {n : ℤ} (h : x ≤ 2 ^ n) (hn : ue x ≤ n) : rne x ≤ 2 ^ n := by
  have hp := two_zpow_pos (ue x)
  have e : (2 : ℚ) ^ n = ((2 ^ (n - ue x).toNat : ℤ) : ℚ) * 2 ^ ue x := by
    push_cast
    rw [← zpow_natCast, Int.toNat_of_nonneg (by omega), ← zpow_add₀ (by norm_num)]
    congr 1; omega
  have : rhe (x / 2 ^ ue x) ≤ 2 ^ (n - ue x).toNat := by
    apply rhe_le
    rw [div_le_iff₀ hp, ← e]; exact h
  unfold rne
  rw [e]
  exact mul_le_mul_of_nonneg_right (by exact_mod_cast this) hp.le

theorem pow_le_rne {x : ℚ} {n : ℤ} (h : 2 ^ n ≤ x) (hn : ue x ≤ n) : 2 ^ n ≤ rne x := by
  have hp := two_zpow_pos (ue x)
  have e : (2 : ℚ) ^ n = ((2 ^ (n - ue x).toNat : ℤ) : ℚ) * 2 ^ ue x := by
    push_cast
    rw [← zpow_natCast, Int.toNat_of_nonneg (by omega), ← zpow_add₀ (by norm_num)]
    congr 1; omega
  have : 2 ^ (n - ue x).toNat ≤ rhe (x / 2 ^ ue x) := by
    apply le_rhe
    rw [le_div_iff₀ hp, ← e]; exact h
  unfold rne
  rw [e]
  exact mul_le_mul_of_nonneg_right (by exact_mod_cast this) hp.le

theorem rne_mono_nonneg {x y : ℚ} (h0 : 0 ≤ x) (h : x ≤ y) : rne x ≤ rne y := by
  rcases lt_or_eq_of_le h0 with hx | hx
  · have hy : 0 < y := lt_of_lt_of_le hx h
    have hl : Int.log 2 |x| ≤ Int.log 2 |y| := by
      rw [abs_of_pos hx, abs_of_pos hy]; exact Int.log_mono_right hx h
    have hu : ue x ≤ ue y := by unfold ue; omega
    rcases lt_or_eq_of_le hu with hlt | heq
    · have huy : ue y = Int.log 2 |y| - 23 := by unfold ue at hlt ⊢; omega
      have hll : Int.log 2 |x| < Int.log 2 |y| := by unfold ue at hlt; omega
      have a : x ≤ 2 ^ Int.log 2 |y| := by
        have := (Int.lt_zpow_iff_log_lt (b := 2) (by norm_num) (abs_pos.2 hx.ne') : |x| < _ ↔ _).2 hll
        rw [abs_of_pos hx] at this
        have := this.le
        exact_mod_cast this
      have b : (2 : ℚ) ^ Int.log 2 |y| ≤ y := by
        have := Int.zpow_log_le_self (b := 2) (r := |y|) (by norm_num) (abs_pos.2 hy.ne')
        rw [abs_of_pos hy] at this ⊢
        exact_mod_cast this
      exact le_trans (rne_le_pow a (by omega)) (pow_le_rne b (by omega))
    · have hp := two_zpow_pos (ue y)
      unfold rne
      rw [heq]
      have := rhe_mono (div_le_div_of_nonneg_right h hp.le)
      exact mul_le_mul_of_nonneg_right (by exact_mod_cast this) hp.le
  · subst hx
    rw [rne_zero]; exact rne_nonneg h

theorem rne_mono {x y : ℚ} (h : x ≤ y) : rne x ≤ rne y := by
  rcases le_or_gt 0 x with hx | hx
  · exact rne_mono_nonneg hx h
  · rcases le_or_gt 0 y with hy | hy
    · have a := rne_nonneg (x := -x) (by linarith)
      rw [rne_neg] at a
      have := rne_nonneg hy
      linarith
    · have := rne_mono_nonneg (x := -y) (y := -x) (by linarith) (by linarith)
      rw [rne_neg, rne_neg] at this
      linarith

/-- Numbers a single-precision variable can hold. -/
def IsF32 (x : ℚ) : Prop := rne x = x

instance (x : ℚ) : Decidable (IsF32 x) := by unfold IsF32; infer_instance

theorem IsF32.grid {x : ℚ} (h : IsF32 x) : ∃ m : ℤ, x = m * 2 ^ (-149 : ℤ) := by
  unfold IsF32 rne at h
  have hu : -149 ≤ ue x := by unfold ue; omega
  refine ⟨rhe (x / 2 ^ ue x) * 2 ^ (ue x + 149).toNat, ?_⟩
  push_cast
  rw [← zpow_natCast, Int.toNat_of_nonneg (by omega), mul_assoc, ← zpow_add₀ (by norm_num)]
  rw [show ue x + 149 + -149 = ue x by omega]
  exact h.symm

/-- The rounded difference of distinct single-precision numbers is positive. -/
theorem rne_sub_pos {x y : ℚ} (hx : IsF32 x) (hy : IsF32 y) (h : x < y) : 0 < rne (y - x) := by
  obtain ⟨m, hm⟩ := hx.grid
  obtain ⟨n, hn⟩ := hy.grid
  have hp := two_zpow_pos (-149)
  have hmn : m < n := by
    rw [hm, hn] at h
    have := lt_of_mul_lt_mul_right h hp.le
    exact_mod_cast this
  have e : rne (((1 : ℤ) : ℚ) * 2 ^ (-149 : ℤ)) = ((1 : ℤ) : ℚ) * 2 ^ (-149 : ℤ) := rne_exact 1 (-149) (by norm_num) (by norm_num)
  have hle : ((1 : ℤ) : ℚ) * 2 ^ (-149 : ℤ) ≤ y - x := by
    rw [hm, hn, ← sub_mul]
    have : ((1 : ℤ) : ℚ) ≤ (n : ℚ) - m := by
      have : 1 ≤ n - m := by omega
      exact_mod_cast this
    exact mul_le_mul_of_nonneg_right this hp.le
  have := rne_mono hle
  rw [e] at this
  refine lt_of_lt_of_le ?_ this
  push_cast; rw [one_mul]; exact hp

end FT.F32
