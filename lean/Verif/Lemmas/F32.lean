import Verif.Model.F32
import Verif.Lemmas.Reads
import Mathlib.Tactic.Linarith
import Mathlib.Tactic.FieldSimp
import Mathlib.Tactic.Positivity
import Mathlib.Tactic.NormNum
import Mathlib.Tactic.Ring

namespace FT.F32
open FT

theorem rhe_int (n : ℤ) : rhe (n : ℚ) = n := by
  simp [rhe]

theorem rhe_half (n : ℤ) : rhe ((n : ℚ) + 1 / 2) = if n % 2 = 0 then n else n + 1 := by
  have hf : ⌊(n : ℚ) + 1 / 2⌋ = n := by
    rw [Int.floor_eq_iff]; constructor <;> linarith
  unfold rhe
  rw [hf]
  have h1 : (n : ℚ) + 1 / 2 - n = 1 / 2 := by ring
  rw [h1]
  simp

theorem rhe_bounds (q : ℚ) : q - 1 / 2 ≤ rhe q ∧ (rhe q : ℚ) ≤ q + 1 / 2 := by
  have h1 := Int.floor_le q
  have h2 := Int.lt_floor_add_one q
  unfold rhe
  split
  · constructor <;> linarith
  · split
    · push_cast; constructor <;> linarith
    · have : q - ⌊q⌋ = 1 / 2 := by linarith
      split
      · constructor <;> linarith
      · push_cast; constructor <;> linarith

/-- Rounding to an integer does not pass an integer. -/
theorem rhe_le (q : ℚ) (n : ℤ) (h : q ≤ n) : rhe q ≤ n := by
  have := (rhe_bounds q).2
  by_contra hc
  have hn : n + 1 ≤ rhe q := by omega
  have hn' : ((n : ℚ) + 1) ≤ rhe q := by exact_mod_cast hn
  have : q - n = q - n := rfl
  linarith

theorem le_rhe (q : ℚ) (n : ℤ) (h : (n : ℚ) ≤ q) : n ≤ rhe q := by
  have := (rhe_bounds q).1
  by_contra hc
  have hn : rhe q + 1 ≤ n := by omega
  have hn' : ((rhe q : ℚ) + 1) ≤ n := by exact_mod_cast hn
  linarith

theorem two_zpow_pos (k : ℤ) : (0 : ℚ) < 2 ^ k := zpow_pos (by norm_num) k

/-- Numbers with at most 24 significant bits are not changed. -/
theorem rne_exact (m k : ℤ) (hm : |m| ≤ 2 ^ 24) (hk : -149 ≤ k) : rne ((m : ℚ) * 2 ^ k) = m * 2 ^ k := by
  have hp := two_zpow_pos k
  by_cases hm0 : m = 0
  · subst hm0
    simp [rne, rhe]
  have hx : ((m : ℚ) * 2 ^ k) ≠ 0 := by
    have : (m : ℚ) ≠ 0 := by exact_mod_cast hm0
    exact mul_ne_zero this hp.ne'
  have key : ∃ n : ℤ, (m : ℚ) * 2 ^ k / 2 ^ ue ((m : ℚ) * 2 ^ k) = n := by
    by_cases hku : ue ((m : ℚ) * 2 ^ k) ≤ k
    · refine ⟨m * 2 ^ (k - ue ((m : ℚ) * 2 ^ k)).toNat, ?_⟩
      generalize ue ((m : ℚ) * 2 ^ k) = u at *
      push_cast
      rw [mul_div_assoc, ← zpow_sub₀ (by norm_num), ← zpow_natCast, Int.toNat_of_nonneg (by omega)]
    · -- then |m| = 2^24
      have hu : ue ((m : ℚ) * 2 ^ k) = Int.log 2 |(m : ℚ) * 2 ^ k| - 23 := by
        have : ue ((m : ℚ) * 2 ^ k) = Int.log 2 |(m : ℚ) * 2 ^ k| - 23 ∨ ue ((m : ℚ) * 2 ^ k) = -149 := by
          unfold ue
          exact max_choice _ _
        rcases this with h | h
        · exact h
        · omega
      have habs : |(m : ℚ) * 2 ^ k| = (|m| : ℤ) * 2 ^ k := by
        rw [abs_mul, abs_of_pos hp]; push_cast; rfl
      have hle : (2 : ℚ) ^ Int.log 2 |(m : ℚ) * 2 ^ k| ≤ |(m : ℚ) * 2 ^ k| := by
        have := Int.zpow_log_le_self (b := 2) (r := |(m : ℚ) * 2 ^ k|) (by norm_num) (abs_pos.mpr hx)
        exact_mod_cast this
      generalize hL : Int.log 2 |(m : ℚ) * 2 ^ k| = L at *
      have hLk : k + 24 ≤ L := by omega
      have h24 : (2 : ℚ) ^ (24 : ℤ) * 2 ^ k ≤ (|m| : ℤ) * 2 ^ k := by
        rw [habs] at hle
        refine le_trans ?_ hle
        rw [← zpow_add₀ (by norm_num)]
        exact zpow_le_zpow_right₀ (by norm_num) (by omega)
      have h24' : (2 : ℚ) ^ (24 : ℤ) ≤ (|m| : ℤ) := le_of_mul_le_mul_right h24 hp
      have h24'' : (2 : ℤ) ^ 24 ≤ |m| := by
        have h3 : (2 : ℚ) ^ 24 ≤ ((|m| : ℤ) : ℚ) := by
          have := h24'
          rwa [show (24 : ℤ) = ((24 : ℕ) : ℤ) by norm_num, zpow_natCast] at this
        exact_mod_cast h3
      have hmeq : |m| = 2 ^ 24 := le_antisymm hm h24''
      have hLeq : L = k + 24 := by
        have : (2 : ℚ) ^ L ≤ 2 ^ (k + 24) := by
          rw [habs, hmeq] at hle
          refine le_trans hle (le_of_eq ?_)
          rw [zpow_add₀ (by norm_num), mul_comm]
          norm_num
        have := (zpow_le_zpow_iff_right₀ (by norm_num : (1 : ℚ) < 2)).mp this
        omega
      have hue : ue ((m : ℚ) * 2 ^ k) = k + 1 := by omega
      rw [hue]
      rcases abs_eq (by norm_num : (0 : ℤ) ≤ 2 ^ 24) |>.mp hmeq with h | h
      · refine ⟨2 ^ 23, ?_⟩
        rw [h, zpow_add₀ (by norm_num)]
        field_simp
        norm_num
      · refine ⟨-2 ^ 23, ?_⟩
        rw [h, zpow_add₀ (by norm_num)]
        field_simp
        norm_num
  obtain ⟨n, hn⟩ := key
  unfold rne
  rw [hn, rhe_int, ← hn]
  field_simp

theorem rne_int (m : ℤ) (hm : |m| ≤ 2 ^ 24) : rne (m : ℚ) = m := by
  have := rne_exact m 0 hm (by norm_num)
  simpa using this

/-- Binade of numbers between 2^23 and 2^24: unit 1. -/
theorem ue_23 {x : ℚ} (h1 : (2 : ℚ) ^ 23 ≤ |x|) (h2 : |x| < 2 ^ 24) : ue x = 0 := by
  have hpos : 0 < |x| := lt_of_lt_of_le (by norm_num) h1
  have a : 23 ≤ Int.log 2 |x| := by
    rw [← Int.zpow_le_iff_le_log (by norm_num) hpos]; exact_mod_cast h1
  have b : Int.log 2 |x| < 24 := by
    rw [← Int.lt_zpow_iff_log_lt (by norm_num) hpos]; exact_mod_cast h2
  unfold ue
  have : Int.log 2 |x| = 23 := by omega
  rw [this]; rfl

/-- Numbers from 2^24 on round to `n * 2^u` with `u ≥ 1` and `2^23 ≤ |n| ≤ 2^24`. -/
theorem rne_large {x : ℚ} (h : (2 : ℚ) ^ 24 ≤ |x|) :
    ∃ (n : ℤ) (u : ℕ), rne x = n * 2 ^ (u + 1) ∧ 2 ^ 23 ≤ |n| ∧ |n| ≤ 2 ^ 24 := by
  have hpos : 0 < |x| := lt_of_lt_of_le (by norm_num) h
  have a : 24 ≤ Int.log 2 |x| := by
    rw [← Int.zpow_le_iff_le_log (by norm_num) hpos]; exact_mod_cast h
  have hue : ue x = Int.log 2 |x| - 23 := by unfold ue; rw [max_eq_left]; omega
  have l1 : (2 : ℚ) ^ Int.log 2 |x| ≤ |x| := by
    have := Int.zpow_log_le_self (b := 2) (r := |x|) (by norm_num) hpos
    exact_mod_cast this
  have l2 : |x| < (2 : ℚ) ^ (Int.log 2 |x| + 1) := by
    have := Int.lt_zpow_succ_log_self (b := 2) (by norm_num) |x|
    exact_mod_cast this
  have hu := two_zpow_pos (ue x)
  have q1 : (2 : ℚ) ^ 23 ≤ |x / 2 ^ ue x| := by
    rw [abs_div, abs_of_pos hu, le_div_iff₀ hu]
    refine le_trans (le_of_eq ?_) l1
    rw [hue, ← zpow_natCast, ← zpow_add₀ (by norm_num)]
    congr 1; push_cast; ring
  have q2 : |x / 2 ^ ue x| ≤ (2 : ℚ) ^ 24 := by
    rw [abs_div, abs_of_pos hu, div_le_iff₀ hu]
    refine le_trans (le_of_lt l2) (le_of_eq ?_)
    rw [hue, ← zpow_natCast, ← zpow_add₀ (by norm_num)]
    congr 1; push_cast; ring
  refine ⟨rhe (x / 2 ^ ue x), (Int.log 2 |x| - 24).toNat, ?_, ?_, ?_⟩
  · unfold rne
    congr 1
    rw [← zpow_natCast]
    congr 1
    push_cast
    rw [Int.toNat_of_nonneg (by omega), hue]
    ring
  · rcases le_or_gt 0 (x / 2 ^ ue x) with hs | hs
    · rw [abs_of_nonneg hs] at q1
      have := le_rhe (x / 2 ^ ue x) (2 ^ 23) (by push_cast; exact q1)
      exact le_trans this (le_abs_self _)
    · rw [abs_of_neg hs] at q1
      have := rhe_le (x / 2 ^ ue x) (-2 ^ 23) (by push_cast; linarith)
      refine le_trans ?_ (neg_le_abs _)
      linarith
  · rw [abs_le] at q2 ⊢
    exact ⟨le_rhe _ _ (by push_cast; exact q2.1), rhe_le _ _ (by push_cast; exact q2.2)⟩

/-! ### packed values -/

theorem scale_exact (p : ℤ) (hp : |p| ≤ 2 ^ 24) (s : ℕ) (hs : s ≤ 100) :
    rne (rne (rne (p : ℚ) / 2 ^ s) * 2 ^ s) = p := by
  rw [rne_int p hp]
  have h : (p : ℚ) / 2 ^ s = p * 2 ^ (-(s : ℤ)) := by
    rw [zpow_neg, zpow_natCast]; rfl
  rw [h, rne_exact p _ hp (by omega), zpow_neg, zpow_natCast]
  have h2 : (p : ℚ) * (2 ^ s)⁻¹ * 2 ^ s = p := by field_simp
  rw [h2, rne_int p hp]

theorem toI32_id {p : ℤ} (h1 : -2 ^ 31 ≤ p) (h2 : p ≤ 2 ^ 31 - 1) : toI32 p = p := by
  unfold toI32; omega

theorem otRound_small (p : ℤ) (hp : |p| ≤ 2 ^ 23) : otRound (p : ℚ) = p := by
  rw [abs_le] at hp
  unfold otRound
  by_cases h : p = 2 ^ 23
  · have habs : |((p : ℚ) + 1 / 2)| = 2 ^ 23 + 1 / 2 := by
      rw [h]; norm_num
    have hue : ue ((p : ℚ) + 1 / 2) = 0 := by
      apply ue_23 <;> rw [habs] <;> norm_num
    have : rne ((p : ℚ) + 1 / 2) = p := by
      unfold rne
      rw [hue]
      simp only [zpow_zero, div_one, mul_one]
      rw [rhe_half, if_pos (by rw [h]; norm_num)]
    rw [this, Int.floor_intCast, toI32_id (by omega) (by omega)]
  · have : rne ((p : ℚ) + 1 / 2) = p + 1 / 2 := by
      have h2 : (p : ℚ) + 1 / 2 = ((2 * p + 1 : ℤ) : ℚ) * 2 ^ (-1 : ℤ) := by
        push_cast; rw [zpow_neg, zpow_one]; ring
      rw [h2]
      apply rne_exact _ _ _ (by norm_num)
      rw [abs_le]; constructor <;> omega
    rw [this]
    have hf : ⌊(p : ℚ) + 1 / 2⌋ = p := by
      rw [Int.floor_eq_iff]; constructor <;> linarith
    rw [hf, toI32_id (by omega) (by omega)]

theorem f2dot14_roundtrip (p : ℤ) (h1 : -32768 ≤ p) (h2 : p ≤ 32767) :
    f2dot14AsPacked (f2dot14FromPacked p) = .ok p := by
  unfold f2dot14AsPacked f2dot14FromPacked
  have e := scale_exact p (by rw [abs_le]; constructor <;> omega) 14 (by norm_num)
  norm_num at e
  simp only [e]
  rw [otRound_small p (by rw [abs_le]; constructor <;> omega), if_pos ⟨h1, h2⟩]

theorem fixed_roundtrip (p : ℤ) (h : |p| ≤ 2 ^ 23) : fixedAsPacked (fixedFromPacked p) = p := by
  unfold fixedAsPacked fixedFromPacked
  have e := scale_exact p (by rw [abs_le] at *; constructor <;> omega) 16 (by norm_num)
  norm_num at e
  rw [e, otRound_small p h]

/-- Rounding an even number of magnitude at least 2^24 gives an even number (before saturation). -/
theorem floor_even (n : ℤ) (u : ℕ) (hn : 2 ^ 23 ≤ |n|) :
    ∃ k : ℤ, ⌊rne ((n : ℚ) * 2 ^ (u + 1) + 1 / 2)⌋ = 2 * k := by
  have hN : ((n * 2 ^ (u + 1) : ℤ) : ℚ) = (n : ℚ) * 2 ^ (u + 1) := by push_cast; rfl
  have hNabs : 2 ^ 24 ≤ |n * 2 ^ (u + 1)| := by
    rw [abs_mul, abs_of_pos (by positivity : (0 : ℤ) < 2 ^ (u + 1))]
    have h1 : (1 : ℤ) ≤ 2 ^ u := one_le_pow₀ (by norm_num)
    have h2 : (2 : ℤ) ≤ 2 ^ (u + 1) := by rw [pow_succ]; omega
    calc (2 : ℤ) ^ 24 = 2 ^ 23 * 2 := by norm_num
      _ ≤ |n| * 2 ^ (u + 1) := mul_le_mul hn h2 (by norm_num) (abs_nonneg n)
  by_cases hx : (2 : ℚ) ^ 24 ≤ |(n : ℚ) * 2 ^ (u + 1) + 1 / 2|
  · obtain ⟨m, v, e, _, _⟩ := rne_large hx
    refine ⟨m * 2 ^ v, ?_⟩
    rw [e]
    have : (m : ℚ) * 2 ^ (v + 1) = ((2 * (m * 2 ^ v) : ℤ) : ℚ) := by push_cast; ring
    rw [this, Int.floor_intCast]
  · -- then n * 2^(u+1) = -2^24
    have hNe : n * 2 ^ (u + 1) = -2 ^ 24 := by
      rw [← hN] at hx
      generalize n * 2 ^ (u + 1) = N at *
      rw [not_le, abs_lt] at hx
      have h1 : (N : ℚ) + 1 / 2 < 2 ^ 24 := hx.2
      have h2 : -2 ^ 24 < (N : ℚ) + 1 / 2 := hx.1
      have h3 : N < 2 ^ 24 := by
        have : (N : ℚ) < 2 ^ 24 := by linarith
        exact_mod_cast this
      have h4 : -2 ^ 24 ≤ N := by
        have : ((-2 ^ 24 - 1 : ℤ) : ℚ) < N := by push_cast; linarith
        have : (-2 ^ 24 - 1 : ℤ) < N := by exact_mod_cast this
        omega
      rcases le_abs'.mp hNabs with h | h <;> omega
    refine ⟨-2 ^ 23, ?_⟩
    rw [← hN, hNe]
    have habs : |(((-2 ^ 24 : ℤ) : ℚ) + 1 / 2)| = 2 ^ 24 - 1 / 2 := by norm_num [abs_of_neg]
    have hue : ue (((-2 ^ 24 : ℤ) : ℚ) + 1 / 2) = 0 := by
      apply ue_23 <;> rw [habs] <;> norm_num
    unfold rne
    rw [hue]
    simp only [zpow_zero, div_one, mul_one]
    rw [rhe_half, if_pos (by norm_num), Int.floor_intCast]
    norm_num

theorem fixed_odd (p : ℤ) (hodd : p % 2 = 1) (h : 2 ^ 23 < |p|) (hmax : p ≠ 2 ^ 31 - 1)
    (hr : -2 ^ 31 ≤ p ∧ p ≤ 2 ^ 31 - 1) : fixedAsPacked (fixedFromPacked p) ≠ p := by
  by_cases hs : |p| ≤ 2 ^ 24
  · have e := scale_exact p hs 16 (by norm_num)
    norm_num at e
    unfold fixedAsPacked fixedFromPacked
    rw [e]
    have hlt : |p| < 2 ^ 24 := by
      rcases lt_or_eq_of_le hs with h' | h'
      · exact h'
      · rcases abs_eq (by norm_num : (0 : ℤ) ≤ 2 ^ 24) |>.mp h' with h'' | h'' <;> omega
    have hb : (2 : ℚ) ^ 23 ≤ |(p : ℚ) + 1 / 2| ∧ |(p : ℚ) + 1 / 2| < 2 ^ 24 := by
      rcases le_or_gt 0 p with h0 | h0
      · rw [abs_of_nonneg h0] at h hlt
        have h1 : (2 : ℚ) ^ 23 < p := by exact_mod_cast h
        have h2 : (p : ℚ) + 1 ≤ 2 ^ 24 := by exact_mod_cast hlt
        rw [abs_of_nonneg (by linarith)]
        constructor <;> linarith
      · rw [abs_of_neg h0] at h hlt
        have h1 : (2 : ℚ) ^ 23 + 1 ≤ -p := by exact_mod_cast h
        have h2 : (-p : ℚ) < 2 ^ 24 := by exact_mod_cast hlt
        rw [abs_of_neg (by linarith)]
        constructor <;> linarith
    have hue := ue_23 hb.1 hb.2
    unfold otRound rne
    rw [hue]
    simp only [zpow_zero, div_one, mul_one]
    rw [rhe_half, if_neg (by omega), Int.floor_intCast]
    unfold toI32
    rw [abs_lt] at hlt
    omega
  · have hbig : (2 : ℚ) ^ 24 ≤ |(p : ℚ)| := by
      have : (2 : ℤ) ^ 24 ≤ |p| := by omega
      exact_mod_cast this
    obtain ⟨n, u, e, hn1, hn2⟩ := rne_large hbig
    have hn2' : |n| ≤ 2 ^ 24 := hn2
    unfold fixedAsPacked fixedFromPacked
    rw [e]
    have e1 : (n : ℚ) * 2 ^ (u + 1) / 65536 = n * 2 ^ ((u : ℤ) + 1 - 16) := by
      rw [zpow_sub₀ (by norm_num), zpow_add₀ (by norm_num)]
      norm_num
      rw [pow_succ]; ring
    rw [e1, rne_exact n _ hn2' (by omega), ← e1]
    have e2 : (n : ℚ) * 2 ^ (u + 1) / 65536 * 65536 = n * 2 ^ ((u : ℤ) + 1) := by
      have : (2 : ℚ) ^ ((u : ℤ) + 1) = 2 ^ (u + 1) := by exact_mod_cast zpow_natCast (2 : ℚ) (u + 1)
      rw [this]; field_simp
    rw [e2, rne_exact n _ hn2' (by omega)]
    have e3 : (2 : ℚ) ^ ((u : ℤ) + 1) = 2 ^ (u + 1) := by exact_mod_cast zpow_natCast (2 : ℚ) (u + 1)
    rw [e3]
    unfold otRound
    obtain ⟨k, hk⟩ := floor_even n u hn1
    rw [hk]
    unfold toI32
    omega

end FT.F32
