import Verif.Lemmas.F32Mono

/-! Fixed values above 128: the packed value has to be even and have at most 24 significant bits. -/

namespace FT.F32
open FT

theorem rhe_near (n : ℤ) {d : ℚ} (h0 : 0 ≤ d) (h1 : d < 1 / 2) : rhe ((n : ℚ) + d) = n := by
  have hf : ⌊(n : ℚ) + d⌋ = n := by
    rw [Int.floor_eq_iff]; constructor <;> linarith
  unfold rhe
  rw [hf]
  rw [if_pos (by linarith)]

theorem otRound_even (m : ℤ) (k : ℕ) (hm : |m| ≤ 2 ^ 24) (hp : |m * 2 ^ (k + 1)| < 2 ^ 31) :
    otRound ((m * 2 ^ (k + 1) : ℤ) : ℚ) = m * 2 ^ (k + 1) := by
  have hx : rne ((m * 2 ^ (k + 1) : ℤ) : ℚ) = ((m * 2 ^ (k + 1) : ℤ) : ℚ) := by
    have := rne_exact m ((k : ℤ) + 1) hm (by omega)
    have e : (m : ℚ) * 2 ^ ((k : ℤ) + 1) = ((m * 2 ^ (k + 1) : ℤ) : ℚ) := by
      push_cast
      congr 1
    rwa [e] at this
  have heven : m * 2 ^ (k + 1) % 2 = 0 := by
    rw [pow_succ, ← mul_assoc]; omega
  generalize m * 2 ^ (k + 1) = p at *
  by_cases hs : |p| ≤ 2 ^ 23
  · exact otRound_small p hs
  · have hb : (2 : ℤ) ^ 23 + 1 ≤ |p| := by omega
    obtain ⟨p1, p2⟩ := abs_lt.1 hp
    have hp0 : (0 : ℚ) < |(p : ℚ)| := by
      have : (0 : ℤ) < |p| := by omega
      exact_mod_cast this
    obtain ⟨L, hL⟩ : ∃ L, L = Int.log 2 |(p : ℚ)| := ⟨_, rfl⟩
    have l1 : (2 : ℚ) ^ (23 : ℤ) ≤ |(p : ℚ)| := by
      have : (2 : ℤ) ^ 23 ≤ |p| := by omega
      exact_mod_cast this
    have hL23 : 23 ≤ L := by
      rw [hL, ← Int.zpow_le_iff_le_log (by norm_num) hp0]; exact_mod_cast l1
    have hup : |(p : ℚ)| < 2 ^ (L + 1) := by
      have := Int.lt_zpow_succ_log_self (b := 2) (by norm_num) |(p : ℚ)|
      rw [hL]; exact_mod_cast this
    have hupZ : |p| + 1 ≤ 2 ^ (L + 1).toNat := by
      have e : (2 : ℚ) ^ (L + 1) = ((2 ^ (L + 1).toNat : ℤ) : ℚ) := by
        push_cast; rw [← zpow_natCast, Int.toNat_of_nonneg (by omega)]
      rw [e] at hup
      have : |p| < 2 ^ (L + 1).toNat := by exact_mod_cast hup
      omega
    have hupQ : |(p : ℚ)| + 1 ≤ 2 ^ (L + 1) := by
      have e : (2 : ℚ) ^ (L + 1) = ((2 ^ (L + 1).toNat : ℤ) : ℚ) := by
        push_cast; rw [← zpow_natCast, Int.toNat_of_nonneg (by omega)]
      rw [e]; exact_mod_cast hupZ
    have hx0 : |(p : ℚ) + 1 / 2| ≤ |(p : ℚ)| + 1 / 2 := by
      refine le_trans (abs_add_le _ _) ?_
      rw [abs_of_pos (by norm_num : (0 : ℚ) < 1 / 2)]
    have hx1 : |(p : ℚ)| - 1 / 2 ≤ |(p : ℚ) + 1 / 2| := by
      have := abs_sub_abs_le_abs_sub (p : ℚ) (-(1 / 2))
      rw [sub_neg_eq_add, abs_neg, abs_of_pos (by norm_num : (0 : ℚ) < 1 / 2)] at this
      exact this
    have hbq : (2 : ℚ) ^ 23 + 1 ≤ |(p : ℚ)| := by exact_mod_cast hb
    have hxp : 0 < |(p : ℚ) + 1 / 2| := by
      refine lt_of_lt_of_le ?_ hx1
      have : (0 : ℚ) < 2 ^ 23 := by norm_num
      linarith
    have hlx : Int.log 2 |(p : ℚ) + 1 / 2| ≤ L := by
      have : Int.log 2 |(p : ℚ) + 1 / 2| < L + 1 := by
        rw [← Int.lt_zpow_iff_log_lt (by norm_num) hxp]
        push_cast
        linarith
      omega
    have hl23 : 23 ≤ Int.log 2 |(p : ℚ) + 1 / 2| := by
      rw [← Int.zpow_le_iff_le_log (by norm_num) hxp]
      have : ((2 : ℕ) : ℚ) ^ (23 : ℤ) = 2 ^ 23 := by norm_num
      rw [this]
      linarith
    have hup' : ue (p : ℚ) = L - 23 := by unfold ue; rw [← hL]; omega
    obtain ⟨u, hu⟩ : ∃ u : ℕ, ue ((p : ℚ) + 1 / 2) = u := by
      refine ⟨(Int.log 2 |(p : ℚ) + 1 / 2| - 23).toNat, ?_⟩
      unfold ue; omega
    have hule : (u : ℤ) ≤ ue (p : ℚ) := by
      rw [hup', ← hu]; unfold ue; omega
    -- p is a multiple of 2^u
    obtain ⟨N, hN⟩ : ∃ N : ℤ, (p : ℚ) = N * 2 ^ u := by
      refine ⟨rhe ((p : ℚ) / 2 ^ ue (p : ℚ)) * 2 ^ (ue (p : ℚ) - u).toNat, ?_⟩
      conv_lhs => rw [← hx]
      unfold rne
      push_cast
      rw [mul_assoc]
      congr 1
      rw [← zpow_natCast, ← zpow_natCast, Int.toNat_of_nonneg (by omega), ← zpow_add₀ (by norm_num)]
      congr 1; omega
    have hr : rne ((p : ℚ) + 1 / 2) = p := by
      unfold rne
      rw [hu, zpow_natCast]
      have hpow : (0 : ℚ) < 2 ^ u := by positivity
      have e : ((p : ℚ) + 1 / 2) / 2 ^ u = N + 1 / 2 / 2 ^ u := by
        rw [hN]; field_simp
      rw [e]
      cases u with
      | zero =>
        simp only [pow_zero, div_one, mul_one] at hN ⊢
        have hN' : p = N := by exact_mod_cast hN
        rw [rhe_half, if_pos (by omega), hN]
      | succ u =>
        rw [rhe_near N (by positivity), hN]
        rw [div_lt_iff₀ hpow]
        have : (1 : ℚ) ≤ 2 ^ u := one_le_pow₀ (by norm_num)
        rw [pow_succ]; linarith
    unfold otRound
    rw [hr, Int.floor_intCast, toI32_id (by omega) (by omega)]

/-- The numbers that survive a `Fixed` field: multiples of 1/65536 up to 128, and beyond that multiples of 1/32768 with at
most 24 significant bits. Every whole number from -32768 to 32767 is one. -/
def FixedVal (v : ℚ) : Prop :=
  (∃ p : ℤ, |p| ≤ 2 ^ 23 ∧ v = p / 65536) ∨
  ∃ (m : ℤ) (k : ℕ), |m| ≤ 2 ^ 24 ∧ -2 ^ 31 ≤ m * 2 ^ (k + 1) ∧ m * 2 ^ (k + 1) < 2 ^ 31 ∧
    v = ((m * 2 ^ (k + 1) : ℤ) : ℚ) / 65536

theorem FixedVal.packed {v : ℚ} (h : FixedVal v) : ∃ p : Int32, fixedAsPacked v = p.toInt ∧
    fixedFromPacked p.toInt = v ∧ v = (p.toInt : ℚ) / 65536 := by
  rcases h with ⟨p, hp, rfl⟩ | ⟨m, k, hm, h1, h2, rfl⟩
  · have hp' := abs_le.1 hp
    have e0 : fixedFromPacked p = (p : ℚ) / 65536 := by
      unfold fixedFromPacked
      rw [rne_int p (le_trans hp (by norm_num))]
      have := rne_exact p (-16) (le_trans hp (by norm_num)) (by norm_num)
      have e : (p : ℚ) * 2 ^ (-16 : ℤ) = p / 65536 := by norm_num; ring
      rwa [e] at this
    refine ⟨Int32.ofInt p, ?_, ?_, ?_⟩
    · rw [Int32.toInt_ofInt_of_le (by omega) (by omega), ← e0]
      exact fixed_roundtrip p hp
    · rw [Int32.toInt_ofInt_of_le (by omega) (by omega), e0]
    · rw [Int32.toInt_ofInt_of_le (by omega) (by omega)]
  · have hr : rne ((m * 2 ^ (k + 1) : ℤ) : ℚ) = ((m * 2 ^ (k + 1) : ℤ) : ℚ) := by
      have := rne_exact m ((k : ℤ) + 1) hm (by omega)
      have e : (m : ℚ) * 2 ^ ((k : ℤ) + 1) = ((m * 2 ^ (k + 1) : ℤ) : ℚ) := by
        push_cast
        congr 1
      rwa [e] at this
    have hd : rne (((m * 2 ^ (k + 1) : ℤ) : ℚ) / 65536) = ((m * 2 ^ (k + 1) : ℤ) : ℚ) / 65536 := by
      have := rne_exact m ((k : ℤ) + 1 - 16) hm (by omega)
      have e : (m : ℚ) * 2 ^ ((k : ℤ) + 1 - 16) = ((m * 2 ^ (k + 1) : ℤ) : ℚ) / 65536 := by
        have : (2 : ℚ) ^ ((k : ℤ) + 1) = 2 ^ (k + 1) := by exact_mod_cast zpow_natCast (2 : ℚ) (k + 1)
        rw [zpow_sub₀ (by norm_num), this]
        push_cast; norm_num; ring
      rwa [e] at this
    by_cases hmin : m * 2 ^ (k + 1) = -2 ^ 31
    · refine ⟨Int32.ofInt (m * 2 ^ (k + 1)), ?_, ?_, by rw [Int32.toInt_ofInt_of_le (by omega) (by omega)]⟩
      · rw [Int32.toInt_ofInt_of_le (by omega) (by omega)]
        unfold fixedAsPacked
        rw [div_mul_cancel₀ _ (by norm_num), hr, hmin]
        have hl : Int.log 2 |((-2 ^ 31 : ℤ) : ℚ) + 1 / 2| = 30 := by
          have hpos : 0 < |((-2 ^ 31 : ℤ) : ℚ) + 1 / 2| := by norm_num
          have a : 30 ≤ Int.log 2 |((-2 ^ 31 : ℤ) : ℚ) + 1 / 2| := by
            rw [← Int.zpow_le_iff_le_log (by norm_num) hpos]; norm_num [abs_of_neg]
          have b : Int.log 2 |((-2 ^ 31 : ℤ) : ℚ) + 1 / 2| < 31 := by
            rw [← Int.lt_zpow_iff_log_lt (by norm_num) hpos]; norm_num [abs_of_neg]
          omega
        have hu : ue (((-2 ^ 31 : ℤ) : ℚ) + 1 / 2) = 7 := by unfold ue; rw [hl]; norm_num
        have hrr : rne (((-2 ^ 31 : ℤ) : ℚ) + 1 / 2) = ((-2 ^ 31 : ℤ) : ℚ) := by
          unfold rne
          rw [hu]
          have e : (((-2 ^ 31 : ℤ) : ℚ) + 1 / 2) / 2 ^ (7 : ℤ) = ((-16777216 : ℤ) : ℚ) + 1 / 256 := by norm_num
          rw [e, rhe_near _ (by norm_num) (by norm_num)]
          norm_num
        unfold otRound
        rw [hrr, Int.floor_intCast, toI32_id (by norm_num) (by norm_num)]
      · rw [Int32.toInt_ofInt_of_le (by omega) (by omega)]
        unfold fixedFromPacked
        rw [hr, hd]
    · refine ⟨Int32.ofInt (m * 2 ^ (k + 1)), ?_, ?_, by rw [Int32.toInt_ofInt_of_le (by omega) (by omega)]⟩
      · rw [Int32.toInt_ofInt_of_le (by omega) (by omega)]
        unfold fixedAsPacked
        rw [div_mul_cancel₀ _ (by norm_num), hr]
        exact otRound_even m k hm (by rw [abs_lt]; constructor <;> omega)
      · rw [Int32.toInt_ofInt_of_le (by omega) (by omega)]
        unfold fixedFromPacked
        rw [hr, hd]

theorem fixedVal_int {n : ℤ} (h1 : -32768 ≤ n) (h2 : n ≤ 32767) : FixedVal (n : ℚ) := by
  right
  refine ⟨n, 15, by rw [abs_le]; constructor <;> omega, by omega, by omega, ?_⟩
  push_cast; norm_num

end FT.F32
