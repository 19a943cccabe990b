import Verif.Lemmas.FixedEven
import Verif.Lemmas.F32Mono
import Verif.Props.F32

/-!
# C04: what becomes of any number in a `Fixed` or `F2DOT14` field

Not only of those that a packed number stands for: every single-precision number.
-/

namespace FT.Props
open FT FT.F32 Reader

/-! ### Lemmas -/

theorem f32_form {x : ℚ} (h : IsF32 x) : ∃ m e : ℤ, |m| ≤ 2 ^ 24 ∧ -149 ≤ e ∧ x = m * 2 ^ e := by
  refine ⟨rhe (x / 2 ^ ue x), ue x, ?_, by unfold ue; omega, h.symm⟩
  have hp := two_zpow_pos (ue x)
  have hx : |x| ≤ 2 ^ (ue x + 24) := by
    have h1 := Int.lt_zpow_succ_log_self (R := ℚ) (b := 2) (by norm_num) |x|
    push_cast at h1
    refine le_trans h1.le (zpow_le_zpow_right₀ (by norm_num) ?_)
    unfold ue; omega
  rw [zpow_add₀ (by norm_num)] at hx
  rw [abs_le] at hx ⊢
  have e : ((2 : ℚ) ^ (24 : ℤ)) = ((2 ^ 24 : ℤ) : ℚ) := by norm_num
  rw [e] at hx
  constructor
  · apply le_rhe
    rw [le_div_iff₀ hp]
    push_cast at hx ⊢
    linarith
  · apply rhe_le
    rw [div_le_iff₀ hp]
    push_cast at hx ⊢
    linarith

theorem isF32_of {m e : ℤ} (hm : |m| ≤ 2 ^ 24) (he : -149 ≤ e) : IsF32 ((m : ℚ) * 2 ^ e) := rne_exact m e hm he

theorem isF32_scale {x : ℚ} (h : IsF32 x) (s : ℕ) : IsF32 (x * 2 ^ s) := by
  obtain ⟨m, e, hm, he, rfl⟩ := f32_form h
  have : (m : ℚ) * 2 ^ e * 2 ^ s = m * 2 ^ (e + s) := by
    rw [zpow_add₀ (by norm_num), zpow_natCast, mul_assoc]
  rw [this]
  exact isF32_of hm (by omega)

theorem otRound_of {v : ℚ} {n : ℤ} (h : ⌊rne (v + 1 / 2)⌋ = n) (h1 : -2 ^ 31 ≤ n) (h2 : n ≤ 2 ^ 31 - 1) : otRound v = n := by
  unfold otRound
  rw [h, toI32_id h1 h2]

/-- The number just below one half is rounded up; no other is rounded other than to the nearest. -/
theorem otRound_below_half : otRound (1 / 2 - 2 ^ (-25 : ℤ)) = 1 := by decide +kernel

theorem just_below_half {v : ℚ} (h : IsF32 v) (h1 : 1 / 2 - 2 ^ (-24 : ℤ) < v) (h2 : v < 1 / 2) :
    v = 1 / 2 - 2 ^ (-25 : ℤ) := by
  have hv : (0 : ℚ) < v := lt_trans (by norm_num) h1
  have hq : (2 : ℚ) ^ (-2 : ℤ) ≤ v := le_trans (by norm_num) h1.le
  have hl : Int.log 2 |v| = -2 := by
    rw [abs_of_pos hv]
    apply le_antisymm
    · have := (Int.lt_zpow_iff_log_lt (R := ℚ) (b := 2) (by norm_num) (x := -1) hv).1 (by push_cast; norm_num; linarith)
      omega
    · exact (Int.zpow_le_iff_le_log (R := ℚ) (b := 2) (by norm_num) hv).1 (by push_cast; exact hq)
  have hu : ue v = -25 := by unfold ue; rw [hl]; norm_num
  have e : v = rhe (v / 2 ^ ue v) * 2 ^ ue v := h.symm
  rw [hu] at e
  generalize rhe (v / 2 ^ (-25 : ℤ)) = k at e
  rw [e] at h1 h2 ⊢
  have a1 : (16777214 : ℚ) < k := by
    norm_num at h1; linarith
  have a2 : (k : ℚ) < 16777216 := by
    norm_num at h2; linarith
  have b1 : 16777214 < k := by exact_mod_cast a1
  have b2 : k < 16777216 := by exact_mod_cast a2
  obtain rfl : k = 16777215 := by omega
  norm_num

theorem otRound_near {v : ℚ} (hv : IsF32 v) (hb : |v| ≤ 2 ^ 23) :
    otRound v = ⌊v + 1 / 2⌋ ∨ (v = 1 / 2 - 2 ^ (-25 : ℤ) ∧ otRound v = 1) := by
  have hb' := abs_le.1 hb
  have hr1 : -2 ^ 31 ≤ ⌊v + 1 / 2⌋ := by
    rw [Int.le_floor]; push_cast; linarith
  have hr2 : ⌊v + 1 / 2⌋ ≤ 2 ^ 31 - 1 := by
    have : ⌊v + 1 / 2⌋ < 2 ^ 31 := by rw [Int.floor_lt]; push_cast; linarith
    omega
  have exact_case : rne (v + 1 / 2) = v + 1 / 2 → otRound v = ⌊v + 1 / 2⌋ := fun h =>
    otRound_of (by rw [h]) hr1 hr2
  obtain ⟨m, e, hm, he, hve⟩ := f32_form hv
  rcases le_or_gt e (-25) with h25 | h25
  · -- at most one half
    have hhalf : |v| ≤ 1 / 2 := by
      rw [hve, abs_mul, abs_of_pos (two_zpow_pos e)]
      have : (2 : ℚ) ^ e ≤ 2 ^ (-25 : ℤ) := zpow_le_zpow_right₀ (by norm_num) h25
      have h1 : ((|m| : ℤ) : ℚ) ≤ ((2 ^ 24 : ℤ) : ℚ) := by exact_mod_cast hm
      push_cast at h1
      calc |(m : ℚ)| * 2 ^ e ≤ 2 ^ 24 * 2 ^ (-25 : ℤ) :=
            mul_le_mul h1 this (two_zpow_pos e).le (by norm_num)
        _ = 1 / 2 := by norm_num
    have hh := abs_le.1 hhalf
    rcases le_or_gt v (1 / 2 - 2 ^ (-24 : ℤ)) with hs | hs
    · left
      have e1 : rne ((16777215 : ℤ) * 2 ^ (-24 : ℤ)) = (16777215 : ℤ) * 2 ^ (-24 : ℤ) :=
        rne_exact 16777215 (-24) (by norm_num) (by norm_num)
      have h1 : rne (v + 1 / 2) ≤ (16777215 : ℤ) * 2 ^ (-24 : ℤ) := by
        rw [← e1]
        apply rne_mono
        push_cast; norm_num at hs ⊢; linarith
      have h0 : 0 ≤ rne (v + 1 / 2) := rne_nonneg (by linarith)
      have f1 : ⌊rne (v + 1 / 2)⌋ = 0 := by
        rw [Int.floor_eq_iff]
        refine ⟨by push_cast; exact h0, lt_of_le_of_lt h1 (by push_cast; norm_num)⟩
      have f2 : ⌊v + 1 / 2⌋ = 0 := by
        rw [Int.floor_eq_iff]
        norm_num at hs ⊢
        constructor <;> linarith
      rw [f2]
      exact otRound_of f1 (by norm_num) (by norm_num)
    · rcases lt_or_eq_of_le hh.2 with hlt | heq
      · right
        have := just_below_half hv hs hlt
        refine ⟨this, ?_⟩
        rw [this]; exact otRound_below_half
      · left
        apply exact_case
        rw [heq]
        norm_num
        exact rne_one
  · rcases le_or_gt (-1) e with h1 | h1
    · -- a multiple of one half
      left
      obtain ⟨j, hj⟩ : ∃ j : ℤ, v = j / 2 := by
        refine ⟨m * 2 ^ (e + 1).toNat, ?_⟩
        rw [hve]; push_cast
        rw [← zpow_natCast, Int.toNat_of_nonneg (by omega), zpow_add₀ (by norm_num)]
        norm_num
        ring
      have j1 : -2 ^ 24 ≤ j := by
        have : (-2 ^ 24 : ℚ) ≤ j := by rw [hj] at hb'; linarith [hb'.1]
        exact_mod_cast this
      have j2 : j ≤ 2 ^ 24 := by
        have : (j : ℚ) ≤ 2 ^ 24 := by rw [hj] at hb'; linarith [hb'.2]
        exact_mod_cast this
      rcases lt_or_eq_of_le j2 with hlt | heq
      · apply exact_case
        have : v + 1 / 2 = ((j + 1 : ℤ) : ℚ) * 2 ^ (-1 : ℤ) := by
          rw [hj]; push_cast; norm_num; ring
        rw [this]
        exact rne_exact _ _ (by rw [abs_le]; constructor <;> omega) (by norm_num)
      · have hv23 : v = ((2 ^ 23 : ℤ) : ℚ) := by rw [hj, heq]; norm_num
        rw [hv23, otRound_small _ (by norm_num)]
        symm
        rw [Int.floor_eq_iff]
        constructor <;> linarith
    · -- between
      left
      obtain ⟨t, ht⟩ : ∃ t : ℕ, e = -1 - (t : ℤ) := ⟨(-1 - e).toNat, by omega⟩
      have ht1 : 1 ≤ t := by omega
      have ht2 : t ≤ 23 := by omega
      have hsum : v + 1 / 2 = ((m + 2 ^ t : ℤ) : ℚ) * 2 ^ e := by
        rw [hve]; push_cast
        rw [add_mul]
        congr 1
        rw [ht, zpow_sub₀ (by norm_num), zpow_natCast]
        have : (2 : ℚ) ^ t ≠ 0 := pow_ne_zero _ (by norm_num)
        field_simp
      have hpow : (2 : ℤ) ^ t ≤ 2 ^ 23 := pow_le_pow_right₀ (by norm_num) ht2
      have hpow0 : (0 : ℤ) < 2 ^ t := pow_pos (by norm_num) t
      have hm' := abs_le.1 hm
      rcases le_or_gt (m + 2 ^ t) (2 ^ 24) with hle | hgt
      · apply exact_case
        rw [hsum]
        exact rne_exact _ _ (by rw [abs_le]; constructor <;> omega) (by omega)
      · -- just above a power of two
        obtain ⟨N, hN⟩ : ∃ N : ℤ, N = 2 ^ (23 - t) := ⟨_, rfl⟩
        have hNq : (N : ℚ) = 2 ^ 24 * 2 ^ e := by
          rw [hN, ht]; push_cast
          rw [zpow_sub₀ (by norm_num), zpow_natCast]
          have : (2 : ℚ) ^ t ≠ 0 := pow_ne_zero _ (by norm_num)
          field_simp
          norm_num
          rw [← pow_add]
          rw [show 23 - t + t = 23 by omega]
          norm_num
        have hN1 : 1 ≤ N := by rw [hN]; exact one_le_pow₀ (by norm_num)
        have hN2 : N ≤ 2 ^ 22 := by rw [hN]; exact pow_le_pow_right₀ (by norm_num) (by omega)
        have hp := two_zpow_pos e
        have v1 : (N : ℚ) ≤ v + 1 / 2 := by
          rw [hsum, hNq]
          apply mul_le_mul_of_nonneg_right _ hp.le
          have : (2 ^ 24 : ℤ) ≤ m + 2 ^ t := hgt.le
          exact_mod_cast this
        have v2 : v + 1 / 2 ≤ N + 1 / 2 := by
          rw [hve, hNq]
          have : (m : ℚ) * 2 ^ e ≤ 2 ^ 24 * 2 ^ e := by
            apply mul_le_mul_of_nonneg_right _ hp.le
            exact_mod_cast hm'.2
          linarith
        have r1 : (N : ℚ) ≤ rne (v + 1 / 2) := by
          rw [← rne_int N (by rw [abs_le]; constructor <;> omega)]
          exact rne_mono v1
        have r2 : rne (v + 1 / 2) ≤ N + 1 / 2 := by
          have e2 : (N : ℚ) + 1 / 2 = ((2 * N + 1 : ℤ) : ℚ) * 2 ^ (-1 : ℤ) := by
            push_cast; norm_num; ring
          have e3 : rne ((N : ℚ) + 1 / 2) = N + 1 / 2 := by
            rw [e2]
            exact rne_exact _ _ (by rw [abs_le]; constructor <;> omega) (by norm_num)
          rw [← e3]
          exact rne_mono v2
        have f1 : ⌊rne (v + 1 / 2)⌋ = N := by
          rw [Int.floor_eq_iff]; constructor <;> linarith
        have f2 : ⌊v + 1 / 2⌋ = N := by
          rw [Int.floor_eq_iff]; constructor <;> linarith
        rw [f2]
        exact otRound_of f1 (by omega) (by omega)

theorem otRound_sat {v : ℚ} : (2 ^ 31 ≤ v → otRound v = 2 ^ 31 - 1) ∧ (v < -2 ^ 31 - 1 / 2 → otRound v = -2 ^ 31) := by
  have e1 : rne (2 ^ 31) = 2 ^ 31 := by
    have := rne_exact 1 31 (by norm_num) (by norm_num)
    norm_num at this ⊢; exact this
  have e2 : rne (-2 ^ 31) = -2 ^ 31 := by
    have := rne_exact (-1) 31 (by norm_num) (by norm_num)
    norm_num at this ⊢; exact this
  constructor
  · intro h
    have : (2 : ℚ) ^ 31 ≤ rne (v + 1 / 2) := by rw [← e1]; exact rne_mono (by linarith)
    have h2 : 2 ^ 31 ≤ ⌊rne (v + 1 / 2)⌋ := by rw [Int.le_floor]; push_cast; exact this
    unfold otRound toI32; omega
  · intro h
    have : rne (v + 1 / 2) ≤ -2 ^ 31 := by rw [← e2]; exact rne_mono (by linarith)
    have h2 : ⌊rne (v + 1 / 2)⌋ ≤ -2 ^ 31 := by
      have := Int.floor_mono this
      have e : ⌊(-2 ^ 31 : ℚ)⌋ = -2 ^ 31 := by
        have := Int.floor_intCast (R := ℚ) (-2 ^ 31)
        push_cast at this; exact this
      rw [e] at this; exact this
    unfold otRound toI32; omega

theorem f32_mul {x : ℚ} (hx : IsF32 x) (s : ℕ) {k : ℚ} (hk : k = 2 ^ s) : rne (x * k) = x * k := by
  rw [hk]; exact isF32_scale hx s

/-- Numbers that are whole and at least 2^23 are stored as they are or, if odd and below 2^24, one higher. -/
theorem otRound_whole {v : ℚ} (hv : IsF32 v) (h1 : 2 ^ 23 ≤ |v|) (h2 : |v| < 2 ^ 31) :
    ∃ p : ℤ, otRound v = p ∧ ((p : ℚ) = v ∨ (p : ℚ) = v + 1 ∧ |p| ≤ 2 ^ 24) := by
  obtain ⟨m, e, hm, he, hve⟩ := f32_form hv
  have hm' := abs_le.1 hm
  rcases le_or_gt 1 e with h | h
  · obtain ⟨k, rfl⟩ : ∃ k : ℕ, e = k + 1 := ⟨(e - 1).toNat, by omega⟩
    have hz : v = ((m * 2 ^ (k + 1) : ℤ) : ℚ) := by
      rw [hve]; push_cast; congr 1
    refine ⟨m * 2 ^ (k + 1), ?_, .inl hz.symm⟩
    rw [hz]
    apply otRound_even m k hm
    rw [hz] at h2
    exact_mod_cast h2
  · -- below 2^24, and whole
    have hb : |v| ≤ 2 ^ 24 := by
      rw [hve, abs_mul, abs_of_pos (two_zpow_pos e)]
      have a : (2 : ℚ) ^ e ≤ 1 := by
        have := zpow_le_zpow_right₀ (a := (2 : ℚ)) (by norm_num) (show e ≤ 0 by omega)
        simpa using this
      have b : ((|m| : ℤ) : ℚ) ≤ ((2 ^ 24 : ℤ) : ℚ) := by exact_mod_cast hm
      push_cast at b
      calc |(m : ℚ)| * 2 ^ e ≤ 2 ^ 24 * 1 := mul_le_mul b a (two_zpow_pos e).le (by norm_num)
        _ = 2 ^ 24 := by norm_num
    have hw : ∃ n : ℤ, v = n := by
      rcases lt_or_eq_of_le hb with hlt | heq
      · have hu := ue_23 h1 hlt
        have e0 : v = rhe (v / 2 ^ ue v) * 2 ^ ue v := hv.symm
        rw [hu] at e0
        exact ⟨rhe (v / 2 ^ (0 : ℤ)), by simpa using e0⟩
      · rcases (abs_eq (by norm_num)).1 heq with h | h
        · exact ⟨2 ^ 24, by rw [h]; norm_num⟩
        · exact ⟨-2 ^ 24, by rw [h]; norm_num⟩
    obtain ⟨n, rfl⟩ := hw
    have hn : |n| ≤ 2 ^ 24 := by exact_mod_cast hb
    have hn' := abs_le.1 hn
    rcases eq_or_ne n (2 ^ 24) with h24 | h24
    · refine ⟨n, ?_, .inl rfl⟩
      rw [h24]
      have := otRound_even (2 ^ 23) 0 (by norm_num) (by norm_num)
      norm_num at this ⊢
      exact this
    · have l1 : (n : ℚ) ≤ rne (n + 1 / 2) := by
        have := rne_mono (show (n : ℚ) ≤ n + 1 / 2 by linarith)
        rwa [rne_int n hn] at this
      have l2 : rne (n + 1 / 2) ≤ ((n + 1 : ℤ) : ℚ) := by
        have := rne_mono (show (n : ℚ) + 1 / 2 ≤ ((n + 1 : ℤ) : ℚ) by push_cast; linarith)
        rwa [rne_int (n + 1) (by rw [abs_le]; constructor <;> omega)] at this
      have f1 : n ≤ ⌊rne ((n : ℚ) + 1 / 2)⌋ := by rw [Int.le_floor]; exact l1
      have f2 : ⌊rne ((n : ℚ) + 1 / 2)⌋ ≤ n + 1 := by
        have := Int.floor_mono l2
        rwa [Int.floor_intCast] at this
      rcases (show ⌊rne ((n : ℚ) + 1 / 2)⌋ = n ∨ ⌊rne ((n : ℚ) + 1 / 2)⌋ = n + 1 by omega) with h | h
      · exact ⟨n, otRound_of h (by omega) (by omega), .inl rfl⟩
      · refine ⟨n + 1, otRound_of h (by omega) (by omega), .inr ⟨by push_cast; rfl, ?_⟩⟩
        rw [abs_le]; constructor <;> omega

theorem fixed_exact {p : ℤ} (h : IsF32 p) : fixedFromPacked p = (p : ℚ) / 65536 := by
  have e : rne (p : ℚ) = p := h
  unfold fixedFromPacked
  rw [e]
  obtain ⟨m, k, hm, hk, hp⟩ := f32_form h
  have hk' : ((p : ℚ)) / 65536 = m * 2 ^ (k + -16) := by
    rw [zpow_add₀ (by norm_num), ← mul_assoc, ← hp]; norm_num; ring
  by_cases hkk : -149 ≤ k + -16
  · rw [hk']
    exact rne_exact m _ hm hkk
  · -- a whole number with such an exponent is zero
    have : p = 0 := by
      by_contra hne
      have h1 : (1 : ℚ) ≤ |(p : ℚ)| := by exact_mod_cast Int.one_le_abs hne
      rw [hp, abs_mul, abs_of_pos (two_zpow_pos k)] at h1
      have a : (2 : ℚ) ^ k ≤ 2 ^ (-30 : ℤ) := zpow_le_zpow_right₀ (by norm_num) (by omega)
      have b : ((|m| : ℤ) : ℚ) ≤ ((2 ^ 24 : ℤ) : ℚ) := by exact_mod_cast hm
      push_cast at b
      have : |(m : ℚ)| * 2 ^ k ≤ 2 ^ 24 * 2 ^ (-30 : ℤ) := mul_le_mul b a (two_zpow_pos k).le (by norm_num)
      norm_num at this
      linarith
    rw [this]
    norm_num
    exact rne_zero

theorem encFixed_reads {x : ℚ} {p : ℤ} (h : fixedAsPacked x = p) (h1 : -2 ^ 31 ≤ p) (h2 : p ≤ 2 ^ 31 - 1) (hp : IsF32 p) :
    RoundTripsAt readFixed (encFixed x) ((p : ℚ) / 65536) := by
  have e : (Int32.ofInt p).toInt = p := Int32.toInt_ofInt_of_le (by omega) (by omega)
  have := reads_fixed (Int32.ofInt p)
  rw [e, fixed_exact hp] at this
  unfold encFixed
  rw [h]
  exact this

theorem f32_whole {p : ℤ} (h : |p| ≤ 2 ^ 24) : IsF32 (p : ℚ) := rne_int p h

/-! ### The statements -/

/-- Up to 128, the nearest multiple of 1/65536 is stored, halves upwards, with one exception: the number just below
1/131072 is stored as 1/65536. -/
theorem C04_fixed_nearest {x : ℚ} (hx : IsF32 x) (hb : |x| ≤ 128) :
    ∃ p : ℤ, p = (if x = 2 ^ (-17 : ℤ) - 2 ^ (-41 : ℤ) then 1 else ⌊x * 65536 + 1 / 2⌋) ∧
      RoundTripsAt readFixed (encFixed x) (p / 65536) ∧ |(p : ℚ) / 65536 - x| ≤ 2 ^ (-17 : ℤ) + 2 ^ (-41 : ℤ) := by
  have hr : rne (x * 65536) = x * 65536 := f32_mul hx 16 (by norm_num)
  have hf : IsF32 (x * 65536) := hr
  have hb' := abs_le.1 hb
  have hv : |x * 65536| ≤ 2 ^ 23 := by rw [abs_le]; constructor <;> linarith [hb'.1, hb'.2]
  have key : fixedAsPacked x = (if x = 2 ^ (-17 : ℤ) - 2 ^ (-41 : ℤ) then 1 else ⌊x * 65536 + 1 / 2⌋) := by
    unfold fixedAsPacked
    rw [hr]
    split
    · rename_i h
      have : x * 65536 = 1 / 2 - 2 ^ (-25 : ℤ) := by rw [h]; norm_num
      rw [this]; exact otRound_below_half
    · rename_i h
      rcases otRound_near hf hv with h' | ⟨h', _⟩
      · exact h'
      · exfalso
        apply h
        norm_num at h' ⊢
        linarith
  refine ⟨_, rfl, ?_⟩
  have hfl1 := Int.floor_le (x * 65536 + 1 / 2)
  have hfl2 := Int.lt_floor_add_one (x * 65536 + 1 / 2)
  have hp : |(if x = 2 ^ (-17 : ℤ) - 2 ^ (-41 : ℤ) then (1 : ℤ) else ⌊x * 65536 + 1 / 2⌋)| ≤ 2 ^ 24 := by
    split
    · norm_num
    · rw [abs_le]
      constructor
      · rw [Int.le_floor]; push_cast; linarith [hb'.1]
      · have : ⌊x * 65536 + 1 / 2⌋ < 2 ^ 24 + 1 := by rw [Int.floor_lt]; push_cast; linarith [hb'.2]
        omega
  have hp' := abs_le.1 hp
  refine ⟨encFixed_reads key (by omega) (by omega) (f32_whole hp), ?_⟩
  split
  · rename_i h
    rw [h]; norm_num
  · rw [abs_le]
    norm_num
    constructor <;> linarith

/-- Beyond 128, the number itself is stored, or the next multiple of 1/65536. -/
theorem C04_fixed_far {x : ℚ} (hx : IsF32 x) (h1 : 128 ≤ |x|) (h2 : |x| < 32768) :
    ∃ y : ℚ, RoundTripsAt readFixed (encFixed x) y ∧ (y = x ∨ y = x + 1 / 65536) := by
  have hr : rne (x * 65536) = x * 65536 := f32_mul hx 16 (by norm_num)
  have hf : IsF32 (x * 65536) := hr
  have ha : |x * 65536| = |x| * 65536 := by rw [abs_mul]; norm_num
  obtain ⟨p, hp, h⟩ := otRound_whole hf (by rw [ha]; linarith) (by rw [ha]; linarith)
  have hk : fixedAsPacked x = p := by unfold fixedAsPacked; rw [hr, hp]
  have hx' := abs_lt.1 h2
  rcases h with h | ⟨h, h24⟩
  · have b1 : -2 ^ 31 ≤ p := by
      have : (-2 ^ 31 : ℚ) ≤ p := by rw [h]; linarith
      exact_mod_cast this
    have b2 : p ≤ 2 ^ 31 - 1 := by
      have : (p : ℚ) < 2 ^ 31 := by rw [h]; linarith
      have : p < 2 ^ 31 := by exact_mod_cast this
      omega
    exact ⟨_, encFixed_reads hk b1 b2 (by rw [h]; exact hf), .inl (by rw [h]; ring)⟩
  · have h24' := abs_le.1 h24
    exact ⟨_, encFixed_reads hk (by omega) (by omega) (f32_whole h24), .inr (by rw [h]; ring)⟩

theorem otRound_low {v : ℚ} (hf : IsF32 v) (h : v ≤ -2 ^ 31) : otRound v = -2 ^ 31 := by
  rcases lt_or_eq_of_le h with hlt | heq
  · -- the next number below -2^31 is far below it
    apply otRound_sat.2
    obtain ⟨m, e, hm, he, hme⟩ := f32_form hf
    rcases le_or_gt 0 e with h0 | h0
    · have : ∃ n : ℤ, v = n := ⟨m * 2 ^ e.toNat, by
        rw [hme]; push_cast; rw [← zpow_natCast, Int.toNat_of_nonneg h0]⟩
      obtain ⟨n, hn⟩ := this
      rw [hn] at hlt ⊢
      have a : n < -2 ^ 31 := by exact_mod_cast hlt
      have b : n ≤ -2 ^ 31 - 1 := by omega
      have : (n : ℚ) ≤ -2 ^ 31 - 1 := by exact_mod_cast b
      linarith
    · exfalso
      have a : (2 : ℚ) ^ e ≤ 1 := by
        have := zpow_le_zpow_right₀ (a := (2 : ℚ)) (by norm_num) (show e ≤ 0 by omega)
        simpa using this
      have b : ((|m| : ℤ) : ℚ) ≤ ((2 ^ 24 : ℤ) : ℚ) := by exact_mod_cast hm
      push_cast at b
      have c : |v| ≤ 2 ^ 24 * 1 := by
        rw [hme, abs_mul, abs_of_pos (two_zpow_pos e)]
        exact mul_le_mul b a (two_zpow_pos e).le (by norm_num)
      have := neg_abs_le v
      linarith
  · rw [heq]; decide +kernel

/-- Numbers that are too large become the largest or the smallest there is. -/
theorem C04_fixed_saturates {x : ℚ} (hx : IsF32 x) : (32768 ≤ x → encFixed x = [0x7F, 0xFF, 0xFF, 0xFF]) ∧
    (x ≤ -32768 → encFixed x = [0x80, 0, 0, 0]) := by
  have hr : rne (x * 65536) = x * 65536 := f32_mul hx 16 (by norm_num)
  have hx' : IsF32 (x * 65536) := hr
  constructor
  · intro h
    have : fixedAsPacked x = 2 ^ 31 - 1 := by
      unfold fixedAsPacked; rw [hr]
      exact otRound_sat.1 (by linarith)
    unfold encFixed; rw [this]; decide
  · intro h
    have : fixedAsPacked x = -2 ^ 31 := by
      unfold fixedAsPacked; rw [hr]
      exact otRound_low hx' (by linarith)
    unfold encFixed; rw [this]; decide

/-- `F2DOT14`: from -2 - 1/32768 up to 2 - 1/32768 (exclusive) the nearest multiple of 1/16384 is stored, halves
upwards, with one exception: the number just below 1/32768 is stored as 1/16384. All other numbers are refused. -/
theorem C04_f2dot14_nearest {x : ℚ} (hx : IsF32 x) :
    (-2 - 1 / 32768 ≤ x → x < 2 - 1 / 32768 → ∃ (p : Int16) (bs : Bytes),
      p.toInt = (if x = 2 ^ (-15 : ℤ) - 2 ^ (-39 : ℤ) then 1 else ⌊x * 16384 + 1 / 2⌋) ∧
      encF2dot14 x = .ok bs ∧ RoundTripsAt readF2dot14 bs (p.toInt / 16384)) ∧
    (x < -2 - 1 / 32768 ∨ 2 - 1 / 32768 ≤ x → encF2dot14 x = .err) := by
  have hr : rne (x * 16384) = x * 16384 := f32_mul hx 14 (by norm_num)
  have hf : IsF32 (x * 16384) := hr
  have key : |x * 16384| ≤ 2 ^ 23 → otRound (rne (x * 16384)) =
      (if x = 2 ^ (-15 : ℤ) - 2 ^ (-39 : ℤ) then 1 else ⌊x * 16384 + 1 / 2⌋) := by
    intro hv
    rw [hr]
    split
    · rename_i h
      have : x * 16384 = 1 / 2 - 2 ^ (-25 : ℤ) := by rw [h]; norm_num
      rw [this]; exact otRound_below_half
    · rename_i h
      rcases otRound_near hf hv with h' | ⟨h', _⟩
      · exact h'
      · exfalso
        apply h
        norm_num at h' ⊢
        linarith
  constructor
  · intro h1 h2
    have k := key (by rw [abs_le]; constructor <;> linarith)
    generalize hp : (if x = 2 ^ (-15 : ℤ) - 2 ^ (-39 : ℤ) then (1 : ℤ) else ⌊x * 16384 + 1 / 2⌋) = p at k ⊢
    have b : -32768 ≤ p ∧ p ≤ 32767 := by
      rw [← hp]
      split
      · norm_num
      · constructor
        · rw [Int.le_floor]; push_cast; linarith
        · have : ⌊x * 16384 + 1 / 2⌋ < 32768 := by rw [Int.floor_lt]; push_cast; linarith
          omega
    have e : (Int16.ofInt p).toInt = p := Int16.toInt_ofInt_of_le (by omega) (by omega)
    refine ⟨Int16.ofInt p, encI16 (Int16.ofInt p), e, ?_, ?_⟩
    · unfold encF2dot14 f2dot14AsPacked
      simp only [k, if_pos b]
      rfl
    · have := reads_f2dot14 (Int16.ofInt p)
      rwa [C04_f2dot14_value] at this
  · intro h
    have hout : ¬ (-32768 ≤ otRound (rne (x * 16384)) ∧ otRound (rne (x * 16384)) ≤ 32767) := by
      by_cases hv : |x * 16384| ≤ 2 ^ 23
      · rw [key hv]
        have hne : x ≠ 2 ^ (-15 : ℤ) - 2 ^ (-39 : ℤ) := by
          rintro rfl
          norm_num at h
        rw [if_neg hne]
        rcases h with h | h
        · have : ⌊x * 16384 + 1 / 2⌋ < -32768 := by rw [Int.floor_lt]; push_cast; linarith
          omega
        · have : 32768 ≤ ⌊x * 16384 + 1 / 2⌋ := by rw [Int.le_floor]; push_cast; linarith
          omega
      · rw [hr]
        have hv' : 2 ^ 23 < |x * 16384| := not_le.1 hv
        by_cases hl : |x * 16384| < 2 ^ 31
        · obtain ⟨p, hp, hh⟩ := otRound_whole hf hv'.le hl
          rw [hp]
          have : (2 ^ 23 - 1 : ℚ) ≤ |(p : ℚ)| := by
            rcases hh with hh | ⟨hh, _⟩
            · rw [hh]; linarith
            · rw [hh]
              have := abs_sub_abs_le_abs_sub (x * 16384) (-1)
              rw [show x * 16384 - -1 = x * 16384 + 1 by ring] at this
              norm_num at this
              norm_num at hv'
              norm_num
              linarith
          have hz : (2 ^ 23 - 1 : ℤ) ≤ |p| := by exact_mod_cast this
          intro hc
          have : |p| ≤ 32768 := by rw [abs_le]; omega
          omega
        · have hl' := not_lt.1 hl
          rcases le_abs'.1 hl' with hneg | hpos
          · rw [otRound_low hf hneg]; norm_num
          · rw [otRound_sat.1 hpos]; norm_num
    unfold encF2dot14 f2dot14AsPacked
    simp only [if_neg hout]
    rfl

/-- The number just below 1/131072 really is stored as 1/65536, though 0 is nearer. -/
theorem C04_fixed_not_nearest : IsF32 (2 ^ (-17 : ℤ) - 2 ^ (-41 : ℤ)) ∧
    encFixed (2 ^ (-17 : ℤ) - 2 ^ (-41 : ℤ)) = [0, 0, 0, 1] ∧
    |(0 : ℚ) - (2 ^ (-17 : ℤ) - 2 ^ (-41 : ℤ))| < |(1 : ℚ) / 65536 - (2 ^ (-17 : ℤ) - 2 ^ (-41 : ℤ))| := by
  refine ⟨by unfold IsF32; decide +kernel, by decide +kernel, by norm_num⟩

/-! ### Numbers the statements apply to -/

/-- One tenth, as near as an `f32` comes to it. -/
example : IsF32 (13421773 / 134217728) ∧ |(13421773 / 134217728 : ℚ)| ≤ 128 ∧ encFixed (13421773 / 134217728) = [0, 0, 0x19, 0x9A] ∧
    encF2dot14 (13421773 / 134217728) = .ok [0x06, 0x66] := by
  refine ⟨by unfold IsF32; decide +kernel, by norm_num [abs_of_pos], by decide +kernel, by decide +kernel⟩

/-- 128 + 1/65536 goes up by one step; 1000.5 stays. -/
example : IsF32 (8388609 / 65536) ∧ encFixed (8388609 / 65536) = [0, 0x80, 0, 2] ∧
    IsF32 (2001 / 2) ∧ encFixed (2001 / 2) = [0x03, 0xE8, 0x80, 0] := by
  refine ⟨by unfold IsF32; decide +kernel, by decide +kernel, by unfold IsF32; decide +kernel, by decide +kernel⟩

example : IsF32 100000 ∧ encFixed 100000 = [0x7F, 0xFF, 0xFF, 0xFF] ∧ IsF32 (-100000) ∧ encFixed (-100000) = [0x80, 0, 0, 0] := by
  refine ⟨by unfold IsF32; decide +kernel, by decide +kernel, by unfold IsF32; decide +kernel, by decide +kernel⟩

end FT.Props
