import Verif.Model.Variation
import Verif.Lemmas.F32Mono
import Verif.Lemmas.BTree
import Mathlib.Algebra.BigOperators.Group.List.Basic

/-!
# C43: the influence of a region

`supportScalar F32.rne` is the code; `supportScalar id` is the same computation without rounding.
-/

namespace FT.Props
open FT FT.F32 FT.Var

/-! ### Specification -/

/-- The axis limits what the region covers (OpenType, "Algorithm for interpolation of instance values"). -/
def TakesPart (start peak stop : ℚ) : Prop := peak ≠ 0 ∧ start ≤ peak ∧ peak ≤ stop ∧ ¬ (start < 0 ∧ 0 < stop)

instance (a b c : ℚ) : Decidable (TakesPart a b c) := by unfold TakesPart; infer_instance

/-- The scalar of one axis, as the OpenType specification gives it. -/
def tent (v start peak stop : ℚ) : ℚ :=
  if ¬ TakesPart start peak stop then 1
  else if v < start ∨ stop < v then 0
  else if v = peak then 1
  else if v < peak then (v - start) / (peak - start)
  else (stop - v) / (stop - peak)

/-- The scalar of a region: the product over its axes. -/
def influence (loc : Loc) (r : Region) : ℚ := (r.map fun x => tent (coord loc x.1) x.2.1 x.2.2.1 x.2.2.2).prod

/-! ### Range -/

/-- A rounding function under which ratios of parts to wholes stay between 0 and 1 on numbers satisfying `P`. -/
structure Rounding (P : ℚ → Prop) (rd : ℚ → ℚ) : Prop where
  mono : ∀ x y, x ≤ y → rd x ≤ rd y
  zero : rd 0 = 0
  one : rd 1 = 1
  pos : ∀ x y, P x → P y → x < y → 0 < rd (y - x)
  neg : ∀ x, rd (-x) = - rd x

theorem rounding_id : Rounding (fun _ => True) id :=
  ⟨fun _ _ h => h, rfl, rfl, fun _ _ _ _ h => sub_pos.2 h, fun _ => rfl⟩

theorem rounding_f32 : Rounding IsF32 rne :=
  ⟨fun _ _ h => rne_mono h, rne_zero, rne_one, fun _ _ hx hy h => rne_sub_pos hx hy h, rne_neg⟩

theorem Rounding.unit {P : ℚ → Prop} {rd : ℚ → ℚ} (R : Rounding P rd) {x : ℚ} (h0 : 0 ≤ x) (h1 : x ≤ 1) :
    0 ≤ rd x ∧ rd x ≤ 1 := by
  have a := R.mono _ _ h0
  have b := R.mono _ _ h1
  rw [R.zero] at a
  rw [R.one] at b
  exact ⟨a, b⟩

theorem axisStep_range {P : ℚ → Prop} {rd : ℚ → ℚ} (R : Rounding P rd) {v l p u f : ℚ} (hl : P l)
    (hp : P p) (hu : P u) (h : axisStep rd v l p u = .times f) : 0 ≤ f ∧ f ≤ 1 := by
  unfold axisStep at h
  split_ifs at h with h1 h2 h3 h4 h5 h6
  · push Not at h5
    simp only [Step.times.injEq] at h
    subst h
    have n := R.mono 0 (v - l) (by linarith)
    rw [R.zero] at n
    have d := R.pos l p hl hp (by linarith)
    exact R.unit (div_nonneg n d.le) ((div_le_one d).2 (R.mono _ _ (by linarith)))
  · push Not at h5 h2
    simp only [Step.times.injEq] at h
    subst h
    have hvp : v ≠ p := by
      rintro rfl
      rw [sub_self, R.zero] at h4
      simp [eps] at h4
    have hpv : p < v := lt_of_le_of_ne (not_lt.1 h6) (Ne.symm hvp)
    have n := R.mono 0 (u - v) (by linarith)
    rw [R.zero] at n
    have d := R.pos p u hp hu (by linarith)
    have e1 : rd (v - u) = - rd (u - v) := by rw [← R.neg]; congr 1; ring
    have e2 : rd (p - u) = - rd (u - p) := by rw [← R.neg]; congr 1; ring
    rw [e1, e2, neg_div_neg_eq]
    exact R.unit (div_nonneg n d.le) ((div_le_one d).2 (R.mono _ _ (by linarith)))

/-- Every number of the region satisfies `P`. -/
def RegionNums (P : ℚ → Prop) (r : Region) : Prop := ∀ x ∈ r, P x.2.1 ∧ P x.2.2.1 ∧ P x.2.2.2

theorem scalarLoop_range {P : ℚ → Prop} {rd : ℚ → ℚ} (R : Rounding P rd) (loc : Loc) :
    ∀ (r : Region) (s : ℚ), RegionNums P r → 0 ≤ s → s ≤ 1 → 0 ≤ scalarLoop rd loc r s ∧ scalarLoop rd loc r s ≤ 1
  | [], s, _, h0, h1 => ⟨h0, h1⟩
  | (t, l, p, u) :: r, s, h, h0, h1 => by
    have hr : RegionNums P r := fun x hx => h x (List.mem_cons_of_mem _ hx)
    obtain ⟨a, b, c⟩ := h _ (List.mem_cons_self)
    simp only [scalarLoop]
    cases e : axisStep rd (coord loc t) l p u with
    | skip => exact scalarLoop_range R loc r s hr h0 h1
    | stop => exact ⟨le_refl _, zero_le_one⟩
    | times f =>
      obtain ⟨f0, f1⟩ := axisStep_range R a b c e
      have := R.unit (mul_nonneg h0 f0) (by nlinarith)
      exact scalarLoop_range R loc r _ hr this.1 this.2

/-- C43: whatever the location, a region of single-precision numbers has an influence between 0 and 1. -/
theorem C43_range (loc : Loc) (r : Region) (hr : RegionNums IsF32 r) :
    0 ≤ supportScalar rne loc r ∧ supportScalar rne loc r ≤ 1 :=
  scalarLoop_range rounding_f32 loc r 1 hr zero_le_one (le_refl _)

/-! ### At the peak and outside -/

theorem axisStep_peak {rd : ℚ → ℚ} (hz : rd 0 = 0) (l p u : ℚ) : axisStep rd p l p u = .skip := by
  unfold axisStep
  split_ifs with h1 h2 h3 h4 <;> try rfl
  all_goals (rw [sub_self, hz] at h4; simp [eps] at h4)

theorem scalarLoop_peak {rd : ℚ → ℚ} (hz : rd 0 = 0) (loc : Loc) : ∀ (r : Region) (s : ℚ),
    (∀ x ∈ r, TakesPart x.2.1 x.2.2.1 x.2.2.2 → coord loc x.1 = x.2.2.1) → scalarLoop rd loc r s = s
  | [], _, _ => rfl
  | (t, l, p, u) :: r, s, h => by
    have hr := scalarLoop_peak hz loc r s (fun x hx => h x (List.mem_cons_of_mem _ hx))
    have e : axisStep rd (coord loc t) l p u = .skip := by
      by_cases ht : TakesPart l p u
      · rw [h _ List.mem_cons_self ht]; exact axisStep_peak hz l p u
      · unfold axisStep
        unfold TakesPart at ht
        split_ifs with h1 h2 h3 h4 <;> try rfl
        all_goals (exfalso; apply ht; push Not at h2 h3; exact ⟨h1, h2.1, h2.2, fun h => absurd h.2 (not_lt.2 (h3 h.1))⟩)
    simp only [scalarLoop, e]
    exact hr

/-- C43: at its peak a region has influence 1. -/
theorem C43_peak (loc : Loc) (r : Region)
    (h : ∀ x ∈ r, TakesPart x.2.1 x.2.2.1 x.2.2.2 → coord loc x.1 = x.2.2.1) : supportScalar rne loc r = 1 :=
  scalarLoop_peak rne_zero loc r 1 h

theorem axisStep_stop {rd : ℚ → ℚ} {v l p u : ℚ} (ht : TakesPart l p u) (hv : v ≤ l ∨ u ≤ v) (hfar : eps ≤ |rd (v - p)|) :
    axisStep rd v l p u = .stop := by
  obtain ⟨h1, h2, h3, h4⟩ := ht
  unfold axisStep
  rw [if_neg h1, if_neg (by push Not; exact ⟨h2, h3⟩), if_neg (fun h => h4 ⟨h.1, h.2⟩), if_neg (not_lt.2 hfar),
    if_pos hv]

theorem scalarLoop_stop {rd : ℚ → ℚ} (loc : Loc) : ∀ (r : Region) (s : ℚ) (x : Tag × (ℚ × ℚ × ℚ)), x ∈ r →
    axisStep rd (coord loc x.1) x.2.1 x.2.2.1 x.2.2.2 = .stop → scalarLoop rd loc r s = 0
  | y :: r, s, x, hx, hs => by
    obtain ⟨t, l, p, u⟩ := y
    simp only [scalarLoop]
    rcases List.mem_cons.1 hx with rfl | hx
    · simp only at hs; rw [hs]
    · cases axisStep rd (coord loc t) l p u with
      | skip => exact scalarLoop_stop loc r _ x hx hs
      | stop => rfl
      | times f => exact scalarLoop_stop loc r _ x hx hs

/-- C43: a region has no influence where one of its axes is at or beyond its bounds, except within `f32::EPSILON` of
the peak. -/
theorem C43_outside (loc : Loc) (r : Region) (x : Tag × (ℚ × ℚ × ℚ)) (hx : x ∈ r)
    (ht : TakesPart x.2.1 x.2.2.1 x.2.2.2) (hv : coord loc x.1 ≤ x.2.1 ∨ x.2.2.2 ≤ coord loc x.1)
    (hfar : eps ≤ |rne (coord loc x.1 - x.2.2.1)|) : supportScalar rne loc r = 0 :=
  scalarLoop_stop loc r 1 x hx (axisStep_stop ht hv hfar)

/-- Within that distance it does: a region whose peak is 2^-24 has full influence at the default location, where the
specification gives none. -/
theorem C43_near_peak (t : Tag) : supportScalar rne [] [(t, (0, 1 / 16777216, 1))] = 1 ∧
    influence [] [(t, (0, 1 / 16777216, 1))] = 0 := by
  have e : rne (0 - 1 / 16777216) = -(1 / 16777216) := by
    have := rne_exact (-1) (-24) (by norm_num) (by norm_num)
    norm_num at this ⊢
    exact this
  constructor
  · have hs : axisStep rne 0 0 (1 / 16777216) 1 = .skip := by
      have hd : |rne (0 - 1 / 16777216)| < eps := by rw [e, abs_neg, eps]; norm_num [abs_of_pos]
      unfold axisStep
      rw [if_neg (by norm_num), if_neg (by norm_num), if_neg (by norm_num), if_pos hd]
    show scalarLoop rne [] [(t, (0, 1 / 16777216, 1))] 1 = 1
    unfold scalarLoop
    rw [show coord [] t = 0 from rfl, hs]
    rfl
  · simp only [influence, tent, coord, BMap.get?, TakesPart]
    norm_num

/-! ### The value -/

/-- The location is, on each axis of the region, at the peak or at least `f32::EPSILON` from it. -/
def ClearOfPeaks (loc : Loc) (r : Region) : Prop := ∀ x ∈ r, coord loc x.1 = x.2.2.1 ∨ eps ≤ |coord loc x.1 - x.2.2.1|

theorem axisStep_tent {v l p u : ℚ} (hc : v = p ∨ eps ≤ |v - p|) : match axisStep id v l p u with
    | .skip => tent v l p u = 1
    | .stop => tent v l p u = 0
    | .times f => tent v l p u = f := by
  by_cases ht : TakesPart l p u
  · obtain ⟨h1, h2, h3, h4⟩ := id ht
    have e0 : axisStep id v l p u = if |v - p| < eps then .skip else if v ≤ l ∨ u ≤ v then .stop
        else if v < p then .times ((v - l) / (p - l)) else .times ((v - u) / (p - u)) := by
      unfold axisStep
      rw [if_neg h1, if_neg (by push Not; exact ⟨h2, h3⟩), if_neg (fun h => h4 ⟨h.1, h.2⟩)]
      rfl
    rw [e0]
    have nt : ¬ ¬ TakesPart l p u := not_not.2 ht
    rcases hc with rfl | hc
    · rw [if_pos (by simp [eps])]
      simp only
      unfold tent
      rw [if_neg nt, if_neg (by push Not; exact ⟨h2, h3⟩), if_pos rfl]
    · have hne : v ≠ p := by rintro rfl; simp [eps] at hc; norm_num at hc
      rw [if_neg (not_lt.2 hc)]
      by_cases ho : v ≤ l ∨ u ≤ v
      · rw [if_pos ho]
        simp only
        unfold tent
        rw [if_neg nt]
        by_cases hs : v < l ∨ u < v
        · rw [if_pos hs]
        · rw [if_neg hs, if_neg hne]
          push Not at hs
          rcases ho with h | h
          · have e : v = l := le_antisymm h hs.1
            rw [if_pos (lt_of_le_of_ne (e ▸ h2) hne), e]; simp
          · have e : v = u := le_antisymm hs.2 h
            rw [if_neg (by rw [e]; exact not_lt.2 h3), e]; simp
      · rw [if_neg ho]
        push Not at ho
        by_cases hlt : v < p
        · rw [if_pos hlt]
          simp only
          unfold tent
          rw [if_neg nt, if_neg (by push Not; exact ⟨ho.1.le, ho.2.le⟩), if_neg hne, if_pos hlt]
        · rw [if_neg hlt]
          simp only
          unfold tent
          rw [if_neg nt, if_neg (by push Not; exact ⟨ho.1.le, ho.2.le⟩), if_neg hne, if_neg hlt]
          rw [← neg_div_neg_eq]; simp
  · have e0 : axisStep id v l p u = .skip := by
      unfold axisStep
      unfold TakesPart at ht
      split_ifs with h1 h2 h3 h4 <;> try rfl
      all_goals (exfalso; apply ht; push Not at h2 h3; exact ⟨h1, h2.1, h2.2, fun h => absurd h.2 (not_lt.2 (h3 h.1))⟩)
    rw [e0]
    simp only
    unfold tent
    rw [if_pos ht]

theorem scalarLoop_influence (loc : Loc) : ∀ (r : Region) (s : ℚ), ClearOfPeaks loc r →
    scalarLoop id loc r s = s * influence loc r
  | [], s, _ => by simp [scalarLoop, influence]
  | (t, l, p, u) :: r, s, h => by
    have ih := fun s => scalarLoop_influence loc r s (fun x hx => h x (List.mem_cons_of_mem _ hx))
    have hx := axisStep_tent (l := l) (u := u) (h _ List.mem_cons_self)
    simp only at hx
    simp only [scalarLoop]
    have ei : influence loc ((t, l, p, u) :: r) = tent (coord loc t) l p u * influence loc r := by simp [influence]
    rw [ei]
    cases e : axisStep id (coord loc t) l p u with
    | skip => rw [e] at hx; simp only at hx ⊢; rw [hx, ih, one_mul]
    | stop => rw [e] at hx; simp only at hx ⊢; rw [hx]; simp
    | times f => rw [e] at hx; simp only [id] at hx ⊢; rw [hx, ih]; ring

/-- C43: in exact arithmetic the influence is the product of tents of the OpenType specification. -/
theorem C43_exact (loc : Loc) (r : Region) (h : ClearOfPeaks loc r) : supportScalar id loc r = influence loc r := by
  rw [supportScalar, scalarLoop_influence loc r 1 h, one_mul]

/-! ### Precision -/

/-- A number of the `F2DOT14` grid, as all coordinates of a font file are. -/
def OnGrid (x : ℚ) : Prop := ∃ a : ℤ, -32768 ≤ a ∧ a ≤ 32767 ∧ x = (a : ℚ) / 16384

theorem rne_unit_error {x : ℚ} (h0 : 0 ≤ x) (h1 : x ≤ 1) : |rne x - x| ≤ 1 / 2 ^ 25 := by
  rcases lt_or_eq_of_le h1 with h | h
  · rcases lt_or_eq_of_le h0 with hp | hp
    · refine le_trans (C04_rounding_error x) ?_
      have hl : Int.log 2 |x| < 0 := by
        rw [abs_of_pos hp]
        exact (Int.lt_zpow_iff_log_lt (b := 2) (by norm_num) hp).1 (by simpa using h)
      have hu : ue x ≤ -24 := by unfold ue; omega
      have : (2 : ℚ) ^ ue x ≤ 2 ^ (-24 : ℤ) := zpow_le_zpow_right₀ (by norm_num) hu
      have e : (2 : ℚ) ^ (-24 : ℤ) = 1 / 2 ^ 24 := by norm_num
      rw [e] at this
      linarith
    · rw [← hp, rne_zero]; norm_num
  · rw [h, rne_one]; norm_num

theorem rne_grid_sub {x y : ℚ} (hx : OnGrid x) (hy : OnGrid y) : rne (x - y) = x - y := by
  obtain ⟨a, a1, a2, rfl⟩ := hx
  obtain ⟨b, b1, b2, rfl⟩ := hy
  have := rne_exact (a - b) (-14) (by rw [abs_le]; constructor <;> omega) (by norm_num)
  have e : (((a - b : ℤ) : ℚ)) * 2 ^ (-14 : ℤ) = (a : ℚ) / 16384 - b / 16384 := by push_cast; norm_num; ring
  rw [e] at this
  exact this

theorem grid_far {x y : ℚ} (hx : OnGrid x) (hy : OnGrid y) : x = y ∨ eps ≤ |x - y| := by
  obtain ⟨a, _, _, rfl⟩ := hx
  obtain ⟨b, _, _, rfl⟩ := hy
  by_cases h : a = b
  · left; rw [h]
  · right
    have : (1 : ℤ) ≤ |a - b| := Int.one_le_abs (by omega)
    have h2 : (1 : ℚ) ≤ |(a : ℚ) - b| := by exact_mod_cast this
    rw [← sub_div, abs_div]
    have : |(16384 : ℚ)| = 16384 := by norm_num
    rw [this, eps, div_le_div_iff₀ (by norm_num) (by norm_num)]
    linarith

theorem axisStep_grid {v l p u : ℚ} (hv : OnGrid v) (hl : OnGrid l) (hp : OnGrid p) (hu : OnGrid u) :
    axisStep rne v l p u = match axisStep id v l p u with
      | .skip => .skip
      | .stop => .stop
      | .times f => .times (rne f) := by
  unfold axisStep
  rw [rne_grid_sub hv hp, rne_grid_sub hv hl, rne_grid_sub hp hl, rne_grid_sub hv hu, rne_grid_sub hp hu]
  simp only [id]
  split_ifs <;> rfl

theorem scalarLoop_precision (loc : Loc) (hloc : ∀ t, OnGrid (coord loc t)) : ∀ (r : Region) (s e : ℚ),
    RegionNums OnGrid r → 0 ≤ s → s ≤ 1 → 0 ≤ e → e ≤ 1 →
    |scalarLoop rne loc r s - scalarLoop id loc r e| ≤ |s - e| + r.length / 2 ^ 24
  | [], s, e, _, _, _, _, _ => by simp [scalarLoop]
  | (t, l, p, u) :: r, s, e, h, s0, s1, e0, e1 => by
    have hr : RegionNums OnGrid r := fun x hx => h x (List.mem_cons_of_mem _ hx)
    obtain ⟨a, b, c⟩ := h _ (List.mem_cons_self)
    simp only at a b c
    have step := axisStep_grid (hloc t) a b c
    have rng : ∀ f, axisStep id (coord loc t) l p u = .times f → 0 ≤ f ∧ f ≤ 1 := fun f hf =>
      axisStep_range rounding_id trivial trivial trivial hf
    simp only [scalarLoop, List.length_cons]
    push_cast
    cases hs : axisStep id (coord loc t) l p u with
    | skip =>
      rw [hs] at step; simp only at step; rw [step]; simp only
      have := scalarLoop_precision loc hloc r s e hr s0 s1 e0 e1
      refine le_trans this ?_
      have : (0 : ℚ) ≤ 1 / 2 ^ 24 := by norm_num
      rw [add_div]; linarith
    | stop =>
      rw [hs] at step; simp only at step; rw [step]; simp only
      rw [sub_self, abs_zero]
      positivity
    | times f =>
      rw [hs] at step; simp only at step; rw [step]; simp only [id]
      obtain ⟨f0, f1⟩ := rng f hs
      obtain ⟨g0, g1⟩ := rounding_f32.unit f0 f1
      have hsf0 : 0 ≤ s * rne f := mul_nonneg s0 g0
      have hsf1 : s * rne f ≤ 1 := by nlinarith
      obtain ⟨k0, k1⟩ := rounding_f32.unit hsf0 hsf1
      have ih := scalarLoop_precision loc hloc r (rne (s * rne f)) (e * f) hr k0 k1 (mul_nonneg e0 f0) (by nlinarith)
      refine le_trans ih ?_
      have e1' := abs_le.1 (rne_unit_error f0 f1)
      have e2' := abs_le.1 (rne_unit_error hsf0 hsf1)
      have hd := abs_le.1 (le_refl |s - e|)
      have key : |rne (s * rne f) - e * f| ≤ |s - e| + 1 / 2 ^ 24 := by
        have t1 : |s * rne f - s * f| ≤ 1 / 2 ^ 25 := by
          rw [← mul_sub, abs_mul, abs_of_nonneg s0]
          have := rne_unit_error f0 f1
          have := abs_nonneg (rne f - f)
          nlinarith
        have t2 : |s * f - e * f| ≤ |s - e| := by
          rw [← sub_mul, abs_mul, abs_of_nonneg f0]
          have := abs_nonneg (s - e)
          nlinarith
        have t1 := abs_le.1 t1
        have t2 := abs_le.1 t2
        rw [abs_le]
        constructor <;> linarith [e2'.1, e2'.2, t1.1, t1.2, t2.1, t2.2]
      rw [add_div]
      linarith

/-- C43: on coordinates of the `F2DOT14` grid the single-precision influence of a region with `n` axes is within
`n * 2^-24` of the specified one. -/
theorem C43_precision (loc : Loc) (r : Region) (hloc : ∀ t, OnGrid (coord loc t)) (hr : RegionNums OnGrid r) :
    |supportScalar rne loc r - influence loc r| ≤ r.length / 2 ^ 24 := by
  have hc : ClearOfPeaks loc r := fun x hx => grid_far (hloc x.1) (hr x hx).2.1
  rw [← C43_exact loc r hc]
  have := scalarLoop_precision loc hloc r 1 1 hr zero_le_one (le_refl _) zero_le_one (le_refl _)
  simpa [supportScalar] using this

/-! Witnesses. -/

def wght : Tag := ⟨119, 103, 104, 116⟩
def wdth : Tag := ⟨119, 100, 116, 104⟩

theorem isF32_int (n : ℤ) (h : |n| ≤ 2 ^ 24) : IsF32 (n : ℚ) := rne_int n h

example : RegionNums IsF32 [(wdth, (0, 1, 1)), (wght, (-1, -1, 0))] := by
  intro x hx
  simp only [List.mem_cons, List.not_mem_nil, or_false] at hx
  have a : IsF32 0 := rne_zero
  have b : IsF32 1 := rne_one
  have c : IsF32 (-1) := by unfold IsF32; rw [rne_neg, rne_one]
  rcases hx with rfl | rfl
  · exact ⟨a, b, b⟩
  · exact ⟨c, c, a⟩

example : supportScalar id [(wght, 1 / 5)] [(wght, (0, 2, 3))] = 1 / 10 := by decide +kernel
example : supportScalar id [(wght, 5 / 2)] [(wght, (0, 2, 4))] = 3 / 4 := by decide +kernel
example : influence [(wdth, 1 / 2), (wght, 3 / 4)] [(wdth, (0, 1, 1)), (wght, (0, 1 / 2, 1))] = 1 / 4 := by decide +kernel
example : TakesPart 0 (1 / 2) 1 ∧ OnGrid (1 / 2) ∧ ClearOfPeaks [(wght, 1 / 4)] [(wght, (0, 1 / 2, 1))] := by
  refine ⟨by decide +kernel, ⟨8192, by norm_num, by norm_num, by norm_num⟩, ?_⟩
  intro x hx
  simp only [List.mem_singleton] at hx
  subst hx
  right
  decide +kernel

end FT.Props
