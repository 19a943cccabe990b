import Verif.Props.SegmentMap
import Verif.Lemmas.BTree
import Verif.Props.GlyphComposite

/-!
C47, second half: the maps of designspace axes (`piecewise_linear_map` of crates/designspace), in `f32` arithmetic.
-/

namespace FT.Props
open FT FT.Var FT.AxisMaps FT.F32

/-- Absolute rounding error. -/
theorem rne_err {z K : ℚ} (hK : (2 : ℚ) ^ (-126 : ℤ) ≤ K) (h : |z| ≤ K) : |rne z - z| ≤ K / 2 ^ 24 := by
  by_cases hs : (2 : ℚ) ^ (-126 : ℤ) ≤ |z|
  · exact le_trans (rne_rel hs) (div_le_div_of_nonneg_right h (by norm_num))
  · by_cases h0 : z = 0
    · rw [h0, rne_zero, sub_zero, abs_zero]
      have := two_zpow_pos (-126)
      have : 0 < K := lt_of_lt_of_le this hK
      positivity
    · have hp : 0 < |z| := abs_pos.2 h0
      have hl : Int.log 2 |z| < -126 :=
        (Int.lt_zpow_iff_log_lt (b := 2) (by norm_num) hp).1 (by exact_mod_cast not_le.1 hs)
      have hu : ue z = -149 := by unfold ue; omega
      refine le_trans (C04_rounding_error z) ?_
      rw [hu]
      refine le_trans ?_ (div_le_div_of_nonneg_right hK (by norm_num))
      norm_num

/-- The entries of an axis map in order of their inputs. Inputs and outputs do not exceed 2^20, and outputs are `f32`
numbers that are multiples of 1/65536. -/
structure DesignMap (m : List (ℤ × ℚ)) : Prop where
  rising : m.Pairwise fun x y => x.1 < y.1
  small : ∀ x ∈ m, |x.1| ≤ 2 ^ 20 ∧ |x.2| ≤ 2 ^ 20
  f32 : ∀ x ∈ m, rne x.2 = x.2
  fine : ∀ x ∈ m, ∃ n : ℤ, x.2 = (n : ℚ) / 65536

/-- Outputs do not decrease. -/
def Climbs (m : List (ℤ × ℚ)) : Prop := ∀ x ∈ m, ∀ y ∈ m, x.1 ≤ y.1 → x.2 ≤ y.2

theorem DesignMap.sorted {m : List (ℤ × ℚ)} (h : m.Pairwise fun x y => x.1 < y.1) : BMap.Sorted m :=
  h.imp fun {a b} h => by simp only [Key.lt, decide_eq_true_eq]; exact h

theorem below_some {v : ℤ} {a : ℤ × ℚ} : ∀ {m : List (ℤ × ℚ)}, (m.Pairwise fun x y => x.1 < y.1) → below v m = some a →
    a ∈ m ∧ a.1 < v ∧ ∀ x ∈ m, x.1 < v → x.1 ≤ a.1
  | [], _, h => by simp [below] at h
  | x :: m, hp, h => by
    obtain ⟨h1, h2⟩ := List.pairwise_cons.1 hp
    simp only [below] at h
    by_cases hx : x.1 < v
    · rw [if_pos hx] at h
      cases hb : below v m with
      | some y =>
        rw [hb] at h; simp only at h; cases h
        obtain ⟨i1, i2, i3⟩ := below_some h2 hb
        refine ⟨List.mem_cons_of_mem _ i1, i2, fun z hz hzv => ?_⟩
        rcases List.mem_cons.1 hz with e | e
        · rw [e]; exact le_of_lt (h1 _ i1)
        · exact i3 z e hzv
      | none =>
        rw [hb] at h; simp only at h; cases h
        refine ⟨List.mem_cons_self, hx, fun z hz hzv => ?_⟩
        rcases List.mem_cons.1 hz with e | e
        · rw [e]
        · exfalso
          cases m with
          | nil => simp at e
          | cons y m' =>
            have hy : ¬ y.1 < v := by
              intro hy
              simp only [below, if_pos hy] at hb
              split at hb <;> simp at hb
            rcases List.mem_cons.1 e with e' | e'
            · rw [e'] at hzv; exact hy hzv
            · have := (List.pairwise_cons.1 h2).1 z e'
              omega
    · rw [if_neg hx] at h; simp at h

theorem below_none {v : ℤ} {m : List (ℤ × ℚ)} (hp : m.Pairwise fun x y => x.1 < y.1) (h : below v m = none) :
    ∀ x ∈ m, v ≤ x.1 := by
  cases m with
  | nil => simp
  | cons y m =>
    have hy : ¬ y.1 < v := by
      intro hy
      simp only [below, if_pos hy] at h
      split at h <;> simp at h
    intro x hx
    rcases List.mem_cons.1 hx with e | e
    · rw [e]; omega
    · have := (List.pairwise_cons.1 hp).1 x e; omega

theorem above_some {v : ℤ} {a : ℤ × ℚ} : ∀ {m : List (ℤ × ℚ)}, (m.Pairwise fun x y => x.1 < y.1) → above v m = some a →
    a ∈ m ∧ v < a.1 ∧ ∀ x ∈ m, v < x.1 → a.1 ≤ x.1
  | [], _, h => by simp [above] at h
  | x :: m, hp, h => by
    obtain ⟨h1, h2⟩ := List.pairwise_cons.1 hp
    by_cases hx : v < x.1
    · simp only [above, List.find?_cons, hx, decide_true] at h; cases h
      refine ⟨List.mem_cons_self, hx, fun z hz _ => ?_⟩
      rcases List.mem_cons.1 hz with e | e
      · rw [e]
      · exact le_of_lt (h1 z e)
    · have h' : above v m = some a := by
        simp only [above, List.find?_cons, hx, decide_false] at h; exact h
      obtain ⟨i1, i2, i3⟩ := above_some h2 h'
      refine ⟨List.mem_cons_of_mem _ i1, i2, fun z hz hzv => ?_⟩
      rcases List.mem_cons.1 hz with e | e
      · rw [e] at hzv; omega
      · exact i3 z e hzv

theorem above_none {v : ℤ} {m : List (ℤ × ℚ)} (h : above v m = none) : ∀ x ∈ m, x.1 ≤ v := by
  intro x hx
  have := List.find?_eq_none.1 h x hx
  simp at this; exact this

/-- Interpolation as the code writes it, on integer inputs. -/
def dsLine (a b : ℤ × ℚ) (v : ℤ) : ℚ :=
  rne (a.2 + rne (rne (rne (b.2 - a.2) * rne ((v - a.1 : ℤ) : ℚ)) / rne ((b.1 - a.1 : ℤ) : ℚ)))
/-- The value off the listed range, from the last point `b`. -/
def dsOff (b : ℤ × ℚ) (v : ℤ) : ℚ := rne (rne (rne v + b.2) - rne b.1)

/-- Where a value lies: no map, on a listed point, left of all, right of all, between neighbours. -/
theorem dsMap_cases {m : List (ℤ × ℚ)} (h : m.Pairwise fun x y => x.1 < y.1) {v : ℤ} (hv : |v| ≤ 2 ^ 20)
    (hk : ∀ x ∈ m, |x.1| ≤ 2 ^ 20) :
    (m = [] ∧ dsMap rne m v = .ok (rne v)) ∨ (∃ x ∈ m, x.1 = v ∧ dsMap rne m v = .ok x.2) ∨
    (∃ b ∈ m, v < b.1 ∧ (∀ x ∈ m, b.1 ≤ x.1) ∧ dsMap rne m v = .ok (dsOff b v)) ∨
    (∃ a ∈ m, a.1 < v ∧ (∀ x ∈ m, x.1 ≤ a.1) ∧ dsMap rne m v = .ok (dsOff a v)) ∨
    (∃ a ∈ m, ∃ b ∈ m, a.1 < v ∧ v < b.1 ∧ (∀ x ∈ m, x.1 ≤ a.1 ∨ b.1 ≤ x.1) ∧
      dsMap rne m v = .ok (dsLine a b v)) := by
  have hs := DesignMap.sorted h
  cases hg : BMap.get? m v with
  | some o =>
    right; left
    exact ⟨(v, o), (BMap.get?_eq_some hs).1 hg, rfl, by unfold dsMap; rw [hg]⟩
  | none =>
    have hno : ∀ x ∈ m, x.1 ≠ v := by
      intro x hx e
      have := (BMap.get?_eq_some hs).2 (show (v, x.2) ∈ m by rw [← e]; exact hx)
      rw [hg] at this; simp at this
    cases hb : below v m with
    | none =>
      have h1 := below_none h hb
      cases ha : above v m with
      | none =>
        left
        have h2 := above_none ha
        refine ⟨?_, by unfold dsMap; rw [hg]; simp only; rw [hb, ha]⟩
        cases m with
        | nil => rfl
        | cons x m =>
          exact absurd (le_antisymm (h2 x (by simp)) (h1 x (by simp))) (hno x (by simp))
      | some b =>
        right; right; left
        obtain ⟨i1, i2, i3⟩ := above_some h ha
        refine ⟨b, i1, i2, fun x hx => i3 x hx (lt_of_le_of_ne (h1 x hx) (hno x hx).symm), ?_⟩
        unfold dsMap; rw [hg]; simp only; rw [hb, ha]; rfl
    | some a =>
      obtain ⟨j1, j2, j3⟩ := below_some h hb
      cases ha : above v m with
      | none =>
        right; right; right; left
        have h2 := above_none ha
        refine ⟨a, j1, j2, fun x hx => j3 x hx (lt_of_le_of_ne (h2 x hx) (hno x hx)), ?_⟩
        unfold dsMap; rw [hg]; simp only; rw [hb, ha]; rfl
      | some b =>
        right; right; right; right
        obtain ⟨i1, i2, i3⟩ := above_some h ha
        refine ⟨a, j1, b, i1, j2, i2, fun x hx => ?_, ?_⟩
        · rcases lt_or_gt_of_ne (hno x hx) with g | g
          · left; exact j3 x hx g
          · right; exact i3 x hx g
        · have k1 := abs_le.1 (hk a j1)
          have k2 := abs_le.1 (hk b i1)
          have k3 := abs_le.1 hv
          unfold dsMap; rw [hg]; simp only; rw [hb, ha]; simp only
          have e1 : subI32 v a.1 = .ok (v - a.1) := by
            unfold subI32; rw [if_pos]; constructor <;> omega
          have e2 : subI32 b.1 a.1 = .ok (b.1 - a.1) := by
            unfold subI32; rw [if_pos]; constructor <;> omega
          rw [e1, e2]; rfl

theorem rne_smallInt {n : ℤ} (h : |n| ≤ 2 ^ 22) : rne (n : ℚ) = n := rne_int n (le_trans h (by norm_num))

theorem dsOff_le {b : ℤ × ℚ} {v : ℤ} (hv : |v| ≤ 2 ^ 20) (h1 : |b.1| ≤ 2 ^ 20) (h2 : |b.2| ≤ 2 ^ 20)
    (h3 : rne b.2 = b.2) : (v < b.1 → dsOff b v ≤ b.2) ∧ (b.1 < v → b.2 ≤ dsOff b v) := by
  unfold dsOff
  rw [rne_smallInt (le_trans hv (by norm_num)), rne_smallInt (le_trans h1 (by norm_num))]
  have hv' : |(v : ℚ)| ≤ 2 ^ 20 := by exact_mod_cast hv
  obtain ⟨v1, v2⟩ := abs_le.1 hv'
  obtain ⟨w1, w2⟩ := abs_le.1 h2
  have e := rne_err (z := (v : ℚ) + b.2) (K := 2 ^ 21) (by norm_num) (by rw [abs_le]; constructor <;> linarith)
  obtain ⟨e1, e2⟩ := abs_le.1 e
  constructor
  · intro hlt
    have : (v : ℚ) + 1 ≤ b.1 := by exact_mod_cast hlt
    calc _ ≤ rne b.2 := rne_mono (by linarith)
      _ = b.2 := h3
  · intro hlt
    have : (b.1 : ℚ) + 1 ≤ v := by exact_mod_cast hlt
    calc b.2 = rne b.2 := h3.symm
      _ ≤ _ := rne_mono (by linarith)

theorem dsOff_mono (b : ℤ × ℚ) {v w : ℤ} (h : v ≤ w) : dsOff b v ≤ dsOff b w := by
  unfold dsOff
  have h' : (v : ℚ) ≤ w := by exact_mod_cast h
  have h1 := rne_mono h'
  have h2 := rne_mono (x := rne (v : ℚ) + b.2) (y := rne (w : ℚ) + b.2) (by linarith)
  exact rne_mono (by linarith)

theorem dsLine_mono {a b : ℤ × ℚ} {v w : ℤ} (h : v ≤ w) (h2 : a.2 ≤ b.2) (h1 : a.1 ≤ b.1) :
    dsLine a b v ≤ dsLine a b w := by
  unfold dsLine
  apply rne_mono
  have k : (0 : ℚ) ≤ ((b.1 - a.1 : ℤ) : ℚ) := by exact_mod_cast (by omega : 0 ≤ b.1 - a.1)
  have k2 : ((v - a.1 : ℤ) : ℚ) ≤ ((w - a.1 : ℤ) : ℚ) := by exact_mod_cast (by omega : v - a.1 ≤ w - a.1)
  have : rne (rne (rne (b.2 - a.2) * rne ((v - a.1 : ℤ) : ℚ)) / rne ((b.1 - a.1 : ℤ) : ℚ)) ≤
      rne (rne (rne (b.2 - a.2) * rne ((w - a.1 : ℤ) : ℚ)) / rne ((b.1 - a.1 : ℤ) : ℚ)) := by
    apply rne_mono
    apply div_le_div_of_nonneg_right _ (rne_nonneg k)
    apply rne_mono
    apply mul_le_mul_of_nonneg_left _ (rne_nonneg (by linarith))
    exact rne_mono k2
  linarith

theorem fine_gap {x y : ℚ} (hx : ∃ n : ℤ, x = (n : ℚ) / 65536) (hy : ∃ n : ℤ, y = (n : ℚ) / 65536) (h : x < y) :
    x + 1 / 65536 ≤ y := by
  obtain ⟨a, rfl⟩ := hx
  obtain ⟨b, rfl⟩ := hy
  have : a < b := by
    have := (div_lt_div_iff_of_pos_right (by norm_num : (0 : ℚ) < 65536)).1 h
    exact_mod_cast this
  have : (a : ℚ) + 1 ≤ b := by exact_mod_cast this
  linarith

theorem dsLine_between {a b : ℤ × ℚ} {v : ℤ} (ha : |a.1| ≤ 2 ^ 20) (hb : |b.1| ≤ 2 ^ 20)
    (hav : a.1 < v) (hvb : v < b.1) (f1 : rne a.2 = a.2) (f2 : rne b.2 = b.2) (h : a.2 ≤ b.2)
    (g1 : ∃ n : ℤ, a.2 = (n : ℚ) / 65536) (g2 : ∃ n : ℤ, b.2 = (n : ℚ) / 65536) :
    a.2 ≤ dsLine a b v ∧ dsLine a b v ≤ b.2 := by
  unfold dsLine
  obtain ⟨a1, a2⟩ := abs_le.1 ha
  obtain ⟨b1, b2⟩ := abs_le.1 hb
  rw [rne_smallInt (n := v - a.1) (by rw [abs_le]; constructor <;> omega),
    rne_smallInt (n := b.1 - a.1) (by rw [abs_le]; constructor <;> omega)]
  obtain ⟨d, hd⟩ : ∃ d : ℚ, d = ((v - a.1 : ℤ) : ℚ) := ⟨_, rfl⟩
  obtain ⟨e, he⟩ : ∃ e : ℚ, e = ((b.1 - a.1 : ℤ) : ℚ) := ⟨_, rfl⟩
  rw [← hd, ← he]
  have d1 : 1 ≤ d := by rw [hd]; exact_mod_cast (by omega : 1 ≤ v - a.1)
  have d2 : d + 1 ≤ e := by rw [hd, he]; exact_mod_cast (by omega : v - a.1 + 1 ≤ b.1 - a.1)
  have e1 : e ≤ 2 ^ 21 := by rw [he]; exact_mod_cast (by omega : b.1 - a.1 ≤ 2 ^ 21)
  have e0 : 0 < e := by linarith
  constructor
  · have : 0 ≤ rne (rne (rne (b.2 - a.2) * d) / e) :=
      rne_nonneg (div_nonneg (rne_nonneg (mul_nonneg (rne_nonneg (by linarith)) (by linarith))) (le_of_lt e0))
    calc a.2 = rne a.2 := f1.symm
      _ ≤ _ := rne_mono (by linarith)
  · rcases lt_or_eq_of_le h with hw | hw
    · have w1 := fine_gap g1 g2 hw
      obtain ⟨w, hwd⟩ : ∃ w, w = b.2 - a.2 := ⟨_, rfl⟩
      rw [← hwd]
      have w2 : 1 / 65536 ≤ w := by linarith
      have W1 := rne_le_one (x := w) (le_trans (by norm_num) w2)
      have W2 : (1 / 65536 : ℚ) ≤ rne w := by
        have := rne_mono w2
        have x := rne_exact 1 (-16) (by norm_num) (by norm_num)
        norm_num at x; norm_num at this; rw [x] at this; norm_num; exact this
      obtain ⟨W, hW⟩ : ∃ W, W = rne w := ⟨_, rfl⟩
      rw [← hW] at W1 W2 ⊢
      have Wd : (1 / 65536 : ℚ) ≤ W * d := by nlinarith
      have P1 := rne_le_one (x := W * d) (le_trans (by norm_num) Wd)
      have P2 : (1 / 65536 : ℚ) ≤ rne (W * d) := by
        have := rne_mono Wd
        have x := rne_exact 1 (-16) (by norm_num) (by norm_num)
        norm_num at x; norm_num at this; rw [x] at this; norm_num; exact this
      obtain ⟨P, hP⟩ : ∃ P, P = rne (W * d) := ⟨_, rfl⟩
      rw [← hP] at P1 P2 ⊢
      have q2 : (2 : ℚ) ^ (-126 : ℤ) ≤ P / e := by
        rw [le_div_iff₀ e0]
        have : (2 : ℚ) ^ (-126 : ℤ) * e ≤ 2 ^ (-126 : ℤ) * 2 ^ 21 := mul_le_mul_of_nonneg_left e1 (by positivity)
        refine le_trans this (le_trans ?_ P2)
        norm_num
      have Q1 := rne_le_one q2
      have de : d ≤ (1 - 1 / 2 ^ 21) * e := by linarith
      have c : P / e ≤ w * ((1 + 1 / 2 ^ 24) * (1 + 1 / 2 ^ 24) * (1 - 1 / 2 ^ 21)) := by
        rw [div_le_iff₀ e0]
        have s1 : W * d ≤ w * (1 + 1 / 2 ^ 24) * ((1 - 1 / 2 ^ 21) * e) :=
          mul_le_mul W1 de (by linarith) (by nlinarith)
        have s2 := mul_le_mul_of_nonneg_right s1 (show (0 : ℚ) ≤ 1 + 1 / 2 ^ 24 by norm_num)
        calc P ≤ _ := P1
          _ ≤ _ := s2
          _ = _ := by ring
      have Q2 : rne (P / e) ≤ w := by
        have s := mul_le_mul_of_nonneg_right c (show (0 : ℚ) ≤ 1 + 1 / 2 ^ 24 by norm_num)
        have t : w * ((1 + 1 / 2 ^ 24) * (1 + 1 / 2 ^ 24) * (1 - 1 / 2 ^ 21) * (1 + 1 / 2 ^ 24)) ≤ w * 1 :=
          mul_le_mul_of_nonneg_left (by norm_num) (by linarith)
        linarith
      calc _ ≤ rne b.2 := rne_mono (by linarith)
        _ = b.2 := f2
    · rw [← hw]; simp only [sub_self, rne_zero, zero_mul, zero_div, add_zero]
      rw [f1]

/-- With no points the map is the identity. -/
theorem C47_design_empty {v : ℤ} (hv : |v| ≤ 2 ^ 24) : dsMap rne [] v = .ok (v : ℚ) := by
  simp only [dsMap, BMap.get?, below, above, List.find?_nil]
  rw [rne_int v hv]

/-- Every listed point is sent to its listed value, whatever the map. -/
theorem C47_design_points {m : List (ℤ × ℚ)} (h : m.Pairwise fun x y => x.1 < y.1) {x : ℤ × ℚ} (hx : x ∈ m) :
    dsMap rne m x.1 = .ok x.2 := by
  unfold dsMap
  rw [(BMap.get?_eq_some (DesignMap.sorted h)).2 hx]

/-- The map answers for every value. -/
theorem C47_design_total {m : List (ℤ × ℚ)} (h : DesignMap m) {v : ℤ} (hv : |v| ≤ 2 ^ 20) :
    ∃ y, dsMap rne m v = .ok y := by
  rcases dsMap_cases h.rising hv (fun x hx => (h.small x hx).1) with
    ⟨_, e⟩ | ⟨_, _, _, e⟩ | ⟨_, _, _, _, e⟩ | ⟨_, _, _, _, e⟩ | ⟨_, _, _, _, _, _, _, e⟩ <;> exact ⟨_, e⟩

theorem DesignMap.unique {m : List (ℤ × ℚ)} (h : m.Pairwise fun x y => x.1 < y.1) {x y : ℤ × ℚ} (hx : x ∈ m)
    (hy : y ∈ m) (e : x.1 = y.1) : x = y := by
  have h1 := (BMap.get?_eq_some (DesignMap.sorted h)).2 hx
  have h2 := (BMap.get?_eq_some (DesignMap.sorted h)).2 hy
  rw [e, h2] at h1
  exact Prod.ext e (Option.some.inj h1).symm

/-- An answer never crosses the value of a listed point. -/
theorem dsMap_listed {m : List (ℤ × ℚ)} (h : DesignMap m) (hc : Climbs m) {v : ℤ} {y : ℚ} (hv : |v| ≤ 2 ^ 20)
    (hy : dsMap rne m v = .ok y) {x : ℤ × ℚ} (hx : x ∈ m) : (x.1 ≤ v → x.2 ≤ y) ∧ (v ≤ x.1 → y ≤ x.2) := by
  rcases dsMap_cases h.rising hv (fun x hx => (h.small x hx).1) with
    ⟨e0, e⟩ | ⟨z, hz, hzv, e⟩ | ⟨b, hb, hvb, hall, e⟩ | ⟨a, ha, hav, hall, e⟩ | ⟨a, ha, b, hb, h1, h2, hall, e⟩
  · rw [e0] at hx; simp at hx
  · rw [hy] at e; cases e
    exact ⟨fun g => hc x hx z hz (by omega), fun g => hc z hz x hx (by omega)⟩
  · rw [hy] at e; cases e
    have k := (dsOff_le hv (h.small b hb).1 (h.small b hb).2 (h.f32 b hb)).1 hvb
    have := hall x hx
    exact ⟨fun g => by omega, fun g => le_trans k (hc b hb x hx this)⟩
  · rw [hy] at e; cases e
    have k := (dsOff_le hv (h.small a ha).1 (h.small a ha).2 (h.f32 a ha)).2 hav
    have := hall x hx
    exact ⟨fun g => le_trans (hc x hx a ha this) k, fun g => by omega⟩
  · rw [hy] at e; cases e
    have k := dsLine_between (h.small a ha).1 (h.small b hb).1 h1 h2 (h.f32 a ha) (h.f32 b hb)
      (hc a ha b hb (by omega)) (h.fine a ha) (h.fine b hb)
    constructor
    · intro g
      rcases hall x hx with i | i
      · exact le_trans (hc x hx a ha i) k.1
      · omega
    · intro g
      rcases hall x hx with i | i
      · omega
      · exact le_trans k.2 (hc b hb x hx i)

/-- The map does not decrease when its outputs do not. -/
theorem C47_design_monotone {m : List (ℤ × ℚ)} (h : DesignMap m) (hc : Climbs m) {v w : ℤ} {y z : ℚ}
    (hv : |v| ≤ 2 ^ 20) (hw : |w| ≤ 2 ^ 20) (hvw : v ≤ w) (hy : dsMap rne m v = .ok y) (hz : dsMap rne m w = .ok z) :
    y ≤ z := by
  have hk : ∀ x ∈ m, |x.1| ≤ 2 ^ 20 := fun x hx => (h.small x hx).1
  by_cases hb : ∃ x ∈ m, v ≤ x.1 ∧ x.1 ≤ w
  · obtain ⟨x, hx, g1, g2⟩ := hb
    exact le_trans ((dsMap_listed h hc hv hy hx).2 g1) ((dsMap_listed h hc hw hz hx).1 g2)
  · have hno : ∀ x ∈ m, x.1 < v ∨ w < x.1 := by
      intro x hx
      by_contra hh
      exact hb ⟨x, hx, by omega, by omega⟩
    rcases dsMap_cases h.rising hv hk with
      ⟨e0, e⟩ | ⟨x, hx, hxv, e⟩ | ⟨b, hb1, hvb, hall, e⟩ | ⟨a, ha, hav, hall, e⟩ | ⟨a, ha, b, hb1, h1, h2, hall, e⟩
    · rw [hy] at e; cases e
      subst e0
      rcases dsMap_cases h.rising hw hk with
        ⟨_, e⟩ | ⟨x, hx, _, e⟩ | ⟨x, hx, _, _, e⟩ | ⟨x, hx, _, _, e⟩ | ⟨x, hx, _, _, _, _, _, e⟩
      · rw [hz] at e; cases e
        exact rne_mono (by exact_mod_cast hvw)
      all_goals simp at hx
    · rcases hno x hx with g | g <;> omega
    · rw [hy] at e; cases e
      have hbw : w < b.1 := by rcases hno b hb1 with g | g <;> omega
      rcases dsMap_cases h.rising hw hk with
        ⟨e0, e⟩ | ⟨x, hx, hxw, e⟩ | ⟨b', hb', hwb, hall', e⟩ | ⟨a', ha', haw, hall', e⟩ | ⟨a', ha', _, _, k, _, _, e⟩
      · subst e0; simp at hb1
      · have := hall x hx; omega
      · have : b' = b := DesignMap.unique h.rising hb' hb1 (by have := hall b' hb'; have := hall' b hb1; omega)
        rw [hz, this] at e; cases e
        exact dsOff_mono b hvw
      · have := hall a' ha'; omega
      · have := hall a' ha'; omega
    · rw [hy] at e; cases e
      rcases dsMap_cases h.rising hw hk with
        ⟨e0, e⟩ | ⟨x, hx, hxw, e⟩ | ⟨b', hb', hwb, hall', e⟩ | ⟨a', ha', haw, hall', e⟩ | ⟨_, _, b', hb', _, k, _, e⟩
      · subst e0; simp at ha
      · have := hall x hx; omega
      · have := hall b' hb'; omega
      · have : a' = a := DesignMap.unique h.rising ha' ha (by have := hall a' ha'; have := hall' a ha; omega)
        rw [hz, this] at e; cases e
        exact dsOff_mono a hvw
      · have := hall b' hb'; omega
    · rw [hy] at e; cases e
      have hbw : w < b.1 := by rcases hno b hb1 with g | g <;> omega
      rcases dsMap_cases h.rising hw hk with
        ⟨e0, e⟩ | ⟨x, hx, hxw, e⟩ | ⟨b', hb', hwb, hall', e⟩ | ⟨a', ha', haw, hall', e⟩ |
        ⟨a', ha', b', hb', k1, k2, hall', e⟩
      · subst e0; simp at hb1
      · rcases hno x hx with g | g <;> omega
      · have := hall' a ha; omega
      · have := hall' b hb1; omega
      · have i1 : a' = a := DesignMap.unique h.rising ha' ha (by
          rcases hall a' ha' with g | g <;> rcases hall' a ha with g' | g' <;> omega)
        have i2 : b' = b := DesignMap.unique h.rising hb' hb1 (by
          rcases hall b' hb' with g | g <;> rcases hall' b hb1 with g' | g' <;> omega)
        rw [hz, i1, i2] at e; cases e
        exact dsLine_mono hvw (hc a ha b hb1 (by omega)) (by omega)

/-- Left or right of all points the map runs parallel to the identity: within 2^-20 of the size of the numbers, the
answer is `v + output - input` of the nearest point. -/
theorem C47_design_outside {m : List (ℤ × ℚ)} (h : DesignMap m) {v : ℤ} (hv : |v| ≤ 2 ^ 20) {x : ℤ × ℚ} (hx : x ∈ m)
    (hout : (v < x.1 ∧ ∀ y ∈ m, x.1 ≤ y.1) ∨ (x.1 < v ∧ ∀ y ∈ m, y.1 ≤ x.1)) {B : ℚ} (hB1 : 1 ≤ B)
    (hB : |(v : ℚ)| ≤ B ∧ |(x.1 : ℚ)| ≤ B ∧ |x.2| ≤ B) {y : ℚ} (hy : dsMap rne m v = .ok y) :
    |y - (v + (x.2 - x.1))| ≤ B / 2 ^ 20 := by
  have ey : y = dsOff x v := by
    rcases dsMap_cases h.rising hv (fun x hx => (h.small x hx).1) with
      ⟨e0, e⟩ | ⟨z, hz, hzv, e⟩ | ⟨b, hb, hvb, hall, e⟩ | ⟨a, ha, hav, hall, e⟩ | ⟨a, ha, b, hb, h1, h2, hall, e⟩
    · subst e0; simp at hx
    · rcases hout with ⟨g1, g2⟩ | ⟨g1, g2⟩ <;> have := g2 z hz <;> omega
    · rw [hy] at e; cases e
      rcases hout with ⟨g1, g2⟩ | ⟨g1, g2⟩
      · rw [DesignMap.unique h.rising hx hb (by have := g2 b hb; have := hall x hx; omega)]
      · have := g2 b hb; omega
    · rw [hy] at e; cases e
      rcases hout with ⟨g1, g2⟩ | ⟨g1, g2⟩
      · have := g2 a ha; omega
      · rw [DesignMap.unique h.rising hx ha (by have := g2 a ha; have := hall x hx; omega)]
    · rcases hout with ⟨g1, g2⟩ | ⟨g1, g2⟩
      · have := g2 a ha; omega
      · have := g2 b hb; omega
  rw [ey]; unfold dsOff
  rw [rne_smallInt (le_trans hv (by norm_num)), rne_smallInt (le_trans (h.small x hx).1 (by norm_num))]
  obtain ⟨⟨v1, v2⟩, ⟨x1, x2⟩, ⟨o1, o2⟩⟩ := (⟨abs_le.1 hB.1, abs_le.1 hB.2.1, abs_le.1 hB.2.2⟩ :
    (-B ≤ (v : ℚ) ∧ (v : ℚ) ≤ B) ∧ (-B ≤ (x.1 : ℚ) ∧ (x.1 : ℚ) ≤ B) ∧ (-B ≤ x.2 ∧ x.2 ≤ B))
  have hb : (2 : ℚ) ^ (-126 : ℤ) ≤ B := le_trans (by norm_num) hB1
  have e1 := rne_err (z := (v : ℚ) + x.2) (K := 2 * B) (by linarith) (by rw [abs_le]; constructor <;> linarith)
  obtain ⟨p1, p2⟩ := abs_le.1 e1
  have e2 := rne_err (z := rne ((v : ℚ) + x.2) - x.1) (K := 4 * B) (by linarith)
    (by rw [abs_le]; constructor <;> linarith)
  obtain ⟨q1, q2⟩ := abs_le.1 e2
  rw [abs_le]; constructor <;> linarith

/-- Between neighbouring points the map runs along the line through them: within 2^-20 of the size of the outputs. -/
theorem C47_design_line {m : List (ℤ × ℚ)} (h : DesignMap m) {v : ℤ} (hv : |v| ≤ 2 ^ 20) {a b : ℤ × ℚ} (ha : a ∈ m)
    (hb : b ∈ m) (hnext : ∀ x ∈ m, x.1 ≤ a.1 ∨ b.1 ≤ x.1) (h1 : a.1 < v) (h2 : v < b.1) {B : ℚ} (hB1 : 1 ≤ B)
    (hB : |a.2| ≤ B ∧ |b.2| ≤ B) {y : ℚ} (hy : dsMap rne m v = .ok y) :
    |y - (a.2 + (b.2 - a.2) * (((v - a.1 : ℤ) : ℚ) / ((b.1 - a.1 : ℤ) : ℚ)))| ≤ B / 2 ^ 20 := by
  have ey : y = dsLine a b v := by
    rcases dsMap_cases h.rising hv (fun x hx => (h.small x hx).1) with
      ⟨e0, e⟩ | ⟨z, hz, hzv, e⟩ | ⟨c, hc, hvc, hall, e⟩ | ⟨c, hc, hcv, hall, e⟩ | ⟨c, hc, d, hd, k1, k2, hall, e⟩
    · subst e0; simp at ha
    · rcases hnext z hz with g | g <;> omega
    · have := hall a ha; omega
    · have := hall b hb; omega
    · have i1 : c = a := DesignMap.unique h.rising hc ha (by
        rcases hall a ha with g | g <;> rcases hnext c hc with g' | g' <;> omega)
      have i2 : d = b := DesignMap.unique h.rising hd hb (by
        rcases hall b hb with g | g <;> rcases hnext d hd with g' | g' <;> omega)
      rw [hy, i1, i2] at e; cases e; rfl
  rw [ey]; unfold dsLine
  obtain ⟨a1, a2⟩ := abs_le.1 (h.small a ha).1
  obtain ⟨b1, b2⟩ := abs_le.1 (h.small b hb).1
  rw [rne_smallInt (n := v - a.1) (by rw [abs_le]; constructor <;> omega),
    rne_smallInt (n := b.1 - a.1) (by rw [abs_le]; constructor <;> omega)]
  obtain ⟨d, hd⟩ : ∃ d : ℚ, d = ((v - a.1 : ℤ) : ℚ) := ⟨_, rfl⟩
  obtain ⟨e, he⟩ : ∃ e : ℚ, e = ((b.1 - a.1 : ℤ) : ℚ) := ⟨_, rfl⟩
  rw [← hd, ← he]
  have d1 : 1 ≤ d := by rw [hd]; exact_mod_cast (by omega : 1 ≤ v - a.1)
  have d2 : d + 1 ≤ e := by rw [hd, he]; exact_mod_cast (by omega : v - a.1 + 1 ≤ b.1 - a.1)
  have e0 : 0 < e := by linarith
  obtain ⟨⟨x1, x2⟩, ⟨o1, o2⟩⟩ := (⟨abs_le.1 hB.1, abs_le.1 hB.2⟩ : (-B ≤ a.2 ∧ a.2 ≤ B) ∧ (-B ≤ b.2 ∧ b.2 ≤ B))
  have hb' : (2 : ℚ) ^ (-126 : ℤ) ≤ B := le_trans (by norm_num) hB1
  obtain ⟨w, hw⟩ : ∃ w, w = b.2 - a.2 := ⟨_, rfl⟩
  rw [← hw]
  have wB : |w| ≤ 2 * B := by rw [hw, abs_le]; constructor <;> linarith
  obtain ⟨W, hW⟩ : ∃ W, W = rne w := ⟨_, rfl⟩
  rw [← hW]
  have r1 : |W - w| ≤ 2 * B / 2 ^ 24 := by rw [hW]; exact rne_err (by linarith) wB
  obtain ⟨r1a, r1b⟩ := abs_le.1 r1
  obtain ⟨w1, w2⟩ := abs_le.1 wB
  have WB : |W| ≤ 3 * B := by rw [abs_le]; constructor <;> linarith
  have WdB : |W * d| ≤ 3 * B * d := by
    rw [abs_mul, abs_of_nonneg (show (0 : ℚ) ≤ d by linarith)]
    exact mul_le_mul_of_nonneg_right WB (by linarith)
  obtain ⟨P, hP⟩ : ∃ P, P = rne (W * d) := ⟨_, rfl⟩
  rw [← hP]
  have r2 : |P - W * d| ≤ 3 * B * d / 2 ^ 24 := by
    rw [hP]; exact rne_err (by nlinarith) WdB
  obtain ⟨t, ht⟩ : ∃ t, t = d / e := ⟨_, rfl⟩
  have t0 : 0 ≤ t := by rw [ht]; apply div_nonneg <;> linarith
  have t1 : t ≤ 1 := by rw [ht, div_le_one e0]; linarith
  have r3 : |P / e - W * t| ≤ 3 * B / 2 ^ 24 := by
    have x : P / e - W * t = (P - W * d) / e := by rw [ht]; ring
    rw [x, abs_div, abs_of_pos e0, div_le_iff₀ e0]
    refine le_trans r2 ?_
    have : 3 * B * d / 2 ^ 24 ≤ 3 * B * e / 2 ^ 24 :=
      div_le_div_of_nonneg_right (mul_le_mul_of_nonneg_left (by linarith) (by linarith)) (by norm_num)
    linarith
  have r4 : |W * t - w * t| ≤ 2 * B / 2 ^ 24 := by
    rw [← sub_mul, abs_mul, abs_of_nonneg t0]
    calc |W - w| * t ≤ |W - w| * 1 := mul_le_mul_of_nonneg_left t1 (abs_nonneg _)
      _ ≤ _ := by rw [mul_one]; exact r1
  have wt : |w * t| ≤ 2 * B := by
    rw [abs_mul, abs_of_nonneg t0]
    calc |w| * t ≤ |w| * 1 := mul_le_mul_of_nonneg_left t1 (abs_nonneg _)
      _ ≤ _ := by rw [mul_one]; exact wB
  obtain ⟨r3a, r3b⟩ := abs_le.1 r3
  obtain ⟨r4a, r4b⟩ := abs_le.1 r4
  obtain ⟨wt1, wt2⟩ := abs_le.1 wt
  rw [← ht]
  have r5 := rne_err (z := P / e) (K := 3 * B) (by linarith) (by rw [abs_le]; constructor <;> linarith)
  obtain ⟨r5a, r5b⟩ := abs_le.1 r5
  have r6 := rne_err (z := a.2 + rne (P / e)) (K := 4 * B) (by linarith) (by rw [abs_le]; constructor <;> linarith)
  obtain ⟨r6a, r6b⟩ := abs_le.1 r6
  rw [abs_le]; constructor <;> linarith

/-! ### The maps of an axis -/

/-- A whole number survives the conversion to an `i32` key. -/
theorem toInt_int {n : ℤ} (h : |n| < 2 ^ 31) : toInt (n : ℚ) = n := by
  obtain ⟨h1, h2⟩ := abs_lt.1 h
  unfold toInt
  rw [truncQ_int]
  unfold F32.toI32
  omega

theorem get?_collect_last {κ α : Type} [DecidableEq κ] [Key κ] (k : κ) (v : α) : ∀ (l m : List (κ × α)),
    (∀ y ∈ l, y.1 = k → y.2 = v) → ((∃ y ∈ l, y.1 = k) ∨ BMap.get? m k = some v) →
    BMap.get? (l.foldl (fun m x => BMap.insert m x.1 x.2) m) k = some v
  | [], m, _, h => by
    rcases h with ⟨y, hy, _⟩ | h
    · simp at hy
    · exact h
  | x :: l, m, h1, h2 => by
    simp only [List.foldl_cons]
    apply get?_collect_last k v l _ fun y hy => h1 y (List.mem_cons_of_mem _ hy)
    by_cases hx : x.1 = k
    · right
      have := h1 x (by simp) hx
      rw [← hx, ← this]; exact BMap.get?_insert_self _ _
    · rcases h2 with ⟨y, hy, e⟩ | h
      · rcases List.mem_cons.1 hy with e' | e'
        · rw [e'] at e; exact absurd e hx
        · left; exact ⟨y, e', e⟩
      · right; rw [BMap.get?_insert_ne _ (Ne.symm hx)]; exact h

/-- Both directions of an axis map are exact on the listed points with whole-number coordinates: in user space, if no
other point has the same input up to truncation. -/
theorem C47_axis_to_design (ax : Axis) {m : List (ℚ × ℚ)} (hm : ax.map = some m) {n : ℤ} {o : ℚ} (hn : |n| < 2 ^ 31)
    (hx : ((n : ℚ), o) ∈ m) (huniq : ∀ y ∈ m, toInt y.1 = n → y.2 = o) : toDesign rne ax n = .ok o := by
  unfold toDesign; rw [hm]; simp only
  unfold dsMap
  rw [show BMap.get? (BMap.collect (m.map fun x => (toInt x.1, x.2))) n = some o from ?_]
  unfold BMap.collect
  apply get?_collect_last n o
  · intro y hy e
    obtain ⟨z, hz, rfl⟩ := List.mem_map.1 hy
    exact huniq z hz e
  · left
    exact ⟨(toInt n, o), List.mem_map.2 ⟨_, hx, rfl⟩, toInt_int hn⟩

theorem C47_axis_to_user (ax : Axis) {m : List (ℚ × ℚ)} (hm : ax.map = some m) {n : ℤ} {u : ℚ} (hn : |n| < 2 ^ 31)
    (hx : (u, (n : ℚ)) ∈ m) (huniq : ∀ y ∈ m, toInt y.2 = n → y.1 = u) : toUser rne ax n = .ok u := by
  unfold toUser; rw [hm]; simp only
  unfold dsMap
  rw [show BMap.get? (BMap.collect (m.map fun x => (toInt x.2, x.1))) n = some u from ?_]
  unfold BMap.collect
  apply get?_collect_last n u
  · intro y hy e
    obtain ⟨z, hz, rfl⟩ := List.mem_map.1 hy
    exact huniq z hz e
  · left
    exact ⟨(toInt n, u), List.mem_map.2 ⟨_, hx, rfl⟩, toInt_int hn⟩

/-- Fractions of an input are cut off: of the points (62.25, 1) and (62.75, 9) only the later survives, and the user value
62 is sent to 9. -/
theorem C47_fraction_lost (rd : ℚ → ℚ) :
    toDesign rd ⟨0, 0, 100, some [(249 / 4, 1), (251 / 4, 9)]⟩ 62 = .ok 9 := by
  unfold toDesign; simp only
  unfold dsMap
  have : BMap.get? (BMap.collect (([(249 / 4, 1), (251 / 4, 9)] : List (ℚ × ℚ)).map fun x => (toInt x.1, x.2))) 62 =
      some 9 := by decide +kernel
  rw [this]

/-- A map meeting `DesignMap` and `Climbs`. -/
example : DesignMap [(100, 20), (400, 53 / 2), (900, 190)] ∧ Climbs [(100, 20), (400, 53 / 2), (900, 190)] := by
  refine ⟨⟨by decide, by decide +kernel, ?_, ?_⟩, by unfold Climbs; decide +kernel⟩
  · intro x hx
    simp only [List.mem_cons, List.not_mem_nil, or_false] at hx
    rcases hx with rfl | rfl | rfl
    · exact rne_int 20 (by norm_num)
    · have := rne_exact 53 (-1) (by norm_num) (by norm_num)
      norm_num at this; exact this
    · exact rne_int 190 (by norm_num)
  · intro x hx
    simp only [List.mem_cons, List.not_mem_nil, or_false] at hx
    rcases hx with rfl | rfl | rfl
    · exact ⟨1310720, by norm_num⟩
    · exact ⟨1736704, by norm_num⟩
    · exact ⟨12451840, by norm_num⟩

example : ((400 : ℚ), (53 / 2 : ℚ)) ∈ [((100 : ℚ), (20 : ℚ)), (400, 53 / 2), (900, 190)] ∧
    ∀ y ∈ [((100 : ℚ), (20 : ℚ)), (400, 53 / 2), (900, 190)], toInt y.1 = 400 → y.2 = 53 / 2 := by decide +kernel

end FT.Props
