import Verif.Model.AxisMaps
import Verif.Props.Support
import Verif.Props.IupSegment

/-!
C47, first half: `avar` segment maps (`SegmentMap::piecewise_linear_map`), in the `f32` arithmetic of the code, for
coordinates that are F2DOT14 values.
-/

namespace FT.Props
open FT FT.Var FT.AxisMaps FT.F32

/-- A segment map as the OpenType specification wants it: `from` coordinates strictly increasing within [-1, 1], `to`
coordinates not decreasing, the two ends present. All coordinates are F2DOT14 values. -/
structure AvarMap (m : List (ℚ × ℚ)) : Prop where
  rising : m.Pairwise fun x y => x.1 < y.1 ∧ x.2 ≤ y.2
  left : ((-1 : ℚ), (-1 : ℚ)) ∈ m
  right : ((1 : ℚ), (1 : ℚ)) ∈ m
  within : ∀ x ∈ m, -1 ≤ x.1 ∧ x.1 ≤ 1
  grid : ∀ x ∈ m, OnGrid x.1 ∧ OnGrid x.2

/-- `a` and `b` are listed one after the other. -/
def Adjacent (m : List (ℚ × ℚ)) (a b : ℚ × ℚ) : Prop := ∃ l r, m = l ++ a :: b :: r

theorem segBetween_at (rd : ℚ → ℚ) (v : ℚ) (a b : ℚ × ℚ) (r : List (ℚ × ℚ)) (ha : a.1 ≤ v) (hb : v < b.1) :
    ∀ (l : List (ℚ × ℚ)) (prev : Option (ℚ × ℚ)), (∀ x ∈ l, x.1 ≤ v) →
    segBetween rd v prev (l ++ a :: b :: r) = .ok (lerp rd a.1 a.2 b.1 b.2 v)
  | [], prev, _ => by
    simp only [List.nil_append, segBetween]
    rw [if_neg (by linarith), if_pos hb]
  | x :: l, prev, h => by
    simp only [List.cons_append, segBetween]
    rw [if_neg (by have := h x (by simp); linarith)]
    exact segBetween_at rd v a b r ha hb l _ fun y hy => h y (List.mem_cons_of_mem _ hy)

theorem gap_exists (v : ℚ) : ∀ (x : ℚ × ℚ) (m : List (ℚ × ℚ)), x.1 ≤ v → (∃ y ∈ x :: m, v < y.1) →
    ∃ l a b r, x :: m = l ++ a :: b :: r ∧ (∀ z ∈ l, z.1 ≤ v) ∧ a.1 ≤ v ∧ v < b.1
  | x, [], hx, ⟨y, hy, h⟩ => by
    simp only [List.mem_singleton] at hy
    subst hy; linarith
  | x, y :: m, hx, ⟨z, hz, h⟩ => by
    by_cases hy : v < y.1
    · exact ⟨[], x, y, m, rfl, by simp, hx, hy⟩
    · have hz' : z ∈ y :: m := by
        rcases List.mem_cons.1 hz with e | e
        · subst e; linarith
        · exact e
      obtain ⟨l, a, b, r, e, hl, ha, hb⟩ := gap_exists v y m (not_lt.1 hy) ⟨z, hz', h⟩
      refine ⟨x :: l, a, b, r, by rw [e]; rfl, ?_, ha, hb⟩
      intro w hw
      rcases List.mem_cons.1 hw with e | e
      · rw [e]; exact hx
      · exact hl w e

theorem AvarMap.first {m : List (ℚ × ℚ)} (h : AvarMap m) : ∃ t, m = (-1, -1) :: t := by
  cases m with
  | nil => exact absurd h.left (by simp)
  | cons x t =>
    rcases List.mem_cons.1 h.left with e | e
    · exact ⟨t, by rw [e]⟩
    · have h1 := ((List.pairwise_cons.1 h.rising).1 _ e).1
      have h2 := (h.within x (by simp)).1
      simp only at h1; linarith

/-- Listed points have different `from` coordinates. -/
theorem AvarMap.unique {m : List (ℚ × ℚ)} (h : AvarMap m) {x y : ℚ × ℚ} (hx : x ∈ m) (hy : y ∈ m) (e : x.1 = y.1) :
    x = y := by
  have : ∀ (l : List (ℚ × ℚ)), (l.Pairwise fun x y => x.1 < y.1 ∧ x.2 ≤ y.2) → x ∈ l → y ∈ l → x = y := by
    intro l
    induction l with
    | nil => intro _ hx; simp at hx
    | cons z l ih =>
      intro hp hx hy
      obtain ⟨h1, h2⟩ := List.pairwise_cons.1 hp
      rcases List.mem_cons.1 hx with ex | ex <;> rcases List.mem_cons.1 hy with ey | ey
      · rw [ex, ey]
      · have := (h1 y ey).1; rw [← ex] at this; linarith
      · have := (h1 x ex).1; rw [← ey] at this; linarith
      · exact ih h2 ex ey
  exact this m h.rising hx hy

/-- Of two listed points the one with the smaller `from` has the smaller `to`. -/
theorem AvarMap.mono {m : List (ℚ × ℚ)} (h : AvarMap m) {x y : ℚ × ℚ} (hx : x ∈ m) (hy : y ∈ m) (e : x.1 ≤ y.1) :
    x.2 ≤ y.2 := by
  have : ∀ (l : List (ℚ × ℚ)), (l.Pairwise fun x y => x.1 < y.1 ∧ x.2 ≤ y.2) → x ∈ l → y ∈ l → x.2 ≤ y.2 := by
    intro l
    induction l with
    | nil => intro _ hx; simp at hx
    | cons z l ih =>
      intro hp hx hy
      obtain ⟨h1, h2⟩ := List.pairwise_cons.1 hp
      rcases List.mem_cons.1 hx with ex | ex <;> rcases List.mem_cons.1 hy with ey | ey
      · rw [ex, ey]
      · rw [ex]; exact (h1 y ey).2
      · have := (h1 x ex).1; rw [← ey] at this; linarith
      · exact ih h2 ex ey
  exact this m h.rising hx hy

theorem adjacent_mem {m : List (ℚ × ℚ)} {a b : ℚ × ℚ} (h : Adjacent m a b) : a ∈ m ∧ b ∈ m := by
  obtain ⟨l, r, rfl⟩ := h
  simp

/-- Nothing is listed strictly between neighbours. -/
theorem AvarMap.gap {m : List (ℚ × ℚ)} (h : AvarMap m) {a b x : ℚ × ℚ} (hab : Adjacent m a b) (hx : x ∈ m) :
    x.1 ≤ a.1 ∨ b.1 ≤ x.1 := by
  obtain ⟨l, r, rfl⟩ := hab
  have hp := h.rising
  rw [List.pairwise_append] at hp
  obtain ⟨_, h2, h3⟩ := hp
  obtain ⟨h4, h5⟩ := List.pairwise_cons.1 h2
  obtain ⟨h6, _⟩ := List.pairwise_cons.1 h5
  simp only [List.mem_append, List.mem_cons] at hx
  rcases hx with e | e | e | e
  · left; exact le_of_lt (h3 x e a (by simp)).1
  · left; rw [e]
  · right; rw [e]
  · right; exact le_of_lt (h6 x e).1

theorem AvarMap.adjacent_lt {m : List (ℚ × ℚ)} (h : AvarMap m) {a b : ℚ × ℚ} (hab : Adjacent m a b) :
    a.1 < b.1 ∧ a.2 ≤ b.2 := by
  obtain ⟨l, r, rfl⟩ := hab
  have hp := h.rising
  rw [List.pairwise_append] at hp
  exact (List.pairwise_cons.1 hp.2.1).1 b (by simp)

theorem gridPair {x y : ℚ} (hx : OnGrid x) (hy : OnGrid y) (h : x < y) : x + 1 / 16384 ≤ y := by
  obtain ⟨a, _, _, rfl⟩ := hx
  obtain ⟨b, _, _, rfl⟩ := hy
  have : a < b := by
    have := (div_lt_div_iff_of_pos_right (by norm_num : (0 : ℚ) < 16384)).1 h
    exact_mod_cast this
  have : (a : ℚ) + 1 ≤ b := by exact_mod_cast this
  linarith

theorem grid_zero : OnGrid 0 := ⟨0, by norm_num, by norm_num, by norm_num⟩
theorem grid_bound {x : ℚ} (h : OnGrid x) : |x| ≤ 2 := by
  obtain ⟨a, h1, h2, rfl⟩ := h
  have h1' : (-32768 : ℚ) ≤ a := by exact_mod_cast h1
  have h2' : (a : ℚ) ≤ 32767 := by exact_mod_cast h2
  rw [abs_le]; constructor <;> linarith

/-- The search for a listed point: on F2DOT14 values the tolerance of the code finds exactly the equal one. -/
theorem find_grid {m : List (ℚ × ℚ)} (h : ∀ x ∈ m, OnGrid x.1) {v : ℚ} (hv : OnGrid v) :
    m.find? (fun x => decide (|rne (x.1 - v)| < eps)) = m.find? fun x => decide (x.1 = v) := by
  induction m with
  | nil => rfl
  | cons x m ih =>
    have hx := h x (by simp)
    have e : decide (|rne (x.1 - v)| < eps) = decide (x.1 = v) := by
      rw [rne_grid_sub hx hv]
      rcases grid_far hx hv with e | e
      · simp [e, eps]
      · have : x.1 ≠ v := by
          intro hh; rw [hh] at e; simp [eps] at e; norm_num at e
        simp [this, e]
    simp only [List.find?_cons, e]
    rw [ih fun y hy => h y (List.mem_cons_of_mem _ hy)]

/-- Where a value lies: outside, on a listed point, or strictly between neighbours. -/
theorem segMap_cases {m : List (ℚ × ℚ)} (h : AvarMap m) {v : ℚ} (hv : OnGrid v) :
    (v ≤ -1 ∧ segMap rne m v = .ok (-1)) ∨ (1 ≤ v ∧ segMap rne m v = .ok 1) ∨
    (-1 < v ∧ v < 1 ∧ ∃ x ∈ m, x.1 = v ∧ segMap rne m v = .ok x.2) ∨
    (∃ a b, Adjacent m a b ∧ a.1 < v ∧ v < b.1 ∧ segMap rne m v = .ok (lerp rne a.1 a.2 b.1 b.2 v)) := by
  by_cases h1 : v ≤ -1
  · left; exact ⟨h1, by unfold segMap; rw [if_pos h1]⟩
  · by_cases h2 : v ≥ 1
    · right; left; exact ⟨h2, by unfold segMap; rw [if_neg h1, if_pos h2]⟩
    · right; right
      have hs : segMap rne m v = match m.find? fun x => decide (x.1 = v) with
          | some x => .ok x.2
          | none => segBetween rne v none m := by
        unfold segMap; rw [if_neg h1, if_neg h2, find_grid (fun x hx => (h.grid x hx).1) hv]; rfl
      cases hf : m.find? fun x => decide (x.1 = v) with
      | some x =>
        left
        have hm := List.mem_of_find?_eq_some hf
        have he := List.find?_some hf
        simp only [decide_eq_true_eq] at he
        exact ⟨not_le.1 h1, not_le.1 h2, x, hm, he, by rw [hs, hf]⟩
      | none =>
        right
        obtain ⟨t, ht⟩ := h.first
        obtain ⟨l, a, b, r, e, hl, ha, hb⟩ := gap_exists v (-1, -1) t (le_of_lt (not_le.1 h1))
          ⟨(1, 1), by rw [← ht]; exact h.right, not_le.1 h2⟩
        rw [← ht] at e
        refine ⟨a, b, ⟨l, r, e⟩, lt_of_le_of_ne ha ?_, hb, ?_⟩
        · intro hh
          have := List.find?_eq_none.1 hf a (by rw [e]; simp)
          simp [hh] at this
        · rw [hs, hf]; simp only
          rw [e]; exact segBetween_at rne v a b r ha hb l none hl

theorem rne_le_one {x : ℚ} (h : (2 : ℚ) ^ (-126 : ℤ) ≤ x) : rne x ≤ x * (1 + 1 / 2 ^ 24) := by
  have h0 : 0 < x := lt_of_lt_of_le (two_zpow_pos _) h
  have := rne_rel (x := x) (by rw [abs_of_pos h0]; exact h)
  rw [abs_of_pos h0] at this
  have := (abs_le.1 this).2
  linarith

theorem grid_f32 {x : ℚ} (h : OnGrid x) : rne x = x := by
  have := rne_grid_sub h grid_zero
  simpa using this

/-- Interpolated values stay between the values of the neighbours. -/
theorem lerp_between {a va b vb v : ℚ} (ga : OnGrid a) (gva : OnGrid va) (gb : OnGrid b) (gvb : OnGrid vb)
    (gv : OnGrid v) (h1 : a ≤ v) (h2 : v < b) (h3 : va ≤ vb) :
    va ≤ lerp rne a va b vb v ∧ lerp rne a va b vb v ≤ vb := by
  unfold lerp
  rw [rne_grid_sub gvb gva, rne_grid_sub gv ga, rne_grid_sub gb ga]
  have hd : 0 < b - a := by linarith
  constructor
  · have : 0 ≤ rne (rne ((vb - va) * (v - a)) / (b - a)) :=
      rne_nonneg (div_nonneg (rne_nonneg (mul_nonneg (by linarith) (by linarith))) (le_of_lt hd))
    calc va = rne va := (grid_f32 gva).symm
      _ ≤ _ := rne_mono (by linarith)
  · rcases lt_or_eq_of_le h3 with hw | hw
    · rcases lt_or_eq_of_le h1 with hv | hv
      · have w1 := gridPair gva gvb hw
        have v1 := gridPair ga gv hv
        have v2 := gridPair gv gb h2
        have hb4 : b - a ≤ 4 := by
          have := abs_le.1 (grid_bound ga); have := abs_le.1 (grid_bound gb); linarith
        have hp : (2 : ℚ) ^ (-126 : ℤ) ≤ (vb - va) * (v - a) := by
          have : (1 / 16384 : ℚ) * (1 / 16384) ≤ (vb - va) * (v - a) := by
            apply mul_le_mul <;> linarith
          refine le_trans ?_ this
          norm_num
        have h4 := rne_le_one hp
        have hq0 : (2 : ℚ) ^ (-100 : ℤ) ≤ rne ((vb - va) * (v - a)) := by
          have := rne_mono (x := 2 ^ (-100 : ℤ)) (y := (vb - va) * (v - a)) (by
            refine le_trans ?_ (mul_le_mul (show (1 / 16384 : ℚ) ≤ vb - va by linarith)
              (show (1 / 16384 : ℚ) ≤ v - a by linarith) (by norm_num) (by linarith))
            norm_num)
          have e := rne_exact 1 (-100) (by norm_num) (by norm_num)
          simp only [Int.cast_one, one_mul] at e
          rwa [e] at this
        have hq : (2 : ℚ) ^ (-126 : ℤ) ≤ rne ((vb - va) * (v - a)) / (b - a) := by
          rw [le_div_iff₀ hd]
          refine le_trans ?_ hq0
          have : (2 : ℚ) ^ (-126 : ℤ) * (b - a) ≤ 2 ^ (-126 : ℤ) * 4 := by
            apply mul_le_mul_of_nonneg_left hb4; positivity
          refine le_trans this ?_
          norm_num
        have h5 := rne_le_one hq
        have h6 : rne ((vb - va) * (v - a)) / (b - a) ≤ (vb - va) * (1 - 1 / 65536) * (1 + 1 / 2 ^ 24) := by
          rw [div_le_iff₀ hd]
          refine le_trans h4 ?_
          have : (vb - va) * (v - a) ≤ (vb - va) * ((1 - 1 / 65536) * (b - a)) := by
            apply mul_le_mul_of_nonneg_left _ (by linarith)
            linarith
          nlinarith
        have h7 : rne (rne ((vb - va) * (v - a)) / (b - a)) ≤ vb - va := by
          refine le_trans h5 (le_trans (mul_le_mul_of_nonneg_right h6 (by norm_num)) ?_)
          have : (vb - va) * (1 - 1 / 65536) * (1 + 1 / 2 ^ 24) * (1 + 1 / 2 ^ 24) =
            (vb - va) * ((1 - 1 / 65536) * (1 + 1 / 2 ^ 24) * (1 + 1 / 2 ^ 24)) := by ring
          rw [this]
          have : (vb - va) * ((1 - 1 / 65536) * (1 + 1 / 2 ^ 24) * (1 + 1 / 2 ^ 24)) ≤ (vb - va) * 1 :=
            mul_le_mul_of_nonneg_left (by norm_num) (by linarith)
          linarith
        calc _ ≤ rne vb := rne_mono (by linarith)
          _ = vb := grid_f32 gvb
      · subst hv
        simp only [sub_self, mul_zero, rne_zero, zero_div, add_zero]
        rw [grid_f32 gva]; exact h3
    · subst hw
      simp only [sub_self, zero_mul, rne_zero, zero_div, add_zero]
      rw [grid_f32 gva]

/-- Within a gap interpolation does not decrease. -/
theorem lerp_mono {a va b vb v w : ℚ} (h : v ≤ w) (h3 : va ≤ vb) (h4 : a ≤ b) :
    lerp rne a va b vb v ≤ lerp rne a va b vb w := by
  unfold lerp
  apply rne_mono
  have : rne (rne (rne (vb - va) * rne (v - a)) / rne (b - a)) ≤
      rne (rne (rne (vb - va) * rne (w - a)) / rne (b - a)) := by
    apply rne_mono
    apply div_le_div_of_nonneg_right _ (rne_nonneg (by linarith))
    apply rne_mono
    apply mul_le_mul_of_nonneg_left _ (rne_nonneg (by linarith))
    apply rne_mono; linarith
  linarith

/-- The map answers for every value, and every answer lies in [-1, 1]. -/
theorem C47_segment_total {m : List (ℚ × ℚ)} (h : AvarMap m) {v : ℚ} (hv : OnGrid v) :
    ∃ y, segMap rne m v = .ok y ∧ -1 ≤ y ∧ y ≤ 1 := by
  have lo : ∀ x ∈ m, (-1 : ℚ) ≤ x.2 := fun x hx => h.mono h.left hx (h.within x hx).1
  have hi : ∀ x ∈ m, x.2 ≤ (1 : ℚ) := fun x hx => h.mono hx h.right (h.within x hx).2
  rcases segMap_cases h hv with ⟨_, e⟩ | ⟨_, e⟩ | ⟨_, _, x, hx, _, e⟩ | ⟨a, b, hab, h1, h2, e⟩
  · exact ⟨_, e, by norm_num, by norm_num⟩
  · exact ⟨_, e, by norm_num, by norm_num⟩
  · exact ⟨_, e, lo x hx, hi x hx⟩
  · obtain ⟨ha, hb⟩ := adjacent_mem hab
    have := lerp_between (h.grid a ha).1 (h.grid a ha).2 (h.grid b hb).1 (h.grid b hb).2 hv (le_of_lt h1) h2
      (h.adjacent_lt hab).2
    exact ⟨_, e, le_trans (lo a ha) this.1, le_trans this.2 (hi b hb)⟩

/-- Every listed point is sent to its listed value, exactly. -/
theorem C47_segment_points {m : List (ℚ × ℚ)} (h : AvarMap m) {x : ℚ × ℚ} (hx : x ∈ m) :
    segMap rne m x.1 = .ok x.2 := by
  rcases segMap_cases h (h.grid x hx).1 with ⟨h1, e⟩ | ⟨h1, e⟩ | ⟨_, _, y, hy, h1, e⟩ | ⟨a, b, hab, h1, h2, _⟩
  · have : x = (-1, -1) := h.unique hx h.left (le_antisymm h1 (h.within x hx).1)
    rw [e, this]
  · have : x = (1, 1) := h.unique hx h.right (le_antisymm (h.within x hx).2 h1)
    rw [e, this]
  · rw [e, h.unique hy hx h1]
  · rcases h.gap hab hx with g | g <;> linarith

/-- An answer never crosses the value of a listed point. -/
theorem segMap_listed {m : List (ℚ × ℚ)} (h : AvarMap m) {v y : ℚ} (hv : OnGrid v) (hy : segMap rne m v = .ok y)
    {x : ℚ × ℚ} (hx : x ∈ m) : (x.1 ≤ v → x.2 ≤ y) ∧ (v ≤ x.1 → y ≤ x.2) := by
  rcases segMap_cases h hv with ⟨h1, e⟩ | ⟨h1, e⟩ | ⟨_, _, z, hz, h1, e⟩ | ⟨a, b, hab, h1, h2, e⟩
  · rw [hy] at e; cases e
    exact ⟨fun g => h.mono hx h.left (by simp only; linarith), fun _ => h.mono h.left hx (h.within x hx).1⟩
  · rw [hy] at e; cases e
    exact ⟨fun _ => h.mono hx h.right (h.within x hx).2, fun g => h.mono h.right hx (by simp only; linarith)⟩
  · rw [hy] at e; cases e
    exact ⟨fun g => h.mono hx hz (by linarith), fun g => h.mono hz hx (by linarith)⟩
  · rw [hy] at e; cases e
    obtain ⟨ha, hb⟩ := adjacent_mem hab
    have := lerp_between (h.grid a ha).1 (h.grid a ha).2 (h.grid b hb).1 (h.grid b hb).2 hv (le_of_lt h1) h2
      (h.adjacent_lt hab).2
    constructor
    · intro g
      rcases h.gap hab hx with k | k
      · exact le_trans (h.mono hx ha k) this.1
      · linarith
    · intro g
      rcases h.gap hab hx with k | k
      · linarith
      · exact le_trans this.2 (h.mono hb hx k)

/-- The map does not decrease. -/
theorem C47_segment_monotone {m : List (ℚ × ℚ)} (h : AvarMap m) {v w y z : ℚ} (hv : OnGrid v) (hw : OnGrid w)
    (hvw : v ≤ w) (hy : segMap rne m v = .ok y) (hz : segMap rne m w = .ok z) : y ≤ z := by
  rcases segMap_cases h hv with ⟨h1, e⟩ | ⟨h1, e⟩ | ⟨_, _, x, hx, h1, e⟩ | ⟨a, b, hab, h1, h2, e⟩
  · rw [hy] at e; cases e
    obtain ⟨z', e', g, _⟩ := C47_segment_total h hw
    rw [hz] at e'; cases e'; exact g
  · rw [hy] at e; cases e
    exact (segMap_listed h hw hz h.right).1 (by simp only; linarith)
  · rw [hy] at e; cases e
    exact (segMap_listed h hw hz hx).1 (by linarith)
  · obtain ⟨ha, hb⟩ := adjacent_mem hab
    rcases le_or_gt b.1 w with g | g
    · exact le_trans ((segMap_listed h hv hy hb).2 (le_of_lt h2)) ((segMap_listed h hw hz hb).1 g)
    · rw [hy] at e; cases e
      rcases segMap_cases h hw with ⟨k, _⟩ | ⟨k, _⟩ | ⟨_, _, x, hx, k, _⟩ | ⟨a', b', hab', k1, k2, e'⟩
      · have := (h.within a ha).1; linarith
      · have := (h.within b hb).2; linarith
      · rcases h.gap hab hx with g' | g' <;> linarith
      · obtain ⟨ha', hb'⟩ := adjacent_mem hab'
        have e1 : a' = a := by
          apply h.unique ha' ha
          rcases h.gap hab ha' with g1 | g1
          · rcases h.gap hab' ha with g2 | g2
            · linarith
            · linarith
          · linarith
        have e2 : b' = b := by
          apply h.unique hb' hb
          rcases h.gap hab hb' with g1 | g1
          · linarith
          · rcases h.gap hab' hb with g2 | g2
            · linarith
            · linarith
        rw [hz, e1, e2] at e'; cases e'
        have := h.adjacent_lt hab
        exact lerp_mono hvw this.2 (le_of_lt this.1)

/-- Between neighbours the answer lies within 2^-20 of the straight line through them. -/
theorem C47_segment_line {m : List (ℚ × ℚ)} (h : AvarMap m) {a b : ℚ × ℚ} (hab : Adjacent m a b) {v y : ℚ}
    (hv : OnGrid v) (h1 : a.1 ≤ v) (h2 : v ≤ b.1) (hy : segMap rne m v = .ok y) :
    |y - (a.2 + (b.2 - a.2) * ((v - a.1) / (b.1 - a.1)))| ≤ 1 / 2 ^ 20 := by
  obtain ⟨ha, hb⟩ := adjacent_mem hab
  obtain ⟨hlt, hle⟩ := h.adjacent_lt hab
  rcases lt_or_eq_of_le h1 with h1 | h1
  swap
  · rw [← h1, C47_segment_points h ha] at hy; cases hy
    rw [← h1]; simp
  rcases lt_or_eq_of_le h2 with h2 | h2
  swap
  · rw [h2, C47_segment_points h hb] at hy; cases hy
    rw [h2, div_self (by linarith)]; simp
  obtain ⟨ga, gva⟩ := h.grid a ha
  obtain ⟨gb, gvb⟩ := h.grid b hb
  have e : y = lerp rne a.1 a.2 b.1 b.2 v := by
    rcases segMap_cases h hv with ⟨k, _⟩ | ⟨k, _⟩ | ⟨_, _, x, hx, k, _⟩ | ⟨a', b', hab', k1, k2, e'⟩
    · have := (h.within a ha).1; linarith
    · have := (h.within b hb).2; linarith
    · rcases h.gap hab hx with g' | g' <;> linarith
    · obtain ⟨ha', hb'⟩ := adjacent_mem hab'
      have e1 : a' = a := by
        apply h.unique ha' ha
        rcases h.gap hab ha' with g1 | g1
        · rcases h.gap hab' ha with g2 | g2 <;> linarith
        · linarith
      have e2 : b' = b := by
        apply h.unique hb' hb
        rcases h.gap hab hb' with g1 | g1
        · linarith
        · rcases h.gap hab' hb with g2 | g2 <;> linarith
      rw [hy, e1, e2] at e'; cases e'; rfl
  rw [e]; unfold lerp
  rw [rne_grid_sub gvb gva, rne_grid_sub hv ga, rne_grid_sub gb ga]
  have hd : 0 < b.1 - a.1 := by linarith
  rcases lt_or_eq_of_le hle with hw | hw
  swap
  · rw [← hw]; simp only [sub_self, zero_mul, rne_zero, zero_div, add_zero]
    rw [grid_f32 gva]; simp
  obtain ⟨w, hwd⟩ : ∃ w, w = b.2 - a.2 := ⟨_, rfl⟩
  obtain ⟨d, hdd⟩ : ∃ d, d = b.1 - a.1 := ⟨_, rfl⟩
  obtain ⟨u, hud⟩ : ∃ u, u = v - a.1 := ⟨_, rfl⟩
  rw [← hwd, ← hdd, ← hud]
  have w1 : 1 / 16384 ≤ w := by have := gridPair gva gvb hw; linarith
  have u1 : 1 / 16384 ≤ u := by have := gridPair ga hv h1; linarith
  have ud : u < d := by linarith
  have hb4 : d ≤ 4 := by
    have := abs_le.1 (grid_bound ga); have := abs_le.1 (grid_bound gb); linarith
  have hw4 : w ≤ 4 := by
    have := abs_le.1 (grid_bound gva); have := abs_le.1 (grid_bound gvb); linarith
  have d0 : 0 < d := by linarith
  have wu : (1 / 16384 : ℚ) * (1 / 16384) ≤ w * u := by apply mul_le_mul <;> linarith
  have wu0 : 0 < w * u := by linarith
  have p1 := rne_rel (x := w * u) (by rw [abs_of_pos wu0]; refine le_trans ?_ wu; norm_num)
  rw [abs_of_pos wu0] at p1
  obtain ⟨p1a, p1b⟩ := abs_le.1 p1
  have hq0 : w * u / 2 ≤ rne (w * u) := by linarith
  have q0 : 0 < rne (w * u) := by linarith
  obtain ⟨q, hq⟩ : ∃ q, q = rne (w * u) / d := ⟨_, rfl⟩
  have qd : q * d = rne (w * u) := by rw [hq]; field_simp
  have q1 : 0 < q := by rw [hq]; positivity
  have p2 := rne_rel (x := q) (by
    rw [abs_of_pos q1, hq, le_div_iff₀ d0]
    have : (2 : ℚ) ^ (-126 : ℤ) * d ≤ 2 ^ (-126 : ℤ) * 4 := by apply mul_le_mul_of_nonneg_left hb4; positivity
    refine le_trans this (le_trans ?_ hq0)
    refine le_trans ?_ (div_le_div_of_nonneg_right wu (by norm_num))
    norm_num)
  rw [abs_of_pos q1] at p2
  obtain ⟨p2a, p2b⟩ := abs_le.1 p2
  obtain ⟨t, ht⟩ : ∃ t, t = u / d := ⟨_, rfl⟩
  have td : t * d = u := by rw [ht]; field_simp
  have t1 : t < 1 := by rw [ht, div_lt_one d0]; exact ud
  have t0 : 0 < t := by rw [ht]; apply div_pos <;> linarith
  have wt0 : 0 < w * t := mul_pos (by linarith) t0
  have wt4 : w * t ≤ 4 := by nlinarith
  have qe : |q - w * t| ≤ w * t / 2 ^ 24 := by
    have e1 : q = rne (w * u) / d := hq
    have e2 : w * t = w * u / d := by rw [ht]; ring
    rw [e1, e2, ← sub_div, abs_div, abs_of_pos d0]
    have : w * u / d / 2 ^ 24 = w * u / 2 ^ 24 / d := by ring
    rw [this]
    exact div_le_div_of_nonneg_right p1 (le_of_lt d0)
  obtain ⟨qe1, qe2⟩ := abs_le.1 qe
  rw [← hq, ← ht]
  have s1 := abs_le.1 (grid_bound gva)
  obtain ⟨s, hs⟩ : ∃ s, s = a.2 + rne q := ⟨_, rfl⟩
  rw [← hs]
  have sb : |s| ≤ 7 := by rw [hs, abs_le]; constructor <;> linarith
  have p3 : |rne s - s| ≤ 7 / 2 ^ 24 := by
    by_cases hsm : (2 : ℚ) ^ (-126 : ℤ) ≤ |s|
    · refine le_trans (rne_rel hsm) ?_
      exact div_le_div_of_nonneg_right sb (by norm_num)
    · have hx : |s| ≤ 1 / 2 ^ 40 := by refine le_trans (le_of_lt (not_le.1 hsm)) ?_; norm_num
      obtain ⟨x1, x2⟩ := abs_le.1 hx
      have r1 := rne_mono x2
      have r2 := rne_mono x1
      have f := rne_exact 1 (-40) (by norm_num) (by norm_num)
      have g := rne_exact (-1) (-40) (by norm_num) (by norm_num)
      norm_num at f g
      norm_num at r1 r2
      rw [f] at r1; rw [g] at r2
      rw [abs_le]; constructor <;> linarith
  obtain ⟨p3a, p3b⟩ := abs_le.1 p3
  rw [abs_le]
  constructor <;> linarith

/-! The code does not ask for increasing `from` coordinates. -/

def unsorted : List (ℚ × ℚ) := [(1 / 2, -1), (-1, -1), (0, 0), (1, 1)]

theorem grid_of (a : ℤ) (h1 : -32768 ≤ a) (h2 : a ≤ 32767) : OnGrid ((a : ℚ) / 16384) := ⟨a, h1, h2, rfl⟩

theorem grid_half : OnGrid (1 / 2) := by have := grid_of 8192 (by norm_num) (by norm_num); norm_num at this; exact this
theorem grid_neg_half : OnGrid (-1 / 2) := by
  have := grid_of (-8192) (by norm_num) (by norm_num); norm_num at this; norm_num; exact this
theorem grid_one : OnGrid 1 := by have := grid_of 16384 (by norm_num) (by norm_num); norm_num at this; exact this
theorem grid_neg_one : OnGrid (-1) := by
  have := grid_of (-16384) (by norm_num) (by norm_num); norm_num at this; exact this

/-- `is_valid` accepts a map with unordered `from` coordinates, on which `piecewise_linear_map` panics. -/
theorem C47_segment_unsorted : segValid rne unsorted = true ∧ segMap rne unsorted (-1 / 2) = .panic := by
  constructor
  · unfold segValid unsorted
    have e1 : ∀ c, OnGrid c → ∀ x : ℚ × ℚ, OnGrid x.1 → OnGrid x.2 → isPair rne c x = isPair id c x := by
      intro c hc x h1 h2
      unfold isPair
      rw [rne_grid_sub h1 hc, rne_grid_sub h2 hc]; rfl
    have e2 : ∀ c, OnGrid c → List.countP (isPair rne c) [(1 / 2, -1), (-1, -1), (0, 0), (1, 1)] =
        List.countP (isPair id c) [(1 / 2, -1), (-1, -1), (0, 0), (1, 1)] := by
      intro c hc
      apply List.countP_congr
      intro x hx
      rw [e1 c hc x] <;>
      · simp only [List.mem_cons, List.not_mem_nil, or_false] at hx
        rcases hx with rfl | rfl | rfl | rfl <;>
        first | exact grid_half | exact grid_neg_one | exact grid_zero | exact grid_one
    rw [e2 1 grid_one, e2 (-1) grid_neg_one]
    decide +kernel
  · unfold segMap
    rw [if_neg (by norm_num), if_neg (by norm_num), find_grid _ grid_neg_half]
    · decide +kernel
    · intro x hx
      simp only [unsorted, List.mem_cons, List.not_mem_nil, or_false] at hx
      rcases hx with rfl | rfl | rfl | rfl
      · exact grid_half
      · exact grid_neg_one
      · exact grid_zero
      · exact grid_one

theorem isPair_grid {c : ℚ} (hc : OnGrid c) {x : ℚ × ℚ} (h1 : OnGrid x.1) (h2 : OnGrid x.2) :
    isPair rne c x = decide (x = (c, c)) := by
  have key : ∀ y, OnGrid y → (|rne (y - c)| < eps ↔ y = c) := by
    intro y hy
    rw [rne_grid_sub hy hc]
    rcases grid_far hy hc with e | e
    · simp [e, eps]
    · constructor
      · intro h; linarith
      · intro h; rw [h] at e; simp [eps] at e; norm_num at e
  unfold isPair
  simp only [key _ h1, key _ h2, Prod.ext_iff]

theorem toOrdered_iff : ∀ (m : List (ℚ × ℚ)) (p : ℚ),
    toOrdered p m = true ↔ (∀ x ∈ m, p ≤ x.2) ∧ m.Pairwise (fun x y => x.2 ≤ y.2)
  | [], p => by simp [toOrdered]
  | x :: m, p => by
    rw [toOrdered]
    by_cases h : x.2 < p
    · rw [if_pos h]
      simp only [Bool.false_eq_true, false_iff]
      intro hh
      have := hh.1 x (by simp)
      linarith
    · rw [if_neg h, toOrdered_iff m x.2, List.pairwise_cons]
      constructor
      · rintro ⟨h1, h2⟩
        refine ⟨fun y hy => ?_, h1, h2⟩
        rcases List.mem_cons.mp hy with rfl | hy
        · linarith
        · have := h1 y hy; linarith
      · rintro ⟨_, h1, h2⟩
        exact ⟨h1, h2⟩

/-- What `SegmentMap::new` accepts among maps of F2DOT14 numbers: `to` coordinates that do not decrease, and the pairs
(-1, -1), (0, 0) and (1, 1), each exactly once. Any other map panics. -/
theorem C47_segment_new {m : List (ℚ × ℚ)} (hg : ∀ x ∈ m, OnGrid x.1 ∧ OnGrid x.2) :
    segNew rne m = if m.Pairwise (fun x y => x.2 ≤ y.2) ∧ m.count (-1, -1) = 1 ∧ m.count (0, 0) = 1 ∧ m.count (1, 1) = 1
      then .ok m else .panic := by
  have hp : ∀ c, OnGrid c → m.countP (isPair rne c) = m.count (c, c) := by
    intro c hc
    unfold List.count
    refine List.countP_congr fun x hx => ?_
    rw [isPair_grid hc (hg x hx).1 (hg x hx).2]
    simp
  have hz : m.countP isZeroPair = m.count (0, 0) := by
    unfold List.count
    refine List.countP_congr fun x hx => ?_
    simp [isZeroPair, Prod.ext_iff]
  have ho : toOrdered (-2) m = true ↔ m.Pairwise (fun x y => x.2 ≤ y.2) := by
    rw [toOrdered_iff]
    exact ⟨And.right, fun h => ⟨fun x hx => (abs_le.mp (grid_bound (hg x hx).2)).1, h⟩⟩
  have hv : segValid rne m = true ↔ m.Pairwise (fun x y => x.2 ≤ y.2) ∧ m.count (-1, -1) = 1 ∧ m.count (0, 0) = 1 ∧
      m.count (1, 1) = 1 := by
    unfold segValid
    rw [hp 1 grid_one, hp (-1) grid_neg_one, hz]
    simp only [Bool.and_eq_true, beq_iff_eq, ho]
    tauto
  unfold segNew
  by_cases h : segValid rne m = true
  · rw [if_pos h, if_pos (hv.mp h)]
  · rw [if_neg h, if_neg (fun hh => h (hv.mpr hh))]

/-- A map meeting `AvarMap`, with a bend. -/
example : AvarMap [(-1, -1), (0, 0), (1 / 2, 0), (1, 1)] := by
  refine ⟨by decide +kernel, by decide +kernel, by decide +kernel, by decide +kernel, ?_⟩
  intro x hx
  simp only [List.mem_cons, List.not_mem_nil, or_false] at hx
  rcases hx with rfl | rfl | rfl | rfl
  · exact ⟨grid_neg_one, grid_neg_one⟩
  · exact ⟨grid_zero, grid_zero⟩
  · exact ⟨grid_half, grid_zero⟩
  · exact ⟨grid_one, grid_one⟩

example : Adjacent [(-1, -1), (0, 0), (1 / 2, 0), (1, 1)] (1 / 2, 0) (1, 1) := ⟨[(-1, -1), (0, 0)], [], rfl⟩

example : (∀ x ∈ [((-1 : ℚ), (-1 : ℚ)), (0, 0), (1 / 2, 0), (1, 1)], OnGrid x.1 ∧ OnGrid x.2) ∧
    segNew rne [(-1, -1), (0, 0), (1 / 2, 0), (1, 1)] = .ok [(-1, -1), (0, 0), (1 / 2, 0), (1, 1)] := by
  have hg : ∀ x ∈ [((-1 : ℚ), (-1 : ℚ)), (0, 0), (1 / 2, 0), (1, 1)], OnGrid x.1 ∧ OnGrid x.2 := by
    intro x hx
    simp only [List.mem_cons, List.not_mem_nil, or_false] at hx
    rcases hx with rfl | rfl | rfl | rfl
    · exact ⟨grid_neg_one, grid_neg_one⟩
    · exact ⟨grid_zero, grid_zero⟩
    · exact ⟨grid_half, grid_zero⟩
    · exact ⟨grid_one, grid_one⟩
  refine ⟨hg, ?_⟩
  rw [C47_segment_new hg, if_pos (by decide +kernel)]

end FT.Props
