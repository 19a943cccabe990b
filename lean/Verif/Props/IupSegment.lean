import Verif.Model.Iup
import Verif.Props.F32
import Verif.Props.Contour

/-!
Interpolation of one coordinate between two references (used for C41 and C42).
-/

namespace FT.Props
open FT FT.F32 FT.Glyf FT.Iup

/-- Relative error of rounding to `f32`, away from the subnormal range. -/
theorem rne_rel {x : ℚ} (h : (2 : ℚ) ^ (-126 : ℤ) ≤ |x|) : |rne x - x| ≤ |x| / 2 ^ 24 := by
  have h0 : (0 : ℚ) < |x| := lt_of_lt_of_le (two_zpow_pos _) h
  have hlog : -126 ≤ Int.log 2 |x| := (Int.zpow_le_iff_le_log (b := 2) (by norm_num) h0).1 (by exact_mod_cast h)
  have hue : ue x = Int.log 2 |x| - 23 := by unfold ue; omega
  refine le_trans (C04_rounding_error x) ?_
  rw [hue, zpow_sub₀ (by norm_num)]
  have := Int.zpow_log_le_self (b := 2) (r := |x|) (by norm_num) h0
  have h3 : ((2 : ℕ) : ℚ) ^ Int.log 2 |x| = (2 : ℚ) ^ Int.log 2 |x| := by norm_num
  rw [h3] at this
  have e : (2 : ℚ) ^ Int.log 2 |x| / 2 ^ (23 : ℤ) / 2 = 2 ^ Int.log 2 |x| / 2 ^ 24 := by
    rw [div_div]; norm_num
  rw [e]
  exact div_le_div_of_nonneg_right this (by norm_num)

/-- The rounded product of a step count and a rounded slope, for a positive difference of deltas. -/
theorem slope_pos {D X t : ℤ} (hD : 1 ≤ D) (hD2 : D ≤ 32768) (hX : X ≤ 32767) (ht : 1 ≤ t) (htX : t < X) :
    0 ≤ rne ((t : ℚ) * rne ((D : ℚ) / X)) ∧ rne ((t : ℚ) * rne ((D : ℚ) / X)) ≤ D ∧
    |rne ((t : ℚ) * rne ((D : ℚ) / X)) - (t : ℚ) * D / X| ≤ 1 / 128 := by
  have qD : (1 : ℚ) ≤ D := by exact_mod_cast hD
  have qD2 : (D : ℚ) ≤ 32768 := by exact_mod_cast hD2
  have qX : (X : ℚ) ≤ 32767 := by exact_mod_cast hX
  have qt : (1 : ℚ) ≤ t := by exact_mod_cast ht
  have qtX : (t : ℚ) + 1 ≤ X := by exact_mod_cast htX
  have qX0 : (0 : ℚ) < X := by linarith
  have small : (2 : ℚ) ^ (-126 : ℤ) ≤ 1 / 65536 := by norm_num
  obtain ⟨s, hs⟩ : ∃ s, s = (D : ℚ) / X := ⟨_, rfl⟩
  have hsX : s * X = D := by rw [hs]; field_simp
  have s0 : 1 / 32767 ≤ s := by
    rw [hs, div_le_div_iff₀ (by norm_num) qX0]; nlinarith
  have sp : 0 < s := by linarith
  have r1 := rne_rel (x := s) (by rw [abs_of_pos sp]; exact le_trans small (le_trans (by norm_num) s0))
  rw [abs_of_pos sp] at r1
  obtain ⟨s', hs'⟩ : ∃ s', s' = rne s := ⟨_, rfl⟩
  rw [← hs'] at r1
  have b1 := abs_le.1 r1
  have s'0 : 1 / 65536 ≤ s' := by linarith [b1.1]
  have p0 : (1 : ℚ) / 65536 ≤ t * s' := by nlinarith
  have pp : 0 < (t : ℚ) * s' := by linarith
  have r2 := rne_rel (x := (t : ℚ) * s') (by rw [abs_of_pos pp]; exact le_trans small p0)
  rw [abs_of_pos pp] at r2
  rw [← hs, ← hs']
  obtain ⟨c, hc⟩ : ∃ c, c = rne ((t : ℚ) * s') := ⟨_, rfl⟩
  rw [← hc] at r2 ⊢
  have b2 := abs_le.1 r2
  have v : (t : ℚ) * D / X = t * s := by rw [hs]; ring
  rw [v]
  have t0 : (0 : ℚ) < t := by linarith
  have m1 : (t : ℚ) * s' ≤ t * s + t * s / 2 ^ 24 := by nlinarith [b1.2]
  have m2 : t * s - t * s / 2 ^ 24 ≤ (t : ℚ) * s' := by nlinarith [b1.1]
  have ts0 : 0 < (t : ℚ) * s := by positivity
  -- t s ≤ D - s, and s ≥ D / 32767
  have ub : (t : ℚ) * s ≤ D - s := by nlinarith
  have sD : (D : ℚ) / 32767 ≤ s := by
    rw [hs]
    exact div_le_div_of_nonneg_left (by linarith) qX0 qX
  refine ⟨?_, ?_, ?_⟩
  · have : (t : ℚ) * s' / 2 ^ 24 ≤ t * s' := by
      rw [div_le_iff₀ (by norm_num)]; nlinarith
    linarith [b2.1]
  · norm_num at b2 m1 m2 ⊢
    linarith [b2.2]
  · rw [abs_le]
    norm_num at b2 m1 m2 ⊢
    constructor <;> linarith [b2.1, b2.2]

theorem rhe_neg (q : ℚ) : rhe (-q) = - rhe q := by
  have fe : (⌊q⌋ : ℚ) ≤ q := Int.floor_le q
  have fl : q < ⌊q⌋ + 1 := Int.lt_floor_add_one q
  by_cases hi : q = ⌊q⌋
  · have e : rhe q = ⌊q⌋ := by
      conv_lhs => rw [hi]
      exact rhe_int _
    rw [e]
    have : -q = ((-⌊q⌋ : ℤ) : ℚ) := by push_cast; rw [← hi]
    rw [this, rhe_int]
  · have fn : ⌊-q⌋ = -⌊q⌋ - 1 := by
      rw [Int.floor_eq_iff]
      push_cast
      refine ⟨by linarith, ?_⟩
      rcases lt_or_eq_of_le fe with h | h
      · linarith
      · exact absurd h.symm hi
    unfold rhe
    rw [fn]
    push_cast
    by_cases h1 : q - ⌊q⌋ < 1 / 2
    · rw [if_pos h1, if_neg (by linarith), if_pos (by linarith)]; ring
    · rw [if_neg h1]
      by_cases h2 : 1 / 2 < q - ⌊q⌋
      · rw [if_pos h2, if_pos (by linarith)]; ring
      · rw [if_neg h2, if_neg (by linarith), if_neg (by linarith)]
        by_cases h3 : ⌊q⌋ % 2 = 0
        · rw [if_pos h3, if_neg (by omega)]; ring
        · rw [if_neg h3, if_pos (by omega)]; ring

theorem rne_neg (x : ℚ) : rne (-x) = - rne x := by
  have hu : ue (-x) = ue x := by unfold ue; rw [abs_neg]
  unfold rne
  rw [hu, neg_div, rhe_neg]
  push_cast
  ring

/-- The rounded offset lies between nought and the difference of the deltas, within 1/128 of the exact one. -/
theorem slope_bounds {D X t : ℤ} (hD : -32768 ≤ D) (hD2 : D ≤ 32767) (hX : X ≤ 32767) (ht : 1 ≤ t) (htX : t < X) :
    (0 ≤ D → 0 ≤ rne ((t : ℚ) * rne ((D : ℚ) / X)) ∧ rne ((t : ℚ) * rne ((D : ℚ) / X)) ≤ D) ∧
    (D ≤ 0 → (D : ℚ) ≤ rne ((t : ℚ) * rne ((D : ℚ) / X)) ∧ rne ((t : ℚ) * rne ((D : ℚ) / X)) ≤ 0) ∧
    |rne ((t : ℚ) * rne ((D : ℚ) / X)) - (t : ℚ) * D / X| ≤ 1 / 128 := by
  have z : rne 0 = 0 := by simpa using rne_int 0 (by norm_num)
  rcases lt_trichotomy D 0 with h | h | h
  · have p := slope_pos (D := -D) (X := X) (t := t) (by omega) (by omega) hX ht htX
    have e1 : (((-D : ℤ) : ℚ) / X) = -((D : ℚ) / X) := by push_cast; ring
    rw [e1, rne_neg, mul_neg, rne_neg] at p
    refine ⟨fun h' => by omega, fun _ => ⟨?_, ?_⟩, ?_⟩
    · have := p.2.1; push_cast at this; linarith
    · linarith [p.1]
    · have := p.2.2
      rw [abs_sub_comm]
      convert this using 2
      push_cast; ring
  · subst h
    simp [z]
  · have p := slope_pos (D := D) (X := X) (t := t) (by omega) (by omega) hX ht htX
    exact ⟨fun _ => ⟨p.1, p.2.1⟩, fun h' => by omega, p.2.2⟩

theorem truncQ_near (q : ℚ) : |(truncQ q : ℚ) - q| < 1 := by
  unfold truncQ
  rw [abs_lt]
  split
  · constructor <;> linarith [Int.floor_le q, Int.lt_floor_add_one q]
  · push_cast
    constructor <;> linarith [Int.floor_le (-q), Int.lt_floor_add_one (-q)]

theorem truncQ_nonneg {q : ℚ} {D : ℤ} (h0 : 0 ≤ q) (h1 : q ≤ D) : 0 ≤ truncQ q ∧ truncQ q ≤ D := by
  unfold truncQ
  rw [if_pos h0]
  exact ⟨Int.floor_nonneg.2 h0, by
    have := Int.floor_mono h1
    rwa [Int.floor_intCast] at this⟩

theorem truncQ_nonpos {q : ℚ} {D : ℤ} (h0 : q ≤ 0) (h1 : (D : ℚ) ≤ q) : D ≤ truncQ q ∧ truncQ q ≤ 0 := by
  unfold truncQ
  split
  · rename_i h
    have e : q = 0 := le_antisymm h0 h
    subst e
    have : (D : ℚ) ≤ (0 : ℤ) := by exact_mod_cast h1
    exact ⟨by rw [Int.floor_zero]; exact_mod_cast this, by simp⟩
  · have h2 : (-q : ℚ) ≤ ((-D : ℤ) : ℚ) := by push_cast; linarith
    have a := Int.floor_mono h2
    rw [Int.floor_intCast] at a
    have b : 0 ≤ ⌊-q⌋ := Int.floor_nonneg.2 (by linarith)
    omega

/-- The difference of two 16-bit integers fits 16 bits. -/
def SubFits (a b : Int16) : Prop := -32768 ≤ a.toInt - b.toInt ∧ a.toInt - b.toInt ≤ 32767

theorem subI16_iff (a b : Int16) : (SubFits a b ∧ ∃ s, subI16 a b = .ok s ∧ s.toInt = a.toInt - b.toInt) ∨
    (¬ SubFits a b ∧ subI16 a b = .panic) := by
  unfold SubFits
  by_cases hr : -32768 ≤ a.toInt - b.toInt ∧ a.toInt - b.toInt ≤ 32767
  · left
    refine ⟨hr, Int16.ofInt (a.toInt - b.toInt), ?_, int16_ofInt hr.1 hr.2⟩
    unfold subI16; simp only; rw [if_pos hr]
  · right
    refine ⟨hr, ?_⟩
    unfold subI16; simp only; rw [if_neg hr]

/-- The value inferred for a coordinate `x` from references at `x1 < x2`: the delta of the lower reference at or below it,
that of the upper one at or above it, and in between a value between the two deltas and nearest to linear interpolation but
for truncation. -/
def BetweenRefs (x1 d1 x2 d2 x r : ℤ) : Prop :=
  (x ≤ x1 → r = d1) ∧ (x2 ≤ x → r = d2) ∧
  (x1 < x → x < x2 → min d1 d2 ≤ r ∧ r ≤ max d1 d2 ∧
    |(r : ℚ) - (d1 + (x - x1 : ℚ) * (d2 - d1) / (x2 - x1))| < 1 + 1 / 128)

/-- The value inferred from two references in either order; two references at the same place which move differently
give nought. -/
def Inferred (x1 d1 x2 d2 x r : ℤ) : Prop :=
  (x1 = x2 → d1 = d2 → r = d1) ∧ (x1 = x2 → d1 ≠ d2 → r = 0) ∧
  (x1 < x2 → BetweenRefs x1 d1 x2 d2 x r) ∧ (x2 < x1 → BetweenRefs x2 d2 x1 d1 x r)

def sortedVal (x1 x2 d1 d2 x : Int16) : Res Int16 := do
  let dd ← subI16 d2 d1
  let dx ← subI16 x2 x1
  segPoint x1 x2 d1 d2 (rne ((dd.toInt : ℚ) / dx.toInt)) x

/-- One coordinate of `iup_segment` at one point. -/
def segVal (x1 d1 x2 d2 x : Int16) : Res Int16 :=
  if x1 = x2 then .ok (if d1 = d2 then d1 else 0)
  else if x2 < x1 then sortedVal x2 x1 d2 d1 x
  else sortedVal x1 x2 d1 d2 x

theorem sortedVal_spec {x1 x2 : Int16} (d1 d2 x : Int16) (h : x1 < x2) :
    ((SubFits d2 d1 ∧ SubFits x2 x1) ∧ ∃ r, sortedVal x1 x2 d1 d2 x = .ok r ∧
      BetweenRefs x1.toInt d1.toInt x2.toInt d2.toInt x.toInt r.toInt) ∨
    (¬ (SubFits d2 d1 ∧ SubFits x2 x1) ∧ sortedVal x1 x2 d1 d2 x = .panic) := by
  have hx : x1.toInt < x2.toInt := Int16.lt_iff_toInt_lt.1 h
  unfold sortedVal
  rcases subI16_iff d2 d1 with ⟨f1, dd, e1, v1⟩ | ⟨f1, e1⟩
  swap
  · right; exact ⟨fun hh => f1 hh.1, by rw [e1]; rfl⟩
  rcases subI16_iff x2 x1 with ⟨f2, dx, e2, v2⟩ | ⟨f2, e2⟩
  swap
  · right; exact ⟨fun hh => f2 hh.2, by rw [e1, e2]; rfl⟩
  left
  refine ⟨⟨f1, f2⟩, ?_⟩
  rw [e1, e2]
  simp only [Res.ok_bind]
  unfold segPoint
  by_cases hl : x ≤ x1
  · have hl' : x.toInt ≤ x1.toInt := Int16.le_iff_toInt_le.1 hl
    rw [if_pos hl]
    exact ⟨d1, rfl, fun _ => rfl, fun h' => by omega, fun h' => by omega⟩
  · have hl' : ¬ x.toInt ≤ x1.toInt := fun h' => hl (Int16.le_iff_toInt_le.2 h')
    rw [if_neg hl]
    by_cases hu : x2 ≤ x
    · have hu' : x2.toInt ≤ x.toInt := Int16.le_iff_toInt_le.1 hu
      rw [if_pos hu]
      exact ⟨d2, rfl, fun h' => by omega, fun _ => rfl, fun _ h' => by omega⟩
    · have hu' : ¬ x2.toInt ≤ x.toInt := fun h' => hu (Int16.le_iff_toInt_le.2 h')
      rw [if_neg hu]
      obtain ⟨t, et, vt⟩ : ∃ t, subI16 x x1 = .ok t ∧ t.toInt = x.toInt - x1.toInt := by
        rcases subI16_iff x x1 with ⟨_, t, et, vt⟩ | ⟨ft, _⟩
        · exact ⟨t, et, vt⟩
        · exfalso; apply ft; unfold SubFits at f2 ⊢; omega
      rw [et]
      simp only [Res.ok_bind]
      unfold SubFits at f1 f2
      have sb := slope_bounds (D := dd.toInt) (X := dx.toInt) (t := t.toInt) (by omega) (by omega) (by omega)
        (by omega) (by omega)
      obtain ⟨c, hc⟩ : ∃ c, c = rne ((t.toInt : ℚ) * rne ((dd.toInt : ℚ) / dx.toInt)) := ⟨_, rfl⟩
      rw [← hc] at sb ⊢
      have tb : (0 ≤ dd.toInt → 0 ≤ truncQ c ∧ truncQ c ≤ dd.toInt) ∧
          (dd.toInt ≤ 0 → dd.toInt ≤ truncQ c ∧ truncQ c ≤ 0) :=
        ⟨fun h0 => truncQ_nonneg (sb.1 h0).1 (sb.1 h0).2, fun h0 => truncQ_nonpos (sb.2.1 h0).2 (sb.2.1 h0).1⟩
      have hq : (qToI16 c).toInt = truncQ c := by
        unfold qToI16 satI16
        rw [min_eq_left (by omega), max_eq_right (by omega)]
        exact int16_ofInt (by omega) (by omega)
      have lo := d1.le_toInt; have hi := d1.toInt_lt
      have lo2 := d2.le_toInt; have hi2 := d2.toInt_lt
      rcases addI16_cases d1 (qToI16 c) with ⟨s, es, vs⟩ | ⟨_, bad⟩
      · refine ⟨s, es, fun h' => by omega, fun h' => by omega, fun _ _ => ⟨by omega, by omega, ?_⟩⟩
        rw [vs, hq]
        have n1 := abs_lt.1 (truncQ_near c)
        have n2 := abs_le.1 sb.2.2
        have ex : ((t.toInt : ℚ) * dd.toInt / dx.toInt) =
            ((x.toInt : ℚ) - x1.toInt) * (d2.toInt - d1.toInt) / (x2.toInt - x1.toInt) := by
          rw [vt, v1, v2]; push_cast; ring
        rw [← ex]
        push_cast
        rw [abs_lt]
        constructor <;> linarith [n1.1, n1.2, n2.1, n2.2]
      · exfalso; apply bad; rw [hq]; omega

/-- The subtractions made for one coordinate of a pair of references fit. -/
def AxisFits (x1 d1 x2 d2 : Int16) : Prop :=
  (x1 < x2 → SubFits d2 d1 ∧ SubFits x2 x1) ∧ (x2 < x1 → SubFits d1 d2 ∧ SubFits x1 x2)

theorem int16_tri (a b : Int16) : a < b ∨ a = b ∨ b < a := by
  rcases lt_trichotomy a.toInt b.toInt with h | h | h
  · exact .inl (Int16.lt_iff_toInt_lt.2 h)
  · exact .inr (.inl (Int16.toInt_inj.1 h))
  · exact .inr (.inr (Int16.lt_iff_toInt_lt.2 h))

theorem int16_lt_irrefl {a b : Int16} (h : a < b) : a ≠ b ∧ ¬ b < a := by
  have h' := Int16.lt_iff_toInt_lt.1 h
  refine ⟨fun e => ?_, fun g => ?_⟩
  · subst e; omega
  · have := Int16.lt_iff_toInt_lt.1 g; omega

theorem segVal_spec (x1 d1 x2 d2 x : Int16) :
    (AxisFits x1 d1 x2 d2 ∧ ∃ r, segVal x1 d1 x2 d2 x = .ok r ∧
      Inferred x1.toInt d1.toInt x2.toInt d2.toInt x.toInt r.toInt) ∨
    (¬ AxisFits x1 d1 x2 d2 ∧ segVal x1 d1 x2 d2 x = .panic) := by
  unfold segVal AxisFits Inferred
  rcases int16_tri x1 x2 with h | h | h
  · have n := int16_lt_irrefl h
    have h' := Int16.lt_iff_toInt_lt.1 h
    rw [if_neg n.1, if_neg n.2]
    rcases sortedVal_spec d1 d2 x h with ⟨f, r, e, b⟩ | ⟨f, e⟩
    · exact .inl ⟨⟨fun _ => f, fun g => absurd g n.2⟩, r, e, fun g => by omega, fun g => by omega, fun _ => b,
        fun g => by omega⟩
    · exact .inr ⟨fun g => f (g.1 h), e⟩
  · subst h
    rw [if_pos rfl]
    left
    refine ⟨⟨fun g => absurd rfl (int16_lt_irrefl g).1, fun g => absurd rfl (int16_lt_irrefl g).1⟩, _, rfl, ?_, ?_,
      fun g => by omega, fun g => by omega⟩
    · intro _ e; rw [if_pos (Int16.toInt_inj.1 e)]
    · intro _ e; rw [if_neg (fun g => e (by rw [g]))]; rfl
  · have n := int16_lt_irrefl h
    have h' := Int16.lt_iff_toInt_lt.1 h
    rw [if_neg (fun g => n.1 g.symm), if_pos h]
    rcases sortedVal_spec d2 d1 x h with ⟨f, r, e, b⟩ | ⟨f, e⟩
    · exact .inl ⟨⟨fun g => absurd g n.2, fun _ => f⟩, r, e, fun g => by omega, fun g => by omega, fun g => by omega,
        fun _ => b⟩
    · exact .inr ⟨fun g => f (g.2 h), e⟩

theorem segVal_symm (x1 d1 x2 d2 x : Int16) : segVal x1 d1 x2 d2 x = segVal x2 d2 x1 d1 x := by
  unfold segVal
  rcases int16_tri x1 x2 with h | h | h
  · have n := int16_lt_irrefl h
    rw [if_neg n.1, if_neg n.2, if_neg (fun g => n.1 g.symm), if_pos h]
  · subst h
    rw [if_pos rfl, if_pos rfl]
    by_cases e : d1 = d2
    · subst e; rfl
    · rw [if_neg e, if_neg (fun g => e g.symm)]
  · have n := int16_lt_irrefl h
    rw [if_neg (fun g => n.1 g.symm), if_pos h, if_neg n.1, if_neg n.2]

/-! ### Lists of points -/

theorem mapL_cons' {α β : Type} (f : α → Res β) (a : α) (l : List α) :
    Res.mapL f (a :: l) = (f a >>= fun b => Res.mapL f l >>= fun bs => .ok (b :: bs)) := by
  rw [Res.mapL]
  cases f a with
  | ok b =>
    simp only [Res.ok_bind]
    cases Res.mapL f l <;> rfl
  | err => rfl
  | panic => rfl

theorem mapL_append' {α β : Type} (f : α → Res β) : ∀ (l m : List α),
    Res.mapL f (l ++ m) = (Res.mapL f l >>= fun a => Res.mapL f m >>= fun b => .ok (a ++ b))
  | [], m => by
    simp only [List.nil_append, Res.mapL, Res.ok_bind]
    cases Res.mapL f m <;> rfl
  | x :: l, m => by
    rw [List.cons_append, mapL_cons', mapL_append' f l m, mapL_cons']
    cases f x with
    | err => rfl
    | panic => rfl
    | ok b =>
      simp only [Res.ok_bind]
      cases Res.mapL f l with
      | err => rfl
      | panic => rfl
      | ok bs =>
        simp only [Res.ok_bind]
        cases Res.mapL f m <;> rfl

theorem mapL_congr' {α β : Type} {f g : α → Res β} : ∀ (l : List α), (∀ a ∈ l, f a = g a) → Res.mapL f l = Res.mapL g l
  | [], _ => rfl
  | a :: l, h => by
    rw [mapL_cons', mapL_cons', h a (by simp), mapL_congr' l (fun b hb => h b (by simp [hb]))]

theorem mapL_comp {α β γ : Type} (f : β → Res γ) (g : α → β) : ∀ (l : List α),
    Res.mapL f (l.map g) = Res.mapL (fun a => f (g a)) l
  | [] => rfl
  | a :: l => by rw [List.map_cons, mapL_cons', mapL_cons', mapL_comp f g l]

theorem mapL_panic {α β : Type} {f : α → Res β} {l : List α} (h : l ≠ []) (hp : ∀ a, f a = .panic) :
    Res.mapL f l = .panic := by
  cases l with
  | nil => exact absurd rfl h
  | cons a l => rw [mapL_cons', hp a]; rfl

theorem segSorted_eq (x1 x2 d1 d2 : Int16) {xs : List Int16} (h : xs ≠ []) :
    segSorted x1 x2 d1 d2 xs = Res.mapL (sortedVal x1 x2 d1 d2) xs := by
  unfold segSorted
  rcases subI16_iff d2 d1 with ⟨_, dd, e1, _⟩ | ⟨_, e1⟩
  · rcases subI16_iff x2 x1 with ⟨_, dx, e2, _⟩ | ⟨_, e2⟩
    · rw [e1, e2]
      simp only [Res.ok_bind]
      apply mapL_congr'
      intro a _
      unfold sortedVal
      rw [e1, e2]; rfl
    · rw [e1, e2]
      simp only [Res.ok_bind, Res.panic_bind]
      rw [mapL_panic h]
      intro a; unfold sortedVal; rw [e1, e2]; rfl
  · rw [e1]
    simp only [Res.panic_bind]
    rw [mapL_panic h]
    intro a; unfold sortedVal; rw [e1]; rfl

theorem mapL_const {α β : Type} (b : β) : ∀ (l : List α), Res.mapL (fun _ => .ok b) l = .ok (List.replicate l.length b)
  | [] => rfl
  | a :: l => by rw [mapL_cons', mapL_const b l]; rfl

theorem segAxis_eq (x1 d1 x2 d2 : Int16) {xs : List Int16} (h : xs ≠ []) :
    segAxis x1 d1 x2 d2 xs = Res.mapL (segVal x1 d1 x2 d2) xs := by
  unfold segAxis
  by_cases e : x1 = x2
  · rw [if_pos e, ← mapL_const]
    apply mapL_congr'
    intro a _; unfold segVal; rw [if_pos e]
  · rw [if_neg e]
    by_cases g : x2 < x1
    · rw [if_pos g, segSorted_eq _ _ _ _ h]
      apply mapL_congr'
      intro a _; unfold segVal; rw [if_neg e, if_pos g]
    · rw [if_neg g, segSorted_eq _ _ _ _ h]
      apply mapL_congr'
      intro a _; unfold segVal; rw [if_neg e, if_neg g]

/-- Both coordinates of `iup_segment` at one point. -/
def segPt (c1 d1 c2 d2 c : Pt) : Res Pt := do
  let x ← segVal c1.1 d1.1 c2.1 d2.1 c.1
  let y ← segVal c1.2 d1.2 c2.2 d2.2 c.2
  return (x, y)

theorem mapL_zip {α β γ : Type} {f : α → Res β} {g : α → Res γ} (hf : ∀ a, f a ≠ .err) (hg : ∀ a, g a ≠ .err) :
    ∀ (l : List α), (Res.mapL f l >>= fun xs => Res.mapL g l >>= fun ys => .ok (xs.zip ys)) =
      Res.mapL (fun a => f a >>= fun x => g a >>= fun y => .ok (x, y)) l
  | [] => rfl
  | a :: l => by
    have ih := mapL_zip hf hg l
    rw [mapL_cons', mapL_cons', mapL_cons', ← ih]
    have npf : Res.mapL f l ≠ .err := by
      clear ih
      induction l with
      | nil => simp [Res.mapL]
      | cons b l ih =>
        rw [mapL_cons']
        have := hf b
        cases hb : f b with
        | err => exact absurd hb this
        | panic => simp
        | ok v =>
          simp only [Res.ok_bind]
          cases hm : Res.mapL f l with
          | err => exact absurd hm ih
          | panic => simp
          | ok v => simp
    have := hf a
    have := hg a
    cases hfa : f a with
    | err => exact absurd hfa ‹f a ≠ .err›
    | panic => rfl
    | ok x =>
      cases hga : g a with
      | err => exact absurd hga ‹g a ≠ .err›
      | panic =>
        simp only [Res.ok_bind, Res.panic_bind]
        cases hm : Res.mapL f l with
        | err => exact absurd hm npf
        | panic => rfl
        | ok v => rfl
      | ok y =>
        simp only [Res.ok_bind]
        cases hm : Res.mapL f l with
        | err => rfl
        | panic => rfl
        | ok v =>
          simp only [Res.ok_bind]
          cases Res.mapL g l <;> rfl

theorem segVal_ne_err (x1 d1 x2 d2 x : Int16) : segVal x1 d1 x2 d2 x ≠ .err := by
  rcases segVal_spec x1 d1 x2 d2 x with ⟨_, r, e, _⟩ | ⟨_, e⟩ <;> rw [e] <;> simp

theorem segPt_symm (c1 d1 c2 d2 c : Pt) : segPt c1 d1 c2 d2 c = segPt c2 d2 c1 d1 c := by
  unfold segPt
  rw [segVal_symm, segVal_symm c1.2]

/-- The deltas a two-dimensional list of given deltas stands for. -/
def twoD (p : Pt) : TupleVar.Delta := .d2 p.1 p.2

theorem iupSegment_eq {coords : List Pt} (h : coords ≠ []) (c1 d1 c2 d2 : Pt) :
    iupSegment coords c1 (some (twoD d1)) c2 (some (twoD d2)) = Res.mapL (segPt c1 d1 c2 d2) coords := by
  unfold iupSegment
  simp only [Res.unwrap_some, Res.ok_bind, twoD, get2d, Res.pure_eq]
  rw [segAxis_eq _ _ _ _ (by simpa using h), segAxis_eq _ _ _ _ (by simpa using h), mapL_comp, mapL_comp]
  exact mapL_zip (f := fun c : Pt => segVal c1.1 d1.1 c2.1 d2.1 c.1) (g := fun c : Pt => segVal c1.2 d1.2 c2.2 d2.2 c.2)
    (fun _ => segVal_ne_err _ _ _ _ _) (fun _ => segVal_ne_err _ _ _ _ _) coords

end FT.Props
