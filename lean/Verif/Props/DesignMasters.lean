import Verif.Props.Designspace
import Verif.Props.InstancerFont
import Verif.Props.VarModel

/-!
C104: which axis maps can be written, which source is the default master, and where the masters are.
-/

namespace FT.Props
open FT FT.Save FT.AxisMaps FT.Design FT.F32

/-! ### Axis maps -/

/-- What a map has to be for `SegmentMap::new` to accept what `add_to_font` makes of it: outputs that do not decrease, the default
going to the least output and the maximum to the greatest, each by exactly one point. -/
structure MapAccepted (ax : AxisMaps.Axis) (m : List (ℚ × ℚ)) : Prop where
  rising : m.Pairwise fun x y => x.2 ≤ y.2
  least : m.countP (fun x => decide (inRange ax x.1 = ax.default ∧ ∀ y ∈ m, x.2 ≤ y.2)) = 1
  greatest : m.countP (fun x => decide ((ax.default < ax.maximum ∧ inRange ax x.1 = ax.maximum) ∧
    (∀ y ∈ m, y.2 ≤ x.2) ∧ ∃ y ∈ m, y.2 < x.2)) = 1

theorem inRange_int {ax : AxisMaps.Axis} {l : ℚ} (h : ∃ n : ℤ, l = n) : ∃ n : ℤ, inRange ax l = n := by
  obtain ⟨n, rfl⟩ := h
  exact ⟨max ax.minimum (min n ax.maximum), by unfold inRange; push_cast; rfl⟩

theorem normUser_zero {ax : AxisMaps.Axis} (h : AxisOrder ax) {l a : ℚ} (hl : ∃ n : ℤ, l = n) (ha : normUser rne ax l = .ok a) :
    a = 0 ↔ inRange ax l = ax.default := by
  obtain ⟨n, hn⟩ := inRange_int (ax := ax) hl
  obtain ⟨_, _, _, e1, e2⟩ := h.exact
  obtain ⟨g1, g2⟩ := inRange_le h l
  have s1 : -(2 : ℚ) ^ 24 ≤ ax.minimum := by exact_mod_cast (abs_le.1 h.small.1).1
  have s2 : (ax.maximum : ℚ) ≤ 2 ^ 24 := by exact_mod_cast (abs_le.1 h.small.2).2
  rcases normUser_cases h l with ⟨g, e⟩ | ⟨g, e⟩ | ⟨g, e⟩ <;> rw [ha] at e <;> cases e
  · have : (1 : ℚ) ≤ ax.default - inRange ax l := by
      rw [hn] at g ⊢
      have g' : n < ax.default := by exact_mod_cast g
      have : (n : ℚ) + 1 ≤ ax.default := by exact_mod_cast g'
      linarith
    have := rne_quot_pos (n := ax.default - inRange ax l) (d := ax.default - ax.minimum) (by linarith) (by linarith) (by linarith)
    rw [neg_div, rne_neg]
    constructor <;> intro h' <;> linarith
  · have : (1 : ℚ) ≤ inRange ax l - ax.default := by
      rw [hn] at g ⊢
      have g' : ax.default < n := by exact_mod_cast g
      have : (ax.default : ℚ) + 1 ≤ n := by exact_mod_cast g'
      linarith
    have := rne_quot_pos (n := inRange ax l - ax.default) (d := ax.maximum - ax.default) (by linarith) (by linarith) (by linarith)
    constructor <;> intro h' <;> linarith
  · exact ⟨fun _ => g, fun _ => rfl⟩

/-- A quotient that is 1 to within the precision used by `SegmentMap::new`. -/
theorem quot_one {k d : ℤ} (h0 : 0 ≤ k) (hk : k ≤ d) (hd : 0 < d) (hd2 : d ≤ 2 ^ 23) :
    |rne (rne ((k : ℚ) / d) - 1)| < Var.eps ↔ k = d := by
  have dq : (0 : ℚ) < d := by exact_mod_cast hd
  constructor
  · intro h
    by_contra hne
    have hlt : (k : ℚ) + 1 ≤ d := by exact_mod_cast (lt_of_le_of_ne hk hne)
    have d2 : (d : ℚ) ≤ 2 ^ 23 := by exact_mod_cast hd2
    have x1 : (k : ℚ) / d ≤ (8388607 : ℤ) * 2 ^ (-23 : ℤ) := by
      rw [div_le_iff₀ dq]
      have : (d : ℚ) * (1 / 2 ^ 23) ≤ 1 := by
        rw [mul_one_div]; exact div_le_one_of_le₀ d2 (by norm_num)
      norm_num at this ⊢
      linarith
    have x2 := rne_mono x1
    rw [rne_exact _ _ (by norm_num) (by norm_num)] at x2
    have x3 : rne ((k : ℚ) / d) - 1 ≤ ((-1 : ℤ) : ℚ) * 2 ^ (-23 : ℤ) := by norm_num at x2 ⊢; linarith
    have x4 := rne_mono x3
    rw [rne_exact _ _ (by norm_num) (by norm_num)] at x4
    have := (abs_lt.mp h).1
    unfold Var.eps at this
    norm_num at x4 this
    linarith
  · rintro rfl
    rw [div_self (ne_of_gt dq), rne_one, sub_self, rne_zero, abs_zero]
    unfold Var.eps; norm_num

theorem far_from_one {a : ℚ} (h : a ≤ 0) : ¬ |rne (a - 1)| < Var.eps := by
  have := rne_mono (show a - 1 ≤ -1 by linarith)
  rw [rne_neg, rne_one] at this
  intro h'
  have := (abs_lt.mp h').1
  unfold Var.eps at this
  norm_num at this
  linarith

theorem normUser_one {ax : AxisMaps.Axis} (h : AxisOrder ax) (hs : |ax.minimum| ≤ 2 ^ 22 ∧ |ax.maximum| ≤ 2 ^ 22) {l a : ℚ}
    (hl : ∃ n : ℤ, l = n) (ha : normUser rne ax l = .ok a) :
    |rne (a - 1)| < Var.eps ↔ ax.default < ax.maximum ∧ inRange ax l = ax.maximum := by
  obtain ⟨n, hn⟩ := inRange_int (ax := ax) hl
  obtain ⟨_, _, _, e1, e2⟩ := h.exact
  obtain ⟨g1, g2⟩ := inRange_le h l
  rw [hn] at g1 g2
  have g1' : ax.minimum ≤ n := by exact_mod_cast g1
  have g2' : n ≤ ax.maximum := by exact_mod_cast g2
  obtain ⟨s1, s2⟩ := abs_le.1 hs.1
  obtain ⟨s3, s4⟩ := abs_le.1 hs.2
  have hlo := h.low
  have hhi := h.high
  rcases normUser_cases h l with ⟨g, e⟩ | ⟨g, e⟩ | ⟨g, e⟩ <;> rw [ha] at e <;> cases e <;> rw [hn] at g ⊢
  · have hp := part_unit (n := ax.default - n) (d := ax.default - ax.minimum) (by linarith) (by linarith)
    constructor
    · intro h'
      refine absurd h' (far_from_one ?_)
      rw [neg_div, rne_neg]; linarith
    · rintro ⟨h1, h2⟩
      have : (ax.default : ℚ) < ax.maximum := by exact_mod_cast h1
      linarith
  · have g' : ax.default < n := by exact_mod_cast g
    have e1 : (n : ℚ) - ax.default = ((n - ax.default : ℤ) : ℚ) := by push_cast; rfl
    have e2 : (ax.maximum : ℚ) - ax.default = ((ax.maximum - ax.default : ℤ) : ℚ) := by push_cast; rfl
    rw [e1, e2, rne_int _ (by rw [abs_le]; constructor <;> omega), rne_int _ (by rw [abs_le]; constructor <;> omega),
      quot_one (by omega) (by omega) (by omega) (by omega)]
    constructor
    · intro e
      have e' : n = ax.maximum := by omega
      exact ⟨by omega, by rw [e']⟩
    · rintro ⟨_, e⟩
      have : n = ax.maximum := by exact_mod_cast e
      omega
  · constructor
    · intro h'; exact absurd h' (far_from_one (le_refl 0))
    · rintro ⟨h1, h2⟩
      have : (ax.default : ℚ) < ax.maximum := by exact_mod_cast h1
      linarith

/-- The outputs of a map are multiples of 1/16, not above 2^18 in size. -/
def OutputFine (y : ℚ) : Prop := |y| ≤ 2 ^ 18 ∧ ∃ n : ℤ, y = (n : ℚ) / 16

theorem design_val {ax : AxisMaps.Axis} {m : List (ℚ × ℚ)} (hm : ax.map = some m) (hf : ∀ x ∈ m, OutputFine x.2) {lo hi : ℚ × ℚ}
    (hlo : lo ∈ m) (hhi : hi ∈ m) (hl : ∀ x ∈ m, lo.2 ≤ x.2) (hh : ∀ x ∈ m, x.2 ≤ hi.2) :
    ∃ D : ℤ, 0 ≤ D ∧ D ≤ 2 ^ 23 ∧ hi.2 - lo.2 = D / 16 ∧ ∀ x ∈ m, ∃ k : ℤ, 0 ≤ k ∧ k ≤ D ∧ x.2 - lo.2 = k / 16 ∧
      normDesign rne ax x.2 = .ok (rne ((k : ℚ) / D)) := by
  obtain ⟨b1, b, hb⟩ := hf lo hlo
  obtain ⟨c1, c, hc⟩ := hf hi hhi
  have hbc := hl hi hhi
  obtain ⟨b2, b3⟩ := abs_le.mp b1
  obtain ⟨c2, c3⟩ := abs_le.mp c1
  rw [hb] at b2 b3 hbc
  rw [hc] at c2 c3 hbc
  have z1 : b ≤ c := by
    have : (b : ℚ) ≤ c := by linarith
    exact_mod_cast this
  have z2 : c - b ≤ 2 ^ 23 := by
    have : ((c - b : ℤ) : ℚ) ≤ ((2 ^ 23 : ℤ) : ℚ) := by push_cast; norm_num; linarith
    exact_mod_cast this
  have eD : hi.2 - lo.2 = ((c - b : ℤ) : ℚ) / 16 := by rw [hb, hc]; push_cast; ring
  refine ⟨c - b, by omega, z2, eD, fun x hx => ?_⟩
  obtain ⟨_, a, ha⟩ := hf x hx
  have h1 := hl x hx
  have h2 := hh x hx
  rw [ha, hb] at h1
  rw [ha, hc] at h2
  have w1 : b ≤ a := by
    have : (b : ℚ) ≤ a := by linarith
    exact_mod_cast this
  have w2 : a ≤ c := by
    have : (a : ℚ) ≤ c := by linarith
    exact_mod_cast this
  have ek : x.2 - lo.2 = ((a - b : ℤ) : ℚ) / 16 := by rw [ha, hb]; push_cast; ring
  refine ⟨a - b, by omega, by omega, ek, ?_⟩
  rw [C49_design_value hm hlo hhi hl hh, min_eq_left (hh x hx), max_eq_right (hl x hx), ek, eD]
  have r : ∀ k : ℤ, 0 ≤ k → k ≤ 2 ^ 23 → rne ((k : ℚ) / 16) = (k : ℚ) / 16 := by
    intro k k0 k1
    have := rne_exact k (-4) (by rw [abs_le]; constructor <;> omega) (by norm_num)
    have e : (k : ℚ) * 2 ^ (-4 : ℤ) = k / 16 := by norm_num; ring
    rwa [e] at this
  rw [r _ (by omega) (by omega), r _ (by omega) z2]
  congr 2
  rw [div_div_div_cancel_right₀ (by norm_num)]

/-- Rounded shares keep their order. -/
theorem share_order {j k D : ℤ} (h0 : 0 < D) (hD : D ≤ 2 ^ 23) (j0 : 0 ≤ j) (j1 : j ≤ D) (k0 : 0 ≤ k) (k1 : k ≤ D) :
    rne ((j : ℚ) / D) ≤ rne ((k : ℚ) / D) ↔ j ≤ k := by
  have dq : (0 : ℚ) < D := by exact_mod_cast h0
  have d2 : (D : ℚ) ≤ 2 ^ 23 := by exact_mod_cast hD
  have unit : ∀ i : ℤ, 0 ≤ i → i ≤ D → 0 ≤ (i : ℚ) / D ∧ (i : ℚ) / D ≤ 1 := by
    intro i i0 i1
    have a : (0 : ℚ) ≤ i := by exact_mod_cast i0
    have b : (i : ℚ) ≤ D := by exact_mod_cast i1
    exact ⟨div_nonneg a (le_of_lt dq), div_le_one_of_le₀ b (le_of_lt dq)⟩
  constructor
  · intro h
    by_contra hlt
    have hlt : (k : ℚ) + 1 ≤ j := by exact_mod_cast (not_le.mp hlt)
    obtain ⟨a1, a2⟩ := unit j j0 j1
    obtain ⟨b1, b2⟩ := unit k k0 k1
    obtain ⟨e1, e2⟩ := abs_le.mp (rne_unit_error a1 a2)
    obtain ⟨f1, f2⟩ := abs_le.mp (rne_unit_error b1 b2)
    have gap : (k : ℚ) / D + 1 / 2 ^ 23 ≤ j / D := by
      have : 1 / (2 : ℚ) ^ 23 ≤ 1 / D := one_div_le_one_div_of_le dq d2
      have : (k : ℚ) / D + 1 / D ≤ j / D := by
        rw [← add_div]; exact div_le_div_of_nonneg_right hlt (le_of_lt dq)
      linarith
    norm_num at gap e1 e2 f1 f2
    linarith
  · intro h
    exact rne_mono (div_le_div_of_nonneg_right (by exact_mod_cast h) (le_of_lt dq))

theorem countP_forall₂ {α β : Type} {R : α → β → Prop} {p : α → Bool} {q : β → Bool} : ∀ {l : List α} {m : List β},
    List.Forall₂ R l m → (∀ x ∈ l, ∀ y, R x y → p x = q y) → l.countP p = m.countP q
  | [], [], .nil, _ => rfl
  | x :: l, y :: m, .cons h h', H => by
    rw [List.countP_cons, List.countP_cons, countP_forall₂ h' (fun x hx => H x (List.mem_cons_of_mem _ hx)), H x (by simp) y h]

theorem pairwise_forall₂ {α β : Type} {R : α → β → Prop} {S : α → α → Prop} {T : β → β → Prop} : ∀ {l : List α} {m : List β},
    List.Forall₂ R l m → (∀ x ∈ l, ∀ x' ∈ l, ∀ y y', R x y → R x' y' → (S x x' ↔ T y y')) → (l.Pairwise S ↔ m.Pairwise T)
  | [], [], .nil, _ => by simp
  | x :: l, y :: m, .cons h h', H => by
    rw [List.pairwise_cons, List.pairwise_cons, pairwise_forall₂ h' (fun x hx x' hx' =>
      H x (List.mem_cons_of_mem _ hx) x' (List.mem_cons_of_mem _ hx'))]
    refine and_congr_left fun _ => ?_
    have : ∀ {l' : List α} {m' : List β}, List.Forall₂ R l' m' → (∀ z ∈ l', z ∈ l) → ((∀ z ∈ l', S x z) ↔ ∀ w ∈ m', T y w) := by
      intro l' m' hf
      induction hf with
      | nil => simp
      | @cons z w l' m' hzw _ ih =>
        intro hsub
        simp only [List.forall_mem_cons]
        rw [ih fun z hz => hsub z (List.mem_cons_of_mem _ hz),
          H x (by simp) z (List.mem_cons_of_mem _ (hsub z (by simp))) y w h hzw]
    exact this h' fun _ h => h

theorem forall₂_mem_left {α β : Type} {R S : α → β → Prop} {l : List α} {m : List β} (h : List.Forall₂ R l m)
    (H : ∀ x ∈ l, ∀ y, R x y → S x y) : List.Forall₂ S l m := by
  induction h with
  | nil => exact .nil
  | cons h1 _ ih => exact .cons (H _ (by simp) _ h1) (ih fun x hx => H x (List.mem_cons_of_mem _ hx))

/-- The greatest and least outputs. -/
theorem extremes {m : List (ℚ × ℚ)} (h : m ≠ []) : ∃ lo ∈ m, ∃ hi ∈ m, (∀ x ∈ m, lo.2 ≤ x.2) ∧ ∀ x ∈ m, x.2 ≤ hi.2 := by
  induction m with
  | nil => exact absurd rfl h
  | cons x m ih =>
    by_cases hm : m = []
    · subst hm; exact ⟨x, by simp, x, by simp, by simp, by simp⟩
    · obtain ⟨lo, hlo, hi, hhi, h1, h2⟩ := ih hm
      have a : ∃ lo' ∈ x :: m, ∀ y ∈ x :: m, lo'.2 ≤ y.2 := by
        rcases le_total x.2 lo.2 with c | c
        · exact ⟨x, by simp, List.forall_mem_cons.mpr ⟨le_refl _, fun y hy => le_trans c (h1 y hy)⟩⟩
        · exact ⟨lo, by simp [hlo], List.forall_mem_cons.mpr ⟨c, h1⟩⟩
      have b : ∃ hi' ∈ x :: m, ∀ y ∈ x :: m, y.2 ≤ hi'.2 := by
        rcases le_total hi.2 x.2 with c | c
        · exact ⟨x, by simp, List.forall_mem_cons.mpr ⟨le_refl _, fun y hy => le_trans (h2 y hy) c⟩⟩
        · exact ⟨hi, by simp [hhi], List.forall_mem_cons.mpr ⟨c, h2⟩⟩
      obtain ⟨lo', g1, g2⟩ := a
      obtain ⟨hi', g3, g4⟩ := b
      exact ⟨lo', g1, hi', g3, g2, g4⟩

/-- C104: which maps can be written. The axis gets (-1, -1) and then the points of the map; the input of a point becomes its
position on the axis, the output its share of the way from the least output to the greatest, both to within 2^-22. -/
theorem C104_segment {ax : AxisMaps.Axis} (h : AxisOrder ax) (hs : |ax.minimum| ≤ 2 ^ 22 ∧ |ax.maximum| ≤ 2 ^ 22)
    {m : List (ℚ × ℚ)} (hm : ax.map = some m) (hi : ∀ x ∈ m, ∃ n : ℤ, x.1 = n) (hf : ∀ x ∈ m, OutputFine x.2) :
    (MapAccepted ax m → ∃ sm, segmentOf rne ax = .ok ((-1, -1) :: sm) ∧ List.Forall₂ (fun x p => |p.1 - position ax x.1| ≤ 1 / 2 ^ 22 ∧
      ∀ lo ∈ m, ∀ hi ∈ m, (∀ y ∈ m, lo.2 ≤ y.2 ∧ y.2 ≤ hi.2) → |p.2 - (x.2 - lo.2) / (hi.2 - lo.2)| ≤ 1 / 2 ^ 22) m sm) ∧
    (¬ MapAccepted ax m → segmentOf rne ax = .panic) := by
  by_cases hne : m = []
  · subst hne
    refine ⟨fun g => ?_, fun _ => ?_⟩
    · have := g.least; simp at this
    · unfold segmentOf; rw [hm]
      simp only [Res.mapL]
      unfold segNew segValid isZeroPair
      simp
  obtain ⟨lo, hlo, hi', hhi, hl, hh⟩ := extremes hne
  obtain ⟨D, D0, D1, eD, hk⟩ := design_val hm hf hlo hhi hl hh
  -- what becomes of the points
  have hmap : ∃ sm, Res.mapL (fun x : ℚ × ℚ => match normUser rne ax x.1, normDesign rne ax x.2 with
      | .ok a, .ok b => .ok (a, b)
      | _, _ => .panic) m = .ok sm ∧ List.Forall₂ (fun x p => normUser rne ax x.1 = .ok p.1 ∧ normDesign rne ax x.2 = .ok p.2) m sm := by
    obtain ⟨sm, e⟩ := mapL_eq (f := fun x : ℚ × ℚ => match normUser rne ax x.1, normDesign rne ax x.2 with
      | .ok a, .ok b => .ok (a, b)
      | _, _ => .panic) m (fun x hx => by
        obtain ⟨a, ea, _⟩ := C54_range h x.1
        obtain ⟨k, _, _, _, eb⟩ := hk x hx
        exact ⟨_, by rw [ea, eb]⟩)
    refine ⟨sm, e, (mapL_inv _ _ e).imp fun x p hp => ?_⟩
    cases ha : normUser rne ax x.1 <;> cases hb : normDesign rne ax x.2 <;> simp only [ha, hb] at hp <;> cases hp
    exact ⟨rfl, rfl⟩
  obtain ⟨sm, esm, hsm⟩ := hmap
  have eseg : segmentOf rne ax = segNew rne ((-1, -1) :: sm) := by
    have e : segmentOf rne ax = match Res.mapL (fun x : ℚ × ℚ => match normUser rne ax x.1, normDesign rne ax x.2 with
        | .ok a, .ok b => .ok (a, b)
        | _, _ => .panic) m with
      | .ok sm => segNew rne ((-1, -1) :: sm)
      | .err => .err
      | .panic => .panic := by
      unfold segmentOf; rw [hm]; rfl
    rw [e, esm]
  have unit : ∀ x ∈ m, ∀ p : ℚ × ℚ, normDesign rne ax x.2 = .ok p.2 → 0 ≤ p.2 := by
    intro x hx p hp
    obtain ⟨k, k0, k1, _, ek⟩ := hk x hx
    rw [hp] at ek
    rw [Res.ok.inj ek]
    exact rne_nonneg (div_nonneg (by exact_mod_cast k0) (by exact_mod_cast D0))
  have unit' : ∀ p ∈ sm, 0 ≤ p.2 := by
    intro p hp
    obtain ⟨i, hi0, e⟩ := List.getElem_of_mem hp
    have hi1 : i < m.length := by rw [hsm.length_eq]; exact hi0
    have := hsm.get hi1 hi0
    rw [List.get_eq_getElem, List.get_eq_getElem, e] at this
    exact unit _ (List.getElem_mem hi1) p this.2
  have far : ∀ a : ℚ, 0 ≤ a → ¬ |rne (a - -1)| < Var.eps := by
    intro a ha h'
    have := rne_mono (show (1 : ℚ) ≤ a - -1 by linarith)
    rw [rne_one] at this
    have h2 := (abs_lt.mp h').2
    have : Var.eps < 1 := by unfold Var.eps; norm_num
    linarith
  have c3 : ((-1, -1) :: sm).countP (isPair rne (-1)) = 1 := by
    rw [List.countP_cons, List.countP_eq_zero.mpr]
    · have : isPair rne (-1) (-1, -1) = true := by
        unfold isPair; rw [decide_eq_true_eq]
        simp only [sub_self, rne_zero, abs_zero]
        unfold Var.eps; norm_num
      rw [this]; rfl
    · intro p hp
      unfold isPair
      rw [decide_eq_true_eq]
      exact fun hh => far _ (unit' p hp) hh.2
  have c1 : ((-1, -1) :: sm).countP isZeroPair = sm.countP isZeroPair := by
    rw [List.countP_cons_of_neg]; unfold isZeroPair; norm_num
  have c2 : ((-1, -1) :: sm).countP (isPair rne 1) = sm.countP (isPair rne 1) := by
    rw [List.countP_cons_of_neg]
    unfold isPair
    rw [decide_eq_true_eq]
    exact fun hh => far_from_one (by norm_num) hh.1
  have c0 : toOrdered (-2) ((-1, -1) :: sm) = true ↔ sm.Pairwise fun x y => x.2 ≤ y.2 := by
    rw [toOrdered_iff, List.pairwise_cons]
    constructor
    · exact fun hh => hh.2.2
    · intro hh
      refine ⟨?_, fun p hp => ?_, hh⟩
      · intro p hp
        rcases List.mem_cons.mp hp with rfl | hp
        · norm_num
        · have := unit' p hp; linarith
      · have := unit' p hp; simp only; linarith
  have key : segValid rne ((-1, -1) :: sm) = true ↔ MapAccepted ax m := by
    unfold segValid
    simp only [Bool.and_eq_true, beq_iff_eq, c0, c1, c2, c3, and_true]
    rcases eq_or_lt_of_le D0 with hD | hD
    · -- all outputs are the same
      constructor
      · rintro ⟨_, hc⟩
        rw [List.countP_eq_zero.mpr] at hc
        · cases hc
        · intro p hp
          unfold isPair
          rw [decide_eq_true_eq]
          rintro ⟨_, hh⟩
          refine far_from_one ?_ hh
          obtain ⟨i, hi0, e⟩ := List.getElem_of_mem hp
          have hi1 : i < m.length := by rw [hsm.length_eq]; exact hi0
          have := hsm.get hi1 hi0
          rw [List.get_eq_getElem, List.get_eq_getElem, e] at this
          obtain ⟨k, k0, k1, _, ek⟩ := hk _ (List.getElem_mem hi1)
          rw [this.2] at ek
          rw [Res.ok.inj ek]
          have : k = 0 := by omega
          rw [this]; simp [rne_zero]
      · intro g
        have := g.greatest
        rw [List.countP_eq_zero.mpr] at this
        · cases this
        · intro x hx
          rw [decide_eq_true_eq]
          rintro ⟨_, _, y, hy, hlt⟩
          have a := hl y hy
          have b := hh x hx
          rw [← hD] at eD
          norm_num at eD
          linarith
    · have e0 : ∀ x ∈ m, ∀ p : ℚ × ℚ, (normUser rne ax x.1 = .ok p.1 ∧ normDesign rne ax x.2 = .ok p.2) →
          decide (inRange ax x.1 = ax.default ∧ ∀ y ∈ m, x.2 ≤ y.2) = isZeroPair p := by
        intro x hx p hp
        unfold isZeroPair
        rw [decide_eq_decide, normUser_zero h (hi x hx) hp.1]
        refine and_congr_right fun _ => ?_
        obtain ⟨k, k0, k1, ek, en⟩ := hk x hx
        rw [hp.2] at en
        rw [Res.ok.inj en]
        have so := share_order hD D1 k0 k1 (le_refl 0) D0
        rw [Int.cast_zero, zero_div, rne_zero] at so
        have nn : 0 ≤ rne ((k : ℚ) / D) := rne_nonneg (div_nonneg (by exact_mod_cast k0) (by exact_mod_cast D0))
        constructor
        · intro hmin
          have : (k : ℚ) ≤ 0 := by have := hmin lo hlo; linarith
          exact le_antisymm (so.mpr (by exact_mod_cast this)) nn
        · intro h0 y hy
          have k00 : k ≤ 0 := so.mp (le_of_eq h0)
          have : (k : ℚ) = 0 := by exact_mod_cast (le_antisymm k00 k0)
          rw [this] at ek
          have := hl y hy; linarith
      have e1 : ∀ x ∈ m, ∀ p : ℚ × ℚ, (normUser rne ax x.1 = .ok p.1 ∧ normDesign rne ax x.2 = .ok p.2) →
          decide ((ax.default < ax.maximum ∧ inRange ax x.1 = ax.maximum) ∧ (∀ y ∈ m, y.2 ≤ x.2) ∧ ∃ y ∈ m, y.2 < x.2) =
            isPair rne 1 p := by
        intro x hx p hp
        unfold isPair
        rw [decide_eq_decide, normUser_one h hs (hi x hx) hp.1]
        refine and_congr_right fun _ => ?_
        obtain ⟨k, k0, k1, ek, en⟩ := hk x hx
        rw [hp.2] at en
        rw [Res.ok.inj en, quot_one k0 k1 hD D1]
        constructor
        · rintro ⟨hmax, _⟩
          have : (D : ℚ) ≤ k := by have := hmax hi' hhi; linarith
          exact le_antisymm k1 (by exact_mod_cast this)
        · rintro rfl
          have hx2 : x.2 = hi'.2 := by linarith
          have dq : (0 : ℚ) < k := by exact_mod_cast hD
          refine ⟨fun y hy => by rw [hx2]; exact hh y hy, lo, hlo, by linarith⟩
      have ep : (m.Pairwise fun x y => x.2 ≤ y.2) ↔ sm.Pairwise fun x y => x.2 ≤ y.2 := by
        refine pairwise_forall₂ hsm fun x hx x' hx' p p' hp hp' => ?_
        obtain ⟨k, k0, k1, ek, en⟩ := hk x hx
        obtain ⟨k', k0', k1', ek', en'⟩ := hk x' hx'
        rw [hp.2] at en
        rw [hp'.2] at en'
        rw [Res.ok.inj en, Res.ok.inj en', share_order hD D1 k0 k1 k0' k1']
        rw [← Int.cast_le (R := ℚ)]
        constructor <;> intro _ <;> linarith
      rw [← ep, ← countP_forall₂ hsm e0, ← countP_forall₂ hsm e1]
      exact ⟨fun g => ⟨g.1.1, g.1.2, g.2⟩, fun g => ⟨⟨g.rising, g.least⟩, g.greatest⟩⟩
  rw [eseg]
  unfold segNew
  constructor
  · intro g
    refine ⟨sm, if_pos (key.mpr g), ?_⟩
    have : ∀ x ∈ m, ∀ p : ℚ × ℚ, (normUser rne ax x.1 = .ok p.1 ∧ normDesign rne ax x.2 = .ok p.2) →
        (|p.1 - position ax x.1| ≤ 1 / 2 ^ 22 ∧
      ∀ lo ∈ m, ∀ hi ∈ m, (∀ y ∈ m, lo.2 ≤ y.2 ∧ y.2 ≤ hi.2) → |p.2 - (x.2 - lo.2) / (hi.2 - lo.2)| ≤ 1 / 2 ^ 22) := by
      intro x hx p hp
      refine ⟨C54_precision h hp.1, fun lo1 hlo1 hi1 hhi1 hb => ?_⟩
      obtain ⟨k, k0, k1, ek, en⟩ := hk x hx
      rw [hp.2] at en
      rw [Res.ok.inj en]
      have q1 : lo1.2 = lo.2 := le_antisymm (hb lo hlo).1 (hl lo1 hlo1)
      have q2 : hi1.2 = hi'.2 := le_antisymm (hh hi1 hhi1) (hb hi' hhi).2
      rw [q1, q2, ek, eD, div_div_div_cancel_right₀ (by norm_num)]
      have u := rne_unit_error (x := (k : ℚ) / D) (div_nonneg (by exact_mod_cast k0) (by exact_mod_cast D0))
        (div_le_one_of_le₀ (by exact_mod_cast k1) (by exact_mod_cast D0))
      exact le_trans u (by norm_num)
    exact forall₂_mem_left hsm this
  · intro g
    rw [if_neg (fun hv => g (key.mp hv))]

/-- The map of an axis that starts at its default. -/
example : MapAccepted ⟨400, 400, 900, some [(400, 80), (600, 120), (900, 200)]⟩ [(400, 80), (600, 120), (900, 200)] :=
  ⟨by decide +kernel, by decide +kernel, by decide +kernel⟩

/-- The usual kind of map, with the default inside, is not accepted. -/
example : ¬ MapAccepted ⟨100, 400, 900, some [(100, 20), (400, 80), (900, 200)]⟩ [(100, 20), (400, 80), (900, 200)] :=
  fun h => absurd h.least (by decide +kernel)

example : AxisOrder ⟨400, 400, 900, some [(400, 80), (600, 120), (900, 200)]⟩ ∧ OutputFine 80 ∧ OutputFine 120 ∧ OutputFine 200 :=
  ⟨⟨by decide, by decide, by decide⟩, ⟨by norm_num, 1280, by norm_num⟩, ⟨by norm_num, 1920, by norm_num⟩, ⟨by norm_num, 3200, by norm_num⟩⟩

/-! ### The default master -/

/-- A number without its fraction. -/
def cut (x : ℚ) : ℤ := if 0 ≤ x then ⌊x⌋ else ⌈x⌉

/-- Where the default of an axis is in the design: without a map, the default itself; with a map, the output of the point at the
default. -/
def DefaultAt (ax : AxisMaps.Axis) (x : ℚ) : Prop := match ax.map with
  | none => x = ax.default
  | some m => ((ax.default : ℚ), x) ∈ m ∧ ∀ y ∈ m, cut y.1 = ax.default → y.2 = x

/-- The source is at the place `xs`, fractions aside. -/
def IsAt (d : Designspace) (s : Source) (xs : List ℚ) : Prop := ∃ c, Coordinates d s.location c ∧ c.map cut = xs.map cut

theorem toInt_cut {x : ℚ} (h : |x| < 2 ^ 31) : toInt x = cut x := by
  obtain ⟨h1, h2⟩ := abs_lt.mp h
  have e : Glyf.truncQ x = cut x := by
    unfold Glyf.truncQ cut
    split
    · rfl
    · rw [Int.floor_neg]; omega
  unfold toInt
  rw [e]
  have b1 : -2 ^ 31 ≤ cut x := by
    unfold cut; split
    · rw [Int.le_floor]; push_cast; linarith
    · have := Int.le_ceil x
      have : ((-2 ^ 31 : ℤ) : ℚ) < ⌈x⌉ := by push_cast; linarith
      exact le_of_lt (by exact_mod_cast this)
  have b2 : cut x < 2 ^ 31 := by
    unfold cut; split
    · rw [Int.floor_lt]; push_cast; linarith
    · next hx =>
      have : ⌈x⌉ ≤ 0 := by rw [Int.ceil_le]; push_cast; linarith
      omega
  unfold F32.toI32
  omega

/-- All the numbers are within the range of an `i32`. -/
structure NumbersFit (d : Designspace) : Prop where
  default : ∀ a ∈ d.axes, |a.scale.default| ≤ 2 ^ 24
  sources : ∀ s ∈ d.sources, ∀ e ∈ s.location, |e.xvalue| < 2 ^ 31
  maps : ∀ a ∈ d.axes, ∀ m, a.scale.map = some m → ∀ y ∈ m, |y.1| < 2 ^ 31 ∧ |y.2| < 2 ^ 31

theorem gives_small {loc : Place} {n : List Char} {o x : ℚ} (h : Gives loc n o x) (hl : ∀ e ∈ loc, |e.xvalue| < 2 ^ 31)
    (ho : |o| < 2 ^ 31) : |x| < 2 ^ 31 := by
  rcases h with ⟨pre, e, post, rfl, _, _, rfl⟩ | ⟨_, rfl⟩
  · exact hl e (by simp)
  · exact ho

theorem default_small {d : Designspace} (hn : NumbersFit d) {a : DsAxis} (ha : a ∈ d.axes) : rne a.scale.default = a.scale.default ∧
    |(a.scale.default : ℚ)| < 2 ^ 31 := by
  have h := hn.default a ha
  refine ⟨rne_int _ h, ?_⟩
  have : |(a.scale.default : ℚ)| ≤ 2 ^ 24 := by exact_mod_cast h
  exact lt_of_le_of_lt this (by norm_num)

theorem coordinates_small {d : Designspace} (hn : NumbersFit d) {s : Source} (hs : s ∈ d.sources) {c : List ℚ}
    (hc : Coordinates d s.location c) : ∀ x ∈ c, |x| < 2 ^ 31 := by
  unfold Coordinates at hc
  intro x hx
  obtain ⟨i, hi, e⟩ := List.getElem_of_mem hx
  have hi' : i < d.axes.length := by rw [hc.length_eq]; exact hi
  have := hc.get hi' hi
  rw [List.get_eq_getElem, List.get_eq_getElem, e] at this
  obtain ⟨n, _, g⟩ := this
  obtain ⟨e1, e2⟩ := default_small hn (List.getElem_mem hi')
  exact gives_small g (hn.sources s hs) (by rw [e1]; exact e2)

theorem source_at {d : Designspace} (ht : ∀ a ∈ d.axes, TagOk a.tag) (hn : NumbersFit d) {s : Source} (hs : s ∈ d.sources) :
    ∃ c, Coordinates d s.location c ∧ sourceLocation rne d s = .ok (c.map cut) := by
  obtain ⟨c, e, hc⟩ := location_ok ((tagsFine_iff d).mpr ht) s.location
  refine ⟨c, hc, ?_⟩
  unfold sourceLocation
  rw [e, Res.ok_bind]
  have : c.map toInt = c.map cut := List.map_congr_left fun x hx => toInt_cut (coordinates_small hn hs hc x hx)
  rw [this]
  rfl

theorem default_design {d : Designspace} (hn : NumbersFit d) {a : DsAxis} (ha : a ∈ d.axes) {x : ℚ} (h : DefaultAt a.scale x) :
    toDesign rne a.scale a.scale.default = .ok x ∧ |x| < 2 ^ 31 := by
  obtain ⟨e1, e2⟩ := default_small hn ha
  unfold DefaultAt at h
  cases hm : a.scale.map with
  | none =>
    rw [hm] at h
    simp only at h
    subst h
    refine ⟨?_, e2⟩
    unfold toDesign
    rw [hm]
    simp only
    unfold dsMap plainMap
    have : BMap.get? (BMap.collect [(a.scale.minimum, rne a.scale.minimum), (a.scale.default, rne a.scale.default),
        (a.scale.maximum, rne a.scale.maximum)]) a.scale.default = some (a.scale.default : ℚ) := by
      unfold BMap.collect
      apply get?_collect_last
      · intro y hy e
        simp only [List.mem_cons, List.not_mem_nil, or_false] at hy
        rcases hy with rfl | rfl | rfl <;> simp only at e ⊢
        · rw [e, e1]
        · exact e1
        · rw [e, e1]
      · exact .inl ⟨(a.scale.default, rne a.scale.default), by simp, rfl⟩
    rw [this]
  | some m =>
    rw [hm] at h
    obtain ⟨h1, h2⟩ := h
    have hb := hn.maps a ha m hm
    refine ⟨C47_axis_to_design a.scale hm ?_ h1 ?_, (hb _ h1).2⟩
    · have := hn.default a ha
      exact lt_of_le_of_lt this (by norm_num)
    · intro y hy e
      rw [toInt_cut (hb y hy).1] at e
      exact h2 y hy e

theorem expected_at {d : Designspace} (hn : NumbersFit d) {xs : List ℚ} (hx : List.Forall₂ (fun a x => DefaultAt a.scale x) d.axes xs) :
    defaultDesignLocation rne d = .ok (xs.map cut) := by
  unfold defaultDesignLocation
  apply FT.Cli.mapL_forall₂
  have : ∀ {l : List DsAxis} {ys : List ℚ}, (∀ a ∈ l, a ∈ d.axes) → List.Forall₂ (fun a x => DefaultAt a.scale x) l ys →
      List.Forall₂ (fun a y => (do
        let x ← toDesign rne a.scale a.scale.default
        return toInt x : Res ℤ) = .ok y) l (ys.map cut) := by
    intro l ys hl h
    induction h with
    | nil => exact .nil
    | @cons a x l ys h1 _ ih =>
      obtain ⟨e, hs⟩ := default_design hn (hl a (by simp)) h1
      refine .cons ?_ (ih fun b hb => hl b (List.mem_cons_of_mem _ hb))
      rw [e, Res.ok_bind, toInt_cut hs]
      rfl
  exact this (fun _ h => h) hx

/-- C104: the default master is the first source at the default place, fractions aside; there is none if no source is there. -/
theorem C104_default_master (d : Designspace) (ht : ∀ a ∈ d.axes, TagOk a.tag) (hn : NumbersFit d) (xs : List ℚ)
    (hx : List.Forall₂ (fun a x => DefaultAt a.scale x) d.axes xs) :
    (∃ pre s post, d.sources = pre ++ s :: post ∧ IsAt d s xs ∧ (∀ s' ∈ pre, ¬ IsAt d s' xs) ∧ defaultMaster rne d = .ok (some s)) ∨
    ((∀ s ∈ d.sources, ¬ IsAt d s xs) ∧ defaultMaster rne d = .ok none) := by
  unfold defaultMaster
  rw [expected_at hn hx, Res.ok_bind]
  have key : ∀ l : List Source, (∀ s ∈ l, s ∈ d.sources) →
      (∃ pre s post, l = pre ++ s :: post ∧ IsAt d s xs ∧ (∀ s' ∈ pre, ¬ IsAt d s' xs) ∧
        findSource rne d (xs.map cut) l = .ok (some s)) ∨
      ((∀ s ∈ l, ¬ IsAt d s xs) ∧ findSource rne d (xs.map cut) l = .ok none) := by
    intro l
    induction l with
    | nil => exact fun _ => .inr ⟨by simp, rfl⟩
    | cons s l ih =>
      intro hl
      obtain ⟨c, hc, e⟩ := source_at ht hn (hl s (by simp))
      have hiff : IsAt d s xs ↔ c.map cut = xs.map cut := by
        constructor
        · rintro ⟨c', hc', e'⟩; rwa [coordinates_unique hc hc']
        · exact fun h => ⟨c, hc, h⟩
      unfold findSource
      rw [e, Res.ok_bind]
      by_cases h : c.map cut = xs.map cut
      · left
        exact ⟨[], s, l, rfl, hiff.mpr h, by simp, by rw [if_pos h]; rfl⟩
      · rw [if_neg h]
        rcases ih fun s' hs' => hl s' (List.mem_cons_of_mem _ hs') with ⟨pre, s1, post, rfl, h1, h2, h3⟩ | ⟨h1, h2⟩
        · left
          exact ⟨s :: pre, s1, post, rfl, h1, List.forall_mem_cons.mpr ⟨fun hh => h (hiff.mp hh), h2⟩, h3⟩
        · right
          exact ⟨List.forall_mem_cons.mpr ⟨fun hh => h (hiff.mp hh), h1⟩, h2⟩
  exact key d.sources fun _ h => h

/-- An axis with the usual kind of map, and the given sources. -/
def mappedSpace (l : List Source) : Designspace :=
  ⟨[⟨"Weight".toList, [119, 103, 104, 116], ⟨100, 400, 900, some [(100, 20), (400, 80), (900, 200)]⟩, none⟩], l, []⟩

theorem mappedSpace_tags (l : List Source) : ∀ a ∈ (mappedSpace l).axes, TagOk a.tag := by
  intro a ha
  simp only [mappedSpace, List.mem_cons, List.not_mem_nil, or_false] at ha
  subst ha
  exact ⟨by decide, by decide, by unfold Printable; decide⟩

theorem mappedSpace_fit (l : List Source) (h : ∀ s ∈ l, ∀ e ∈ s.location, |e.xvalue| < 2 ^ 31) : NumbersFit (mappedSpace l) := by
  refine ⟨?_, h, ?_⟩ <;> intro a ha <;> simp only [mappedSpace, List.mem_cons, List.not_mem_nil, or_false] at ha <;> subst ha
  · decide
  · rintro m hm y hy
    cases hm
    simp only [List.mem_cons, List.not_mem_nil, or_false] at hy
    rcases hy with rfl | rfl | rfl <;> norm_num

theorem mappedSpace_default (l : List Source) : List.Forall₂ (fun a x => DefaultAt a.scale x) (mappedSpace l).axes [80] := by
  refine .cons ⟨by simp, ?_⟩ .nil
  have : ∀ y ∈ [((100 : ℚ), (20 : ℚ)), (400, 80), (900, 200)], cut y.1 = 400 → y.2 = 80 := by
    intro y hy e
    simp only [List.mem_cons, List.not_mem_nil, or_false] at hy
    rcases hy with rfl | rfl | rfl
    · revert e; unfold cut; norm_num
    · rfl
    · revert e; unfold cut; norm_num
  exact this

theorem mappedSpace_goes (l : List Source) {a : DsAxis} (ha : a ∈ (mappedSpace l).axes) (n : List Char) :
    GoesBy (mappedSpace l) a n ↔ n = "Weight".toList := by
  rw [C104_own_name (mappedSpace l) (by simp [mappedSpace]) a ha]
  simp only [mappedSpace, List.mem_cons, List.not_mem_nil, or_false] at ha
  subst ha
  rfl

theorem mappedSpace_coordinates (l : List Source) (loc : Place) (x : ℚ) (h : Gives loc "Weight".toList 400 x) :
    Coordinates (mappedSpace l) loc [x] := by
  refine .cons ⟨"Weight".toList, (mappedSpace_goes l (by simp [mappedSpace]) _).mpr rfl, ?_⟩ .nil
  have : rne ((400 : ℤ) : ℚ) = 400 := by rw [rne_int _ (by decide)]; norm_num
  rw [this]; exact h

/-- C104: an axis that a source does not mention counts as being at the default of the axis as users see it, not as it is in the
design. With a map these differ, and the source is not found. -/
theorem C104_unmentioned : defaultMaster rne (mappedSpace [⟨"Regular.ufo".toList, []⟩]) = .ok none := by
  have hs : ∀ s ∈ [(⟨"Regular.ufo".toList, []⟩ : Source)], ∀ e ∈ s.location, |e.xvalue| < 2 ^ 31 := by simp
  rcases C104_default_master _ (mappedSpace_tags _) (mappedSpace_fit _ hs) [80] (mappedSpace_default _) with
    ⟨pre, s, post, e, ⟨c, hc, h⟩, _⟩ | ⟨_, h⟩
  · exfalso
    have : s = ⟨"Regular.ufo".toList, []⟩ := by
      have hm : s ∈ (mappedSpace [⟨"Regular.ufo".toList, []⟩]).sources := by rw [e]; simp
      simpa [mappedSpace] using hm
    subst this
    have := coordinates_unique hc (mappedSpace_coordinates _ [] 400 (.inr ⟨by simp, rfl⟩))
    rw [this] at h
    revert h; unfold cut; norm_num
  · exact h

/-- C104: fractions are ignored. A source at 80.9 is taken for the default master at 80 if it comes first. -/
theorem C104_fraction : defaultMaster rne (mappedSpace [⟨"Other.ufo".toList, [⟨"Weight".toList, 809 / 10⟩]⟩,
    ⟨"Regular.ufo".toList, [⟨"Weight".toList, 80⟩]⟩]) = .ok (some ⟨"Other.ufo".toList, [⟨"Weight".toList, 809 / 10⟩]⟩) := by
  have hs : ∀ s ∈ [(⟨"Other.ufo".toList, [⟨"Weight".toList, 809 / 10⟩]⟩ : Source), ⟨"Regular.ufo".toList, [⟨"Weight".toList, 80⟩]⟩],
      ∀ e ∈ s.location, |e.xvalue| < 2 ^ 31 := by
    intro s hs
    simp only [List.mem_cons, List.not_mem_nil, or_false] at hs
    rcases hs with rfl | rfl <;> simp <;> norm_num
  have hat : IsAt (mappedSpace [⟨"Other.ufo".toList, [⟨"Weight".toList, 809 / 10⟩]⟩,
      ⟨"Regular.ufo".toList, [⟨"Weight".toList, 80⟩]⟩]) ⟨"Other.ufo".toList, [⟨"Weight".toList, 809 / 10⟩]⟩ [80] :=
    ⟨[809 / 10], mappedSpace_coordinates _ _ _ (.inl ⟨[], _, [], rfl, rfl, by simp, rfl⟩), by unfold cut; norm_num⟩
  rcases C104_default_master _ (mappedSpace_tags _) (mappedSpace_fit _ hs) [80] (mappedSpace_default _) with
    ⟨pre, s, post, e, _, hp, h⟩ | ⟨hp, _⟩
  · cases pre with
    | nil => cases e; exact h
    | cons s' pre =>
      have e1 := (List.cons.inj e).1
      exact absurd hat (hp _ (by rw [e1]; simp))
  · exact absurd hat (hp _ (by simp [mappedSpace]))

/-! ### Where the masters are -/

/-- The coordinate of a master at the place `n` of an axis: without a map, its position on the axis; with a map, its share of the
way from the least to the greatest output. Both to within 2^-22. -/
structure LiesAt (ax : AxisMaps.Axis) (n : ℤ) (y : ℚ) : Prop where
  plain : ax.map = none ∨ ax.map = some [] → |y - position ax n| ≤ 1 / 2 ^ 22
  mapped : ∀ m, ax.map = some m → ∀ lo ∈ m, ∀ hi ∈ m, (∀ x ∈ m, lo.2 ≤ x.2 ∧ x.2 ≤ hi.2) → lo.2 + 1 / 65536 ≤ hi.2 →
    |y - (max lo.2 (min n hi.2) - lo.2) / (hi.2 - lo.2)| ≤ 1 / 2 ^ 22

theorem normDesign_lies {ax : AxisMaps.Axis} (h : AxisOrder ax) {n : ℤ} (hn : |n| ≤ 2 ^ 24) :
    ∃ y, normDesign rne ax (rne n) = .ok y ∧ -1 ≤ y ∧ y ≤ 1 ∧ LiesAt ax n y := by
  rw [rne_int n hn]
  cases hm : ax.map with
  | none =>
    have e : normDesign rne ax n = normUser rne ax n := by unfold normDesign; rw [hm]
    obtain ⟨y, hy, h1, h2⟩ := C54_range h n
    refine ⟨y, by rw [e, hy], h1, h2, fun _ => C54_precision h hy, fun m hm' => ?_⟩
    rw [hm] at hm'; cases hm'
  | some m =>
    by_cases hne : m = []
    · subst hne
      have e : normDesign rne ax n = normUser rne ax n := by unfold normDesign; rw [hm]
      obtain ⟨y, hy, h1, h2⟩ := C54_range h n
      refine ⟨y, by rw [e, hy], h1, h2, fun _ => C54_precision h hy, fun m hm' lo hlo => ?_⟩
      rw [hm] at hm'; cases hm'; simp at hlo
    · obtain ⟨lo, hlo, hi, hhi, hl, hh⟩ := extremes hne
      have e := C49_design_value hm hlo hhi hl hh (n : ℚ)
      have b0 : 0 ≤ max lo.2 (min (n : ℚ) hi.2) - lo.2 := by have := le_max_left lo.2 (min (n : ℚ) hi.2); linarith
      have b1 : max lo.2 (min (n : ℚ) hi.2) - lo.2 ≤ hi.2 - lo.2 := by
        have : max lo.2 (min (n : ℚ) hi.2) ≤ hi.2 := max_le (hl hi hhi) (min_le_right _ _)
        linarith
      have u := part_unit b0 b1
      refine ⟨_, e, by linarith [u.1], u.2, fun hp => ?_, fun m' hm' lo1 hlo1 hi1 hhi1 hb hgap => ?_⟩
      · rcases hp with hp | hp
        · rw [hm] at hp; cases hp
        · rw [hm] at hp; cases hp; exact absurd rfl hne
      · rw [hm] at hm'; cases hm'
        have q1 : lo1.2 = lo.2 := le_antisymm (hb lo hlo).1 (hl lo1 hlo1)
        have q2 : hi1.2 = hi.2 := le_antisymm (hh hi1 hhi1) (hb hi hhi).2
        rw [q1, q2]
        rw [q1, q2] at hgap
        exact part_error b0 b1 (by linarith)

/-- The place of a master whose coordinates in the design are `c`: on every axis what `LiesAt` says, and no other axes. -/
structure Located (d : Designspace) (c : List ℚ) (loc : Var.Loc) : Prop where
  sorted : BMap.Sorted loc
  range : ∀ x ∈ loc, -1 ≤ x.2 ∧ x.2 ≤ 1
  axes : ∀ (k : Nat) (a : DsAxis) (x : ℚ) (t : Tag), d.axes[k]? = some a → c[k]? = some x → t.bytes = padded a.tag →
    ∃ y, BMap.get? loc t = some y ∧ LiesAt a.scale (cut x) y
  only : ∀ t, (∀ a ∈ d.axes, t.bytes ≠ padded a.tag) → BMap.get? loc t = none

/-- The numbers of the sources are small enough to be exact in an `f32`. -/
structure SourcesFit (d : Designspace) : Prop where
  axes : ∀ a ∈ d.axes, AxisOrder a.scale
  default : ∀ a ∈ d.axes, |a.scale.default| ≤ 2 ^ 24
  sources : ∀ s ∈ d.sources, ∀ e ∈ s.location, |e.xvalue| ≤ 2 ^ 24

theorem cut_bound {x : ℚ} (h : |x| ≤ 2 ^ 24) : |cut x| ≤ 2 ^ 24 := by
  obtain ⟨h1, h2⟩ := abs_le.mp h
  rw [abs_le]
  unfold cut
  split
  · next h0 =>
    have f0 : 0 ≤ ⌊x⌋ := by rw [Int.le_floor]; push_cast; exact h0
    have f1 : ⌊x⌋ ≤ 2 ^ 24 := by
      have := Int.floor_le x
      have : (⌊x⌋ : ℚ) ≤ ((2 ^ 24 : ℤ) : ℚ) := by push_cast; linarith
      exact_mod_cast this
    constructor <;> omega
  · next h0 =>
    have f0 : ⌈x⌉ ≤ 0 := by rw [Int.ceil_le]; push_cast; linarith
    have f1 : -2 ^ 24 ≤ ⌈x⌉ := by
      have := Int.le_ceil x
      have : ((-2 ^ 24 : ℤ) : ℚ) ≤ ⌈x⌉ := by push_cast; linarith
      exact_mod_cast this
    constructor <;> omega

theorem coordinates_bound {d : Designspace} (hn : SourcesFit d) {s : Source} (hs : s ∈ d.sources) {c : List ℚ}
    (hc : Coordinates d s.location c) : ∀ x ∈ c, |x| ≤ 2 ^ 24 := by
  unfold Coordinates at hc
  intro x hx
  obtain ⟨i, hi, e⟩ := List.getElem_of_mem hx
  have hi' : i < d.axes.length := by rw [hc.length_eq]; exact hi
  have := hc.get hi' hi
  rw [List.get_eq_getElem, List.get_eq_getElem, e] at this
  obtain ⟨n, _, g⟩ := this
  have hd := hn.default _ (List.getElem_mem hi')
  rw [rne_int _ hd] at g
  rcases g with ⟨pre, e', post, el, _, _, rfl⟩ | ⟨_, rfl⟩
  · exact hn.sources s hs e' (by rw [el]; simp)
  · exact_mod_cast hd

theorem tags_bytes {l : List DsAxis} {ts : List Tag} (h : List.Forall₂ (fun a t => a.asTag = .ok t) l ts) :
    ts.map Tag.bytes = l.map fun a => padded a.tag := by
  induction h with
  | nil => rfl
  | cons h1 _ ih => rw [List.map_cons, List.map_cons, ih, (asTag_iff.mp h1).2]

/-- The place of a master, with the exact coordinates. -/
structure Put (d : Designspace) (c : List ℚ) (loc : Var.Loc) : Prop where
  sorted : BMap.Sorted loc
  range : ∀ x ∈ loc, -1 ≤ x.2 ∧ x.2 ≤ 1
  axes : ∀ (k : Nat) (a : DsAxis) (x : ℚ) (t : Tag), d.axes[k]? = some a → c[k]? = some x → t.bytes = padded a.tag →
    ∃ y, BMap.get? loc t = some y ∧ normDesign rne a.scale (rne (cut x)) = .ok y
  only : ∀ t, (∀ a ∈ d.axes, t.bytes ≠ padded a.tag) → BMap.get? loc t = none

theorem master_put (d : Designspace) (ht : ∀ a ∈ d.axes, TagOk a.tag) (hd : (d.axes.map fun a => padded a.tag).Nodup)
    (hn : SourcesFit d) (s : Source) (hs : s ∈ d.sources) :
    ∃ c loc, Coordinates d s.location c ∧ masterLocation rne d s = .ok loc ∧ Put d c loc := by
  obtain ⟨c, e, hc⟩ := location_ok ((tagsFine_iff d).mpr ht) s.location
  obtain ⟨ts, hts, e1, _⟩ := forall₂_fine ((tagsFine_iff d).mpr ht)
  have hb := coordinates_bound hn hs hc
  have hlen : d.axes.length = c.length := hc.length_eq
  have hlt : d.axes.length = ts.length := hts.length_eq
  have ecut : c.map toInt = c.map cut := List.map_congr_left fun x hx =>
    toInt_cut (lt_of_le_of_lt (hb x hx) (by norm_num))
  have hv : ∃ v, normalizeLocation rne d (c.map cut) = .ok v ∧ List.Forall₂ (fun (p : DsAxis × ℤ) y =>
      -1 ≤ y ∧ y ≤ 1 ∧ normDesign rne p.1.scale (rne p.2) = .ok y) (d.axes.zip (c.map cut)) v := by
    have hex : ∀ p ∈ d.axes.zip (c.map cut), ∃ y, normDesign rne p.1.scale (rne p.2) = .ok y ∧ -1 ≤ y ∧ y ≤ 1 ∧
        LiesAt p.1.scale p.2 y := by
      rintro ⟨a, n⟩ hp
      have h1 := (List.of_mem_zip hp).1
      have h2 := (List.of_mem_zip hp).2
      obtain ⟨x, hx, rfl⟩ := List.mem_map.mp h2
      exact normDesign_lies (hn.axes a h1) (cut_bound (hb x hx))
    obtain ⟨v, ev⟩ := mapL_eq (f := fun p : DsAxis × ℤ => normDesign rne p.1.scale (rne p.2)) (d.axes.zip (c.map cut))
      (fun p hp => by obtain ⟨y, hy, _⟩ := hex p hp; exact ⟨y, hy⟩)
    refine ⟨v, ev, forall₂_mem_left (mapL_inv _ _ ev) fun p hp y hy => ?_⟩
    obtain ⟨y', hy', h⟩ := hex p hp
    rw [hy] at hy'
    rw [Res.ok.inj hy'] at hy ⊢
    exact ⟨h.1, h.2.1, hy⟩
  obtain ⟨v, ev, hv⟩ := hv
  have hvl : d.axes.length = v.length := by
    rw [← hv.length_eq, List.length_zip, List.length_map, ← hlen, min_self]
  have hnd : ((ts.zip v).map Prod.fst).Nodup := by
    rw [List.map_fst_zip (by omega)]
    have h := hd
    rw [← tags_bytes hts] at h
    exact List.Nodup.of_map _ h
  have em : masterLocation rne d s = .ok (BMap.collect (ts.zip v)) := by
    unfold masterLocation sourceLocation
    rw [e, Res.ok_bind]
    simp only [Res.pure_eq, Res.ok_bind]
    rw [ecut, ev, Res.ok_bind, e1, Res.ok_bind]
  refine ⟨c, _, hc, em, BMap.collect_sorted _, ?_, ?_, ?_⟩
  · intro x hx
    have hx' : BMap.get? (BMap.collect (ts.zip v)) x.1 = some x.2 := (BMap.get?_eq_some (BMap.collect_sorted _)).mpr hx
    rw [get?_collect hnd] at hx'
    have hy := (List.of_mem_zip hx').2
    obtain ⟨i, hi, ei⟩ := List.getElem_of_mem hy
    have := hv.get (by rw [hv.length_eq]; exact hi) hi
    rw [List.get_eq_getElem, List.get_eq_getElem, ei] at this
    exact ⟨this.1, this.2.1⟩
  · intro k a x t ha hx hk
    have k1 : k < d.axes.length := (List.getElem?_eq_some_iff.mp ha).1
    have k2 : k < c.length := by omega
    have k3 : k < v.length := by omega
    have k4 : k < ts.length := by omega
    have k5 : k < (d.axes.zip (c.map cut)).length := by rw [hv.length_eq]; exact k3
    have ga : d.axes[k] = a := by rw [List.getElem?_eq_getElem k1] at ha; exact Option.some.inj ha
    have gx : c[k] = x := by rw [List.getElem?_eq_getElem k2] at hx; exact Option.some.inj hx
    have h1 := hv.get k5 k3
    rw [List.get_eq_getElem, List.get_eq_getElem, List.getElem_zip, List.getElem_map, ga, gx] at h1
    have h2 := hts.get k1 k4
    rw [List.get_eq_getElem, List.get_eq_getElem, ga] at h2
    have et : ts[k] = t := bytes_inj (by rw [(asTag_iff.mp h2).2, hk])
    refine ⟨v[k], ?_, h1.2.2⟩
    rw [get?_collect hnd]
    have hz : k < (ts.zip v).length := by rw [List.length_zip]; omega
    have : (ts.zip v)[k] = (t, v[k]) := by rw [List.getElem_zip, et]
    rw [← this]
    exact List.getElem_mem hz
  · intro t hno
    cases hg : BMap.get? (BMap.collect (ts.zip v)) t with
    | none => rfl
    | some y =>
      rw [get?_collect hnd] at hg
      have h1 := (List.of_mem_zip hg).1
      have : t.bytes ∈ d.axes.map fun a => padded a.tag := by
        rw [← tags_bytes hts]; exact List.mem_map_of_mem h1
      obtain ⟨a, ha, e⟩ := List.mem_map.mp this
      exact absurd e.symm (hno a ha)

/-- C104: where a master is put. -/
theorem C104_master_location (d : Designspace) (ht : ∀ a ∈ d.axes, TagOk a.tag) (hd : (d.axes.map fun a => padded a.tag).Nodup)
    (hn : SourcesFit d) (s : Source) (hs : s ∈ d.sources) :
    ∃ c loc, Coordinates d s.location c ∧ masterLocation rne d s = .ok loc ∧ Located d c loc := by
  obtain ⟨c, loc, hc, e, hp⟩ := master_put d ht hd hn s hs
  refine ⟨c, loc, hc, e, hp.sorted, hp.range, fun k a x t ha hx hk => ?_, hp.only⟩
  obtain ⟨y, h1, h2⟩ := hp.axes k a x t ha hx hk
  obtain ⟨y', h3, _, _, h4⟩ := normDesign_lies (hn.axes a (List.mem_of_getElem? ha))
    (cut_bound (coordinates_bound hn hs hc x (List.mem_of_getElem? hx)))
  rw [h2] at h3
  rw [← Res.ok.inj h3] at h4
  exact ⟨y, h1, h4⟩

/-- C104: with the default at its place in the design, an axis without a map puts the default master at 0; an axis with a map puts
it at 0 only if the default has the least output, and otherwise above. -/
theorem C104_default_place (ax : AxisMaps.Axis) (h : AxisOrder ax) (n : ℤ) (hn : |n| ≤ 2 ^ 24)
    (hd : DefaultAt ax n) (y : ℚ) (hy : normDesign rne ax (rne n) = .ok y) :
    (ax.map = none → y = 0) ∧
    ∀ m, ax.map = some m → ∀ lo ∈ m, ∀ hi ∈ m, (∀ x ∈ m, lo.2 ≤ x.2 ∧ x.2 ≤ hi.2) →
      (lo.2 = n → y = 0) ∧ (lo.2 + 1 / 65536 ≤ n → hi.2 ≤ lo.2 + 2 ^ 26 → 0 < y) := by
  rw [rne_int n hn] at hy
  constructor
  · intro hm
    unfold DefaultAt at hd
    rw [hm] at hd
    simp only at hd
    unfold normDesign at hy
    rw [hm] at hy
    simp only at hy
    rw [hd, C54_default h] at hy
    exact (Res.ok.inj hy).symm
  · intro m hm lo hlo hi hhi hb
    rw [C49_design_value hm hlo hhi (fun x hx => (hb x hx).1) (fun x hx => (hb x hx).2)] at hy
    have hnm : (n : ℚ) ≤ hi.2 := by
      unfold DefaultAt at hd
      rw [hm] at hd
      exact (hb _ hd.1).2
    have e := Res.ok.inj hy
    constructor
    · intro hl
      rw [← e, ← hl, min_eq_left (by rw [hl]; exact hnm), max_self, sub_self, rne_zero, zero_div, rne_zero]
    · intro hgap hw
      rw [← e, min_eq_left hnm, max_eq_right (by linarith)]
      exact rne_quot_pos (by linarith) (by linarith) (by linarith)

/-! ### Masters for the variation model -/

theorem position_gap {ax : AxisMaps.Axis} (h : AxisOrder ax) (hw : |ax.minimum| ≤ 2 ^ 19 ∧ |ax.maximum| ≤ 2 ^ 19) {n k : ℤ}
    (hlt : inRange ax n < inRange ax k) : position ax n + 1 / 2 ^ 20 ≤ position ax k := by
  obtain ⟨_, _, _, e1, e2⟩ := h.exact
  obtain ⟨i, hi⟩ := inRange_int (ax := ax) ⟨n, rfl⟩
  obtain ⟨j, hj⟩ := inRange_int (ax := ax) ⟨k, rfl⟩
  obtain ⟨g1, g2⟩ := inRange_le h (n : ℚ)
  obtain ⟨g3, g4⟩ := inRange_le h (k : ℚ)
  have a1 : -(2 : ℚ) ^ 19 ≤ ax.minimum := by exact_mod_cast (abs_le.mp hw.1).1
  have a2 : (ax.maximum : ℚ) ≤ 2 ^ 19 := by exact_mod_cast (abs_le.mp hw.2).2
  unfold position
  rw [hi, hj] at hlt ⊢
  rw [hi] at g1 g2
  rw [hj] at g3 g4
  have hij : (i : ℚ) + 1 ≤ j := by
    have : i < j := by exact_mod_cast hlt
    exact_mod_cast this
  norm_num at a1 a2
  rcases lt_trichotomy (i : ℚ) ax.default with c | c | c
  · have w0 : (0 : ℚ) < ax.default - ax.minimum := by linarith
    have w1 : (ax.default : ℚ) - ax.minimum ≤ 2 ^ 20 := by norm_num; linarith
    rw [if_pos c]
    have t1 : 1 / (2 : ℚ) ^ 20 ≤ 1 / (ax.default - ax.minimum) := one_div_le_one_div_of_le w0 w1
    rcases lt_trichotomy (j : ℚ) ax.default with b | b | b
    · rw [if_pos b]
      have : (((ax.default : ℚ) - i) / (ax.default - ax.minimum)) - ((ax.default - j) / (ax.default - ax.minimum)) =
        (j - i) / (ax.default - ax.minimum) := by rw [← sub_div]; ring
      have t2 : 1 / ((ax.default : ℚ) - ax.minimum) ≤ (j - i) / (ax.default - ax.minimum) :=
        div_le_div_of_nonneg_right (by linarith) (le_of_lt w0)
      linarith
    · rw [if_neg (by linarith), if_neg (by linarith)]
      have t2 : 1 / ((ax.default : ℚ) - ax.minimum) ≤ (ax.default - i) / (ax.default - ax.minimum) :=
        div_le_div_of_nonneg_right (by linarith) (le_of_lt w0)
      linarith
    · rw [if_neg (by linarith), if_pos b]
      have i1 : (i : ℚ) + 1 ≤ ax.default := by
        have : i < ax.default := by exact_mod_cast c
        exact_mod_cast this
      have t2 : 1 / ((ax.default : ℚ) - ax.minimum) ≤ (ax.default - i) / (ax.default - ax.minimum) :=
        div_le_div_of_nonneg_right (by linarith) (le_of_lt w0)
      have t3 : 0 ≤ ((j : ℚ) - ax.default) / (ax.maximum - ax.default) := div_nonneg (by linarith) (by linarith)
      linarith
  · have b : (ax.default : ℚ) < j := by linarith
    have w0 : (0 : ℚ) < ax.maximum - ax.default := by linarith
    have w1 : (ax.maximum : ℚ) - ax.default ≤ 2 ^ 20 := by norm_num; linarith
    rw [if_neg (by linarith), if_neg (by linarith), if_neg (by linarith), if_pos b]
    have t1 : 1 / (2 : ℚ) ^ 20 ≤ 1 / (ax.maximum - ax.default) := one_div_le_one_div_of_le w0 w1
    have t2 : 1 / ((ax.maximum : ℚ) - ax.default) ≤ (j - ax.default) / (ax.maximum - ax.default) :=
      div_le_div_of_nonneg_right (by linarith) (le_of_lt w0)
    linarith
  · have b : (ax.default : ℚ) < j := by linarith
    have w0 : (0 : ℚ) < ax.maximum - ax.default := by linarith
    have w1 : (ax.maximum : ℚ) - ax.default ≤ 2 ^ 20 := by norm_num; linarith
    rw [if_neg (by linarith), if_pos c, if_neg (by linarith), if_pos b]
    have t1 : 1 / (2 : ℚ) ^ 20 ≤ 1 / (ax.maximum - ax.default) := one_div_le_one_div_of_le w0 w1
    have : (((j : ℚ) - ax.default) / (ax.maximum - ax.default)) - ((i - ax.default) / (ax.maximum - ax.default)) =
      (j - i) / (ax.maximum - ax.default) := by rw [← sub_div]; ring
    have t2 : 1 / ((ax.maximum : ℚ) - ax.default) ≤ (j - i) / (ax.maximum - ax.default) :=
      div_le_div_of_nonneg_right (by linarith) (le_of_lt w0)
    linarith

/-- Two places on an axis give the same coordinate, or coordinates well apart. -/
theorem normUser_apart {ax : AxisMaps.Axis} (h : AxisOrder ax) (hw : |ax.minimum| ≤ 2 ^ 19 ∧ |ax.maximum| ≤ 2 ^ 19) {n k : ℤ} {y z : ℚ}
    (hy : normUser rne ax n = .ok y) (hz : normUser rne ax k = .ok z) :
    (inRange ax n = inRange ax k → y = z) ∧ (inRange ax n ≠ inRange ax k → Var.eps < |y - z|) := by
  constructor
  · intro e
    rcases normUser_cases h (n : ℚ) with ⟨g, e1⟩ | ⟨g, e1⟩ | ⟨g, e1⟩ <;>
      rcases normUser_cases h (k : ℚ) with ⟨g', e2⟩ | ⟨g', e2⟩ | ⟨g', e2⟩ <;>
      first
      | (exfalso; rw [e] at g; linarith)
      | (rw [hy] at e1; rw [hz] at e2; rw [Res.ok.inj e1, Res.ok.inj e2, e])
      | (rw [hy] at e1; rw [hz] at e2; rw [Res.ok.inj e1, Res.ok.inj e2])
  · intro hne
    obtain ⟨p1, p2⟩ := abs_le.mp (C54_precision h hy)
    obtain ⟨q1, q2⟩ := abs_le.mp (C54_precision h hz)
    unfold Var.eps
    rcases lt_or_gt_of_ne hne with hlt | hlt
    · have := position_gap h hw hlt
      rw [lt_abs]; right
      norm_num at p1 p2 q1 q2 this ⊢; linarith
    · have := position_gap h hw hlt
      rw [lt_abs]; left
      norm_num at p1 p2 q1 q2 this ⊢; linarith

/-- The sources are at different places, brought into the ranges of the axes. -/
def Differ (d : Designspace) (s s' : Source) : Prop := ∃ (c c' : List ℚ) (k : Nat) (a : DsAxis) (x x' : ℚ),
  Coordinates d s.location c ∧ Coordinates d s'.location c' ∧ d.axes[k]? = some a ∧ c[k]? = some x ∧ c'[k]? = some x' ∧
    inRange a.scale (cut x) ≠ inRange a.scale (cut x')

theorem coord_put {d : Designspace} {c : List ℚ} {loc : Var.Loc} (hp : Put d c loc) {k : Nat} {a : DsAxis} {x : ℚ} {t : Tag}
    (ha : d.axes[k]? = some a) (hx : c[k]? = some x) (ht : t.bytes = padded a.tag) (hm : a.scale.map = none)
    (hn : |cut x| ≤ 2 ^ 24) : normUser rne a.scale (cut x) = .ok (Var.coord loc t) := by
  obtain ⟨y, h1, h2⟩ := hp.axes k a x t ha hx ht
  rw [coord_some h1]
  rw [rne_int _ hn] at h2
  unfold normDesign at h2
  rw [hm] at h2
  exact h2

/-- C104: without maps, sources at different places are masters as `VariationModel` wants them (C44). -/
theorem C104_masters (d : Designspace) (ht : ∀ a ∈ d.axes, TagOk a.tag) (hd : (d.axes.map fun a => padded a.tag).Nodup)
    (hn : SourcesFit d) (hp : ∀ a ∈ d.axes, a.scale.map = none)
    (hw : ∀ a ∈ d.axes, |a.scale.minimum| ≤ 2 ^ 19 ∧ |a.scale.maximum| ≤ 2 ^ 19) (hdiff : d.sources.Pairwise (Differ d)) :
    ∃ locs order, Masters locs ∧ List.Forall₂ (fun s loc => masterLocation rne d s = .ok loc) d.sources locs ∧
      order.map Tag.bytes = (d.axes.map fun a => padded a.tag) ∧ variationModel rne d = Var.newModel rne locs order := by
  obtain ⟨ts, hts, e1, _⟩ := forall₂_fine ((tagsFine_iff d).mpr ht)
  have hput := master_put d ht hd hn
  obtain ⟨locs, el⟩ := mapL_eq (f := masterLocation rne d) d.sources (fun s hs => by
    obtain ⟨_, loc, _, e, _⟩ := hput s hs; exact ⟨loc, e⟩)
  have hf := mapL_inv _ _ el
  have hmem : ∀ loc ∈ locs, ∃ s ∈ d.sources, ∃ c, Coordinates d s.location c ∧ Put d c loc := by
    intro loc hloc
    obtain ⟨s, hs, e⟩ := mem_mapL el hloc
    obtain ⟨c, loc', hc, e', hP⟩ := hput s hs
    rw [e] at e'
    rw [Res.ok.inj e']
    exact ⟨s, hs, c, hc, hP⟩
  have hcut : ∀ {s c x}, s ∈ d.sources → Coordinates d s.location c → x ∈ c → |cut x| ≤ 2 ^ 24 := fun hs hc hx =>
    cut_bound (coordinates_bound hn hs hc _ hx)
  refine ⟨locs, ts, ⟨?_, ?_, ?_, ?_⟩, hf, tags_bytes hts, ?_⟩
  · intro l hl
    obtain ⟨_, _, _, _, hP⟩ := hmem l hl
    exact hP.sorted
  · intro l hl
    obtain ⟨_, _, _, _, hP⟩ := hmem l hl
    exact hP.range
  · intro l hl m hm t
    obtain ⟨s, hs, c, hc, hP⟩ := hmem l hl
    obtain ⟨s', hs', c', hc', hP'⟩ := hmem m hm
    by_cases hta : ∃ a ∈ d.axes, t.bytes = padded a.tag
    · obtain ⟨a, ha, hta⟩ := hta
      obtain ⟨k, hk, ek⟩ := List.getElem_of_mem ha
      have k1 : k < c.length := by rw [← hc.length_eq]; exact hk
      have k2 : k < c'.length := by rw [← hc'.length_eq]; exact hk
      have ga : d.axes[k]? = some a := by rw [List.getElem?_eq_getElem hk, ek]
      have h1 := coord_put hP ga (List.getElem?_eq_getElem k1) hta (hp a ha) (hcut hs hc (List.getElem_mem k1))
      have h2 := coord_put hP' ga (List.getElem?_eq_getElem k2) hta (hp a ha) (hcut hs' hc' (List.getElem_mem k2))
      obtain ⟨q1, q2⟩ := normUser_apart (hn.axes a ha) (hw a ha) h1 h2
      by_cases e : inRange a.scale (cut c[k]) = inRange a.scale (cut c'[k])
      · exact .inl (q1 e)
      · exact .inr (q2 e)
    · push Not at hta
      left
      rw [coord_none (hP.only t hta), coord_none (hP'.only t hta)]
  · have key : ∀ {l : List Source} {ls : List Var.Loc}, (∀ s ∈ l, s ∈ d.sources) →
        List.Forall₂ (fun s loc => masterLocation rne d s = .ok loc) l ls → l.Pairwise (Differ d) →
        ls.Pairwise fun l m => ∃ t, Var.coord l t ≠ Var.coord m t := by
      intro l ls hl h
      induction h with
      | nil => exact fun _ => .nil
      | @cons s loc l ls h1 h2 ih =>
        intro hpw
        rw [List.pairwise_cons] at hpw ⊢
        refine ⟨?_, ih (fun s hs => hl s (List.mem_cons_of_mem _ hs)) hpw.2⟩
        intro loc' hloc'
        obtain ⟨i, hi, ei⟩ := List.getElem_of_mem hloc'
        have hi' : i < l.length := by rw [h2.length_eq]; exact hi
        have h3 := h2.get hi' hi
        rw [List.get_eq_getElem, List.get_eq_getElem, ei] at h3
        have hs := hl s (by simp)
        have hs' := hl l[i] (List.mem_cons_of_mem _ (List.getElem_mem hi'))
        obtain ⟨c, c', k, a, x, x', hc, hc', ga, gx, gx', hne⟩ := hpw.1 l[i] (List.getElem_mem hi')
        obtain ⟨c1, loc1, hc1, em1, hP⟩ := hput s hs
        obtain ⟨c2, loc2, hc2, em2, hP'⟩ := hput l[i] hs'
        rw [h1] at em1
        rw [h3] at em2
        cases em1; cases em2
        rw [coordinates_unique hc1 hc] at hP
        rw [coordinates_unique hc2 hc'] at hP'
        have ha := List.mem_of_getElem? ga
        obtain ⟨t, hta⟩ := (tagsFine_iff d).mpr ht a ha
        have hta := (asTag_iff.mp hta).2
        have g1 := coord_put hP ga gx hta (hp a ha) (hcut hs hc (List.mem_of_getElem? gx))
        have g2 := coord_put hP' ga gx' hta (hp a ha) (hcut hs' hc' (List.mem_of_getElem? gx'))
        refine ⟨t, fun e => ?_⟩
        have := (normUser_apart (hn.axes a ha) (hw a ha) g1 g2).2 hne
        rw [e, sub_self, abs_zero] at this
        unfold Var.eps at this
        norm_num at this
    exact key (fun _ h => h) hf hdiff
  · unfold variationModel
    rw [el, Res.ok_bind, e1, Res.ok_bind]

/-- C104: with the usual kind of map the default master is not at the origin of the variation model. -/
theorem C104_off_origin (y : ℚ) (h : normDesign rne ⟨100, 400, 900, some [(100, 20), (400, 80), (900, 200)]⟩ (rne 80) = .ok y) : 0 < y := by
  have hb : ∀ x ∈ [((100 : ℚ), (20 : ℚ)), (400, 80), (900, 200)], ((100 : ℚ), (20 : ℚ)).2 ≤ x.2 ∧ x.2 ≤ ((900 : ℚ), (200 : ℚ)).2 := by
    decide +kernel
  have hd : DefaultAt ⟨100, 400, 900, some [(100, 20), (400, 80), (900, 200)]⟩ ((80 : ℤ) : ℚ) := by
    have := mappedSpace_default []
    simp only [mappedSpace, List.forall₂_cons] at this
    exact_mod_cast this.1
  have hy : normDesign rne ⟨100, 400, 900, some [(100, 20), (400, 80), (900, 200)]⟩ (rne ((80 : ℤ) : ℚ)) = .ok y := by
    exact_mod_cast h
  exact ((C104_default_place _ ⟨by decide, by decide, by decide⟩ 80 (by decide) hd y hy).2 _ rfl (100, 20) (by simp) (900, 200)
    (by simp) hb).2 (by norm_num) (by norm_num)

/-- One axis without a map and three sources. -/
def plainSpace : Designspace := ⟨[⟨"Weight".toList, [119, 103, 104, 116], ⟨100, 400, 900, none⟩, none⟩],
  [⟨"Light.ufo".toList, [⟨"Weight".toList, 100⟩]⟩, ⟨"Regular.ufo".toList, []⟩, ⟨"Black.ufo".toList, [⟨"Weight".toList, 900⟩]⟩], []⟩

theorem plainSpace_coordinates (loc : Place) (x : ℚ) (h : Gives loc "Weight".toList 400 x) : Coordinates plainSpace loc [x] := by
  refine .cons ⟨"Weight".toList, (C104_own_name plainSpace (by simp [plainSpace]) _ (by simp [plainSpace]) _).mpr rfl, ?_⟩ .nil
  have : rne ((400 : ℤ) : ℚ) = 400 := by rw [rne_int _ (by decide)]; norm_num
  rw [this]; exact h

/-- The hypotheses of `C104_masters` are met. -/
example : ∃ locs order, Masters locs ∧ locs.length = 3 ∧ variationModel rne plainSpace = Var.newModel rne locs order := by
  have single : ∀ {P : DsAxis → Prop}, P ⟨"Weight".toList, [119, 103, 104, 116], ⟨100, 400, 900, none⟩, none⟩ → ∀ a ∈ plainSpace.axes, P a := by
    intro P h a ha
    simp only [plainSpace, List.mem_cons, List.not_mem_nil, or_false] at ha
    subst ha; exact h
  have g1 : Coordinates plainSpace [⟨"Weight".toList, 100⟩] [100] :=
    plainSpace_coordinates _ _ (.inl ⟨[], _, [], rfl, rfl, by simp, rfl⟩)
  have g2 : Coordinates plainSpace [] [400] := plainSpace_coordinates _ _ (.inr ⟨by simp, rfl⟩)
  have g3 : Coordinates plainSpace [⟨"Weight".toList, 900⟩] [900] :=
    plainSpace_coordinates _ _ (.inl ⟨[], _, [], rfl, rfl, by simp, rfl⟩)
  obtain ⟨locs, order, h1, h2, _, h3⟩ := C104_masters plainSpace
    (single ⟨by decide, by decide, by unfold Printable; decide⟩) (by simp [plainSpace])
    ⟨single ⟨by decide, by decide, by decide⟩, single (by decide), by
      intro s hs
      simp only [plainSpace, List.mem_cons, List.not_mem_nil, or_false] at hs
      rcases hs with rfl | rfl | rfl <;> simp <;> norm_num⟩
    (single rfl) (single (by decide)) (by
      unfold plainSpace
      simp only [List.pairwise_cons, List.mem_cons, List.not_mem_nil, or_false, forall_eq_or_imp, forall_eq]
      refine ⟨⟨⟨_, _, 0, _, _, _, g1, g2, rfl, rfl, rfl, ?_⟩, _, _, 0, _, _, _, g1, g3, rfl, rfl, rfl, ?_⟩,
        ⟨_, _, 0, _, _, _, g2, g3, rfl, rfl, rfl, ?_⟩, by simp⟩ <;>
      · unfold cut inRange; norm_num)
  exact ⟨locs, order, h1, by rw [← h2.length_eq]; rfl, h3⟩

end FT.Props
