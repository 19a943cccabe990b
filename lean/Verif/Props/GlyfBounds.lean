import Verif.Props.GlyfTable

/-!
C31: recomputed bounds of the `glyf` table.
-/

namespace FT.Props
open FT FT.Glyf

/-! ### Specification -/

/-- The box of the glyph is the smallest one which contains all points; without points it is zero. -/
def TightBox (g : Glyph) : Prop :=
  let pts := g.contours.flatten
  (∀ p ∈ pts, g.xMin.toInt ≤ p.x.toInt ∧ p.x.toInt ≤ g.xMax.toInt ∧ g.yMin.toInt ≤ p.y.toInt ∧ p.y.toInt ≤ g.yMax.toInt) ∧
  (pts ≠ [] → (∃ p ∈ pts, p.x = g.xMin) ∧ (∃ p ∈ pts, p.x = g.xMax) ∧ (∃ p ∈ pts, p.y = g.yMin) ∧ (∃ p ∈ pts, p.y = g.yMax)) ∧
  (pts = [] → g.xMin = 0 ∧ g.xMax = 0 ∧ g.yMin = 0 ∧ g.yMax = 0)

/-- The same box. -/
def SameBox (g h : Glyph) : Prop := g.xMin = h.xMin ∧ g.xMax = h.xMax ∧ g.yMin = h.yMin ∧ g.yMax = h.yMax

/-- The four corners of the box of `h`, moved by `t`, have coordinates which fit 16 bits. -/
def CornersFit (t : Affine) (h : Glyph) : Prop :=
  ∀ x y : Int16, (x = h.xMin ∨ x = h.xMax) → (y = h.yMin ∨ y = h.yMax) →
    (-32768 ≤ (t.apply x.toInt y.toInt).1 ∧ (t.apply x.toInt y.toInt).1 ≤ 32767) ∧
    (-32768 ≤ (t.apply x.toInt y.toInt).2 ∧ (t.apply x.toInt y.toInt).2 ≤ 32767)

/-- The transformation maps whole numbers to whole numbers. -/
def WholeAffine (t : Affine) : Prop :=
  ∃ a b c d e f : ℤ, t.a = a ∧ t.b = b ∧ t.c = c ∧ t.d = d ∧ t.e = e ∧ t.f = f

/-! ### Simple glyphs -/

theorem foldMin_spec : ∀ (l : List Int16) (a : Int16),
    (l.foldl (fun m x => if x.toInt < m.toInt then x else m) a ∈ a :: l) ∧
    ∀ x ∈ a :: l, (l.foldl (fun m x => if x.toInt < m.toInt then x else m) a).toInt ≤ x.toInt
  | [], a => ⟨by simp, by simp⟩
  | b :: l, a => by
    rw [List.foldl_cons]
    obtain ⟨h1, h2⟩ := foldMin_spec l (if b.toInt < a.toInt then b else a)
    constructor
    · rcases List.mem_cons.mp h1 with h | h
      · rw [h]; split <;> simp
      · simp [h]
    · intro x hx
      have h0 := h2 _ (List.mem_cons_self)
      rcases List.mem_cons.mp hx with rfl | hx
      · split at h0 <;> split <;> first | omega | (simp_all)
      · rcases List.mem_cons.mp hx with rfl | hx
        · split at h0 <;> split <;> first | omega | (simp_all)
        · exact h2 x (List.mem_cons_of_mem _ hx)

theorem foldMax_spec : ∀ (l : List Int16) (a : Int16),
    (l.foldl (fun m x => if m.toInt ≤ x.toInt then x else m) a ∈ a :: l) ∧
    ∀ x ∈ a :: l, x.toInt ≤ (l.foldl (fun m x => if m.toInt ≤ x.toInt then x else m) a).toInt
  | [], a => ⟨by simp, by simp⟩
  | b :: l, a => by
    rw [List.foldl_cons]
    obtain ⟨h1, h2⟩ := foldMax_spec l (if a.toInt ≤ b.toInt then b else a)
    constructor
    · rcases List.mem_cons.mp h1 with h | h
      · rw [h]; split <;> simp
      · simp [h]
    · intro x hx
      have h0 := h2 _ (List.mem_cons_self)
      rcases List.mem_cons.mp hx with rfl | hx
      · split at h0 <;> split <;> first | omega | (simp_all)
      · rcases List.mem_cons.mp hx with rfl | hx
        · split at h0 <;> split <;> first | omega | (simp_all)
        · exact h2 x (List.mem_cons_of_mem _ hx)

theorem minOr0_spec (l : List Int16) : (l ≠ [] → minOr0 l ∈ l) ∧ (∀ x ∈ l, (minOr0 l).toInt ≤ x.toInt) ∧ (l = [] → minOr0 l = 0) := by
  cases l with
  | nil => simp [minOr0]
  | cons a l =>
    obtain ⟨h1, h2⟩ := foldMin_spec l a
    exact ⟨fun _ => h1, h2, by simp⟩

theorem maxOr0_spec (l : List Int16) : (l ≠ [] → maxOr0 l ∈ l) ∧ (∀ x ∈ l, x.toInt ≤ (maxOr0 l).toInt) ∧ (l = [] → maxOr0 l = 0) := by
  cases l with
  | nil => simp [maxOr0]
  | cons a l =>
    obtain ⟨h1, h2⟩ := foldMax_spec l a
    exact ⟨fun _ => h1, h2, by simp⟩

theorem boundsSimple_tight (g : Glyph) (h : g.components = []) : TightBox (boundsSimple g) ∧
    (boundsSimple g).contours = g.contours ∧ (boundsSimple g).components = [] := by
  have e : boundsSimple g = ⟨minOr0 (g.contours.flatten.map Point.x), maxOr0 (g.contours.flatten.map Point.x),
      minOr0 (g.contours.flatten.map Point.y), maxOr0 (g.contours.flatten.map Point.y),
      g.contours, g.instructions, g.components, g.overlap⟩ := by
    unfold boundsSimple
    rw [if_neg (by rw [hasComponents_iff]; exact fun hh => hh h)]
  rw [e]
  refine ⟨?_, rfl, h⟩
  obtain ⟨x1, x2, x3⟩ := minOr0_spec (g.contours.flatten.map Point.x)
  obtain ⟨X1, X2, X3⟩ := maxOr0_spec (g.contours.flatten.map Point.x)
  obtain ⟨y1, y2, y3⟩ := minOr0_spec (g.contours.flatten.map Point.y)
  obtain ⟨Y1, Y2, Y3⟩ := maxOr0_spec (g.contours.flatten.map Point.y)
  refine ⟨?_, ?_, ?_⟩
  · intro p hp
    exact ⟨x2 _ (List.mem_map_of_mem hp), X2 _ (List.mem_map_of_mem hp), y2 _ (List.mem_map_of_mem hp), Y2 _ (List.mem_map_of_mem hp)⟩
  · intro hne
    have hx : g.contours.flatten.map Point.x ≠ [] := by simpa using hne
    have hy : g.contours.flatten.map Point.y ≠ [] := by simpa using hne
    exact ⟨List.mem_map.mp (x1 hx), List.mem_map.mp (X1 hx), List.mem_map.mp (y1 hy), List.mem_map.mp (Y1 hy)⟩
  · intro hnil
    exact ⟨x3 (by simp [hnil]), X3 (by simp [hnil]), y3 (by simp [hnil]), Y3 (by simp [hnil])⟩

theorem tightBox_ordered {g : Glyph} (h : TightBox g) : g.xMin.toInt ≤ g.xMax.toInt ∧ g.yMin.toInt ≤ g.yMax.toInt := by
  obtain ⟨h1, _, h3⟩ := h
  by_cases hp : g.contours.flatten = []
  · obtain ⟨a, b, c, d⟩ := h3 hp
    rw [a, b, c, d]; exact ⟨Int.le_refl _, Int.le_refl _⟩
  · obtain ⟨p, hm⟩ := List.exists_mem_of_ne_nil _ hp
    obtain ⟨a, b, c, d⟩ := h1 p hm
    omega

/-! ### Composite glyphs -/

theorem qToI16_int (x : Int16) : qToI16 (x.toInt : ℚ) = x := by
  unfold qToI16
  rw [truncQ_int, satI16_self]

theorem truncQ_bounds (q : ℚ) : (truncQ q : ℚ) < q + 1 ∧ q - 1 < (truncQ q : ℚ) := by
  unfold truncQ
  split
  · have h1 := Int.floor_le q
    have h2 := Int.lt_floor_add_one q
    constructor <;> linarith
  · have h1 := Int.floor_le (-q)
    have h2 := Int.lt_floor_add_one (-q)
    push_cast
    constructor <;> linarith

theorem qToI16_fit {q : ℚ} (h1 : -32768 ≤ q) (h2 : q ≤ 32767) : ((qToI16 q).toInt : ℚ) < q + 1 ∧ q - 1 < ((qToI16 q).toInt : ℚ) := by
  have hb : -32768 ≤ truncQ q ∧ truncQ q ≤ 32767 := by
    unfold truncQ
    split
    · constructor
      · have := Int.floor_nonneg.mpr (by assumption : (0:ℚ) ≤ q)
        omega
      · have := Int.floor_le q
        have h3 : ((⌊q⌋ : ℤ) : ℚ) ≤ 32767 := le_trans this h2
        exact_mod_cast h3
    · have hq : 0 ≤ -q := by linarith
      constructor
      · have := Int.floor_le (-q)
        have h3 : ((⌊-q⌋ : ℤ) : ℚ) ≤ 32768 := by linarith
        have : ⌊-q⌋ ≤ 32768 := by exact_mod_cast h3
        omega
      · have := Int.floor_nonneg.mpr hq
        omega
  have e : (qToI16 q).toInt = truncQ q := by
    unfold qToI16 satI16
    rw [min_eq_left hb.2, max_eq_right hb.1]
    exact int16_ofInt hb.1 hb.2
  rw [e]
  exact truncQ_bounds q

/-- The rectangle contains the point. -/
def Rect.Has (r : Rect) (p : ℚ × ℚ) : Prop := r.x0 ≤ p.1 ∧ p.1 ≤ r.x1 ∧ r.y0 ≤ p.2 ∧ p.2 ≤ r.y1

theorem linear_between (a x x0 x1 : ℚ) (h0 : x0 ≤ x) (h1 : x ≤ x1) :
    min (a * x0) (a * x1) ≤ a * x ∧ a * x ≤ max (a * x0) (a * x1) := by
  rcases le_total 0 a with ha | ha
  · exact ⟨min_le_of_left_le (mul_le_mul_of_nonneg_left h0 ha), le_max_of_le_right (mul_le_mul_of_nonneg_left h1 ha)⟩
  · exact ⟨min_le_of_right_le (mul_le_mul_of_nonpos_left h1 ha), le_max_of_le_left (mul_le_mul_of_nonpos_left h0 ha)⟩

theorem corner_between (a c e x y x0 x1 y0 y1 : ℚ) (hx0 : x0 ≤ x) (hx1 : x ≤ x1) (hy0 : y0 ≤ y) (hy1 : y ≤ y1) :
    min (min (a * x0 + c * y0 + e) (a * x0 + c * y1 + e)) (min (a * x1 + c * y0 + e) (a * x1 + c * y1 + e)) ≤ a * x + c * y + e ∧
    a * x + c * y + e ≤ max (max (a * x0 + c * y0 + e) (a * x0 + c * y1 + e)) (max (a * x1 + c * y0 + e) (a * x1 + c * y1 + e)) := by
  obtain ⟨h1, h2⟩ := linear_between a x x0 x1 hx0 hx1
  obtain ⟨h3, h4⟩ := linear_between c y y0 y1 hy0 hy1
  simp only [min_le_iff, le_max_iff] at *
  constructor
  · rcases h1 with h1 | h1 <;> rcases h3 with h3 | h3
    · exact Or.inl (Or.inl (by linarith))
    · exact Or.inl (Or.inr (by linarith))
    · exact Or.inr (Or.inl (by linarith))
    · exact Or.inr (Or.inr (by linarith))
  · rcases h2 with h2 | h2 <;> rcases h4 with h4 | h4
    · exact Or.inl (Or.inl (by linarith))
    · exact Or.inl (Or.inr (by linarith))
    · exact Or.inr (Or.inl (by linarith))
    · exact Or.inr (Or.inr (by linarith))

theorem bbox_has (t : Affine) (r : Rect) (x y : ℚ) (h : Rect.Has r (x, y)) : Rect.Has (t.bbox r) (t.apply x y) := by
  obtain ⟨h1, h2, h3, h4⟩ := h
  obtain ⟨a1, a2⟩ := corner_between t.a t.c t.e x y r.x0 r.x1 r.y0 r.y1 h1 h2 h3 h4
  obtain ⟨b1, b2⟩ := corner_between t.b t.d t.f x y r.x0 r.x1 r.y0 r.y1 h1 h2 h3 h4
  exact ⟨a1, a2, b1, b2⟩

/-- Each side of the box passes through a moved corner. -/
theorem bbox_corner (t : Affine) (r : Rect) (P : ℚ → Prop) (Q : ℚ → Prop)
    (h : ∀ x y, (x = r.x0 ∨ x = r.x1) → (y = r.y0 ∨ y = r.y1) → P (t.apply x y).1 ∧ Q (t.apply x y).2) :
    P (t.bbox r).x0 ∧ P (t.bbox r).x1 ∧ Q (t.bbox r).y0 ∧ Q (t.bbox r).y1 := by
  have h00 := h r.x0 r.y0 (Or.inl rfl) (Or.inl rfl)
  have h01 := h r.x0 r.y1 (Or.inl rfl) (Or.inr rfl)
  have h10 := h r.x1 r.y0 (Or.inr rfl) (Or.inl rfl)
  have h11 := h r.x1 r.y1 (Or.inr rfl) (Or.inr rfl)
  have hmin : ∀ (R : ℚ → Prop) (a b c d : ℚ), R a → R b → R c → R d → R (min (min a b) (min c d)) ∧ R (max (max a b) (max c d)) := by
    intro R a b c d ha hb hc hd
    constructor
    · rcases min_choice (min a b) (min c d) with e | e <;> rw [e]
      · rcases min_choice a b with e | e <;> rw [e] <;> assumption
      · rcases min_choice c d with e | e <;> rw [e] <;> assumption
    · rcases max_choice (max a b) (max c d) with e | e <;> rw [e]
      · rcases max_choice a b with e | e <;> rw [e] <;> assumption
      · rcases max_choice c d with e | e <;> rw [e] <;> assumption
  exact ⟨(hmin P _ _ _ _ h00.1 h01.1 h10.1 h11.1).1, (hmin P _ _ _ _ h00.1 h01.1 h10.1 h11.1).2,
    (hmin Q _ _ _ _ h00.2 h01.2 h10.2 h11.2).1, (hmin Q _ _ _ _ h00.2 h01.2 h10.2 h11.2).2⟩

theorem union_spec : ∀ (rs : List Rect) (r : Rect),
    (∀ s ∈ r :: rs, (rs.foldl Rect.union r).x0 ≤ s.x0 ∧ s.x1 ≤ (rs.foldl Rect.union r).x1 ∧
      (rs.foldl Rect.union r).y0 ≤ s.y0 ∧ s.y1 ≤ (rs.foldl Rect.union r).y1) ∧
    ((∃ s ∈ r :: rs, (rs.foldl Rect.union r).x0 = s.x0) ∧ (∃ s ∈ r :: rs, (rs.foldl Rect.union r).x1 = s.x1) ∧
      (∃ s ∈ r :: rs, (rs.foldl Rect.union r).y0 = s.y0) ∧ (∃ s ∈ r :: rs, (rs.foldl Rect.union r).y1 = s.y1))
  | [], r => by simp
  | s :: rs, r => by
    rw [List.foldl_cons]
    obtain ⟨h1, h2, h3, h4, h5⟩ := union_spec rs (r.union s)
    have h0 := h1 _ (List.mem_cons_self)
    have e0 : (r.union s).x0 = min r.x0 s.x0 := rfl
    have e1 : (r.union s).x1 = max r.x1 s.x1 := rfl
    have e2 : (r.union s).y0 = min r.y0 s.y0 := rfl
    have e3 : (r.union s).y1 = max r.y1 s.y1 := rfl
    refine ⟨?_, ?_, ?_, ?_, ?_⟩
    · intro u hu
      rw [e0, e1, e2, e3] at h0
      obtain ⟨a, b, c, d⟩ := h0
      rcases List.mem_cons.mp hu with rfl | hu
      · exact ⟨le_trans a (min_le_left _ _), le_trans (le_max_left _ _) b, le_trans c (min_le_left _ _), le_trans (le_max_left _ _) d⟩
      · rcases List.mem_cons.mp hu with rfl | hu
        · exact ⟨le_trans a (min_le_right _ _), le_trans (le_max_right _ _) b, le_trans c (min_le_right _ _), le_trans (le_max_right _ _) d⟩
        · exact h1 u (List.mem_cons_of_mem _ hu)
    · obtain ⟨u, hu, e⟩ := h2
      rcases List.mem_cons.mp hu with rfl | hu
      · rw [e, e0]
        rcases min_choice r.x0 s.x0 with e | e <;> rw [e]
        · exact ⟨r, by simp, rfl⟩
        · exact ⟨s, by simp, rfl⟩
      · exact ⟨u, by simp [hu], e⟩
    · obtain ⟨u, hu, e⟩ := h3
      rcases List.mem_cons.mp hu with rfl | hu
      · rw [e, e1]
        rcases max_choice r.x1 s.x1 with e | e <;> rw [e]
        · exact ⟨r, by simp, rfl⟩
        · exact ⟨s, by simp, rfl⟩
      · exact ⟨u, by simp [hu], e⟩
    · obtain ⟨u, hu, e⟩ := h4
      rcases List.mem_cons.mp hu with rfl | hu
      · rw [e, e2]
        rcases min_choice r.y0 s.y0 with e | e <;> rw [e]
        · exact ⟨r, by simp, rfl⟩
        · exact ⟨s, by simp, rfl⟩
      · exact ⟨u, by simp [hu], e⟩
    · obtain ⟨u, hu, e⟩ := h5
      rcases List.mem_cons.mp hu with rfl | hu
      · rw [e, e3]
        rcases max_choice r.y1 s.y1 with e | e <;> rw [e]
        · exact ⟨r, by simp, rfl⟩
        · exact ⟨s, by simp, rfl⟩
      · exact ⟨u, by simp [hu], e⟩

/-- The tables between the passes of `recalc_bounds`. -/
theorem recalc_steps (gs : List Glyph) (hd : NoDangling gs) :
    ∃ fl gs', flattenTable gs = .ok fl ∧ recalcBounds gs = .ok gs' ∧ gs'.length = gs.length ∧ fl.length = gs.length ∧
      (∀ g' ∈ fl, ∀ c ∈ g'.components, ∃ h, fl[c.glyphIndex.toNat]? = some h ∧ h.components = []) ∧
      ∀ (i : Nat) (f : Glyph), fl[i]? = some f → ∃ g', gs'[i]? = some g' ∧
        boundsComposite ((fl.map boundsSimple).map Glyph.boundsRect) (boundsSimple f) = .ok g' := by
  obtain ⟨fl, e, hlen, _, hone⟩ := C32_table gs hd
  have hbox : ∀ c : Component, (∃ h, fl[c.glyphIndex.toNat]? = some h ∧ h.components = []) →
      ∃ r, boxAt ((fl.map boundsSimple).map Glyph.boundsRect) c.glyphIndex = .ok r := by
    rintro c ⟨h, hh, _⟩
    unfold boxAt
    rw [List.getElem?_map, List.getElem?_map, hh]
    exact ⟨_, rfl⟩
  have hcomp : ∀ f : Glyph, (boundsSimple f).components = f.components := by
    intro f; unfold boundsSimple; split <;> rfl
  have htot : ∀ f ∈ fl, ∃ g', boundsComposite ((fl.map boundsSimple).map Glyph.boundsRect) (boundsSimple f) = .ok g' := by
    intro f hf
    unfold boundsComposite
    by_cases hh : (boundsSimple f).hasComponents = true
    · rw [if_pos hh]
      have hne : (boundsSimple f).components ≠ [] := (hasComponents_iff _).mp hh
      rw [hcomp] at hne ⊢
      cases hfind : f.components.find? (fun c => cHas c.flags USE_MY_METRICS) with
      | some c =>
        obtain ⟨r, er⟩ := hbox c (hone f hf c (List.mem_of_find?_eq_some hfind))
        simp only [er, Res.ok_bind, Res.pure_eq]
        exact ⟨_, rfl⟩
      | none =>
        have hm : ∀ l : List Component, (∀ c ∈ l, c ∈ f.components) →
            ∃ rs, Res.mapL (componentBox ((fl.map boundsSimple).map Glyph.boundsRect)) l = .ok rs ∧ rs.length = l.length := by
          intro l
          induction l with
          | nil => intro _; exact ⟨[], rfl, rfl⟩
          | cons c l ih =>
            intro hl
            obtain ⟨rs, e, hlen⟩ := ih (fun c' h' => hl c' (by simp [h']))
            obtain ⟨r, er⟩ := hbox c (hone f hf c (hl c (by simp)))
            refine ⟨c.transformation.bbox r :: rs, ?_, by simp [hlen]⟩
            simp only [Res.mapL, componentBox, er, e, Res.ok_bind, Res.pure_eq]
        obtain ⟨rs, ers, hrs⟩ := hm f.components (fun _ h => h)
        simp only [ers, Res.ok_bind]
        cases rs with
        | nil =>
          exfalso
          apply hne
          exact List.length_eq_zero_iff.mp hrs.symm
        | cons r rs => simp only [unionAll, Res.ok_bind, Res.pure_eq]; exact ⟨_, rfl⟩
    · rw [if_neg hh]; exact ⟨_, rfl⟩
  have hmap : ∀ l : List Glyph, (∀ f ∈ l, f ∈ fl) →
      ∃ l', Res.mapL (boundsComposite ((fl.map boundsSimple).map Glyph.boundsRect)) (l.map boundsSimple) = .ok l' ∧
        l'.length = l.length ∧ ∀ (i : Nat) (f : Glyph), l[i]? = some f → ∃ g', l'[i]? = some g' ∧
          boundsComposite ((fl.map boundsSimple).map Glyph.boundsRect) (boundsSimple f) = .ok g' := by
    intro l
    induction l with
    | nil => intro _; exact ⟨[], rfl, rfl, by simp⟩
    | cons f l ih =>
      intro h
      obtain ⟨g', e⟩ := htot f (h f (by simp))
      obtain ⟨l', el, hl, hi⟩ := ih (fun x hx => h x (by simp [hx]))
      refine ⟨g' :: l', by rw [List.map_cons]; simp only [Res.mapL, e, el], by simp [hl], ?_⟩
      intro i x hx
      cases i with
      | zero => simp at hx; subst hx; exact ⟨g', rfl, e⟩
      | succ i => simpa using hi i x (by simpa using hx)
  obtain ⟨gs', e', hl', hi'⟩ := hmap fl (fun _ h => h)
  refine ⟨fl, gs', e, ?_, by rw [hl', hlen], hlen, hone, hi'⟩
  unfold recalcBounds
  rw [e]
  simp only [Res.ok_bind]
  exact e'

theorem setBounds_int (g h : Glyph) (ho : h.xMin.toInt ≤ h.xMax.toInt ∧ h.yMin.toInt ≤ h.yMax.toInt) :
    SameBox (g.setBounds h.boundsRect) h := by
  have h1 : (h.xMin.toInt : ℚ) ≤ h.xMax.toInt := by exact_mod_cast ho.1
  have h2 : (h.yMin.toInt : ℚ) ≤ h.yMax.toInt := by exact_mod_cast ho.2
  unfold SameBox Glyph.setBounds Glyph.boundsRect
  simp only [min_eq_left h1, max_eq_right h1, min_eq_left h2, max_eq_right h2, qToI16_int, and_self]

/-- What a whole table looks like after recomputing bounds. -/
theorem recalc_spec (gs : List Glyph) (hd : NoDangling gs) :
    ∃ fl gs', flattenTable gs = .ok fl ∧ recalcBounds gs = .ok gs' ∧ gs'.length = gs.length ∧
      (∀ (i : Nat) (f g' : Glyph), fl[i]? = some f → gs'[i]? = some g' →
        g'.contours = f.contours ∧ g'.components = f.components ∧ g'.instructions = f.instructions ∧ g'.overlap = f.overlap) ∧
      (∀ g' ∈ gs', g'.components = [] → TightBox g') ∧
      (∀ g' ∈ gs', ∀ c ∈ g'.components, ∃ h, gs'[c.glyphIndex.toNat]? = some h ∧ h.components = []) ∧
      (∀ g' ∈ gs', ∀ c h, g'.components.find? (fun c => cHas c.flags USE_MY_METRICS) = some c →
        gs'[c.glyphIndex.toNat]? = some h → SameBox g' h) ∧
      (∀ g' ∈ gs', g'.components ≠ [] → g'.components.find? (fun c => cHas c.flags USE_MY_METRICS) = none →
        ∃ (c0 : Component) (cs : List Component) (hs : List Rect) (r0 : Rect), g'.components = c0 :: cs ∧
          Res.mapL (componentBox (gs'.map Glyph.boundsRect)) g'.components = .ok (r0 :: hs) ∧
          SameBox g' (g'.setBounds (hs.foldl Rect.union r0))) := by
  obtain ⟨fl, gs', e1, e2, hlen, hfl, hone, hst⟩ := recalc_steps gs hd
  have hcomp : ∀ f : Glyph, (boundsSimple f).components = f.components ∧ (boundsSimple f).contours = f.contours ∧
      (boundsSimple f).instructions = f.instructions ∧ (boundsSimple f).overlap = f.overlap := by
    intro f; unfold boundsSimple; split <;> exact ⟨rfl, rfl, rfl, rfl⟩
  have hsame : ∀ (boxes : List Rect) (f g' : Glyph), boundsComposite boxes f = .ok g' →
      g'.contours = f.contours ∧ g'.components = f.components ∧ g'.instructions = f.instructions ∧ g'.overlap = f.overlap := by
    intro boxes f g' h
    unfold boundsComposite at h
    split at h
    · split at h
      · obtain ⟨r, _, h⟩ := Res.bind_inv h
        cases h
        exact ⟨rfl, rfl, rfl, rfl⟩
      · obtain ⟨rs, _, h⟩ := Res.bind_inv h
        obtain ⟨r, _, h⟩ := Res.bind_inv h
        cases h
        exact ⟨rfl, rfl, rfl, rfl⟩
    · cases h; exact ⟨rfl, rfl, rfl, rfl⟩
  -- the glyph a component refers to
  have href : ∀ (i : Nat) (f : Glyph), fl[i]? = some f → f.components = [] → gs'[i]? = some (boundsSimple f) := by
    intro i f hf hc
    obtain ⟨g', hg', eb⟩ := hst i f hf
    unfold boundsComposite at eb
    rw [if_neg (by rw [hasComponents_iff, (hcomp f).1]; exact fun hh => hh hc)] at eb
    cases eb
    exact hg'
  have hback : ∀ g' ∈ gs', ∃ (i : Nat) (f : Glyph), fl[i]? = some f ∧ gs'[i]? = some g' ∧
      boundsComposite ((fl.map boundsSimple).map Glyph.boundsRect) (boundsSimple f) = .ok g' := by
    intro g' hg'
    obtain ⟨i, hi⟩ := List.mem_iff_getElem?.mp hg'
    have hlt : i < fl.length := by
      rw [hfl, ← hlen]
      exact (List.getElem?_eq_some_iff.mp hi).1
    obtain ⟨g2, hg2, eb⟩ := hst i _ (List.getElem?_eq_getElem hlt)
    rw [hi] at hg2
    cases hg2
    exact ⟨i, _, List.getElem?_eq_getElem hlt, hi, eb⟩
  have hprops : ∀ g' ∈ gs', ∃ f ∈ fl, g'.components = f.components ∧ g'.contours = f.contours ∧
      boundsComposite ((fl.map boundsSimple).map Glyph.boundsRect) (boundsSimple f) = .ok g' := by
    intro g' hg'
    obtain ⟨i, f, hf, _, eb⟩ := hback g' hg'
    have := hsame _ _ _ eb
    exact ⟨f, List.mem_of_getElem? hf, by rw [this.2.1, (hcomp f).1], by rw [this.1, (hcomp f).2.1], eb⟩
  have hboxes : ∀ (c : Component) (f : Glyph), fl[c.glyphIndex.toNat]? = some f → f.components = [] →
      boxAt ((fl.map boundsSimple).map Glyph.boundsRect) c.glyphIndex = .ok (boundsSimple f).boundsRect ∧
      boxAt (gs'.map Glyph.boundsRect) c.glyphIndex = .ok (boundsSimple f).boundsRect := by
    intro c f hf hc
    constructor
    · unfold boxAt
      rw [List.getElem?_map, List.getElem?_map, hf]
      rfl
    · unfold boxAt
      rw [List.getElem?_map, href _ f hf hc]
      rfl
  refine ⟨fl, gs', e1, e2, hlen, ?_, ?_, ?_, ?_, ?_⟩
  · intro i f g' hf hg
    obtain ⟨g2, hg2, eb⟩ := hst i f hf
    rw [hg] at hg2
    cases hg2
    have := hsame _ _ _ eb
    have hc := hcomp f
    exact ⟨by rw [this.1, hc.2.1], by rw [this.2.1, hc.1], by rw [this.2.2.1, hc.2.2.1], by rw [this.2.2.2, hc.2.2.2]⟩
  · intro g' hg' hc
    obtain ⟨i, f, hf, hi, eb⟩ := hback g' hg'
    have hfc : f.components = [] := by
      have := (hsame _ _ _ eb).2.1
      rw [hc, (hcomp f).1] at this
      exact this.symm
    have := href i f hf hfc
    rw [hi] at this
    cases this
    exact (boundsSimple_tight f hfc).1
  · intro g' hg' c hc
    obtain ⟨f, hfm, ec, _, _⟩ := hprops g' hg'
    rw [ec] at hc
    obtain ⟨h, hh, hhc⟩ := hone f hfm c hc
    exact ⟨_, href _ h hh hhc, (boundsSimple_tight h hhc).2.2⟩
  · intro g' hg' c h hfind hh
    obtain ⟨f, hfm, ec, _, eb⟩ := hprops g' hg'
    rw [ec] at hfind
    obtain ⟨h0, hh0, hhc⟩ := hone f hfm c (List.mem_of_find?_eq_some hfind)
    rw [href _ h0 hh0 hhc] at hh
    cases hh
    unfold boundsComposite at eb
    rw [if_pos (by rw [hasComponents_iff, (hcomp f).1]; intro hn; rw [hn] at hfind; cases hfind), (hcomp f).1, hfind] at eb
    simp only [(hboxes c h0 hh0 hhc).1, Res.ok_bind, Res.pure_eq] at eb
    cases eb
    exact setBounds_int _ _ (tightBox_ordered (boundsSimple_tight h0 hhc).1)
  · intro g' hg' hne hnone
    obtain ⟨f, hfm, ec, _, eb⟩ := hprops g' hg'
    rw [ec] at hne hnone ⊢
    unfold boundsComposite at eb
    rw [if_pos (by rw [hasComponents_iff, (hcomp f).1]; exact hne), (hcomp f).1, hnone] at eb
    simp only at eb
    obtain ⟨rs, er, eb⟩ := Res.bind_inv eb
    obtain ⟨r, eu, eb⟩ := Res.bind_inv eb
    have hbx : ∀ l : List Component, (∀ c ∈ l, c ∈ f.components) →
        Res.mapL (componentBox (gs'.map Glyph.boundsRect)) l =
        Res.mapL (componentBox ((fl.map boundsSimple).map Glyph.boundsRect)) l := by
      intro l
      induction l with
      | nil => intro _; rfl
      | cons c l ih =>
        intro hl
        obtain ⟨h0, hh0, hhc⟩ := hone f hfm c (hl c (by simp))
        simp only [Res.mapL, componentBox, (hboxes c h0 hh0 hhc).1, (hboxes c h0 hh0 hhc).2, ih (fun x hx => hl x (by simp [hx]))]
    obtain ⟨c0, cs, hcs⟩ : ∃ c0 cs, f.components = c0 :: cs := by
      cases h : f.components with
      | nil => exact absurd h hne
      | cons c0 cs => exact ⟨c0, cs, rfl⟩
    cases rs with
    | nil => cases eu
    | cons r0 hs =>
      refine ⟨c0, cs, hs, r0, hcs, by rw [hbx _ (fun _ h => h)]; exact er, ?_⟩
      cases eu
      cases eb
      exact ⟨rfl, rfl, rfl, rfl⟩

/-- **C31** (simple glyphs). In every table whose components refer to existing glyphs, recomputing bounds succeeds, keeps the
outlines, and gives each glyph without components (after flattening) the smallest box which contains its points. -/
theorem C31_simple (gs : List Glyph) (hd : NoDangling gs) :
    ∃ gs', recalcBounds gs = .ok gs' ∧ gs'.length = gs.length ∧
      (∀ (i : Nat) (g g' : Glyph), gs[i]? = some g → gs'[i]? = some g' →
        g'.contours = g.contours ∧ g'.instructions = g.instructions ∧ g'.overlap = g.overlap ∧
        ∃ out, flatComponents gs g = .ok out ∧ g'.components = out) ∧
      (∀ g' ∈ gs', g'.components = [] → TightBox g') := by
  obtain ⟨fl, gs', e1, e2, hlen, hk, ht, _⟩ := recalc_spec gs hd
  refine ⟨gs', e2, hlen, ?_, ht⟩
  intro i g g' hg hg'
  obtain ⟨fl', e3, hl3, hk3, _⟩ := C32_table gs hd
  rw [e1] at e3
  cases e3
  have hlt : i < fl.length := by rw [hl3]; exact (List.getElem?_eq_some_iff.mp hg).1
  obtain ⟨out, eo, ef⟩ := hk3 i g _ hg (List.getElem?_eq_getElem hlt)
  obtain ⟨a, b, c, d⟩ := hk i _ g' (List.getElem?_eq_getElem hlt) hg'
  rw [ef] at a b c d
  exact ⟨a, c, d, out, eo, b⟩

/-- **C31** (metrics taken from a component). A composite glyph with a component marked "use my metrics" gets the box of the
first such component's glyph. -/
theorem C31_use_my_metrics (gs gs' : List Glyph) (hd : NoDangling gs) (h : recalcBounds gs = .ok gs') (g' : Glyph) (hg : g' ∈ gs')
    (pre post : List Component) (c : Component) (hc : g'.components = pre ++ c :: post)
    (hpre : ∀ c' ∈ pre, ¬ WordBit c'.flags 9) (hbit : WordBit c.flags 9) :
    ∃ b, gs'[c.glyphIndex.toNat]? = some b ∧ SameBox g' b := by
  obtain ⟨fl, gs2, _, e2, _, _, _, hone, hmm, _⟩ := recalc_spec gs hd
  rw [h] at e2
  cases e2
  obtain ⟨b, hb, _⟩ := hone g' hg c (by rw [hc]; simp)
  refine ⟨b, hb, hmm g' hg c b ?_ hb⟩
  rw [hc, List.find?_append]
  have h1 : pre.find? (fun c => cHas c.flags USE_MY_METRICS) = none := by
    rw [List.find?_eq_none]
    intro x hx
    rw [cHas_pow _ _ 9 rfl]
    exact hpre x hx
  rw [h1, List.find?_cons_of_pos (by rw [cHas_pow _ _ 9 rfl]; exact hbit)]
  rfl

/-- The box of a composite glyph before the sides are cut off: it contains the moved box of every component, and each side is
a coordinate of a moved corner. -/
theorem composite_union (gs gs' : List Glyph) (hd : NoDangling gs) (h : recalcBounds gs = .ok gs') (g' : Glyph) (hg : g' ∈ gs')
    (hne : g'.components ≠ []) (hn : ∀ c ∈ g'.components, ¬ WordBit c.flags 9) :
    ∃ U : Rect, SameBox g' (g'.setBounds U) ∧
      (∀ c ∈ g'.components, ∃ b, gs'[c.glyphIndex.toNat]? = some b ∧ U.x0 ≤ (c.transformation.bbox b.boundsRect).x0 ∧
        (c.transformation.bbox b.boundsRect).x1 ≤ U.x1 ∧ U.y0 ≤ (c.transformation.bbox b.boundsRect).y0 ∧
        (c.transformation.bbox b.boundsRect).y1 ≤ U.y1) ∧
      ∀ P Q : ℚ → Prop, (∀ c' ∈ g'.components, ∀ b', gs'[c'.glyphIndex.toNat]? = some b' →
        ∀ x y : Int16, (x = b'.xMin ∨ x = b'.xMax) → (y = b'.yMin ∨ y = b'.yMax) →
          P (c'.transformation.apply x.toInt y.toInt).1 ∧ Q (c'.transformation.apply x.toInt y.toInt).2) →
        P U.x0 ∧ P U.x1 ∧ Q U.y0 ∧ Q U.y1 := by
  obtain ⟨fl, gs2, _, e2, _, _, htight, hone, _, hun⟩ := recalc_spec gs hd
  rw [h] at e2
  cases e2
  have hnone : g'.components.find? (fun c => cHas c.flags USE_MY_METRICS) = none := by
    rw [List.find?_eq_none]
    intro x hx
    rw [cHas_pow _ _ 9 rfl]
    exact hn x hx
  obtain ⟨c0, cs, hs, r0, _, em, hbox⟩ := hun g' hg hne hnone
  -- the rectangles of the components
  have hrect : ∀ (l : List Component) (rs : List Rect), Res.mapL (componentBox (gs'.map Glyph.boundsRect)) l = .ok rs →
      (∀ c ∈ l, ∃ b, gs'[c.glyphIndex.toNat]? = some b ∧ c.transformation.bbox b.boundsRect ∈ rs) ∧
      (∀ r ∈ rs, ∃ c ∈ l, ∃ b, gs'[c.glyphIndex.toNat]? = some b ∧ r = c.transformation.bbox b.boundsRect) := by
    intro l
    induction l with
    | nil => intro rs h; cases h; simp
    | cons c l ih =>
      intro rs h
      simp only [Res.mapL] at h
      cases hb1 : componentBox (gs'.map Glyph.boundsRect) c with
      | err => rw [hb1] at h; cases h
      | panic => rw [hb1] at h; cases h
      | ok r =>
        rw [hb1] at h
        simp only at h
        cases hb2 : Res.mapL (componentBox (gs'.map Glyph.boundsRect)) l with
        | err => rw [hb2] at h; cases h
        | panic => rw [hb2] at h; cases h
        | ok rs' =>
          rw [hb2] at h
          cases h
          unfold componentBox at hb1
          obtain ⟨r1, er1, hb1⟩ := Res.bind_inv hb1
          cases hb1
          unfold boxAt at er1
          rw [List.getElem?_map] at er1
          cases hgi : gs'[c.glyphIndex.toNat]? with
          | none => rw [hgi] at er1; cases er1
          | some b1 =>
            rw [hgi] at er1
            cases er1
            obtain ⟨i1, i2⟩ := ih rs' hb2
            constructor
            · intro c' hc'
              rcases List.mem_cons.mp hc' with rfl | hc'
              · exact ⟨b1, hgi, by simp⟩
              · obtain ⟨b2, h1, h2⟩ := i1 c' hc'
                exact ⟨b2, h1, by simp [h2]⟩
            · intro r hr
              rcases List.mem_cons.mp hr with rfl | hr
              · exact ⟨c, by simp, b1, hgi, rfl⟩
              · obtain ⟨c', h1, b2, h2, h3⟩ := i2 r hr
                exact ⟨c', by simp [h1], b2, h2, h3⟩
  obtain ⟨hr1, hr2⟩ := hrect _ _ em
  obtain ⟨u1, u2, u3, u4, u5⟩ := union_spec hs r0
  generalize hs.foldl Rect.union r0 = U at *
  -- a property of all moved corners holds for the sides
  have hside : ∀ P Q : ℚ → Prop, (∀ c' ∈ g'.components, ∀ b', gs'[c'.glyphIndex.toNat]? = some b' →
      ∀ x y : Int16, (x = b'.xMin ∨ x = b'.xMax) → (y = b'.yMin ∨ y = b'.yMax) →
        P (c'.transformation.apply x.toInt y.toInt).1 ∧ Q (c'.transformation.apply x.toInt y.toInt).2) →
      P U.x0 ∧ P U.x1 ∧ Q U.y0 ∧ Q U.y1 := by
    intro P Q hPQ
    have hall : ∀ r ∈ r0 :: hs, P r.x0 ∧ P r.x1 ∧ Q r.y0 ∧ Q r.y1 := by
      intro r hr
      obtain ⟨c', hc', b', hb', rfl⟩ := hr2 r hr
      refine bbox_corner c'.transformation b'.boundsRect P Q ?_
      intro x y hx hy
      rcases hx with rfl | rfl <;> rcases hy with rfl | rfl
      · exact hPQ c' hc' b' hb' b'.xMin b'.yMin (Or.inl rfl) (Or.inl rfl)
      · exact hPQ c' hc' b' hb' b'.xMin b'.yMax (Or.inl rfl) (Or.inr rfl)
      · exact hPQ c' hc' b' hb' b'.xMax b'.yMin (Or.inr rfl) (Or.inl rfl)
      · exact hPQ c' hc' b' hb' b'.xMax b'.yMax (Or.inr rfl) (Or.inr rfl)
    obtain ⟨s2, m2, e2⟩ := u2
    obtain ⟨s3, m3, e3⟩ := u3
    obtain ⟨s4, m4, e4⟩ := u4
    obtain ⟨s5, m5, e5⟩ := u5
    rw [e2, e3, e4, e5]
    exact ⟨(hall _ m2).1, (hall _ m3).2.1, (hall _ m4).2.2.1, (hall _ m5).2.2.2⟩
  exact ⟨U, hbox, fun c hc => by obtain ⟨b, hb, hm⟩ := hr1 c hc; exact ⟨b, hb, u1 _ hm⟩, hside⟩

/-- **C31** (composite glyphs). Otherwise the box of a composite glyph contains every point of every component, moved by the
component's transformation — exactly if transformations are whole, to within one unit in general, because the sides are
cut off towards zero — as long as the moved boxes fit 16 bits. -/
theorem C31_composite (gs gs' : List Glyph) (hd : NoDangling gs) (h : recalcBounds gs = .ok gs') (g' : Glyph) (hg : g' ∈ gs')
    (hn : ∀ c ∈ g'.components, ¬ WordBit c.flags 9)
    (hfit : ∀ c ∈ g'.components, ∀ b, gs'[c.glyphIndex.toNat]? = some b → CornersFit c.transformation b)
    (c : Component) (hc : c ∈ g'.components) :
    ∃ b, gs'[c.glyphIndex.toNat]? = some b ∧ b.components = [] ∧
      ∀ p ∈ b.contours.flatten, ∀ x y : ℚ, (x, y) = c.transformation.apply p.x.toInt p.y.toInt →
        ((g'.xMin.toInt : ℚ) < x + 1 ∧ x - 1 < (g'.xMax.toInt : ℚ) ∧ (g'.yMin.toInt : ℚ) < y + 1 ∧ y - 1 < (g'.yMax.toInt : ℚ)) ∧
        ((∀ c' ∈ g'.components, WholeAffine c'.transformation) →
          (g'.xMin.toInt : ℚ) ≤ x ∧ x ≤ (g'.xMax.toInt : ℚ) ∧ (g'.yMin.toInt : ℚ) ≤ y ∧ y ≤ (g'.yMax.toInt : ℚ)) := by
  obtain ⟨fl, gs2, _, e2, _, _, htight, hone, _, hun⟩ := recalc_spec gs hd
  rw [h] at e2
  cases e2
  obtain ⟨b, hb, hbc⟩ := hone g' hg c hc
  refine ⟨b, hb, hbc, ?_⟩
  obtain ⟨U, hbox, u1, hside⟩ := composite_union gs gs' hd h g' hg (List.ne_nil_of_mem hc) hn
  have hfits := hside (fun q => -32768 ≤ q ∧ q ≤ 32767) (fun q => -32768 ≤ q ∧ q ≤ 32767) (fun c' hc' b' hb' x y hx hy =>
    hfit c' hc' b' hb' x y hx hy)
  -- the sides are in order
  obtain ⟨b1, hb1, v1, v2, v3, v4⟩ := u1 c hc
  rw [hb] at hb1
  cases hb1
  intro p hp x y hxy
  have htb := (htight b (List.mem_of_getElem? hb) hbc).1 p hp
  obtain ⟨t1, t2, t3, t4⟩ := htb
  have hhas : Rect.Has b.boundsRect ((p.x.toInt : ℚ), (p.y.toInt : ℚ)) := by
    refine ⟨?_, ?_, ?_, ?_⟩
    · show (b.xMin.toInt : ℚ) ≤ p.x.toInt; exact_mod_cast t1
    · show (p.x.toInt : ℚ) ≤ b.xMax.toInt; exact_mod_cast t2
    · show (b.yMin.toInt : ℚ) ≤ p.y.toInt; exact_mod_cast t3
    · show (p.y.toInt : ℚ) ≤ b.yMax.toInt; exact_mod_cast t4
  obtain ⟨w1, w2, w3, w4⟩ := bbox_has c.transformation b.boundsRect _ _ hhas
  rw [← hxy] at w1 w2 w3 w4
  simp only at w1 w2 w3 w4
  have hUx : U.x0 ≤ U.x1 := by linarith
  have hUy : U.y0 ≤ U.y1 := by linarith
  obtain ⟨s1, s2, s3, s4⟩ := hbox
  have s1' : g'.xMin = qToI16 U.x0 := by rw [s1]; show qToI16 (min U.x0 U.x1) = _; rw [min_eq_left hUx]
  have s2' : g'.xMax = qToI16 U.x1 := by rw [s2]; show qToI16 (max U.x0 U.x1) = _; rw [max_eq_right hUx]
  have s3' : g'.yMin = qToI16 U.y0 := by rw [s3]; show qToI16 (min U.y0 U.y1) = _; rw [min_eq_left hUy]
  have s4' : g'.yMax = qToI16 U.y1 := by rw [s4]; show qToI16 (max U.y0 U.y1) = _; rw [max_eq_right hUy]
  obtain ⟨f1, f2, f3, f4⟩ := hfits
  have q1 := qToI16_fit f1.1 f1.2
  have q2 := qToI16_fit f2.1 f2.2
  have q3 := qToI16_fit f3.1 f3.2
  have q4 := qToI16_fit f4.1 f4.2
  rw [s1', s2', s3', s4']
  refine ⟨⟨by linarith, by linarith, by linarith, by linarith⟩, ?_⟩
  intro hwhole
  have hint := hside (fun q => ∃ z : ℤ, q = z) (fun q => ∃ z : ℤ, q = z) (by
    intro c' hc' b' hb' x y _ _
    obtain ⟨a1, a2, a3, a4, a5, a6, h1, h2, h3, h4, h5, h6⟩ := hwhole c' hc'
    unfold Affine.apply
    simp only
    rw [h1, h2, h3, h4, h5, h6]
    exact ⟨⟨a1 * x.toInt + a3 * y.toInt + a5, by push_cast; ring⟩, ⟨a2 * x.toInt + a4 * y.toInt + a6, by push_cast; ring⟩⟩)
  have hexact : ∀ q : ℚ, (∃ z : ℤ, q = z) → -32768 ≤ q → q ≤ 32767 → ((qToI16 q).toInt : ℚ) = q := by
    rintro q ⟨z, rfl⟩ h1 h2
    have h1' : -32768 ≤ z := by exact_mod_cast h1
    have h2' : z ≤ 32767 := by exact_mod_cast h2
    have := qToI16_int (Int16.ofInt z)
    rw [int16_ofInt h1' h2'] at this
    rw [this, int16_ofInt h1' h2']
  obtain ⟨i1, i2, i3, i4⟩ := hint
  rw [hexact _ i1 f1.1 f1.2, hexact _ i2 f2.1 f2.2, hexact _ i3 f3.1 f3.2, hexact _ i4 f4.1 f4.2]
  exact ⟨by linarith, by linarith, by linarith, by linarith⟩

/-- `n` is the number `q` cut off towards zero. -/
def CutOff (q : ℚ) (n : Int16) : Prop :=
  (0 ≤ q → 0 ≤ n.toInt ∧ (n.toInt : ℚ) ≤ q ∧ q < n.toInt + 1) ∧ (q < 0 → n.toInt ≤ 0 ∧ (q ≤ (n.toInt : ℚ) ∧ (n.toInt : ℚ) - 1 < q))

/-- Some component of the glyph has a box of which a corner is moved to a place for which `P` holds. -/
def SomeCorner (gs : List Glyph) (g : Glyph) (P : ℚ × ℚ → Prop) : Prop :=
  ∃ c ∈ g.components, ∃ b, gs[c.glyphIndex.toNat]? = some b ∧
    ∃ x y : Int16, (x = b.xMin ∨ x = b.xMax) ∧ (y = b.yMin ∨ y = b.yMax) ∧ P (c.transformation.apply x.toInt y.toInt)

theorem qToI16_cut {q : ℚ} (h1 : -32768 ≤ q) (h2 : q ≤ 32767) : CutOff q (qToI16 q) := by
  have hb : -32768 ≤ truncQ q ∧ truncQ q ≤ 32767 := by
    unfold truncQ
    split
    · constructor
      · have := Int.floor_nonneg.mpr (by assumption : (0:ℚ) ≤ q)
        omega
      · have h3 : ((⌊q⌋ : ℤ) : ℚ) ≤ 32767 := le_trans (Int.floor_le q) h2
        exact_mod_cast h3
    · rw [Int.floor_neg, neg_neg]
      constructor
      · have h3 : (-32768 : ℚ) ≤ ((⌈q⌉ : ℤ) : ℚ) := le_trans h1 (Int.le_ceil q)
        exact_mod_cast h3
      · have : ⌈q⌉ ≤ 0 := Int.ceil_le.mpr (by push_cast; linarith)
        omega
  have e : (qToI16 q).toInt = truncQ q := by
    unfold qToI16
    have := satI16_self (Int16.ofInt (truncQ q))
    rw [int16_ofInt hb.1 hb.2] at this
    rw [this, int16_ofInt hb.1 hb.2]
  unfold CutOff
  rw [e]
  unfold truncQ
  constructor
  · intro h0
    rw [if_pos h0]
    exact ⟨Int.floor_nonneg.mpr h0, Int.floor_le q, Int.lt_floor_add_one q⟩
  · intro h0
    rw [if_neg (by linarith), Int.floor_neg, neg_neg]
    exact ⟨Int.ceil_le.mpr (by push_cast; linarith), Int.le_ceil q, by have := Int.ceil_lt_add_one q; linarith⟩

/-- **C31** (composite glyphs, no larger than needed). Each side of the box of a composite glyph is, cut off towards zero, the
coordinate of a corner of the box of a component, moved by its transformation. -/
theorem C31_composite_tight (gs gs' : List Glyph) (hd : NoDangling gs) (h : recalcBounds gs = .ok gs') (g' : Glyph) (hg : g' ∈ gs')
    (hne : g'.components ≠ []) (hn : ∀ c ∈ g'.components, ¬ WordBit c.flags 9)
    (hfit : ∀ c ∈ g'.components, ∀ b, gs'[c.glyphIndex.toNat]? = some b → CornersFit c.transformation b) :
    SomeCorner gs' g' (fun q => CutOff q.1 g'.xMin) ∧ SomeCorner gs' g' (fun q => CutOff q.1 g'.xMax) ∧
    SomeCorner gs' g' (fun q => CutOff q.2 g'.yMin) ∧ SomeCorner gs' g' (fun q => CutOff q.2 g'.yMax) := by
  obtain ⟨U, hbox, u1, hside⟩ := composite_union gs gs' hd h g' hg hne hn
  have hfits := hside (fun q => -32768 ≤ q ∧ q ≤ 32767) (fun q => -32768 ≤ q ∧ q ≤ 32767) (fun c' hc' b' hb' x y hx hy =>
    hfit c' hc' b' hb' x y hx hy)
  obtain ⟨c, hc⟩ := List.exists_mem_of_ne_nil _ hne
  obtain ⟨b, hb, v1, v2, v3, v4⟩ := u1 c hc
  have hbb := bbox_has c.transformation b.boundsRect b.xMin.toInt b.yMin.toInt
  obtain ⟨fl, gs2, _, e2, _, _, htight, hone, _, _⟩ := recalc_spec gs hd
  rw [h] at e2
  cases e2
  obtain ⟨b1, hb1, hbc⟩ := hone g' hg c hc
  rw [hb] at hb1
  cases hb1
  obtain ⟨o1, o2⟩ := tightBox_ordered (htight b (List.mem_of_getElem? hb) hbc)
  obtain ⟨w1, w2, w3, w4⟩ := hbb ⟨le_refl _, by show (b.xMin.toInt : ℚ) ≤ b.xMax.toInt; exact_mod_cast o1, le_refl _,
    by show (b.yMin.toInt : ℚ) ≤ b.yMax.toInt; exact_mod_cast o2⟩
  have hUx : U.x0 ≤ U.x1 := by linarith
  have hUy : U.y0 ≤ U.y1 := by linarith
  obtain ⟨s1, s2, s3, s4⟩ := hbox
  have s1' : g'.xMin = qToI16 U.x0 := by rw [s1]; show qToI16 (min U.x0 U.x1) = _; rw [min_eq_left hUx]
  have s2' : g'.xMax = qToI16 U.x1 := by rw [s2]; show qToI16 (max U.x0 U.x1) = _; rw [max_eq_right hUx]
  have s3' : g'.yMin = qToI16 U.y0 := by rw [s3]; show qToI16 (min U.y0 U.y1) = _; rw [min_eq_left hUy]
  have s4' : g'.yMax = qToI16 U.y1 := by rw [s4]; show qToI16 (max U.y0 U.y1) = _; rw [max_eq_right hUy]
  obtain ⟨f1, f2, f3, f4⟩ := hfits
  have k := hside (fun q => -32768 ≤ q → q ≤ 32767 → SomeCorner gs' g' (fun r => r.1 = q))
    (fun q => -32768 ≤ q → q ≤ 32767 → SomeCorner gs' g' (fun r => r.2 = q)) (fun c' hc' b' hb' x y hx hy =>
      ⟨fun _ _ => ⟨c', hc', b', hb', x, y, hx, hy, rfl⟩, fun _ _ => ⟨c', hc', b', hb', x, y, hx, hy, rfl⟩⟩)
  have mono : ∀ P Q : ℚ × ℚ → Prop, (∀ q, P q → Q q) → SomeCorner gs' g' P → SomeCorner gs' g' Q := by
    rintro P Q hPQ ⟨c, hc, b, hb, x, y, hx, hy, hp⟩
    exact ⟨c, hc, b, hb, x, y, hx, hy, hPQ _ hp⟩
  rw [s1', s2', s3', s4']
  exact ⟨mono _ _ (fun q e => by rw [e]; exact qToI16_cut f1.1 f1.2) (k.1 f1.1 f1.2),
    mono _ _ (fun q e => by rw [e]; exact qToI16_cut f2.1 f2.2) (k.2.1 f2.1 f2.2),
    mono _ _ (fun q e => by rw [e]; exact qToI16_cut f3.1 f3.2) (k.2.2.1 f3.1 f3.2),
    mono _ _ (fun q e => by rw [e]; exact qToI16_cut f4.1 f4.2) (k.2.2.2 f4.1 f4.2)⟩

example : recalcBounds sampleTable = .ok
  [⟨0, 7, -9, 5, [[⟨0, 0, true⟩, ⟨7, 5, true⟩, ⟨3, -9, true⟩]], [], [], false⟩,
   ⟨10, 17, -9, 5, [], [], [⟨0, ⟨1, 0, 0, 1, 10, 0⟩, none, 0⟩], false⟩,
   ⟨0, 34, -18, 10, [], [], [⟨0, ⟨2, 0, 0, 2, 20, 0⟩, none, 0⟩, ⟨0, ⟨1, 0, 0, 1, 0, 0⟩, none, 0⟩], false⟩] := by
  decide +kernel

/-- **C31** (halves cut off). With a transformation which is not whole, a point can lie outside the box. -/
theorem C31_fraction_outside : ∃ gs gs' : List Glyph, ∃ g' : Glyph, ∃ x : ℚ, NoDangling gs ∧ recalcBounds gs = .ok gs' ∧ gs'[1]? = some g' ∧
    (∃ c ∈ g'.components, ∃ p : Point, p ∈ [(⟨3, 0, true⟩ : Point)] ∧ x = (c.transformation.apply p.x.toInt p.y.toInt).1) ∧ (g'.xMax.toInt : ℚ) < x := by
  refine ⟨[⟨0, 0, 0, 0, [[⟨3, 0, true⟩]], [], [], false⟩, ⟨0, 0, 0, 0, [], [], [⟨0, ⟨1 / 2, 0, 0, 1, 0, 0⟩, none, 0⟩], false⟩],
    [⟨3, 3, 0, 0, [[⟨3, 0, true⟩]], [], [], false⟩, ⟨1, 1, 0, 0, [], [], [⟨0, ⟨1 / 2, 0, 0, 1, 0, 0⟩, none, 0⟩], false⟩],
    _, 3 / 2, by decide, by decide +kernel, rfl, ⟨_, List.mem_singleton.mpr rfl, ⟨3, 0, true⟩, by simp, ?_⟩, ?_⟩
  · unfold Affine.apply
    have : (3 : Int16).toInt = 3 := by decide
    have h0 : (0 : Int16).toInt = 0 := by decide
    simp only [this, h0]
    norm_num
  · have : (1 : Int16).toInt = 1 := by decide
    simp only [this]
    norm_num

end FT.Props
