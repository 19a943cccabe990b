import Verif.Props.CrunchOpt
import Verif.Props.GlyfBounds
import Mathlib.Data.List.Sort

/-!
C102: the curves which the optimiser of `fontcrunch` chooses, as the points of a contour.
-/

namespace FT.Props
open FT FT.Glyf FT.Crunch

/-! ### Specification -/

/-- Coordinates so small that the sum of two fits 16 bits. -/
def SmallPt (p : Pt) : Prop := |p.x| ≤ 16383 ∧ |p.y| ≤ 16383

/-! ### Proof -/

theorem satI16_of {z : ℤ} (h1 : -32768 ≤ z) (h2 : z ≤ 32767) : (satI16 z).toInt = z := by
  unfold satI16
  rw [min_eq_left h2, max_eq_right h1]
  exact Int16.toInt_ofInt_of_le (by simpa using h1) (by simp; omega)

theorem truncQ_half (z : ℤ) : truncQ ((z : ℚ) / 2) = z.tdiv 2 := by
  unfold truncQ
  have hf : ∀ w : ℤ, ⌊(w : ℚ) / 2⌋ = w / 2 := fun w => by
    have := Rat.floor_intCast_div_natCast w 2
    simpa using this
  split
  · next h =>
    have : 0 ≤ z := by
      have : (0 : ℚ) ≤ z := by linarith
      exact_mod_cast this
    rw [hf, Int.tdiv_eq_ediv_of_nonneg this]
  · next h =>
    have : z < 0 := by
      have : (z : ℚ) < 0 := by linarith
      exact_mod_cast this
    rw [show -((z : ℚ) / 2) = ((-z : ℤ) : ℚ) / 2 by push_cast; ring, hf]
    have e : z.tdiv 2 = -((-z).tdiv 2) := by rw [Int.neg_tdiv, neg_neg]
    rw [e, Int.tdiv_eq_ediv_of_nonneg (by omega)]

theorem small_int {z : ℤ} (h : |(z : ℚ)| ≤ 16383) : -16383 ≤ z ∧ z ≤ 16383 := by
  have := abs_le.mp h
  exact ⟨by exact_mod_cast this.1, by exact_mod_cast this.2⟩

theorem qToI16_half {z : ℤ} (h : |((z : ℚ) / 2)| ≤ 16383) : (qToI16 ((z : ℚ) / 2)).toInt = z.tdiv 2 := by
  unfold qToI16
  rw [truncQ_half]
  have := abs_le.mp h
  have h1 : -32766 ≤ z := by
    have : (-32766 : ℚ) ≤ z := by linarith
    exact_mod_cast this
  have h2 : z ≤ 32766 := by
    have : (z : ℚ) ≤ 32766 := by linarith
    exact_mod_cast this
  have h3 : -32768 ≤ z.tdiv 2 ∧ z.tdiv 2 ≤ 32767 := by
    rcases le_or_gt 0 z with h | h
    · rw [Int.tdiv_eq_ediv_of_nonneg h]
      omega
    · have e : z.tdiv 2 = -((-z).tdiv 2) := by rw [Int.neg_tdiv, neg_neg]
      rw [e, Int.tdiv_eq_ediv_of_nonneg (by omega)]
      omega
  exact satI16_of h3.1 h3.2

theorem qToI16_whole {z : ℤ} (h : |(z : ℚ)| ≤ 16383) : (qToI16 (z : ℚ)).toInt = z := by
  unfold qToI16
  rw [truncQ_int]
  have := small_int h
  exact satI16_of (by omega) (by omega)

theorem place_whole {p : Pt} {on : Bool} (hw : WholePt p) (hs : SmallPt p) : place (p.toPoint on) = p := by
  obtain ⟨a, b, rfl⟩ := hw
  unfold place Pt.toPoint
  simp only
  rw [qToI16_whole hs.1, qToI16_whole hs.2]

/-- The points stored for a curve. -/
def storedFor (q : Quad) : List Point := if q.isLine then [q.p2.toPoint true] else [q.p1.toPoint false, q.p2.toPoint true]

theorem pushed (quads : Pt → Pt → Pt → Pt → List (Pt × Pt)) : ∀ (qs : List Quad) (s p : Pt),
    (segmentsFrom s p (qs.map quadEl)).flatMap (pushSegment quads) = qs.flatMap storedFor
  | [], _, _ => rfl
  | q :: qs, s, p => by
    have ih := pushed quads qs s q.p2
    rw [List.map_cons, List.flatMap_cons]
    by_cases h : q.isLine = true
    · have e1 : quadEl q = .lineTo q.p2 := by unfold quadEl; rw [if_pos h]
      have e2 : storedFor q = [q.p2.toPoint true] := by unfold storedFor; rw [if_pos h]
      rw [e1, e2]
      simp [segmentsFrom, pushSegment, ih]
    · have e1 : quadEl q = .quadTo q.p1 q.p2 := by unfold quadEl; rw [if_neg h]
      have e2 : storedFor q = [q.p1.toPoint false, q.p2.toPoint true] := by unfold storedFor; rw [if_neg h]
      rw [e1, e2]
      simp [segmentsFrom, pushSegment, ih]

theorem stored_split : ∀ (qs : List Quad) (X Y : List Point) (x : Point), qs.flatMap storedFor = X ++ x :: Y → x.onCurve = true →
    ∃ l1 q l2, qs = l1 ++ q :: l2 ∧ x = q.p2.toPoint true ∧ X = l1.flatMap storedFor ++ (if q.isLine then [] else [q.p1.toPoint false]) ∧
      Y = l2.flatMap storedFor
  | [], X, Y, x, h, _ => by simp at h
  | q :: qs, X, Y, x, h, hx => by
    rw [List.flatMap_cons] at h
    have later : ∀ X', qs.flatMap storedFor = X' ++ x :: Y → X = storedFor q ++ X' →
        ∃ l1 q' l2, q :: qs = l1 ++ q' :: l2 ∧ x = q'.p2.toPoint true ∧
          X = l1.flatMap storedFor ++ (if q'.isLine then [] else [q'.p1.toPoint false]) ∧ Y = l2.flatMap storedFor := by
      intro X' h1 h2
      obtain ⟨l1, q', l2, e1, e2, e3, e4⟩ := stored_split qs X' Y x h1 hx
      refine ⟨q :: l1, q', l2, by rw [e1]; rfl, e2, ?_, e4⟩
      rw [h2, e3, List.flatMap_cons, List.append_assoc]
    by_cases hl : q.isLine = true
    · have e : storedFor q = [q.p2.toPoint true] := by unfold storedFor; rw [if_pos hl]
      rw [e] at h later
      cases X with
      | nil =>
        simp only [List.cons_append, List.nil_append, List.cons.injEq] at h
        exact ⟨[], q, qs, rfl, h.1.symm, by simp [hl], h.2.symm⟩
      | cons y X =>
        simp only [List.cons_append, List.nil_append, List.cons.injEq] at h
        exact later X h.2 (by rw [h.1]; rfl)
    · have e : storedFor q = [q.p1.toPoint false, q.p2.toPoint true] := by unfold storedFor; rw [if_neg hl]
      rw [e] at h later
      cases X with
      | nil =>
        simp only [List.cons_append, List.nil_append, List.cons.injEq] at h
        rw [← h.1] at hx
        cases hx
      | cons y X =>
        cases X with
        | nil =>
          simp only [List.cons_append, List.nil_append, List.cons.injEq] at h
          exact ⟨[], q, qs, rfl, h.2.1.symm, by simp [hl, h.1], h.2.2.symm⟩
        | cons z X =>
          simp only [List.cons_append, List.nil_append, List.cons.injEq] at h
          exact later X h.2.2 (by rw [h.1, h.2.1]; rfl)

theorem implied_between (A B : List Point) (x m y : Point) (hx : x.onCurve = false) (hy : y.onCurve = false) (hm : Halfway x y m) :
    Implied (A ++ x :: m :: y :: B) (A.length + 1) := by
  have hlen : (A ++ x :: m :: y :: B).length = A.length + 3 + B.length := by simp; omega
  refine ⟨m, x, y, by simp, ?_, ?_, hx, hy, hm⟩
  · rw [hlen, show A.length + 1 + (A.length + 3 + B.length) - 1 = A.length + (A.length + 3 + B.length) by omega, Nat.add_mod_right,
      Nat.mod_eq_of_lt (by omega)]
    simp
  · rw [hlen, Nat.mod_eq_of_lt (by omega), show A.length + 1 + 1 = A.length + 2 by omega]
    simp [List.getElem?_append_right]

theorem halfway_stored {a b : Quad} (wa : WholePt a.p1) (wb : WholePt b.p1) (sa : SmallPt a.p1) (sb : SmallPt b.p1) (sm : SmallPt (halfway a.p1 b.p1)) :
    Halfway (b.p1.toPoint false) (a.p1.toPoint false) ((halfway a.p1 b.p1).toPoint true) := by
  obtain ⟨ax, ay, ha⟩ := wa
  obtain ⟨bx, byy, hb⟩ := wb
  rw [ha] at sa sm ⊢
  rw [hb] at sb sm ⊢
  unfold halfway at sm ⊢
  simp only at sm ⊢
  have ex : ((ax : ℚ) + bx) / 2 = ((ax + bx : ℤ) : ℚ) / 2 := by push_cast; ring
  have ey : ((ay : ℚ) + byy) / 2 = ((ay + byy : ℤ) : ℚ) / 2 := by push_cast; ring
  rw [ex, ey] at sm ⊢
  refine ⟨rfl, ?_, ?_⟩
  · unfold Pt.toPoint
    simp only
    rw [qToI16_half sm.1, qToI16_whole sa.1, qToI16_whole sb.1, Int.add_comm]
  · unfold Pt.toPoint
    simp only
    rw [qToI16_half sm.2, qToI16_whole sa.2, qToI16_whole sb.2, Int.add_comm]

theorem range_filterMap (c : List Point) : (List.range c.length).filterMap (fun k => c[k]?) = c := by
  induction c using List.reverseRecOn with
  | nil => rfl
  | append_singleton l x ih =>
    rw [List.length_append, List.length_singleton, List.range_succ, List.filterMap_append]
    have h1 : (List.range l.length).filterMap (fun k => (l ++ [x])[k]?) = (List.range l.length).filterMap (fun k => l[k]?) := by
      refine List.filterMap_congr fun k hk => ?_
      rw [List.mem_range] at hk
      exact List.getElem?_append_left hk
    rw [h1, ih]
    simp

theorem kept_filter (c : List Point) (P : Nat → Prop) [DecidablePred P] (f : Point → Bool) (ks : List Nat) (ha : IndexAscending ks)
    (hm : ∀ j, j ∈ ks ↔ j < c.length ∧ ¬ P j) (hf : ∀ j x, P j → c[j]? = some x → f x = false) :
    (ks.filterMap (fun k => c[k]?)).filter f = c.filter f := by
  have hks : ks = (List.range c.length).filter (fun j => decide (¬ P j)) := by
    refine List.Pairwise.eq_of_mem_iff (r := (· < ·)) ha ?_ ?_
    · exact List.pairwise_lt_range.filter _
    · intro j
      rw [hm, List.mem_filter, List.mem_range, decide_eq_true_iff]
  conv_rhs => rw [← range_filterMap c]
  rw [hks, List.filterMap_filter, List.filter_filterMap, List.filter_filterMap]
  refine List.filterMap_congr fun j hj => ?_
  rw [List.mem_range] at hj
  by_cases hp : P j
  · have := hf j c[j] hp (List.getElem?_eq_getElem hj)
    rw [List.getElem?_eq_getElem hj]
    simp [hp, Option.filter, this]
  · simp [hp]

/-- **C102** (what is stored). Curves such as the optimiser returns, from and to points with whole coordinates: when they have been made into
a contour and the implied points have been removed, every on-curve point that is left is, exactly, the beginning or an end of a curve, and
every off-curve point, exactly, a control point. The ends with halves have all gone. -/
theorem C102_stored (quads : Pt → Pt → Pt → Pt → List (Pt × Pt)) {p e : Pt} {qs : List Quad} (hc : Connected p qs e) (hp : WholePt p) (he : WholePt e)
    (hq : ∀ q ∈ qs, Piece q) (hj : qs.IsChain Joint) (hsp : SmallPt p) (hs : ∀ q ∈ qs, SmallPt q.p1 ∧ SmallPt q.p2) :
    ∃ c d, fromPath quads (.moveTo p :: qs.map quadEl) = .ok c ∧ removeImplied c = .ok d ∧
      (∀ x ∈ d, x.onCurve = true → place x = p ∨ ∃ q ∈ qs, WholePt q.p2 ∧ place x = q.p2) ∧
      (∀ x ∈ d, x.onCurve = false → ∃ q ∈ qs, q.p1 ≠ halfway q.p0 q.p2 ∧ place x = q.p1) ∧
      ((d.filter fun x => !x.onCurve).map place).reverse = (qs.filter fun q => q.p1 ≠ halfway q.p0 q.p2).map Quad.p1 := by
  have hfrom : fromPath quads (.moveTo p :: qs.map quadEl) = .ok (p.toPoint true :: qs.flatMap storedFor).reverse := by
    unfold fromPath segments
    simp only [Res.ok_bind, segmentsFrom, Res.pure_eq]
    rw [pushed]
    rfl
  have hoff : ∀ x ∈ (p.toPoint true :: qs.flatMap storedFor).reverse, x.onCurve = false → ∃ q ∈ qs, q.isLine = false ∧ x = q.p1.toPoint false := by
    intro x hx hf
    rw [List.mem_reverse, List.mem_cons, List.mem_flatMap] at hx
    rcases hx with rfl | ⟨q, hqm, hx⟩
    · cases hf
    · refine ⟨q, hqm, ?_⟩
      unfold storedFor at hx
      split at hx
      · rw [List.mem_singleton] at hx
        subst hx
        cases hf
      · next hl =>
        simp only [List.mem_cons, List.not_mem_nil, or_false] at hx
        rcases hx with rfl | rfl
        · exact ⟨by simpa using hl, rfl⟩
        · cases hf
  have hwhole : ∀ q ∈ qs, q.isLine = false → WholePt q.p1 ∧ q.p1 ≠ halfway q.p0 q.p2 := by
    intro q hm hl
    have hn : q.p1 ≠ halfway q.p0 q.p2 := fun e => by
      rw [(piece_line (hq q hm)).mpr e] at hl
      cases hl
    exact ⟨(hq q hm).2.2.resolve_left fun e => hn e.1, hn⟩
  have hoffc : ∀ x ∈ (p.toPoint true :: qs.flatMap storedFor).reverse, x.onCurve = false →
      ∃ q ∈ qs, q.p1 ≠ halfway q.p0 q.p2 ∧ place x = q.p1 ∧ SmallPt q.p1 := by
    intro x hx hf
    obtain ⟨q, hm, hl, rfl⟩ := hoff x hx hf
    obtain ⟨hw, hn⟩ := hwhole q hm hl
    exact ⟨q, hm, hn, place_whole hw (hs q hm).1, (hs q hm).1⟩
  obtain ⟨ks, hk1, hk2, hk3⟩ := C30_remove (p.toPoint true :: qs.flatMap storedFor).reverse (by
    intro k a x b _ ha hb _ ha' hb'
    obtain ⟨qa, _, _, ea, sa⟩ := hoffc a (List.mem_of_getElem? ha) ha'
    obtain ⟨qb, _, _, eb, sb⟩ := hoffc b (List.mem_of_getElem? hb) hb'
    rw [← ea] at sa
    rw [← eb] at sb
    have a1 := small_int sa.1
    have a2 := small_int sa.2
    have b1 := small_int sb.1
    have b2 := small_int sb.2
    exact ⟨⟨by omega, by omega⟩, by omega, by omega⟩)
  refine ⟨_, _, hfrom, hk1, ?_, ?_, ?_⟩
  · intro x hx hon
    rw [List.mem_filterMap] at hx
    obtain ⟨k, hkm, hx⟩ := hx
    obtain ⟨hlt, hni⟩ := (hk3 k).mp hkm
    obtain ⟨A, B, hAB, hA⟩ : ∃ A B, (p.toPoint true :: qs.flatMap storedFor).reverse = A ++ x :: B ∧ A.length = k := by
      obtain ⟨hlt', e⟩ := List.getElem?_eq_some_iff.mp hx
      refine ⟨(p.toPoint true :: qs.flatMap storedFor).reverse.take k, (p.toPoint true :: qs.flatMap storedFor).reverse.drop (k + 1), ?_, by
        rw [List.length_take]; omega⟩
      rw [← e, List.cons_getElem_drop_succ, List.take_append_drop]
    have hrev : p.toPoint true :: qs.flatMap storedFor = B.reverse ++ x :: A.reverse := by
      have := congrArg List.reverse hAB
      simpa using this
    rcases hB : B.reverse with _ | ⟨y, X⟩
    · rw [hB] at hrev
      simp only [List.nil_append, List.cons.injEq] at hrev
      rw [← hrev.1]
      exact .inl (place_whole hp hsp)
    · rw [hB] at hrev
      simp only [List.cons_append, List.cons.injEq] at hrev
      obtain ⟨l1, q, l2, e1, e2, e3, e4⟩ := stored_split qs X A.reverse x hrev.2 hon
      right
      have hqm : q ∈ qs := by rw [e1]; simp
      by_cases hw : WholePt q.p2
      · exact ⟨q, hqm, hw, by rw [e2]; exact place_whole hw (hs q hqm).2⟩
      · exfalso
        cases l2 with
        | nil =>
          have : e = q.p2 := by
            have hlast : ∀ {p e : Pt} {l : List Quad}, Connected p l e → ∀ z, l.getLast? = some z → e = z.p2 := by
              intro p e l h
              induction h with
              | one a =>
                intro z hz
                cases hz
                rfl
              | @more a l' _ hr ih =>
                intro z hz
                cases l' with
                | nil =>
                  generalize hl : ([] : List Quad) = l' at hr
                  generalize a.p2 = pp at hr
                  cases hr <;> cases hl
                | cons b l' => exact ih z (by simpa using hz)
            exact hlast hc q (by rw [e1]; simp)
          exact hw (this ▸ he)
        | cons b l2 =>
          have hbm : b ∈ qs := by rw [e1]; simp
          have hjoint : Joint q b := by
            rw [e1] at hj
            have := (List.isChain_append.mp hj).2.1
            rw [List.isChain_cons_cons] at this
            exact this.1
          have hconn : b.p0 = q.p2 := by
            have key : ∀ {p e : Pt} {l : List Quad}, Connected p l e → ∀ l1 (q b : Quad) l2, l = l1 ++ q :: b :: l2 → b.p0 = q.p2 := by
              intro p e l h
              induction h with
              | one a =>
                intro l1 q b l2 hl
                have := congrArg List.length hl
                simp at this
                omega
              | more a hr ih =>
                intro l1 q b l2 hl
                cases l1 with
                | nil =>
                  simp only [List.nil_append, List.cons.injEq] at hl
                  obtain ⟨rfl, rfl⟩ := hl
                  have start : ∀ {p e : Pt} {b : Quad} {l : List Quad}, Connected p (b :: l) e → b.p0 = p := by
                    intro p e b l h
                    generalize hl : b :: l = l' at h
                    cases h <;> cases hl <;> rfl
                  exact start hr
                | cons z l1 =>
                  simp only [List.cons_append, List.cons.injEq] at hl
                  exact ih l1 q b l2 hl.2
            exact key hc l1 q b l2 e1
          rcases hjoint with h | ⟨w1, w2, n1, n2, hh⟩
          · exact hw (hconn ▸ h)
          · have lq : q.isLine = false := by
              rw [← Bool.not_eq_true, piece_line (hq q hqm)]
              exact n1
            have lb : b.isLine = false := by
              rw [← Bool.not_eq_true, piece_line (hq b hbm)]
              exact n2
            have hx' : x = (halfway q.p1 b.p1).toPoint true := by rw [e2, ← hh, hconn]
            have hsm : SmallPt (halfway q.p1 b.p1) := by
              rw [← hh, hconn]
              exact (hs q hqm).2
            have eA : A = (l2.flatMap storedFor).reverse ++ [b.p2.toPoint true, b.p1.toPoint false] := by
              have := congrArg List.reverse e4
              rw [List.reverse_reverse] at this
              rw [this, List.flatMap_cons]
              unfold storedFor
              simp [lb]
            have eB : B = q.p1.toPoint false :: (y :: l1.flatMap storedFor).reverse := by
              have := congrArg List.reverse hB
              rw [List.reverse_reverse] at this
              rw [this, e3, lq]
              simp
            apply hni
            rw [hAB, eA, eB, ← hA, eA, hx']
            have := implied_between ((l2.flatMap storedFor).reverse ++ [b.p2.toPoint true]) (y :: l1.flatMap storedFor).reverse
              (b.p1.toPoint false) ((halfway q.p1 b.p1).toPoint true) (q.p1.toPoint false) rfl rfl
              (halfway_stored w1 w2 (hs q hqm).1 (hs b hbm).1 hsm)
            simpa using this
  · intro x hx hf
    rw [List.mem_filterMap] at hx
    obtain ⟨k, _, hx⟩ := hx
    obtain ⟨q, h1, h2, h3, _⟩ := hoffc x (List.mem_of_getElem? hx) hf
    exact ⟨q, h1, h2, h3⟩
  · classical
    rw [kept_filter _ (Implied (p.toPoint true :: qs.flatMap storedFor).reverse) (fun x => !x.onCurve) ks hk2 hk3 (by
      rintro j x ⟨y, _, _, hy, _, _, _, _, hon, _⟩ hx
      rw [hx] at hy
      cases hy
      simp [hon])]
    rw [List.filter_reverse, List.map_reverse, List.reverse_reverse, List.filter_cons_of_neg (by simp [Pt.toPoint])]
    clear hk1 hk2 hk3 hoffc hoff hfrom hj hc
    induction qs with
    | nil => rfl
    | cons q qs ih =>
      rw [List.flatMap_cons, List.filter_append, List.map_append,
        ih (fun x hx => hq x (by simp [hx])) (fun x hx => hs x (by simp [hx])) (fun x hx => hwhole x (by simp [hx]))]
      by_cases hl : q.isLine = true
      · have := (piece_line (hq q (by simp))).mp hl
        rw [List.filter_cons_of_neg (by simp [this])]
        simp [storedFor, hl, Pt.toPoint]
      · have hl' : q.isLine = false := by simpa using hl
        obtain ⟨hw, hn⟩ := hwhole q (by simp) hl'
        rw [List.filter_cons_of_pos (by simp [hn])]
        have hpl := place_whole (on := false) hw (hs q (by simp)).1
        unfold storedFor
        rw [if_neg hl]
        simp only [Pt.toPoint] at hpl ⊢
        simp [hpl]

/-- The curves of the example: the point with halves goes. -/
example : Connected ⟨0, 0⟩ plainQuads ⟨3, 3⟩ ∧ (∀ q ∈ plainQuads, SmallPt q.p1 ∧ SmallPt q.p2) ∧
    (match fromPath (fun _ _ _ _ => []) (.moveTo ⟨0, 0⟩ :: plainQuads.map quadEl) with
      | .ok c => decide (c = [⟨3, 3, true⟩, ⟨3, 1, false⟩, ⟨2, 0, true⟩, ⟨2, 0, false⟩, ⟨0, 0, true⟩]) && (match removeImplied c with
        | .ok d => decide (d = [⟨3, 3, true⟩, ⟨3, 1, false⟩, ⟨2, 0, false⟩, ⟨0, 0, true⟩])
        | _ => false)
      | _ => false) = true := by
  refine ⟨.more ⟨⟨0, 0⟩, ⟨2, 0⟩, ⟨5 / 2, 1 / 2⟩⟩ (.one ⟨⟨5 / 2, 1 / 2⟩, ⟨3, 1⟩, ⟨3, 3⟩⟩), ?_, by decide +kernel⟩
  unfold SmallPt
  decide +kernel

end FT.Props
