import Verif.Props.Contour

/-!
C61: the points and contour ends of a glyph as `gvar` numbers them.
-/

namespace FT.Props
open FT FT.Glyf

/-- The number of points of the first `k` contours. -/
def pointsBefore (contours : List (List Point)) (k : Nat) : Nat := ((contours.take k).map List.length).sum

theorem pointsBefore_all (contours : List (List Point)) : pointsBefore contours contours.length = contours.flatten.length := by
  unfold pointsBefore
  rw [List.take_length, List.length_flatten]

theorem contourEnds_ok : ∀ (cs : List (List Point)) (acc : Nat), (0 < acc ∨ cs.head? ≠ some []) →
    ∃ l, contourEnds acc cs = .ok l ∧ l.length = cs.length ∧
      ∀ k, k < cs.length → l[k]? = some (acc + pointsBefore cs (k + 1) - 1) ∧ 0 < acc + pointsBefore cs (k + 1)
  | [], acc, _ => ⟨[], rfl, rfl, by simp⟩
  | c :: cs, acc, h => by
    have hpos : acc + c.length ≠ 0 := by
      rcases h with h | h
      · omega
      · intro h0
        have : c = [] := List.length_eq_zero_iff.1 (by omega)
        subst this
        exact h rfl
    obtain ⟨l, e, hl, hk⟩ := contourEnds_ok cs (acc + c.length) (.inl (by omega))
    refine ⟨(acc + c.length - 1) :: l, ?_, by simp [hl], ?_⟩
    · unfold contourEnds
      rw [if_neg hpos, e]; rfl
    · intro k hlt
      cases k with
      | zero => simp [pointsBefore]; omega
      | succ k =>
        have := hk k (by simpa using hlt)
        have eq : pointsBefore (c :: cs) (k + 1 + 1) = c.length + pointsBefore cs (k + 1) := by simp [pointsBefore]
        rw [eq, List.getElem?_cons_succ, ← Nat.add_assoc]
        exact this

theorem contourEnds_panic {cs : List (List Point)} (h : cs.head? = some []) : contourEnds 0 cs = .panic := by
  cases cs with
  | nil => simp at h
  | cons c cs =>
    simp only [List.head?_cons, Option.some.injEq] at h
    subst h
    simp [contourEnds]

theorem pointsBefore_mono (cs : List (List Point)) {j k : Nat} (h : j ≤ k) : pointsBefore cs j ≤ pointsBefore cs k := by
  unfold pointsBefore
  have : k = j + (k - j) := by omega
  rw [this, List.take_add, List.map_append, List.sum_append]
  omega

theorem foldl_max_ge (l : List Nat) (a : Nat) : a ≤ l.foldl max a ∧ ∀ x ∈ l, x ≤ l.foldl max a := by
  induction l generalizing a with
  | nil => simp
  | cons b l ih =>
    have := ih (max a b)
    refine ⟨by simp only [List.foldl_cons]; omega, ?_⟩
    intro x hx
    simp only [List.foldl_cons]
    rcases List.mem_cons.1 hx with h | h
    · omega
    · exact this.2 x h

theorem foldl_max_le {l : List Nat} {a b : Nat} (ha : a ≤ b) (h : ∀ x ∈ l, x ≤ b) : l.foldl max a ≤ b := by
  induction l generalizing a with
  | nil => exact ha
  | cons c l ih =>
    simp only [List.foldl_cons]
    have := h c (by simp)
    exact ih (by omega) (fun x hx => h x (by simp [hx]))

theorem nextEnd_eq {l : List Nat} {b : Nat} (h : ∀ x ∈ l, x ≤ b) (hm : b ∈ l) : nextEnd l = b + 1 := by
  cases l with
  | nil => simp at hm
  | cons a l =>
    unfold nextEnd
    simp only
    have h1 := foldl_max_ge l a
    have h2 := foldl_max_le (l := l) (h a (by simp)) (fun x hx => h x (by simp [hx]))
    have h3 : b ≤ l.foldl max a := by
      rcases List.mem_cons.1 hm with e | e
      · omega
      · exact h1.2 b e
    omega

theorem nextEnd_push (l : List Nat) : nextEnd (l ++ [nextEnd l]) = nextEnd l + 1 := by
  apply nextEnd_eq
  · intro x hx
    rcases List.mem_append.1 hx with h | h
    · cases l with
      | nil => simp at h
      | cons a l =>
        unfold nextEnd
        simp only
        have := foldl_max_ge l a
        rcases List.mem_cons.1 h with e | e
        · omega
        · have := this.2 x e; omega
    · simp at h; omega
  · simp

/-- Pushing points one after another. -/
theorem pushPoints (l : List (Int16 × Int16)) : ∀ (s : List (Int16 × Int16) × List Nat),
    l.foldl (fun s xy => pushPoint xy s) s = (s.1 ++ l, s.2 ++ List.range' (nextEnd s.2) l.length) ∧
    nextEnd (l.foldl (fun s xy => pushPoint xy s) s).2 = nextEnd s.2 + l.length := by
  induction l with
  | nil => intro s; simp
  | cons a l ih =>
    intro s
    have := ih (pushPoint a s)
    simp only [List.foldl_cons]
    rw [this.1]
    have e : nextEnd (pushPoint a s).2 = nextEnd s.2 + 1 := by
      unfold pushPoint; exact nextEnd_push _
    constructor
    · rw [e]
      unfold pushPoint
      simp [List.range'_succ]
    · have h2 := this.2
      rw [this.1] at h2
      rw [h2, e, List.length_cons]; omega

/-- C61: the coordinates are those of the points, then the offset of each component, then four points at the origin; the
ends are the last point of each contour, then every later point on its own. -/
theorem C61_points (g : Glyph) (h : g.contours.head? ≠ some []) :
    ∃ ends, gvarCoordsAndEnds g = .ok (g.contours.flatten.map (fun p => (p.x, p.y)) ++
        g.components.map (fun c => (qToI16 c.transformation.e, qToI16 c.transformation.f)) ++ List.replicate 4 (0, 0), ends) ∧
      ends.length = g.contours.length + g.components.length + 4 ∧
      (∀ k, k < g.contours.length → ∃ e, ends[k]? = some e ∧ e + 1 = pointsBefore g.contours (k + 1)) ∧
      (∀ j, j < g.components.length + 4 → ends[g.contours.length + j]? = some (g.contours.flatten.length + j)) := by
  obtain ⟨l, e, hl, hk⟩ := contourEnds_ok g.contours 0 (.inr h)
  simp only [Nat.zero_add] at hk
  have hnext : nextEnd l = g.contours.flatten.length := by
    rw [← pointsBefore_all]
    by_cases h0 : g.contours.length = 0
    · have : l = [] := List.length_eq_zero_iff.1 (by omega)
      subst this
      rw [h0]; rfl
    · have hlast := hk (g.contours.length - 1) (by omega)
      rw [show g.contours.length - 1 + 1 = g.contours.length from by omega] at hlast
      rw [nextEnd_eq (b := pointsBefore g.contours g.contours.length - 1)]
      · omega
      · intro x hx
        obtain ⟨j, hj, ej⟩ := List.getElem_of_mem hx
        have := (hk j (by omega)).1
        rw [List.getElem?_eq_getElem hj, ej] at this
        injection this with this
        have := pointsBefore_mono g.contours (show j + 1 ≤ g.contours.length by omega)
        omega
      · exact List.mem_of_getElem? hlast.1
  obtain ⟨comps, hcomps⟩ : ∃ comps, comps = g.components.map (fun c => (qToI16 c.transformation.e, qToI16 c.transformation.f)) := ⟨_, rfl⟩
  obtain ⟨pts, hpts⟩ : ∃ pts : List (Int16 × Int16), pts = g.contours.flatten.map (fun p => (p.x, p.y)) := ⟨_, rfl⟩
  have cl : comps.length = g.components.length := by rw [hcomps, List.length_map]
  have pl : pts.length = g.contours.flatten.length := by rw [hpts, List.length_map]
  have fold4 : ∀ s : List (Int16 × Int16) × List Nat,
      pushPoint (0, 0) (pushPoint (0, 0) (pushPoint (0, 0) (pushPoint (0, 0) s))) =
      (List.replicate 4 ((0, 0) : Int16 × Int16)).foldl (fun s xy => pushPoint xy s) s := fun s => rfl
  have key : (List.replicate 4 ((0, 0) : Int16 × Int16)).foldl (fun s xy => pushPoint xy s)
      (comps.foldl (fun s xy => pushPoint xy s) (pts, l)) =
      (pts ++ comps ++ List.replicate 4 (0, 0), l ++ List.range' g.contours.flatten.length (g.components.length + 4)) := by
    rw [← List.foldl_append, (pushPoints _ _).1]
    simp only [hnext, List.length_append, cl, List.length_replicate]
    rw [List.append_assoc]
  refine ⟨l ++ List.range' g.contours.flatten.length (g.components.length + 4), ?_, ?_, ?_, ?_⟩
  · unfold gvarCoordsAndEnds
    rw [e]
    simp only [Res.ok_bind, Res.pure_eq]
    rw [← hcomps, ← hpts, fold4, key]
    rw [if_pos]
    simp only
    rw [List.getLast?_append, List.getLast?_range']
    simp only [List.length_append, List.length_replicate, pl, cl]
    simp
    omega
  · rw [List.length_append, List.length_range', hl]; omega
  · intro k hlt
    have := hk k hlt
    refine ⟨_, by rw [List.getElem?_append_left (by omega)]; exact this.1, by omega⟩
  · intro j hj
    rw [List.getElem?_append_right (by omega), hl, Nat.add_sub_cancel_left, List.getElem?_range' (by omega)]
    simp

/-- C61: a glyph whose first contour is empty panics. -/
theorem C61_empty_panics (g : Glyph) (h : g.contours.head? = some []) : gvarCoordsAndEnds g = .panic := by
  unfold gvarCoordsAndEnds
  rw [contourEnds_panic h]
  rfl

example : gvarCoordsAndEnds ⟨0, 0, 0, 0, [[⟨1, 2, true⟩, ⟨3, 4, false⟩], [⟨5, 6, true⟩]], [], [⟨7, ⟨1, 0, 0, 1, 50, -60⟩, none, 0⟩], false⟩ =
    .ok ([(1, 2), (3, 4), (5, 6), (50, -60), (0, 0), (0, 0), (0, 0), (0, 0)], [1, 2, 3, 4, 5, 6, 7]) := by decide +kernel

end FT.Props
