import Verif.Props.IupOptimize

/-!
C42 for a whole glyph, and when the optimiser returns.
-/

namespace FT.Props
open FT FT.F32 FT.Glyf FT.Iup

/-! ### The deltas of a glyph, contour by contour -/

/-- All the given deltas of a list. -/
def collect (ds : List (Option TupleVar.Delta)) : Res (List Pt) := Res.mapL (fun o => Res.unwrap o >>= get2d) ds

theorem collect_eq (ds : List (Option TupleVar.Delta)) : Res.mapL (givenAt ds) (List.range ds.length) = collect ds := by
  induction ds using List.reverseRecOn with
  | nil => rfl
  | append_singleton ds x ih =>
    unfold collect at ih ⊢
    rw [List.length_append, List.length_singleton, List.range_succ, mapL_append', mapL_append', ← ih]
    have e : Res.mapL (givenAt (ds ++ [x])) (List.range ds.length) = Res.mapL (givenAt ds) (List.range ds.length) := by
      apply mapL_congr'
      intro i hi
      rw [List.mem_range] at hi
      unfold givenAt
      rw [List.getElem?_append_left hi]
    have e2 : Res.mapL (givenAt (ds ++ [x])) [ds.length] = Res.mapL (fun o => Res.unwrap o >>= get2d) [x] := by
      have e3 : givenAt (ds ++ [x]) ds.length = (Res.unwrap x >>= get2d) := by
        unfold givenAt
        simp
      rw [mapL_cons', mapL_cons', e3]
      rfl
    rw [e, e2]

/-- Where the loop over the ends stops. -/
def lastStart (start : Nat) (ends : List Nat) : Nat := match ends.getLast? with
  | some e => e + 1
  | none => start

theorem lastStart_cons (start e : Nat) (es : List Nat) : lastStart start (e :: es) = lastStart (e + 1) es := by
  cases es with
  | nil => rfl
  | cons f fs => unfold lastStart; rw [List.getLast?_cons_cons]; cases h : (f :: fs).getLast? with
    | none => simp at h
    | some x => rfl

theorem slice_ok {α : Type} {l : List α} {a b : Nat} {v : List α} (h : slice l a b = .ok v) :
    a ≤ b ∧ b ≤ l.length ∧ v = (l.drop a).take (b - a) := by
  unfold slice at h
  split at h
  · rename_i hc
    injection h with h
    exact ⟨hc.1, hc.2, h.symm⟩
  · simp at h

theorem optimizeContours_lossless {xy cs : List Pt} (hl : cs.length = xy.length) : ∀ (ends : List Nat) (start : Nat)
    (out : List (Option TupleVar.Delta)), optimizeContours xy cs start ends = .ok out → start ≤ xy.length →
    start ≤ lastStart start ends ∧ lastStart start ends ≤ xy.length ∧ out.length = lastStart start ends - start ∧
    ∀ P R : List (Option TupleVar.Delta), P.length = start →
      iupContours (P ++ out ++ R) cs start ends = .ok ((xy.drop start).take (lastStart start ends - start))
  | [], start, out, h, hs => by
    simp only [optimizeContours, Res.ok.injEq] at h
    subst h
    refine ⟨le_refl _, hs, by simp [lastStart], ?_⟩
    intro P R _
    simp [iupContours, lastStart]
  | e :: es, start, out, h, hs => by
    unfold optimizeContours at h
    cases h1 : slice xy start (e + 1) with
    | err => rw [h1] at h; simp at h
    | panic => rw [h1] at h; simp at h
    | ok d =>
      rw [h1] at h
      cases h2 : slice cs start (e + 1) with
      | err => rw [h2] at h; simp at h
      | panic => rw [h2] at h; simp at h
      | ok c =>
        rw [h2] at h
        simp only [Res.ok_bind] at h
        cases h3 : optimizeContour d c with
        | err => rw [h3] at h; simp at h
        | panic => rw [h3] at h; simp at h
        | ok l =>
          rw [h3] at h
          simp only [Res.ok_bind] at h
          by_cases hlen : l.length = e - start + 1
          swap
          · rw [if_neg hlen] at h; simp at h
          rw [if_pos hlen] at h
          cases h4 : optimizeContours xy cs (e + 1) es with
          | err => rw [h4] at h; simp at h
          | panic => rw [h4] at h; simp at h
          | ok r =>
            rw [h4] at h
            simp only [Res.ok_bind, Res.pure_eq, Res.ok.injEq] at h
            subst h
            obtain ⟨a1, a2, a3⟩ := slice_ok h1
            obtain ⟨b1, b2, b3⟩ := slice_ok h2
            obtain ⟨i1, i2, i3, i4⟩ := optimizeContours_lossless hl es (e + 1) r h4 a2
            have dl : d.length = e + 1 - start := by rw [a3, List.length_take, List.length_drop]; omega
            have cl : c.length = d.length := by rw [dl, b3, List.length_take, List.length_drop]; omega
            have lo := C42_contour d c cl l h3
            -- the optimiser returns as many entries as points, so the contour is not empty
            by_cases hse : start ≤ e
            swap
            · exfalso
              have hd0 : d = [] := List.length_eq_zero_iff.1 (by omega)
              subst hd0
              simp [optimizeContour, allSmall] at h3
              subst h3
              simp at hlen
            rw [lastStart_cons]
            refine ⟨by omega, i2, by rw [List.length_append, hlen, i3]; omega, ?_⟩
            intro P R hP
            have s1 : slice (P ++ (l ++ r) ++ R) start (e + 1) = .ok l := by
              unfold slice
              rw [if_pos ⟨a1, by simp only [List.length_append]; omega⟩]
              congr 1
              rw [List.append_assoc, List.drop_append_of_le_length (by omega), show P.drop start = [] from by
                rw [← hP]; simp, List.nil_append, List.append_assoc, List.take_append_of_le_length (by omega),
                show e + 1 - start = l.length from by omega]
              simp
            unfold iupContours
            rw [s1, h2]
            simp only [Res.ok_bind]
            rw [lo]
            simp only [Res.ok_bind]
            have := i4 (P ++ l) R (by rw [List.length_append]; omega)
            rw [show P ++ (l ++ r) ++ R = P ++ l ++ r ++ R from by simp, this]
            simp only [Res.ok_bind, Res.pure_eq]
            congr 1
            rw [a3, show lastStart (e + 1) es - start = (e + 1 - start) + (lastStart (e + 1) es - (e + 1)) from by omega,
              List.take_add, List.drop_drop, show start + (e + 1 - start) = e + 1 from by omega]

theorem allsome_contours {ds : List (Option TupleVar.Delta)} {cs : List Pt} (hall : ∀ o ∈ ds, o.isSome) :
    ∀ (ends : List Nat) (start : Nat) (v : List Pt), iupContours ds cs start ends = .ok v → start ≤ ds.length →
    start ≤ lastStart start ends ∧ lastStart start ends ≤ ds.length ∧
    collect ((ds.drop start).take (lastStart start ends - start)) = .ok v
  | [], start, v, h, hs => by
    simp only [iupContours, Res.ok.injEq] at h
    subst h
    exact ⟨le_refl _, hs, by simp [lastStart, collect, Res.mapL]⟩
  | e :: es, start, v, h, hs => by
    unfold iupContours at h
    cases h1 : slice ds start (e + 1) with
    | err => rw [h1] at h; simp at h
    | panic => rw [h1] at h; simp at h
    | ok d =>
      rw [h1] at h
      cases h2 : slice cs start (e + 1) with
      | err => rw [h2] at h; simp at h
      | panic => rw [h2] at h; simp at h
      | ok c =>
        rw [h2] at h
        simp only [Res.ok_bind] at h
        obtain ⟨a1, a2, a3⟩ := slice_ok h1
        have dall : d.all (·.isSome) = true := by
          rw [List.all_eq_true]
          intro o ho
          rw [a3] at ho
          exact hall o (List.mem_of_mem_drop (List.mem_of_mem_take ho))
        have ec : iupContour d c = collect d := by
          unfold iupContour
          rw [if_pos dall, collect_eq]
        rw [ec] at h
        cases h3 : collect d with
        | err => rw [h3] at h; simp at h
        | panic => rw [h3] at h; simp at h
        | ok l =>
          rw [h3] at h
          simp only [Res.ok_bind] at h
          cases h4 : iupContours ds cs (e + 1) es with
          | err => rw [h4] at h; simp at h
          | panic => rw [h4] at h; simp at h
          | ok r =>
            rw [h4] at h
            simp only [Res.ok_bind, Res.pure_eq, Res.ok.injEq] at h
            subst h
            obtain ⟨i1, i2, i3⟩ := allsome_contours hall es (e + 1) r h4 a2
            rw [lastStart_cons]
            refine ⟨by omega, i2, ?_⟩
            rw [show lastStart (e + 1) es - start = (e + 1 - start) + (lastStart (e + 1) es - (e + 1)) from by omega,
              List.take_add, List.drop_drop, show start + (e + 1 - start) = e + 1 from by omega, ← a3]
            unfold collect at h3 i3 ⊢
            rw [mapL_append', h3, i3]
            rfl

theorem iupContours_length {gs : List (Option Pt)} {cs : List Pt} (hl : cs.length = gs.length) : ∀ (ends : List Nat)
    (start : Nat) (v : List Pt), iupContours (asDeltas gs) cs start ends = .ok v → start ≤ gs.length →
    start ≤ lastStart start ends ∧ v.length = lastStart start ends - start
  | [], start, v, h, hs => by
    simp only [iupContours, Res.ok.injEq] at h
    subst h
    exact ⟨le_refl _, by simp [lastStart]⟩
  | e :: es, start, v, h, hs => by
    unfold iupContours at h
    cases h1 : slice (asDeltas gs) start (e + 1) with
    | err => rw [h1] at h; simp at h
    | panic => rw [h1] at h; simp at h
    | ok d =>
      rw [h1] at h
      cases h2 : slice cs start (e + 1) with
      | err => rw [h2] at h; simp at h
      | panic => rw [h2] at h; simp at h
      | ok c =>
        rw [h2] at h
        simp only [Res.ok_bind] at h
        obtain ⟨a1, a2, a3⟩ := slice_ok h1
        obtain ⟨b1, b2, b3⟩ := slice_ok h2
        rw [asDeltas, List.length_map] at a2
        have de : d = asDeltas ((gs.drop start).take (e + 1 - start)) := by
          rw [a3, asDeltas, asDeltas, List.map_take, List.map_drop]
        cases h3 : iupContour d c with
        | err => rw [h3] at h; simp at h
        | panic => rw [h3] at h; simp at h
        | ok l =>
          rw [h3] at h
          simp only [Res.ok_bind] at h
          cases h4 : iupContours (asDeltas gs) cs (e + 1) es with
          | err => rw [h4] at h; simp at h
          | panic => rw [h4] at h; simp at h
          | ok r =>
            rw [h4] at h
            simp only [Res.ok_bind, Res.pure_eq, Res.ok.injEq] at h
            subst h
            obtain ⟨i1, i2⟩ := iupContours_length hl es (e + 1) r h4 a2
            rw [de] at h3
            have ll := (C41_contour _ c (by
              rw [b3]; simp only [List.length_take, List.length_drop]; omega) l h3).1
            simp only [List.length_take, List.length_drop] at ll
            rw [lastStart_cons]
            refine ⟨by omega, ?_⟩
            rw [List.length_append, ll, i2]; omega

theorem gvarCoords_last {g : Glyph} {cs : List Pt} {ends : List Nat} (h : gvarCoordsAndEnds g = .ok (cs, ends)) :
    lastStart 0 ends = cs.length := by
  unfold gvarCoordsAndEnds at h
  cases he : contourEnds 0 g.contours with
  | err => rw [he] at h; simp at h
  | panic => rw [he] at h; simp at h
  | ok es =>
    rw [he] at h
    simp only [Res.ok_bind, Res.pure_eq] at h
    split at h
    · rename_i hlast
      injection h with h
      rw [h] at hlast
      unfold lastStart
      simp only at hlast
      rw [hlast]
      simp only
      have : cs ≠ [] := by
        intro hcs
        have := congrArg Prod.fst h
        simp only [pushPoint] at this
        rw [hcs] at this
        simp at this
      have := List.length_pos_iff.2 this
      omega
    · simp at h

/-- C42, whole glyph: optimising the deltas of a glyph, given in full or in part, keeps one entry per point, and expanding
the result gives what expanding the original gives. -/
theorem C42_glyph (gs : List (Option Pt)) (g : Glyph) (cs : List Pt) (ends : List Nat)
    (hg : gvarCoordsAndEnds g = .ok (cs, ends)) (hlen : gs.length = cs.length) (out : List (Option TupleVar.Delta))
    (h : optimizeDeltas (asDeltas gs) g = .ok out) :
    out.length = gs.length ∧ ∃ full, iupDelta (asDeltas gs) cs ends = .ok full ∧ iupDelta out cs ends = .ok full := by
  unfold optimizeDeltas at h
  rw [hg] at h
  simp only [Res.ok_bind] at h
  cases hi : iupDelta (asDeltas gs) cs ends with
  | err => rw [hi] at h; simp at h
  | panic => rw [hi] at h; simp at h
  | ok xy =>
    rw [hi] at h
    simp only [Res.ok_bind] at h
    have hls := gvarCoords_last hg
    have hxy : xy.length = cs.length := by
      unfold iupDelta at hi
      split at hi
      · rw [(mapL_range_ok hi).1, List.length_map, hlen]
      · have := (iupContours_length hlen.symm ends 0 xy hi (by omega)).2
        omega
    obtain ⟨_, _, h3, h4⟩ := optimizeContours_lossless hxy.symm ends 0 out h (by omega)
    have h5 := h4 [] [] rfl
    rw [List.nil_append, List.append_nil, hls, List.drop_zero, Nat.sub_zero, ← hxy, List.take_length] at h5
    refine ⟨by omega, xy, rfl, ?_⟩
    unfold iupDelta
    split
    · rename_i hall
      rw [collect_eq]
      have := (allsome_contours (fun o ho => List.all_eq_true.1 hall o ho) ends 0 xy h5 (by omega)).2.2
      rw [hls, List.drop_zero, Nat.sub_zero, show cs.length = out.length from by omega, List.take_length] at this
      exact this
    · exact h5

/-- A square whose upper and lower sides move apart, in part omitted already. -/
example : let g : Glyph := ⟨0, 0, 0, 0, [[⟨0, 0, true⟩, ⟨100, 0, true⟩, ⟨100, 100, true⟩, ⟨0, 100, true⟩]], [], [], false⟩
    let gs : List (Option Pt) := [some (0, -5), none, some (0, 5), none, some (0, 0), some (0, 0), some (0, 0), some (0, 0)]
    gvarCoordsAndEnds g = .ok ([(0, 0), (100, 0), (100, 100), (0, 100), (0, 0), (0, 0), (0, 0), (0, 0)], [3, 4, 5, 6, 7]) ∧
    optimizeDeltas (asDeltas gs) g =
      .ok [none, some (.d2 0 (-5)), none, some (.d2 0 5), none, none, none, none] := by decide +kernel

/-! ### When the optimiser returns -/

/-- Both parts of a pair lie within fifteen bits. -/
def Fits15 (p : Pt) : Prop :=
  -16384 ≤ p.1.toInt ∧ p.1.toInt ≤ 16383 ∧ -16384 ≤ p.2.toInt ∧ p.2.toInt ≤ 16383

instance (p : Pt) : Decidable (Fits15 p) := by unfold Fits15; infer_instance

theorem subI16_ok_of {a b : Int16} (h1 : -16384 ≤ a.toInt) (h2 : a.toInt ≤ 16383) (h3 : -16384 ≤ b.toInt) (h4 : b.toInt ≤ 16383) :
    SubFits a b ∧ ∃ s, subI16 a b = .ok s := by
  have f : SubFits a b := by unfold SubFits; omega
  rcases subI16_iff a b with ⟨_, s, e, _⟩ | ⟨nf, _⟩
  · exact ⟨f, s, e⟩
  · exact absurd f nf

theorem segVal_fits {x1 d1 x2 d2 : Int16} (x : Int16) (h1 : -16384 ≤ x1.toInt ∧ x1.toInt ≤ 16383)
    (h2 : -16384 ≤ d1.toInt ∧ d1.toInt ≤ 16383) (h3 : -16384 ≤ x2.toInt ∧ x2.toInt ≤ 16383)
    (h4 : -16384 ≤ d2.toInt ∧ d2.toInt ≤ 16383) :
    ∃ r, segVal x1 d1 x2 d2 x = .ok r ∧ -16384 ≤ r.toInt ∧ r.toInt ≤ 16383 := by
  have f : AxisFits x1 d1 x2 d2 :=
    ⟨fun _ => ⟨(subI16_ok_of h4.1 h4.2 h2.1 h2.2).1, (subI16_ok_of h3.1 h3.2 h1.1 h1.2).1⟩,
     fun _ => ⟨(subI16_ok_of h2.1 h2.2 h4.1 h4.2).1, (subI16_ok_of h1.1 h1.2 h3.1 h3.2).1⟩⟩
  rcases segVal_spec x1 d1 x2 d2 x with ⟨_, r, e, i⟩ | ⟨nf, _⟩
  · refine ⟨r, e, ?_⟩
    rcases C41_stays_between i with h | ⟨_, _, h⟩ <;> omega
  · exact absurd f nf

theorem segPt_fits {c1 d1 c2 d2 : Pt} (c : Pt) (h1 : Fits15 c1) (h2 : Fits15 d1) (h3 : Fits15 c2) (h4 : Fits15 d2) :
    ∃ r, segPt c1 d1 c2 d2 c = .ok r ∧ Fits15 r := by
  unfold Fits15 at *
  obtain ⟨x, ex, bx⟩ := segVal_fits (x1 := c1.1) (d1 := d1.1) (x2 := c2.1) (d2 := d2.1) c.1 ⟨by omega, by omega⟩ ⟨by omega, by omega⟩
    ⟨by omega, by omega⟩ ⟨by omega, by omega⟩
  obtain ⟨y, ey, byy⟩ := segVal_fits (x1 := c1.2) (d1 := d1.2) (x2 := c2.2) (d2 := d2.2) c.2 ⟨by omega, by omega⟩ ⟨by omega, by omega⟩
    ⟨by omega, by omega⟩ ⟨by omega, by omega⟩
  exact ⟨(x, y), by unfold segPt; rw [ex, ey]; rfl, bx.1, bx.2, byy.1, byy.2⟩

theorem mapL_segPt_fits {c1 d1 c2 d2 : Pt} (h1 : Fits15 c1) (h2 : Fits15 d1) (h3 : Fits15 c2) (h4 : Fits15 d2) :
    ∀ (l : List Pt), ∃ out, Res.mapL (segPt c1 d1 c2 d2) l = .ok out ∧ out.length = l.length ∧ ∀ p ∈ out, Fits15 p
  | [] => ⟨[], rfl, rfl, by simp⟩
  | a :: l => by
    obtain ⟨out, e, hl, hf⟩ := mapL_segPt_fits h1 h2 h3 h4 l
    obtain ⟨r, er, fr⟩ := segPt_fits a h1 h2 h3 h4
    refine ⟨r :: out, by rw [mapL_cons', er, e]; rfl, by simp [hl], ?_⟩
    intro p hp
    rcases List.mem_cons.1 hp with h | h
    · exact h ▸ fr
    · exact hf p h

theorem allClose_total : ∀ (l : List (Pt × Pt)), (∀ x ∈ l, Fits15 x.1 ∧ Fits15 x.2) → ∃ b, allClose l = .ok b
  | [], _ => ⟨true, rfl⟩
  | (d, p) :: l, h => by
    have := h (d, p) (by simp)
    unfold Fits15 at this
    simp only at this
    obtain ⟨_, x, ex⟩ := subI16_ok_of (a := d.1) (b := p.1) (by omega) (by omega) (by omega) (by omega)
    obtain ⟨_, y, ey⟩ := subI16_ok_of (a := d.2) (b := p.2) (by omega) (by omega) (by omega) (by omega)
    unfold allClose
    rw [ex, ey]
    simp only [Res.ok_bind]
    split
    · exact allClose_total l (fun z hz => h z (by simp [hz]))
    · exact ⟨false, rfl⟩

theorem portion_mem {α : Type} {l : List α} {i j : Nat} {a : α} (h : a ∈ portion l i j) : a ∈ l := by
  unfold portion at h
  split at h
  · rcases List.mem_append.1 h with h | h
    · exact List.mem_of_mem_drop h
    · exact List.mem_of_mem_take h
  · exact List.mem_of_mem_drop (List.mem_of_mem_take h)

theorem cAt_mem {l : List Pt} {i : Nat} (h : i < l.length) : cAt l i ∈ l := List.mem_of_getElem? (cAt_some h)

theorem canIup_total {ds cs : List Pt} (hl : cs.length = ds.length) (hd : ∀ p ∈ ds, Fits15 p) (hc : ∀ p ∈ cs, Fits15 p)
    {i j : ℤ} (h2 : 2 ≤ j - i) (hn : j - i ≤ ds.length) : ∃ b, canIup ds cs i j = .ok b := by
  have hp : 0 < ds.length := by omega
  unfold canIup
  rw [if_neg (by omega)]
  change ∃ b, (Res.unwrap cs[around ds.length i]? >>= fun ca => Res.unwrap ds[around ds.length i]? >>= fun da =>
    Res.unwrap cs[around ds.length j]? >>= fun cb => Res.unwrap ds[around ds.length j]? >>= fun db =>
    iupSegment (portion cs (around ds.length i) (around ds.length j)) ca (some (twoD da)) cb (some (twoD db)) >>= fun interp =>
    if interp.length = (portion ds (around ds.length i) (around ds.length j)).length then
      allClose ((portion ds (around ds.length i) (around ds.length j)).zip interp) else .panic) = .ok b
  have l1 := around_lt i hp
  have l2 := around_lt j hp
  rw [cAt_some (cs := cs) (by omega), cAt_some (cs := ds) l1, cAt_some (cs := cs) (by omega), cAt_some (cs := ds) l2]
  simp only [Res.unwrap_some, Res.ok_bind]
  have lc := portion_length cs hl (i := i) (j := j) h2 hn
  have ld := portion_length ds rfl (i := i) (j := j) h2 hn
  rw [iupSegment_eq (by intro e; rw [e] at lc; simp at lc; omega)]
  obtain ⟨interp, e, il, fi⟩ := mapL_segPt_fits (hc _ (cAt_mem (l := cs) (i := around ds.length i) (by omega)))
    (hd _ (cAt_mem (l := ds) l1)) (hc _ (cAt_mem (l := cs) (i := around ds.length j) (by omega))) (hd _ (cAt_mem (l := ds) l2))
    (portion cs (around ds.length i) (around ds.length j))
  rw [e]
  simp only [Res.ok_bind]
  rw [if_pos (by omega)]
  apply allClose_total
  intro x hx
  have := List.of_mem_zip (a := x.1) (b := x.2) hx
  exact ⟨hd _ (portion_mem this.1), fi _ this.2⟩

theorem dpInner_total {ds cs : List Pt} (hcan : ∀ i j : ℤ, 2 ≤ j - i → j - i ≤ ds.length → ∃ b, canIup ds cs i j = .ok b)
    {forced costs : List ℤ} {i lim : ℤ} (h1 : -2 ≤ lim) (hb : i - ds.length ≤ lim) (hcost : i < costs.length) :
    ∀ (k : Nat) (j best prev : ℤ), j ≤ i - 2 → ∃ r, dpInner ds cs forced costs i lim k j best prev = .ok r
  | 0, j, best, prev, _ => ⟨_, rfl⟩
  | k + 1, j, best, prev, hj => by
    unfold dpInner
    by_cases hlim : lim < j
    swap
    · rw [if_neg hlim]; exact ⟨_, rfl⟩
    rw [if_pos hlim]
    have hlt : (j + 1).toNat < costs.length := by omega
    rw [List.getElem?_eq_getElem hlt]
    simp only [Res.unwrap_some, Res.ok_bind]
    have step : ∀ r' : ℤ × ℤ, ∃ r, (if j ∈ forced then Res.ok r' else dpInner ds cs forced costs i lim k (j - 1) r'.1 r'.2) = .ok r := by
      intro r'
      by_cases hf : j ∈ forced
      · rw [if_pos hf]; exact ⟨_, rfl⟩
      · rw [if_neg hf]; exact dpInner_total hcan h1 hb hcost k (j - 1) _ _ (by omega)
    split
    · obtain ⟨b, eb⟩ := hcan j i (by omega) (by omega)
      rw [eb]
      exact step _
    · exact step _

theorem dpLoop_total {ds cs : List Pt} (hcan : ∀ i j : ℤ, 2 ≤ j - i → j - i ≤ ds.length → ∃ b, canIup ds cs i j = .ok b)
    {forced : List ℤ} {lookback : ℤ} (hb : lookback ≤ ds.length) : ∀ (k : Nat) (costs chain : List ℤ),
    costs.length = chain.length + 1 → ∃ r, dpLoop ds cs forced lookback k costs chain = .ok r
  | 0, costs, chain, _ => ⟨_, rfl⟩
  | k + 1, costs, chain, hl => by
    unfold dpLoop
    have hstep : ∃ r, dpStep ds cs forced lookback costs chain = .ok r := by
      unfold dpStep
      simp only [Int.toNat_natCast]
      have hlt : chain.length < costs.length := by omega
      rw [List.getElem?_eq_getElem hlt]
      simp only [Res.unwrap_some, Res.ok_bind, Res.pure_eq]
      split
      · exact ⟨_, rfl⟩
      · exact dpInner_total hcan (le_max_right _ _) (by have := le_max_left ((chain.length : ℤ) - lookback) (-2); omega)
          (by omega) _ _ _ _ (le_refl _)
    obtain ⟨r, e⟩ := hstep
    rw [e]
    simp only [Res.ok_bind]
    exact dpLoop_total hcan hb k _ _ (by simp [hl])

theorem bestLoop_total {chain costs : List ℤ} {n : Nat} (hn : n ≤ 8191) : ∀ (starts : List Nat) (best : ℤ) (sol : List ℤ),
    ∃ r, bestLoop chain costs n starts best sol = .ok r
  | [], best, sol => ⟨_, rfl⟩
  | start :: rest, best, sol => by
    unfold bestLoop
    simp only
    split
    · have h4 : mulI16 (n : ℤ) 4 = .ok ((n : ℤ) * 4) := by unfold mulI16; rw [if_pos (by omega)]
      have h3 : mulI16 (n : ℤ) 3 = .ok ((n : ℤ) * 3) := by unfold mulI16; rw [if_pos (by omega)]
      rw [h4, h3]
      simp only [Res.ok_bind]
      split <;> exact bestLoop_total hn rest _ _
    · exact bestLoop_total hn rest _ _

theorem allSmall_total : ∀ {l : List Pt}, (∀ p ∈ l, Fits15 p) → ∃ b, allSmall l = .ok b
  | [], _ => ⟨true, rfl⟩
  | (x, y) :: l, h => by
    have := h (x, y) (by simp)
    unfold Fits15 at this
    simp only at this
    unfold allSmall
    rw [show absI16 x = .ok |x.toInt| from by unfold absI16; rw [if_neg (by omega)],
      show absI16 y = .ok |y.toInt| from by unfold absI16; rw [if_neg (by omega)]]
    simp only [Res.ok_bind]
    split
    · split
      · exact allSmall_total (fun p hp => h p (by simp [hp]))
      · exact ⟨false, rfl⟩
    · exact ⟨false, rfl⟩

theorem forcedSet_total {ds cs : List Pt} (hl : cs.length = ds.length) : ∃ l, forcedSet ds cs = .ok l := by
  unfold forcedSet
  rw [if_neg (by omega)]
  have key : ∀ i ∈ (List.range ds.length).reverse, ∃ b, (forcedAt ds cs i >>= fun b => (pure (i, b) : Res (Nat × Bool))) = .ok b := by
    intro i hi
    rw [List.mem_reverse, List.mem_range] at hi
    have hp : 0 < ds.length := by omega
    unfold forcedAt
    have a1 : (((i : ℤ) - 1) % (ds.length : ℤ)).toNat < ds.length := around_lt _ hp
    have a2 : (((i : ℤ) - 1) % (cs.length : ℤ)).toNat < cs.length := around_lt _ (by omega)
    have a3 := Nat.mod_lt (i + 1) hp
    have a4 := Nat.mod_lt (i + 1) (show 0 < cs.length by omega)
    rw [List.getElem?_eq_getElem hi, List.getElem?_eq_getElem (show i < cs.length by omega), List.getElem?_eq_getElem a1,
      List.getElem?_eq_getElem a2, List.getElem?_eq_getElem a3, List.getElem?_eq_getElem a4]
    exact ⟨_, rfl⟩
  have : ∀ (l : List Nat), (∀ i ∈ l, ∃ b, (forcedAt ds cs i >>= fun b => (pure (i, b) : Res (Nat × Bool))) = .ok b) →
      ∃ r, Res.mapL (fun i => forcedAt ds cs i >>= fun b => (pure (i, b) : Res (Nat × Bool))) l = .ok r := by
    intro l
    induction l with
    | nil => intro _; exact ⟨[], rfl⟩
    | cons a l ih =>
      intro h
      obtain ⟨b, e⟩ := h a (by simp)
      obtain ⟨r, e'⟩ := ih (fun i hi => h i (by simp [hi]))
      exact ⟨b :: r, by rw [mapL_cons', e, e']; rfl⟩
  obtain ⟨r, e⟩ := this _ key
  rw [e]
  exact ⟨_, rfl⟩

theorem rotate_mem {α : Type} {l : List α} {k : ℤ} {a : α} (h : a ∈ rotateList l k) : a ∈ l := by
  unfold rotateList at h
  simp only at h
  split at h
  · exact h
  · rcases List.mem_append.1 h with h | h
    · exact List.mem_of_mem_drop h
    · exact List.mem_of_mem_take h

/-- C42: for a contour of at most 8191 points whose coordinates and deltas fit fifteen bits, the optimiser returns. -/
theorem C42_returns (ds cs : List Pt) (hl : cs.length = ds.length) (hn : ds.length ≤ 8191) (hd : ∀ p ∈ ds, Fits15 p)
    (hc : ∀ p ∈ cs, Fits15 p) : ∃ out, optimizeContour ds cs = .ok out := by
  unfold optimizeContour
  obtain ⟨b, e⟩ := allSmall_total hd
  rw [e]
  simp only [Res.ok_bind]
  cases b with
  | true => exact ⟨_, rfl⟩
  | false =>
    simp only [Bool.false_eq_true, if_false]
    match ds, hl, hn, hd with
    | [], hl, hn, hd => exact ⟨_, rfl⟩
    | [d], hl, hn, hd => exact ⟨_, rfl⟩
    | d :: d2 :: rest, hl, hn, hd =>
      simp only
      split
      · exact ⟨_, rfl⟩
      · rw [if_neg (by omega)]
        obtain ⟨ds, hds⟩ : ∃ ds, ds = d :: d2 :: rest := ⟨_, rfl⟩
        rw [← hds] at hl hn hd ⊢
        obtain ⟨f, ef⟩ := forcedSet_total hl
        rw [ef]
        simp only [Res.ok_bind]
        cases f with
        | nil =>
          unfold optimizeFree
          simp only
          rw [if_neg (by omega)]
          simp only [Res.pure_eq, Res.ok_bind]
          have can : ∀ i j : ℤ, 2 ≤ j - i → j - i ≤ (ds ++ ds).length → ∃ b, canIup (ds ++ ds) (cs ++ cs) i j = .ok b := fun i j a b =>
            canIup_total (by simp [hl]) (fun p hp => hd p (by simpa using hp)) (fun p hp => hc p (by simpa using hp)) a b
          obtain ⟨r, er⟩ := dpLoop_total can (forced := []) (lookback := ds.length) (by rw [List.length_append]; omega)
            (ds ++ ds).length [0] [] rfl
          unfold dp
          rw [er]
          simp only [Res.ok_bind]
          obtain ⟨sol, es⟩ := bestLoop_total (chain := r.1) (costs := r.2) hn (List.range' (ds.length - 1) (ds.length + 2))
            ((ds.length : ℤ) + 1) []
          rw [es]
          exact ⟨_, rfl⟩
        | cons f fs =>
          unfold optimizeForced
          simp only
          obtain ⟨k, hk⟩ : ∃ k, k = (ds.length : ℤ) - 1 - fs.foldl max f := ⟨_, rfl⟩
          rw [← hk]
          have can : ∀ i j : ℤ, 2 ≤ j - i → j - i ≤ (rotateList ds k).length →
              ∃ b, canIup (rotateList ds k) (rotateList cs k) i j = .ok b := fun i j a b =>
            canIup_total (by rw [rotateList_length, rotateList_length, hl]) (fun p hp => hd p (rotate_mem hp))
              (fun p hp => hc p (rotate_mem hp)) a b
          obtain ⟨r, er⟩ := dpLoop_total can (forced := rotateSet (f :: fs) k ds.length) (lookback := ds.length)
            (by rw [rotateList_length]) (rotateList ds k).length [0] [] rfl
          unfold dp
          rw [er]
          exact ⟨_, rfl⟩

example : ∃ ds cs : List Pt, cs.length = ds.length ∧ ds.length ≤ 8191 ∧ (∀ p ∈ ds, Fits15 p) ∧ (∀ p ∈ cs, Fits15 p) ∧ 3 ≤ ds.length :=
  ⟨[(1, 2), (3, 4), (5, -16384)], [(0, 0), (16383, 7), (7, 9)], rfl, by decide, by decide +kernel, by decide +kernel, by decide⟩

/-- Deltas too far apart for sixteen bits: the optimiser panics. -/
theorem C42_far_apart_panics : optimizeContour [(-20000, 0), (0, 0), (20000, 0), (0, 0)] [(0, 0), (10, 0), (20, 0), (10, 0)] = .panic ∧
    optimizeContour [(-32768, 0), (5, 0)] [(0, 0), (10, 0)] = .panic := by decide +kernel

end FT.Props
