import Verif.Props.Gvar
import Verif.Props.GvarPoints

/-!
C53: when gvar tables are written, and when they are not read back.
-/

namespace FT.Props
open FT FT.F32 FT.Glyf FT.Iup FT.TupleVar FT.Gvar Reader

/-! ### The optimiser returns -/

/-- The ends of contours of 1 to 8191 points each. -/
inductive GoodEnds (n : Nat) : Nat → List Nat → Prop
  | nil (s : Nat) : GoodEnds n s []
  | cons (s e : Nat) (es : List Nat) : s ≤ e → e < n → e + 1 - s ≤ 8191 → GoodEnds n (e + 1) es → GoodEnds n s (e :: es)

theorem goodEnds_of {n : Nat} : ∀ (es : List Nat) (s : Nat),
    (∀ (k e : Nat), es[k]? = some e → ∀ p, (k = 0 → p = s) → (∀ e', 0 < k → es[k - 1]? = some e' → p = e' + 1) →
      p ≤ e ∧ e < n ∧ e + 1 - p ≤ 8191) → GoodEnds n s es
  | [], s, _ => .nil s
  | e :: es, s, h => by
    obtain ⟨h1, h2, h3⟩ := h 0 e rfl s (fun _ => rfl) (fun _ h => absurd h (Nat.lt_irrefl _))
    refine .cons s e es h1 h2 h3 (goodEnds_of es (e + 1) ?_)
    intro k e' hk p p1 p2
    refine h (k + 1) e' (by simpa using hk) p (fun hc => by omega) ?_
    intro e'' _ he
    cases k with
    | zero =>
      simp at he
      rw [p1 rfl, he]
    | succ k => exact p2 e'' (by omega) (by simpa using he)

theorem gvarCoords_ends {g : Glyph} {ce : List Pt × List Nat} (h : gvarCoordsAndEnds g = .ok ce) (h0 : ∀ c ∈ g.contours, c ≠ [])
    (h1 : ∀ c ∈ g.contours, c.length ≤ 8191) : GoodEnds ce.1.length 0 ce.2 := by
  obtain ⟨ends, e, l, k1, k2⟩ := C61_points g (by
    intro hc
    cases hcs : g.contours with
    | nil => rw [hcs] at hc; simp at hc
    | cons c cs =>
      rw [hcs] at hc
      simp only [List.head?_cons, Option.some.injEq] at hc
      exact h0 c (by simp [hcs]) hc)
  rw [e] at h
  injection h with h
  subst h
  obtain ⟨C, hC⟩ : ∃ C, C = g.contours.length := ⟨_, rfl⟩
  have hall := pointsBefore_all g.contours
  rw [← hC] at hall k1 k2 l
  have hlen : ∀ (X : List Pt) (Y : List Pt), X.length = g.contours.flatten.length → Y.length = g.components.length →
      (X ++ Y ++ List.replicate 4 (0, 0)).length = g.contours.flatten.length + g.components.length + 4 := by
    intro X Y hX hY
    simp only [List.length_append, List.length_replicate, hX, hY]
  simp only
  rw [hlen _ _ (List.length_map ..) (List.length_map ..)]
  apply goodEnds_of
  intro k e hk p p1 p2
  have hkl : k < ends.length := by
    by_contra hc
    rw [List.getElem?_eq_none (by omega)] at hk
    simp at hk
  -- the start of the contour
  have hpb : ∀ j, (hj : j < g.contours.length) → pointsBefore g.contours (j + 1) = pointsBefore g.contours j + (g.contours[j]).length := by
    intro j hj
    unfold pointsBefore
    rw [List.take_succ_eq_append_getElem hj, List.map_append, List.sum_append, List.map_cons, List.map_nil, List.sum_singleton]
  by_cases hkC : k < C
  · obtain ⟨e', a1, a2⟩ := k1 k hkC
    rw [a1] at hk
    injection hk with hk
    subst hk
    have hp : p = pointsBefore g.contours k := by
      cases k with
      | zero => rw [p1 rfl]; simp [pointsBefore]
      | succ k =>
        obtain ⟨e'', b1, b2⟩ := k1 k (by omega)
        rw [p2 e'' (by omega) b1, b2]
    have hm : g.contours[k]'(by omega) ∈ g.contours := List.getElem_mem _
    have hne := List.length_pos_iff.2 (h0 _ hm)
    have hle := h1 _ hm
    have := hpb k (by omega)
    have hmono := pointsBefore_mono g.contours (show k + 1 ≤ C by omega)
    omega
  · have a1 := k2 (k - C) (by omega)
    rw [show C + (k - C) = k by omega, hk] at a1
    injection a1 with a1
    have hp : p = e := by
      by_cases hk0 : k = 0
      · rw [p1 hk0]
        have : C = 0 := by omega
        rw [this] at hall
        rw [a1, hk0, ← hall]
        simp [pointsBefore]
      · by_cases hkC' : k - 1 < C
        · obtain ⟨e'', b1, b2⟩ := k1 (k - 1) hkC'
          rw [p2 e'' (by omega) b1, b2, a1, show k - 1 + 1 = C by omega, hall]
          omega
        · have b1 := k2 (k - 1 - C) (by omega)
          rw [show C + (k - 1 - C) = k - 1 by omega] at b1
          rw [p2 _ (by omega) b1, a1]
          omega
    omega

theorem optimizeContour_length {ds cs : List Pt} {out : List (Option TupleVar.Delta)} (h : optimizeContour ds cs = .ok out) :
    out.length = ds.length := by
  have keep : ∀ (ds : List Pt) (sol : List ℤ), (keepAt ds sol).length = ds.length := by
    intro ds sol
    rw [keepAt_eq, asDeltas, List.length_map, keepG_length]
  unfold optimizeContour at h
  obtain ⟨b, _, h⟩ := Res.bind_inv h
  split at h
  · injection h with h
    subst h
    simp
  · split at h
    · injection h with h
      subst h
      rfl
    · injection h with h
      subst h
      rfl
    · split at h
      · injection h with h
        subst h
        simp
      · split at h
        · simp at h
        · obtain ⟨f, _, h⟩ := Res.bind_inv h
          split at h
          · unfold optimizeFree at h
            simp only at h
            split at h
            · cases h
            simp only [Res.pure_eq, Res.ok_bind] at h
            obtain ⟨r, _, h⟩ := Res.bind_inv h
            obtain ⟨sol, _, h⟩ := Res.bind_inv h
            injection h with h
            subst h
            exact keep _ _
          · unfold optimizeForced at h
            obtain ⟨r, _, h⟩ := Res.bind_inv h
            injection h with h
            subst h
            rw [rotateList_length, keep, rotateList_length]

theorem slice_of {α : Type} {l : List α} {a b : Nat} (h : a ≤ b) (hb : b ≤ l.length) : Iup.slice l a b = .ok ((l.drop a).take (b - a)) := by
  unfold Iup.slice
  rw [if_pos ⟨h, hb⟩]

theorem optimizeContours_total {xy cs : List Pt} (hl : cs.length = xy.length) (hd : ∀ p ∈ xy, Fits15 p) (hc : ∀ p ∈ cs, Fits15 p) :
    ∀ {es : List Nat} {s : Nat}, GoodEnds xy.length s es → ∃ out, optimizeContours xy cs s es = .ok out := by
  intro es s h
  induction h with
  | nil s => exact ⟨[], rfl⟩
  | cons s e es h1 h2 h3 _ ih =>
    obtain ⟨r, hr⟩ := ih
    have l1 : ((xy.drop s).take (e + 1 - s)).length = e + 1 - s := by rw [List.length_take, List.length_drop]; omega
    have l2 : ((cs.drop s).take (e + 1 - s)).length = e + 1 - s := by rw [List.length_take, List.length_drop]; omega
    obtain ⟨out, ho⟩ := C42_returns ((xy.drop s).take (e + 1 - s)) ((cs.drop s).take (e + 1 - s)) (by rw [l1, l2]) (by rw [l1]; omega)
      (fun p hp => hd p (List.mem_of_mem_drop (List.mem_of_mem_take hp))) (fun p hp => hc p (List.mem_of_mem_drop (List.mem_of_mem_take hp)))
    have hlo := optimizeContour_length ho
    unfold optimizeContours
    rw [slice_of (by omega) (by omega), slice_of (by omega) (by omega)]
    simp only [Res.ok_bind, ho]
    rw [if_pos (by omega), hr]
    exact ⟨_, rfl⟩

/-- The outline and the deltas fit fifteen bits; no contour is empty or has more than 8191 points. -/
def OutlineFits (gl : Glyph) (ce : List Pt × List Nat) (d : DeltaSet) : Prop :=
  (∀ c ∈ gl.contours, c ≠ [] ∧ c.length ≤ 8191) ∧ (∀ p ∈ ce.1, Fits15 p) ∧ ∀ p ∈ d.deltas, Fits15 p

theorem optimizeDeltas_total {gl : Glyph} {ce : List Pt × List Nat} {d : DeltaSet} (hce : gvarCoordsAndEnds gl = .ok ce)
    (hlen : d.deltas.length = ce.1.length) (h : OutlineFits gl ce d) : ∃ out, optimizeDeltas (fullDeltas d) gl = .ok out := by
  unfold optimizeDeltas
  rw [hce, fullDeltas_eq]
  simp only [Res.ok_bind, iupDelta_full]
  refine optimizeContours_total hlen.symm h.2.2 h.2.1 ?_
  rw [hlen]
  exact gvarCoords_ends hce (fun c hc => (h.1 c hc).1) (fun c hc => (h.1 c hc).2)

/-! ### Writing succeeds -/

theorem encStore_one {axes : Nat} {pc : Nat} {v : Variation} (hpc : pc ≤ 65535) (h : VariationFits axes true pc v)
    (hs : headerSize axes v.header ≤ 65531) : ∃ b, encStore [v] = .ok b := by
  obtain ⟨bs, _, _, _, _, _, e, _⟩ := C40_writes axes true pc [v] hpc (by simp) (by simpa using h) (by simpa using hs)
  exact ⟨bs, e⟩

theorem toTuple_total {axes : Nat} {shared : List Bytes} {glyph : Option Glyph} {d : DeltaSet} {ce : List Pt × List Nat}
    (hax : 4 + 4 * axes ≤ 65531) (hpc : ce.1.length ≤ 65535) (hsh : shared.length ≤ 4096)
    (hf : SetFits axes ce.1.length glyph d) (hce : ∀ gl, glyph = some gl → gvarCoordsAndEnds gl = .ok ce ∧ OutlineFits gl ce d)
    (hmem : ∀ b, peakBytes d = .ok b → b ∈ shared) : ∃ v, toTupleVariation shared glyph d = .ok v := by
  obtain ⟨ps, _, e⟩ := gridTuple_fixed hf.1
  have hpb := peakBytes_fixed e
  have hm := hmem _ hpb
  unfold toTupleVariation
  rw [hpb]
  simp only [Res.ok_bind]
  obtain ⟨i, hi⟩ : ∃ i, shared.findIdx? (· == encVec encI16 ps) = some i := by
    cases hfi : shared.findIdx? (· == encVec encI16 ps) with
    | some i => exact ⟨i, rfl⟩
    | none =>
      rw [List.findIdx?_eq_none_iff] at hfi
      have := hfi _ hm
      simp at this
  have hlt : i < shared.length := by
    rw [List.findIdx?_eq_some_iff_getElem] at hi
    exact hi.1
  rw [hi]
  cases glyph with
  | none => exact ⟨_, rfl⟩
  | some gl =>
    obtain ⟨h1, h2⟩ := hce gl rfl
    obtain ⟨out, ho⟩ := optimizeDeltas_total h1 hf.2.2.2.1 h2
    have hsz := tupleHeader_size axes d i
    have hfull := variation_fits (v := ⟨tupleHeader d (some i), fullDeltas d⟩) hf hpc (show i < 4096 by omega) rfl (standsFor_full ce d)
    obtain ⟨b1, e1⟩ := encStore_one hpc hfull (by simp only; omega)
    simp only
    unfold chooseDeltas
    rw [ho]
    simp only [Res.ok_bind]
    by_cases hall : out.all Option.isNone = true
    · rw [if_pos hall]
      exact ⟨_, rfl⟩
    · rw [if_neg hall]
      have hp := optimizeDeltas_pairs ho
      have ho' := ho
      rw [fullDeltas_asDeltas] at ho'
      obtain ⟨c1, full, c2, c3⟩ := C42_glyph (d.deltas.map some) gl ce.1 ce.2 h1 (by simpa using hf.2.2.2.1) out ho'
      rw [List.length_map] at c1
      obtain ⟨b2, e2⟩ : ∃ b, encStore [⟨tupleHeader d (some i), out⟩] = .ok b := by
        by_cases hn : none ∈ out
        · have hfew := hf.2.2.2.2.2.2 gl rfl out ho hn
          have hx : ∃ x, some x ∈ out := by
            rw [List.all_eq_true] at hall
            push Not at hall
            obtain ⟨o, ho1, ho2⟩ := hall
            cases o with
            | none => simp at ho2
            | some x => exact ⟨x, ho1⟩
          refine encStore_one (axes := axes) (pc := ce.1.length) hpc ⟨tupleHeader_fits hf (by omega), by rw [c1]; exact hf.2.2.2.1, ?_,
            replicate_infix_short (by rw [List.length_map]; have := hfew.1; simp only at *; omega),
            replicate_infix_short (Nat.le_trans (List.length_filterMap_le _ _) (by have := hfew.1; simp only at *; omega)),
            .inl ⟨hn, givenPoints 0 out, ?_, ?_, ?_, ?_⟩⟩ (by simp only; omega)
          · intro p hp'
            obtain ⟨q, e⟩ := hp (some p.2) (givenFrom_mem _ _ p hp') p.2 rfl
            rw [e]
            rfl
          · exact givenPoints_eq _ _ (by have := hf.2.2.2.1; omega)
          · exact smallSteps_of (by have := hf.2.2.2.1; omega) hfew
          all_goals
            have := congrArg List.length (givenPoints_eq out 0 (by have := hf.2.2.2.1; omega))
            rw [List.length_map, List.length_map] at this
          · rw [this]; exact givenFrom_pos hx 0
          · have := hfew.1; omega
        · obtain ⟨ps', rfl⟩ := all_given_full hp hn
          rw [← fullDeltas_asDeltas, fullDeltas_eq, iupDelta_full] at c2
          rw [iupDelta_full] at c3
          injection c2 with c2
          injection c3 with c3
          rw [c3, ← c2, ← fullDeltas_eq]
          exact ⟨b1, e1⟩
      rw [e1, e2]
      exact ⟨_, rfl⟩

/-- The outlines known are those of all glyphs, and they fit. -/
def OutlinesFit (glyf : Option (List Glyph)) (ce : List (List Pt × List Nat)) (g : Gvar) : Prop :=
  (∀ l, glyf = some l → g.length ≤ l.length) ∧
  ∀ i ds gl c, g[i]? = some (some ds) → outlineOf glyf i = some gl → ce[i]? = some c → ∀ d ∈ ds, OutlineFits gl c d

theorem glyphData_total {axes : UInt16} {glyph : Option Glyph} {ce : List Pt × List Nat} {ds : List DeltaSet}
    (hf : GlyphFits axes.toNat glyph ce ds) {shared : List Bytes} (hsh : shared.length ≤ 4096)
    (hmem : ∀ d ∈ ds, ∀ b, peakBytes d = .ok b → b ∈ shared) (ho : ∀ gl, glyph = some gl → ∀ d ∈ ds, OutlineFits gl ce d) :
    ∃ b, glyphData shared glyph ds = .ok b := by
  obtain ⟨f1, f2, f3, f4, f5⟩ := hf
  unfold glyphData
  obtain ⟨vs, e, F⟩ := mapL_ok (f := toTupleVariation shared glyph) ds (fun d v => ∃ i, i < 4096 ∧ v.header = tupleHeader d (some i) ∧
      VariationFits axes.toNat true ce.1.length v) (by
    intro d hd
    have hax : 4 + 4 * axes.toNat ≤ 65531 := by
      have : 1 ≤ ds.length := List.length_pos_of_mem hd
      have := Nat.mul_le_mul_right (4 + 4 * axes.toNat) this
      omega
    obtain ⟨v, hv⟩ := toTuple_total hax f1 hsh (f5 d hd) (fun gl hg => ⟨f2 gl hg, ho gl hg d hd⟩) (hmem d hd)
    obtain ⟨i, pb, a1, a2, a3, a4⟩ := toTuple_inv (f5 d hd) f2 (hmem d hd) hv
    have hlt : i < shared.length := by
      by_contra hc
      rw [List.getElem?_eq_none (by omega)] at a2
      simp at a2
    exact ⟨v, hv, i, by omega, a3, variation_fits (f5 d hd) f1 (by omega) a3 a4⟩)
  rw [e]
  simp only [Res.ok_bind]
  have hl := F.length_eq
  have hle : (vs.filter hasEffect).length ≤ vs.length := List.length_filter_le _ _
  have hall : ∀ v ∈ vs, headerSize axes.toNat v.header ≤ 4 + 4 * axes.toNat ∧ VariationFits axes.toNat true ce.1.length v := by
    clear e hl hle f3 f4 f5 hmem ho
    induction F with
    | nil => simp
    | @cons d v l r h1 _ ih =>
      intro w hw
      rcases List.mem_cons.1 hw with rfl | hw
      · obtain ⟨i, _, h2, h3⟩ := h1
        rw [h2]
        exact ⟨tupleHeader_size _ _ _, h3⟩
      · exact ih w hw
  obtain ⟨bs, _, _, _, _, _, e2, _⟩ := C40_writes axes.toNat true ce.1.length (vs.filter hasEffect) f1 (by omega)
    (fun v hv => (hall v (List.mem_of_mem_filter hv)).2) (by
      have : ∀ l : List Variation, (∀ v ∈ l, headerSize axes.toNat v.header ≤ 4 + 4 * axes.toNat) →
          (l.map (fun v => headerSize axes.toNat v.header)).sum ≤ l.length * (4 + 4 * axes.toNat) := by
        intro l
        induction l with
        | nil => simp
        | cons v l ih =>
          intro h
          have h1 := h v (by simp)
          have h2 := ih (fun v hv => h v (by simp [hv]))
          simp only [List.map_cons, List.sum_cons, List.length_cons]
          rw [Nat.succ_mul]
          omega
      have h1 := this (vs.filter hasEffect) (fun v hv => (hall v (List.mem_of_mem_filter hv)).1)
      have h2 : (vs.filter hasEffect).length ≤ ds.length := by omega
      have h3 := Nat.mul_le_mul_right (4 + 4 * axes.toNat) h2
      omega)
  rw [e2]
  exact ⟨bs, rfl⟩

theorem glyphLoop_total {axes : UInt16} {shared : List Bytes} (hsh : shared.length ≤ 4096) {glyf : Option (List Glyph)}
    {ce : List (List Pt × List Nat)} : ∀ (l : Gvar) (ix : Nat) (offs : List Nat) (tvs : Bytes),
    (∀ i ds, l[i]? = some (some ds) → ∃ c, ce[ix + i]? = some c ∧ GlyphFits axes.toNat (outlineOf glyf (ix + i)) c ds ∧
      (∀ gl, outlineOf glyf (ix + i) = some gl → ∀ d ∈ ds, OutlineFits gl c d)) →
    (∀ gs, glyf = some gs → ix + l.length ≤ gs.length) →
    (∀ ds, some ds ∈ l → ∀ d ∈ ds, ∀ b, peakBytes d = .ok b → b ∈ shared) →
    ∃ r, glyphLoop shared glyf ix l offs tvs = .ok r
  | [], ix, offs, tvs, _, _, _ => ⟨_, rfl⟩
  | none :: l, ix, offs, tvs, h1, h2, h3 => by
    rw [glyphLoop]
    exact glyphLoop_total hsh l (ix + 1) _ _ (fun i ds hi => by
      rw [show ix + 1 + i = ix + (i + 1) by omega]
      exact h1 (i + 1) ds (by simpa using hi)) (fun gs hg => by have := h2 gs hg; rw [List.length_cons] at this; omega)
      (fun ds hd => h3 ds (by simp [hd]))
  | some ds :: l, ix, offs, tvs, h1, h2, h3 => by
    rw [glyphLoop]
    obtain ⟨c, g1, g2, g3⟩ := h1 0 ds rfl
    rw [Nat.add_zero] at g1 g2 g3
    have hat : outlineAt glyf ix = .ok (outlineOf glyf ix) := by
      unfold outlineAt outlineOf
      cases glyf with
      | none => rfl
      | some gs =>
        have := h2 gs rfl
        rw [List.length_cons] at this
        simp [List.getElem?_eq_getElem (show ix < gs.length by omega)]
    obtain ⟨b, hb⟩ := glyphData_total g2 hsh (h3 ds (by simp)) g3
    rw [hat]
    simp only [Res.ok_bind, hb]
    exact glyphLoop_total hsh l (ix + 1) _ _ (fun i ds hi => by
      rw [show ix + 1 + i = ix + (i + 1) by omega]
      exact h1 (i + 1) ds (by simpa using hi)) (fun gs hg => by have := h2 gs hg; rw [List.length_cons] at this; omega)
      (fun ds hd => h3 ds (by simp [hd]))

/-- Peaks in some order of falling frequency. -/
theorem mostCommon_exists (keys : List Bytes) : ∃ shared, MostCommon keys shared := by
  refine ⟨keys.dedup.mergeSort (fun a b => decide (keys.count b ≤ keys.count a)), ?_, ?_, ?_⟩
  · exact (List.mergeSort_perm _ _).nodup_iff.2 (List.nodup_dedup _)
  · intro b
    rw [(List.mergeSort_perm _ _).mem_iff, List.mem_dedup]
  · have := List.pairwise_mergeSort (le := fun a b => decide (keys.count b ≤ keys.count a)) (by
      intro a b c h1 h2
      simp only [decide_eq_true_eq] at *
      omega) (by
      intro a b
      simp only [Bool.or_eq_true, decide_eq_true_eq]
      omega) keys.dedup
    exact this.imp (fun h => by simpa using h)

/-- **C53** (writing). A table which fits, with at least one deltaset, is written, whatever order the frequent peaks are put in. -/
theorem C53_writes (axes : Nat) (ha : axes ≤ 65535) (glyf : Option (List Glyph)) (ce : List (List Pt × List Nat)) (g : Gvar)
    (hf : GvarFits axes glyf ce g) (ho : OutlinesFit glyf ce g) (hn : g.length ≤ 65534) (hp : (peaksOf g).length ≤ 4096)
    (hne : allSets g ≠ []) :
    ∃ keys, Res.mapL peakBytes (allSets g) = .ok keys ∧ (∃ shared, MostCommon keys shared) ∧
      ∀ shared, MostCommon keys shared → ∃ bs, encGvar shared glyf g = .ok bs := by
  have hgrid : ∀ d ∈ allSets g, GridTuple axes d.peak := fun d hd => setFits_of_mem hf hd
  obtain ⟨keys, hk, _⟩ := mapL_ok (f := peakBytes) (allSets g) (fun _ _ => True) (by
    intro d hd
    obtain ⟨ps, _, e⟩ := gridTuple_fixed (hgrid d hd)
    exact ⟨_, peakBytes_fixed e, trivial⟩)
  refine ⟨keys, hk, mostCommon_exists keys, ?_⟩
  intro shared hm
  obtain ⟨s1, s2⟩ := shared_tuples hgrid hk hm
  obtain ⟨_, _, _, t4, _⟩ := concat_shared s1
  unfold encGvar
  rw [hk]
  simp only [Res.ok_bind]
  have hsne : shared.isEmpty = false := by
    rw [List.isEmpty_eq_false_iff]
    intro h0
    obtain ⟨d, hd⟩ := List.exists_mem_of_ne_nil _ hne
    obtain ⟨ps, _, e⟩ := gridTuple_fixed (hgrid d hd)
    have := (hm.2.1 _).2 ((peak_keys hk).2 d hd _ (peakBytes_fixed e))
    rw [h0] at this
    simp at this
  rw [hsne]
  simp only [Bool.false_eq_true, if_false]
  have hax : (UInt16.ofNat axes).toNat = axes := ofNat16_toNat ha
  obtain ⟨r, hr⟩ := glyphLoop_total (axes := UInt16.ofNat axes) (ce := ce) (show shared.length ≤ 4096 by omega) (glyf := glyf) g 0 [] []
    (by
      intro i ds hi
      rw [Nat.zero_add, hax]
      obtain ⟨c, h1, h2⟩ := hf i ds hi
      exact ⟨c, h1, h2, fun gl hg => ho.2 i ds gl c hi hg h1⟩)
    (fun gs hg => by have := ho.1 gs hg; omega)
    (by
      intro ds hds d hd b hb
      exact (hm.2.1 b).2 ((peak_keys hk).2 d (mem_allSets.2 ⟨ds, hds, hd⟩) b hb))
  rw [hr]
  simp only [Res.ok_bind]
  obtain ⟨cs, c1, c2, c3⟩ := glyphLoop_inv g 0 [] [] r hr rfl
  simp only [List.nil_append, List.length_nil] at c2
  rw [if_neg]
  · exact ⟨_, rfl⟩
  · rw [c2, encVec_const_length (k := 4) (fun _ => rfl), offsetsOf_length, chunks_length c1, t4]
    have h1 := Nat.mod_le ((g.length + 1) * 4) 4294967296
    have h2 := Nat.mod_le (2 * axes * shared.length) 4294967296
    have h3 : 2 * axes * shared.length ≤ 2 * 65535 * 4096 := Nat.mul_le_mul (by omega) (by omega)
    omega

end FT.Props
