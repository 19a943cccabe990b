import Verif.Props.InstancerFont
import Verif.Props.GsubTable

/-!
# C63: axes and named instances of an instance
-/

namespace FT.Props
open FT FT.F32 FT.Var FT.AxisMaps FT.Instancer

/-! ### Specification -/

/-- A 16.16 number. -/
def On16 (x : ℚ) : Prop := ∃ n : ℤ, x = n / 65536

/-- The axis is not pinned. -/
def isFree (limits : UserLimits) (t : Tag) : Bool := match BMap.get? limits t with
  | some (.full _) => false
  | _ => true

/-- The axis with the new range, if it has one. -/
def limited (limits : UserLimits) (a : AxisRecord) : AxisRecord := match BMap.get? limits a.axisTag with
  | some (.range lo hi) => { a with minValue := lo, maxValue := hi }
  | _ => a

/-- A coordinate which the limits allow. -/
def allowed (limits : UserLimits) (t : Tag) (c : ℚ) : Bool := match BMap.get? limits t with
  | some (.full v) => decide (c = v)
  | some (.range lo hi) => decide (lo ≤ c) && decide (c ≤ hi)
  | _ => true

/-- A named instance within the limits. -/
def within (limits : UserLimits) (axes : List AxisRecord) (i : Instance) : Bool :=
  (axes.zip i.coordinates).all fun x => allowed limits x.1.axisTag x.2

/-- A named instance without its coordinates on the pinned axes. -/
def restricted (limits : UserLimits) (axes : List AxisRecord) (i : Instance) : Instance :=
  { i with coordinates := ((axes.zip i.coordinates).filter fun x => isFree limits x.1.axisTag).map Prod.snd }

/-! ### Limits -/

theorem full_sorted {limits : UserLimits} (hs : BMap.Sorted limits) : BMap.Sorted limits.full := by
  unfold BMap.Sorted UserLimits.full
  rw [List.pairwise_filterMap]
  refine hs.imp fun {a b} hab c hc d hd => ?_
  obtain ⟨t1, u1⟩ := a
  obtain ⟨t2, u2⟩ := b
  cases u1 <;> simp at hc
  cases u2 <;> simp at hd
  subst hc hd
  exact hab

theorem ranges_sorted {limits : UserLimits} (hs : BMap.Sorted limits) : BMap.Sorted limits.ranges := by
  unfold BMap.Sorted UserLimits.ranges
  rw [List.pairwise_filterMap]
  refine hs.imp fun {a b} hab c hc d hd => ?_
  obtain ⟨t1, u1⟩ := a
  obtain ⟨t2, u2⟩ := b
  cases u1 <;> simp at hc
  cases u2 <;> simp at hd
  subst hc hd
  exact hab

theorem full_get {limits : UserLimits} (hs : BMap.Sorted limits) (t : Tag) (v : ℚ) :
    BMap.get? limits.full t = some v ↔ BMap.get? limits t = some (.full v) := by
  rw [BMap.get?_eq_some (full_sorted hs), BMap.get?_eq_some hs]
  unfold UserLimits.full
  rw [List.mem_filterMap]
  constructor
  · rintro ⟨⟨t', u⟩, hx, e⟩
    cases u <;> simp at e
    obtain ⟨rfl, rfl⟩ := e
    exact hx
  · intro h
    exact ⟨_, h, rfl⟩

theorem ranges_get {limits : UserLimits} (hs : BMap.Sorted limits) (t : Tag) (r : ℚ × ℚ) :
    BMap.get? limits.ranges t = some r ↔ BMap.get? limits t = some (.range r.1 r.2) := by
  rw [BMap.get?_eq_some (ranges_sorted hs), BMap.get?_eq_some hs]
  unfold UserLimits.ranges
  rw [List.mem_filterMap]
  constructor
  · rintro ⟨⟨t', u⟩, hx, e⟩
    cases u <;> simp at e
    obtain ⟨rfl, rfl⟩ := e
    exact hx
  · intro h
    exact ⟨_, h, rfl⟩

theorem full_isSome {limits : UserLimits} (hs : BMap.Sorted limits) (t : Tag) :
    (BMap.get? limits.full t).isSome = !isFree limits t := by
  unfold isFree
  cases e : BMap.get? limits t with
  | none =>
    cases e2 : BMap.get? limits.full t with
    | none => rfl
    | some v => rw [full_get hs, e] at e2; cases e2
  | some u =>
    cases u with
    | full v => rw [(full_get hs t v).2 e]; rfl
    | range a b =>
      cases e2 : BMap.get? limits.full t with
      | none => rfl
      | some v => rw [full_get hs, e] at e2; cases e2
    | drop =>
      cases e2 : BMap.get? limits.full t with
      | none => rfl
      | some v => rw [full_get hs, e] at e2; cases e2

theorem newAxes_eq {limits : UserLimits} (hs : BMap.Sorted limits) (axes : List AxisRecord) :
    newAxes limits.full limits.ranges axes = (axes.filter fun a => isFree limits a.axisTag).map (limited limits) := by
  unfold newAxes
  simp only [full_isSome hs, Bool.not_not]
  refine List.map_congr_left fun a _ => ?_
  unfold limited
  cases e : BMap.get? limits.ranges a.axisTag with
  | some r => rw [(ranges_get hs _ r).1 e]
  | none =>
    cases e2 : BMap.get? limits a.axisTag with
    | none => rfl
    | some u =>
      cases u with
      | range lo hi => rw [(ranges_get hs _ (lo, hi)).2 e2] at e; cases e
      | full => rfl
      | drop => rfl

theorem limited_tag (limits : UserLimits) (a : AxisRecord) : (limited limits a).axisTag = a.axisTag := by
  unfold limited
  split <;> rfl

/-! ### Instances -/

theorem pin_exact {c v : ℚ} (hc : On16 c) (hv : On16 v) : |rne (c - v)| > eps ↔ c ≠ v := by
  obtain ⟨m, rfl⟩ := hc
  obtain ⟨n, rfl⟩ := hv
  have key : ∀ z : ℤ, 1 ≤ z → eps < rne ((z : ℚ) / 65536) := by
    intro z hz
    have h1 := rne_exact 1 (-16) (by norm_num) (by norm_num)
    have e : ((1 : ℤ) : ℚ) * 2 ^ (-16 : ℤ) = 1 / 65536 := by norm_num
    rw [e] at h1
    have h2 : (1 : ℚ) ≤ z := by exact_mod_cast hz
    have h3 := rne_mono (show (1 : ℚ) / 65536 ≤ z / 65536 from div_le_div_of_nonneg_right h2 (by norm_num))
    rw [h1] at h3
    refine lt_of_lt_of_le ?_ h3
    norm_num [eps]
  have e : (m : ℚ) / 65536 - n / 65536 = ((m - n : ℤ) : ℚ) / 65536 := by push_cast; ring
  rw [e]
  constructor
  · rintro h heq
    have : ((m - n : ℤ) : ℚ) / 65536 = 0 := by rw [← e, heq, sub_self]
    rw [this, rne_zero, abs_zero] at h
    norm_num [eps] at h
  · intro hne
    have hmn : m ≠ n := fun h => hne (by rw [h])
    rcases lt_or_gt_of_ne hmn with h | h
    · have := key (n - m) (by omega)
      have e2 : ((m - n : ℤ) : ℚ) / 65536 = -(((n - m : ℤ) : ℚ) / 65536) := by push_cast; ring
      rw [e2, rne_neg, abs_neg]
      exact lt_of_lt_of_le this (le_abs_self _)
    · exact lt_of_lt_of_le (key (m - n) (by omega)) (le_abs_self _)

theorem filter_sorted {α : Type} {l : List (Tag × α)} (hs : BMap.Sorted l) (q : Tag × α → Bool) : BMap.Sorted (l.filter q) :=
  List.Pairwise.filter q hs

theorem matchPins_ok {rd : ℚ → ℚ} : ∀ (loc l : Loc), BMap.Sorted l → (loc.map Prod.fst).Nodup →
    (∀ x ∈ loc, ∃ c, BMap.get? l x.1 = some c ∧ ¬ |rd (c - x.2)| > eps) →
    matchPins rd loc l = .ok (some (l.filter fun y => decide (y.1 ∉ loc.map Prod.fst)))
  | [], l, _, _, _ => by simp [matchPins]
  | (t, v) :: loc, l, hs, hn, h => by
    simp only [List.map_cons, List.nodup_cons] at hn
    obtain ⟨c, hc, hm⟩ := h (t, v) List.mem_cons_self
    have ih := matchPins_ok (rd := rd) loc (l.filter fun y => decide (y.1 ≠ t)) (filter_sorted hs _) hn.2 (fun x hx => by
      obtain ⟨c, hc, hm⟩ := h x (List.mem_cons_of_mem _ hx)
      refine ⟨c, ?_, hm⟩
      rw [BMap.get?_eq_some (filter_sorted hs _), List.mem_filter]
      refine ⟨(BMap.get?_eq_some hs).1 hc, ?_⟩
      have : x.1 ≠ t := fun e => hn.1 (e ▸ List.mem_map_of_mem hx)
      simpa using this)
    simp only at hc hm
    simp only [matchPins, hc, Res.unwrap, Res.ok_bind, if_neg hm, ih, List.filter_filter]
    congr 2
    refine List.filter_congr fun y _ => ?_
    simp only [List.map_cons, List.mem_cons, not_or, ← Bool.decide_and, and_comm]

theorem matchPins_none {rd : ℚ → ℚ} : ∀ (loc l : Loc), BMap.Sorted l → (loc.map Prod.fst).Nodup →
    (∀ x ∈ loc, ∃ c, BMap.get? l x.1 = some c) → (∃ x ∈ loc, ∃ c, BMap.get? l x.1 = some c ∧ |rd (c - x.2)| > eps) →
    matchPins rd loc l = .ok none
  | [], l, _, _, _, h => by simp at h
  | (t, v) :: loc, l, hs, hn, hin, h => by
    simp only [List.map_cons, List.nodup_cons] at hn
    obtain ⟨c, hc⟩ := hin (t, v) List.mem_cons_self
    simp only at hc
    by_cases hm : |rd (c - v)| > eps
    · simp only [matchPins, hc, Res.unwrap, Res.ok_bind, if_pos hm, Res.pure_eq]
    · have keep : ∀ x ∈ loc, ∀ c, BMap.get? l x.1 = some c → BMap.get? (l.filter fun y => decide (y.1 ≠ t)) x.1 = some c := by
        intro x hx c hc
        rw [BMap.get?_eq_some (filter_sorted hs _), List.mem_filter]
        refine ⟨(BMap.get?_eq_some hs).1 hc, ?_⟩
        have : x.1 ≠ t := fun e => hn.1 (e ▸ List.mem_map_of_mem hx)
        simpa using this
      have ih := matchPins_none (rd := rd) loc (l.filter fun y => decide (y.1 ≠ t)) (filter_sorted hs _) hn.2 (fun x hx => by
        obtain ⟨c, hc⟩ := hin x (List.mem_cons_of_mem _ hx)
        exact ⟨c, keep x hx c hc⟩) (by
        obtain ⟨x, hx, c', hc', hm'⟩ := h
        rcases List.mem_cons.1 hx with rfl | hx
        · simp only at hc' hm'
          rw [hc] at hc'
          cases hc'
          exact absurd hm' hm
        · exact ⟨x, hx, c', keep x hx c' hc', hm'⟩)
      simp only [matchPins, hc, Res.unwrap, Res.ok_bind, if_neg hm, ih]

theorem zip_filter_fst {α β : Type} (q : α → Bool) : ∀ (l : List α) (m : List β), m.length = l.length →
    ((l.zip m).filter fun x => q x.1).map Prod.fst = l.filter q
  | [], _, _ => by simp
  | _ :: _, [], h => by simp at h
  | a :: l, b :: m, h => by
    have ih := zip_filter_fst q l m (by simpa using h)
    rw [List.zip_cons_cons, List.filter_cons, List.filter_cons]
    cases e : q a
    · simpa using ih
    · simp [ih]

/-- One named instance. -/
theorem newInstance_eq {limits : UserLimits} (hs : BMap.Sorted limits) {axes : List AxisRecord}
    (hn : (axes.map AxisRecord.axisTag).Nodup) (hin : ∀ x ∈ limits, x.1 ∈ axes.map AxisRecord.axisTag)
    (hl : ∀ x ∈ limits, ∀ v, x.2 = .full v → On16 v) {i : Instance} (hi : i.coordinates.length = axes.length)
    (hc : ∀ c ∈ i.coordinates, On16 c) :
    newInstance rne axes (newAxes limits.full limits.ranges axes) limits.full limits.ranges i =
      .ok (if within limits axes i then some (restricted limits axes i) else none) := by
  have hzn : (((axes.map AxisRecord.axisTag).zip i.coordinates).map Prod.fst).Nodup := hn.sublist (zip_fst_sublist _ _)
  have hzip : (axes.map AxisRecord.axisTag).zip i.coordinates = (axes.zip i.coordinates).map fun x => (x.1.axisTag, x.2) := by
    rw [List.zip_map_left]; rfl
  have hsl := BMap.collect_sorted ((axes.map AxisRecord.axisTag).zip i.coordinates)
  -- every axis has a coordinate
  have hcoord : ∀ t ∈ axes.map AxisRecord.axisTag, ∃ c ∈ i.coordinates,
      BMap.get? (BMap.collect ((axes.map AxisRecord.axisTag).zip i.coordinates)) t = some c := by
    intro t ht
    obtain ⟨j, hj⟩ := List.mem_iff_getElem?.1 ht
    have hlt := (List.getElem?_eq_some_iff.1 hj).1
    rw [List.length_map] at hlt
    have hcj : i.coordinates[j]? = some (i.coordinates[j]'(by omega)) := List.getElem?_eq_getElem _
    refine ⟨_, List.mem_of_getElem? hcj, ?_⟩
    rw [get?_collect hzn]
    exact List.mem_of_getElem? (i := j) (by rw [List.getElem?_zip_eq_some]; exact ⟨hj, hcj⟩)
  have hpin : ∀ x ∈ limits.full, ∃ c ∈ i.coordinates,
      BMap.get? (BMap.collect ((axes.map AxisRecord.axisTag).zip i.coordinates)) x.1 = some c := by
    intro x hx
    have h1 := (full_get hs x.1 x.2).1 ((BMap.get?_eq_some (full_sorted hs)).2 hx)
    exact hcoord x.1 (hin _ ((BMap.get?_eq_some hs).1 h1))
  have h16 : ∀ x ∈ limits.full, On16 x.2 := by
    intro x hx
    have h1 := (full_get hs x.1 x.2).1 ((BMap.get?_eq_some (full_sorted hs)).2 hx)
    exact hl _ ((BMap.get?_eq_some hs).1 h1) _ rfl
  have hmem : ∀ x : AxisRecord × ℚ, x ∈ axes.zip i.coordinates →
      BMap.get? (BMap.collect ((axes.map AxisRecord.axisTag).zip i.coordinates)) x.1.axisTag = some x.2 := by
    intro x hx
    rw [get?_collect hzn, hzip]
    exact List.mem_map.2 ⟨x, hx, rfl⟩
  unfold newInstance
  by_cases hm : ∀ x ∈ limits.full, ∃ c, BMap.get? (BMap.collect ((axes.map AxisRecord.axisTag).zip i.coordinates)) x.1 = some c ∧
      ¬ |rne (c - x.2)| > eps
  · rw [matchPins_ok _ _ hsl (sorted_keys_nodup (full_sorted hs)) hm, Res.ok_bind]
    simp only
    set l := (BMap.collect ((axes.map AxisRecord.axisTag).zip i.coordinates)).filter
      (fun y => decide (y.1 ∉ limits.full.map Prod.fst)) with hldef
    have hfree : ∀ t, (t ∉ limits.full.map Prod.fst) ↔ isFree limits t = true := by
      intro t
      have := full_isSome hs t
      constructor
      · intro h
        cases e : isFree limits t with
        | true => rfl
        | false =>
          rw [e] at this
          obtain ⟨v, hv⟩ := Option.isSome_iff_exists.1 this
          exact absurd (List.mem_map.2 ⟨(t, v), (BMap.get?_eq_some (full_sorted hs)).1 hv, rfl⟩) h
      · intro h hk
        obtain ⟨x, hx, rfl⟩ := List.mem_map.1 hk
        rw [h, (BMap.get?_eq_some (full_sorted hs) (v := x.2)).2 hx] at this
        simp at this
    have hlmem : ∀ x : AxisRecord × ℚ, x ∈ axes.zip i.coordinates → isFree limits x.1.axisTag = true →
        BMap.get? l x.1.axisTag = some x.2 := by
      intro x hx hf
      rw [hldef, BMap.get?_eq_some (filter_sorted hsl _), List.mem_filter]
      exact ⟨(BMap.get?_eq_some hsl).1 (hmem x hx), by simpa using (hfree _).2 hf⟩
    have hwr : withinRanges l limits.ranges = within limits axes i := by
      rw [Bool.eq_iff_iff]
      unfold withinRanges within
      rw [List.all_eq_true, List.all_eq_true]
      constructor
      · intro h x hx
        unfold allowed
        cases e : BMap.get? limits x.1.axisTag with
        | none => rfl
        | some u =>
          cases u with
          | drop => rfl
          | full v =>
            simp only [decide_eq_true_eq]
            have hv := (full_get hs x.1.axisTag v).2 e
            have hvm := (BMap.get?_eq_some (full_sorted hs)).1 hv
            obtain ⟨c, hc1, hc2⟩ := hm _ hvm
            simp only at hc1 hc2
            rw [hmem x hx] at hc1
            cases hc1
            by_contra hne
            exact hc2 ((pin_exact (hc _ (List.of_mem_zip hx).2) (h16 _ hvm)).2 hne)
          | range lo hi =>
            have hf : isFree limits x.1.axisTag = true := by unfold isFree; rw [e]
            have := h (x.1.axisTag, x.2) ((BMap.get?_eq_some (filter_sorted hsl _)).1 (hlmem x hx hf))
            simp only [(ranges_get hs x.1.axisTag (lo, hi)).2 e] at this
            simpa using this
      · intro h y hy
        cases e : BMap.get? limits.ranges y.1 with
        | none => rfl
        | some r =>
          simp only
          have hy' := (List.mem_filter.1 hy).1
          rw [mem_collect hzn, hzip] at hy'
          obtain ⟨x, hx, rfl⟩ := List.mem_map.1 hy'
          have := h x hx
          unfold allowed at this
          rw [(ranges_get hs _ r).1 e] at this
          simpa using this
    rw [hwr]
    by_cases hw : within limits axes i = true
    · rw [if_pos hw, if_pos hw, newAxes_eq hs]
      have hU : (axes.filter fun a => isFree limits a.axisTag) =
          ((axes.zip i.coordinates).filter fun x => isFree limits x.1.axisTag).map Prod.fst :=
        (zip_filter_fst (fun a => isFree limits a.axisTag) axes i.coordinates hi).symm
      rw [hU, List.map_map, mapL_map_ok (k := Prod.snd) _ (fun x hx => by
        obtain ⟨hx1, hx2⟩ := List.mem_filter.1 hx
        simp only [Function.comp_apply, limited_tag, hlmem x hx1 hx2]
        rfl)]
      rfl
    · rw [if_neg hw, if_neg hw]
      rfl
  · push Not at hm
    obtain ⟨x, hx, hxc⟩ := hm
    obtain ⟨c, hcm, hce⟩ := hpin x hx
    have hgt : |rne (c - x.2)| > eps := hxc c hce
    rw [matchPins_none _ _ hsl (sorted_keys_nodup (full_sorted hs)) (fun y hy => by
      obtain ⟨c, _, e⟩ := hpin y hy; exact ⟨c, e⟩) ⟨x, hx, c, hce, hgt⟩, Res.ok_bind]
    have hw : within limits axes i = false := by
      rw [Bool.eq_false_iff]
      intro hw
      unfold within at hw
      rw [List.all_eq_true] at hw
      have h1 := (get?_collect hzn _ _).1 hce
      rw [hzip] at h1
      obtain ⟨y, hy, ey⟩ := List.mem_map.1 h1
      simp only [Prod.mk.injEq] at ey
      have := hw y hy
      unfold allowed at this
      have hfx := (full_get hs x.1 x.2).1 ((BMap.get?_eq_some (full_sorted hs)).2 hx)
      rw [ey.1, hfx] at this
      simp only [decide_eq_true_eq] at this
      rw [ey.2] at this
      exact (pin_exact (hc _ hcm) (h16 _ hx)).1 hgt this
    rw [hw]
    rfl

/-! ### The table -/

/-- C63: the fvar table is removed exactly if every axis is pinned. -/
theorem C63_removed {limits : UserLimits} (hs : BMap.Sorted limits) (f : Fvar) :
    instantiateFvar rne limits f = .ok none ↔ ∀ a ∈ f.axes, isFree limits a.axisTag = false := by
  unfold instantiateFvar
  constructor
  · intro h
    split_ifs at h with hc
    · rw [List.all_eq_true] at hc
      intro a ha
      have := hc a ha
      rw [full_isSome hs] at this
      simpa using this
    · obtain ⟨_, _, h⟩ := Res.bind_inv h
      cases h
  · intro h
    rw [if_pos]
    rw [List.all_eq_true]
    intro a ha
    rw [full_isSome hs, h a ha]
    rfl

/-- C63: otherwise it keeps the free axes in order, with their new ranges, and exactly the named instances which the limits
allow, in order, each without its coordinates on the pinned axes. -/
theorem C63_instances {limits : UserLimits} (hs : BMap.Sorted limits) {f : Fvar}
    (hn : (f.axes.map AxisRecord.axisTag).Nodup) (hin : ∀ x ∈ limits, x.1 ∈ f.axes.map AxisRecord.axisTag)
    (hl : ∀ x ∈ limits, ∀ v, x.2 = .full v → On16 v)
    (hi : ∀ i ∈ f.instances, i.coordinates.length = f.axes.length ∧ ∀ c ∈ i.coordinates, On16 c)
    (hfree : ∃ a ∈ f.axes, isFree limits a.axisTag = true) :
    instantiateFvar rne limits f = .ok (some
      { axes := (f.axes.filter fun a => isFree limits a.axisTag).map (limited limits)
        instances := (f.instances.filter (within limits f.axes)).map (restricted limits f.axes) }) := by
  unfold instantiateFvar
  rw [if_neg]
  · simp only
    rw [mapL_map (f := newInstance rne f.axes (newAxes limits.full limits.ranges f.axes) limits.full limits.ranges)
      (fun i => if within limits f.axes i then some (restricted limits f.axes i) else none) f.instances (fun i hii =>
        newInstance_eq hs hn hin hl (hi i hii).1 (hi i hii).2)]
    rw [newAxes_eq hs, Res.ok_bind, Res.pure_eq]
    congr 3
    generalize f.instances = l
    clear hi
    induction l with
    | nil => rfl
    | cons i l ih =>
      rw [List.map_cons, List.filterMap_cons]
      by_cases hw : within limits f.axes i = true
      · rw [List.filter_cons_of_pos hw, if_pos hw]
        show _ :: List.filterMap id _ = _ :: _
        rw [ih]
      · rw [List.filter_cons_of_neg hw, if_neg hw]
        show List.filterMap id _ = _
        rw [ih]
  · rw [List.all_eq_true]
    intro h
    obtain ⟨a, ha, hf⟩ := hfree
    have := h a ha
    rw [full_isSome hs, hf] at this
    simp at this

/-! An example: weight pinned to 400, width limited, of three instances the second is kept. -/

def exFvar : Fvar :=
  ⟨[⟨wght, 100, 400, 900, 0, 256⟩, ⟨wdth, 50, 100, 200, 0, 257⟩],
    [⟨258, 0, [700, 100], none⟩, ⟨259, 0, [400, 75], none⟩, ⟨260, 0, [400, 50], none⟩]⟩
def exLimits : UserLimits := [(wdth, .range 75 100), (wght, .full 400)]

theorem on16_int (n : ℤ) : On16 n := ⟨n * 65536, by push_cast; ring⟩

theorem exFvar_on : ∀ i ∈ exFvar.instances, i.coordinates.length = exFvar.axes.length ∧ ∀ c ∈ i.coordinates, On16 c := by
  have o1 := on16_int 700
  have o2 := on16_int 400
  have o3 := on16_int 100
  have o4 := on16_int 75
  have o5 := on16_int 50
  push_cast at o1 o2 o3 o4 o5
  intro i hi
  simp only [exFvar, List.mem_cons, List.not_mem_nil, or_false] at hi
  rcases hi with rfl | rfl | rfl <;> simp [exFvar, o1, o2, o3, o4, o5]

theorem exLimits_on : ∀ x ∈ exLimits, ∀ v, x.2 = .full v → On16 v := by
  have o2 := on16_int 400
  push_cast at o2
  intro x hx v hv
  simp only [exLimits, List.mem_cons, List.not_mem_nil, or_false] at hx
  rcases hx with rfl | rfl
  · cases hv
  · cases hv; exact o2

example : (exFvar.axes.filter fun a => isFree exLimits a.axisTag) = exFvar.axes.drop 1 := by
  have f1 : isFree exLimits wght = false := by decide +kernel
  have f2 : isFree exLimits wdth = true := by decide +kernel
  simp [exFvar, f1, f2]

example : exFvar.instances.filter (within exLimits exFvar.axes) = (exFvar.instances.take 2).drop 1 := by
  have w1 : within exLimits exFvar.axes ⟨258, 0, [700, 100], none⟩ = false := by decide +kernel
  have w2 : within exLimits exFvar.axes ⟨259, 0, [400, 75], none⟩ = true := by decide +kernel
  have w3 : within exLimits exFvar.axes ⟨260, 0, [400, 50], none⟩ = false := by decide +kernel
  show List.filter _ [_, _, _] = [_]
  rw [List.filter_cons_of_neg (by rw [w1]; simp), List.filter_cons_of_pos w2, List.filter_cons_of_neg (by rw [w3]; simp)]
  rfl

example : instantiateFvar rne exLimits exFvar = .ok (some
    { axes := (exFvar.axes.filter fun a => isFree exLimits a.axisTag).map (limited exLimits)
      instances := (exFvar.instances.filter (within exLimits exFvar.axes)).map (restricted exLimits exFvar.axes) }) :=
  C63_instances (by unfold BMap.Sorted; decide +kernel) (by decide +kernel) (by decide +kernel) exLimits_on exFvar_on
    ⟨⟨wdth, 50, 100, 200, 0, 257⟩, by simp [exFvar], by decide +kernel⟩

end FT.Props
