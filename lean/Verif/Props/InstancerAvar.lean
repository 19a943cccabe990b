import Verif.Props.InstancerFvar

/-!
# C64: axis maps of an instance
-/

namespace FT.Props
open FT FT.F32 FT.Var FT.AxisMaps FT.Instancer

theorem get?_mem {κ α : Type} [Key κ] {k : κ} {v : α} : ∀ {m : List (κ × α)}, BMap.get? m k = some v → (k, v) ∈ m
  | [], h => by cases h
  | (k', v') :: m, h => by
    rw [BMap.get?] at h
    split_ifs at h with h1 h2
    · exact List.mem_cons_of_mem _ (get?_mem h)
    · cases h
      have := Key.tri _ _ (by simpa using h1) (by simpa using h2)
      subst this
      exact List.mem_cons_self

/-! ### Normalised ranges -/

theorem round_nonneg {x y : ℚ} (h0 : 0 ≤ x) (h : roundF2dot14 x = .ok y) : 0 ≤ y := by
  unfold roundF2dot14 at h
  cases e : f2dot14AsPacked x with
  | ok p =>
    rw [e] at h
    cases h
    have hp : p = pk x := by
      unfold f2dot14AsPacked at e
      simp only at e
      split_ifs at e
      cases e
      rfl
    have hb : -32768 ≤ p ∧ p ≤ 32767 := by
      unfold f2dot14AsPacked at e
      simp only at e
      split_ifs at e with hb
      cases e
      exact hb
    have c := pk_mono h0
    have c' := pk_grid 0 (by norm_num) (by norm_num)
    norm_num at c'
    rw [c', ← hp] at c
    have := C04_f2dot14_value (Int16.ofInt p)
    rw [int16_ofInt hb.1 hb.2] at this
    rw [this]
    have : (0 : ℚ) ≤ p := by exact_mod_cast c
    positivity
  | err => rw [e] at h; cases h
  | panic => rw [e] at h; cases h

/-- Without avar maps no limit is normalised to a negative number. -/
theorem normLimit_nonneg {v lo d hi y : ℚ} (h : normLimit rne v lo d hi none = .ok y) : 0 ≤ y := by
  unfold normLimit at h
  split_ifs at h with hle
  refine round_nonneg ?_ h
  rw [clampTo_eq hle]
  refine rne_nonneg (div_nonneg (rne_nonneg ?_) (rne_nonneg (by linarith)))
  have := le_max_left lo (min v hi)
  linarith

theorem normLimits_ranges {axes : List AxisRecord} (hn : (axes.map AxisRecord.axisTag).Nodup) {limits : UserLimits}
    (hs : BMap.Sorted limits) {norm : Limits} (h : normLimits rne axes none limits = .ok norm) :
    (∀ x ∈ limits, x.1 ∈ axes.map AxisRecord.axisTag) ∧
    (∀ t lo hi, (t, UserLimit.range lo hi) ∈ limits → ∃ r, BMap.get? norm.ranges t = some r ∧ 0 ≤ r.1 ∧ 0 ≤ r.2) ∧
    ((∀ x ∈ limits, ∀ lo hi, x.2 ≠ .range lo hi) → norm.ranges = []) := by
  unfold normLimits at h
  split_ifs at h with h1
  simp only at h
  split_ifs at h with h2
  have hin : ∀ x ∈ limits, x.1 ∈ axes.map AxisRecord.axisTag := by
    rw [List.all_eq_true] at h1
    intro x hx
    have := h1 x hx
    rw [List.any_eq_true] at this
    obtain ⟨a, ha, e⟩ := this
    exact List.mem_map.2 ⟨a, ha, by simpa using e⟩
  set sel := BMap.collect ((axes.filter fun a => (BMap.get? limits a.axisTag).isSome).map fun a =>
      (a.axisTag, a.minValue, a.defaultValue, a.maxValue)) with hsel
  have hseln : (((axes.filter fun a => (BMap.get? limits a.axisTag).isSome).map fun a =>
      (a.axisTag, a.minValue, a.defaultValue, a.maxValue)).map Prod.fst).Nodup := by
    rw [List.map_map]
    exact hn.sublist (List.filter_sublist.map _)
  have hf := mapL_inv _ _ h
  have one : ∀ x y, normOne rne [] limits x = .ok y → y.1 = x.1 ∧
      ((∃ lo hi r1 r2, BMap.get? limits x.1 = some (.range lo hi) ∧ y.2 = .range r1 r2 ∧ 0 ≤ r1 ∧ 0 ≤ r2) ∨
       (∃ v w, BMap.get? limits x.1 = some (.full v) ∧ y.2 = .full w)) := by
    intro x y hxy
    unfold normOne at hxy
    simp only at hxy
    obtain ⟨u, hu, hxy⟩ := Res.bind_inv hxy
    have hu' : BMap.get? limits x.1 = some u := by
      cases e : BMap.get? limits x.1 with
      | none => rw [e] at hu; cases hu
      | some w => rw [e] at hu; cases hu; rfl
    cases u with
    | drop => cases hxy
    | full v =>
      obtain ⟨w, _, hxy⟩ := Res.bind_inv hxy
      cases hxy
      exact ⟨rfl, .inr ⟨v, w, hu', rfl⟩⟩
    | range lo hi =>
      obtain ⟨r1, e1, hxy⟩ := Res.bind_inv hxy
      obtain ⟨r2, e2, hxy⟩ := Res.bind_inv hxy
      cases hxy
      exact ⟨rfl, .inl ⟨lo, hi, r1, r2, hu', rfl, normLimit_nonneg e1, normLimit_nonneg e2⟩⟩
  have hkeys : norm.map Prod.fst = sel.map Prod.fst := forall2_keys (fun a b hab => (one a b hab).1) hf
  have hns : BMap.Sorted norm := sorted_same_keys hkeys (BMap.collect_sorted _)
  have hrs : BMap.Sorted norm.ranges := by
    unfold BMap.Sorted Limits.ranges
    rw [List.pairwise_filterMap]
    refine hns.imp fun {a b} hab c hc d hd => ?_
    obtain ⟨t1, u1⟩ := a
    obtain ⟨t2, u2⟩ := b
    cases u1 <;> simp at hc
    cases u2 <;> simp at hd
    subst hc hd
    exact hab
  refine ⟨hin, ?_, ?_⟩
  · intro t lo hi ht
    have hg := (BMap.get?_eq_some hs).2 ht
    obtain ⟨a, ha, ea⟩ := List.mem_map.1 (hin _ ht)
    simp only at ea
    have hx : (a.axisTag, a.minValue, a.defaultValue, a.maxValue) ∈ sel := by
      rw [hsel, mem_collect hseln]
      exact List.mem_map.2 ⟨a, List.mem_filter.2 ⟨ha, by rw [ea, hg]; rfl⟩, rfl⟩
    have hk : a.axisTag ∈ norm.map Prod.fst := by rw [hkeys]; exact List.mem_map_of_mem hx
    obtain ⟨y, hy, ey⟩ := List.mem_map.1 hk
    obtain ⟨x, _, hxy⟩ := forall2_mem_left hf y hy
    obtain ⟨e1, hc⟩ := one x y hxy
    rw [← e1, ey, ea, hg] at hc
    rcases hc with ⟨_, _, r1, r2, _, e2, p1, p2⟩ | ⟨v, w, e2, _⟩
    · refine ⟨(r1, r2), ?_, p1, p2⟩
      rw [BMap.get?_eq_some hrs]
      exact List.mem_filterMap.2 ⟨y, hy, by rw [e2]; simp [ey, ea]⟩
    · cases e2
  · intro hno
    rw [List.eq_nil_iff_forall_not_mem]
    intro z hz
    obtain ⟨y, hy, e⟩ := List.mem_filterMap.1 hz
    obtain ⟨x, _, hxy⟩ := forall2_mem_left hf y hy
    obtain ⟨_, hc⟩ := one x y hxy
    rcases hc with ⟨lo, hi, _, _, e2, _⟩ | ⟨v, w, _, e2⟩
    · exact hno _ ((BMap.get?_eq_some hs).1 e2) lo hi rfl
    · rw [e2] at e; cases e

/-! ### Ranges -/

theorem mapL_each {α β : Type} {f : α → Res β} : ∀ {l : List α} {r : List β}, Res.mapL f l = .ok r → ∀ x ∈ l, ∃ y ∈ r, f x = .ok y := by
  intro l r h x hx
  have hf := mapL_inv _ _ h
  clear h
  induction hf with
  | nil => cases hx
  | cons hab _ ih =>
    rcases List.mem_cons.1 hx with rfl | hx
    · exact ⟨_, List.mem_cons_self, hab⟩
    · obtain ⟨y, hy, e⟩ := ih hx
      exact ⟨y, List.mem_cons_of_mem _ hy, e⟩

theorem narrowPoint_nonneg {lo hi mlo mhi : ℚ} (h0 : 0 ≤ lo) (h1 : 0 ≤ hi) {x y : ℚ × ℚ}
    (h : narrowPoint rne lo hi mlo mhi x = .ok (some y)) : 0 ≤ y.1 := by
  unfold narrowPoint at h
  by_cases c1 : x.1 < 0 ∧ (lo = 0 ∨ x.1 < lo) ∨ x.1 > 0 ∧ (hi = 0 ∨ x.1 > hi)
  · rw [if_pos c1] at h; cases h
  rw [if_neg c1] at h
  have hx : 0 ≤ x.1 := by
    by_contra hx
    exact c1 (.inl ⟨not_le.1 hx, .inr (by linarith)⟩)
  split at h
  · cases h
  obtain ⟨a, ha, h⟩ := Res.bind_inv h
  obtain ⟨b, _, h⟩ := Res.bind_inv h
  cases h
  refine round_nonneg ?_ ha
  split_ifs
  · exact rne_nonneg (div_nonneg hx (abs_nonneg _))
  · exact rne_nonneg (div_nonneg hx h1)
  · exact hx

theorem narrow_never {m : List (ℚ × ℚ)} {lo hi : ℚ} (h0 : 0 ≤ lo) (h1 : 0 ≤ hi) (r : List (ℚ × ℚ)) : narrow rne m lo hi ≠ .ok r := by
  intro h
  obtain ⟨a, _, h⟩ := Res.bind_inv h
  obtain ⟨mlo, _, h⟩ := Res.bind_inv h
  obtain ⟨b, _, h⟩ := Res.bind_inv h
  obtain ⟨mhi, _, h⟩ := Res.bind_inv h
  obtain ⟨l, hl, h⟩ := Res.bind_inv h
  have hf := mapL_inv _ _ hl
  unfold segNew at h
  split_ifs at h with hv
  have hpos : ∀ y ∈ l.filterMap id, 0 ≤ y.1 := by
    intro y hy
    obtain ⟨o, ho, e⟩ := List.mem_filterMap.1 hy
    simp only [id] at e
    subst e
    obtain ⟨x, _, hx⟩ := forall2_mem_left hf _ ho
    exact narrowPoint_nonneg h0 h1 hx
  unfold segValid at hv
  simp only [Bool.and_eq_true, beq_iff_eq] at hv
  have hz : (l.filterMap id).countP (isPair rne (-1)) = 0 := by
    rw [List.countP_eq_zero]
    intro y hy hp
    unfold isPair at hp
    simp only [decide_eq_true_eq] at hp
    have h2 := rne_mono (show (1 : ℚ) ≤ y.1 - -1 by have := hpos y hy; linarith)
    rw [rne_one] at h2
    have h3 := lt_of_le_of_lt (le_abs_self _) hp.1
    have : eps < 1 := by norm_num [eps]
    linarith
  omega

/-- C64: a font with an avar table cannot be limited to a range of any axis. -/
theorem C64_range {axes : List AxisRecord} (hn : (axes.map AxisRecord.axisTag).Nodup) {limits : UserLimits}
    (hs : BMap.Sorted limits) {t : Tag} {lo hi : ℚ} (ht : (t, UserLimit.range lo hi) ∈ limits) (maps : List (List (ℚ × ℚ)))
    (r : Option (List (List (ℚ × ℚ)))) : instantiateAvar rne axes limits maps ≠ .ok r := by
  intro h
  unfold instantiateAvar at h
  obtain ⟨norm, hnorm, h⟩ := Res.bind_inv h
  obtain ⟨hin, hr, _⟩ := normLimits_ranges hn hs hnorm
  obtain ⟨rg, hrg, r0, r1⟩ := hr t lo hi ht
  have hfree : isFree limits t = true := by
    unfold isFree
    rw [(BMap.get?_eq_some hs).2 ht]
  obtain ⟨a, ha, ea⟩ := List.mem_map.1 (hin _ ht)
  simp only at ea
  simp only [full_isSome hs, Bool.not_not] at h
  rw [if_neg] at h
  · obtain ⟨new, hnew, h⟩ := Res.bind_inv h
    obtain ⟨l, hl, h⟩ := Res.bind_inv h
    have htm : t ∈ (axes.map AxisRecord.axisTag).filter fun t => isFree limits t :=
      List.mem_filter.2 ⟨hin _ ht, hfree⟩
    obtain ⟨m, _, hm⟩ := mapL_each hl t htm
    have hm : BMap.get? (new.filterMap id) t = some m := by
      cases e : BMap.get? (new.filterMap id) t with
      | none => rw [e] at hm; cases hm
      | some w => rw [e] at hm; cases hm; rfl
    obtain ⟨o, ho, e⟩ := List.mem_filterMap.1 (get?_mem hm)
    simp only [id] at e
    subst e
    obtain ⟨x, _, hx⟩ := forall2_mem_left (mapL_inv _ _ hnew) _ ho
    unfold newSegment at hx
    split_ifs at hx
    · cases e : BMap.get? norm.ranges x.1 with
      | some r' =>
        rw [e] at hx
        simp only at hx
        obtain ⟨m', hm', hx⟩ := Res.bind_inv hx
        cases hx
        rw [hrg] at e
        cases e
        exact narrow_never r0 r1 _ hm'
      | none =>
        rw [e] at hx
        simp only at hx
        cases hx
        rw [hrg] at e
        cases e
    · cases hx
  · rw [List.all_eq_true]
    intro hc
    have := hc a ha
    rw [ea, hfree] at this
    simp at this

/-! ### Pinned axes -/

theorem segs_new {norm : Limits} (hr : norm.ranges = []) (segs : List (Tag × List (ℚ × ℚ))) :
    Res.mapL (newSegment rne norm.ranges) segs = .ok (segs.map fun x => if segValid rne x.2 then some x else none) := by
  refine mapL_map _ segs fun x _ => ?_
  unfold newSegment
  rw [hr]
  by_cases h : segValid rne x.2 = true
  · rw [if_pos h, if_pos h]; rfl
  · rw [if_neg h, if_neg h]

theorem filterMap_valid (segs : List (Tag × List (ℚ × ℚ))) :
    (segs.map fun x => if segValid rne x.2 then some x else none).filterMap id = segs.filter fun x => segValid rne x.2 := by
  rw [List.filterMap_map]
  induction segs with
  | nil => rfl
  | cons x l ih =>
    by_cases h : segValid rne x.2 = true
    · rw [List.filter_cons_of_pos (p := fun x : Tag × List (ℚ × ℚ) => segValid rne x.2) h, List.filterMap_cons]
      simp only [Function.comp_apply, id, h, if_true]
      rw [← ih]; rfl
    · rw [List.filter_cons_of_neg (p := fun x : Tag × List (ℚ × ℚ) => segValid rne x.2) h, List.filterMap_cons]
      simp only [Function.comp_apply, id, h]
      rw [← ih]; rfl

theorem avar_segs {axes : List AxisRecord} (hn : (axes.map AxisRecord.axisTag).Nodup) {limits : UserLimits}
    (maps : List (List (ℚ × ℚ))) {i : ℕ} {a : AxisRecord} (ha : axes[i]? = some a) (hfree : isFree limits a.axisTag = true)
    (m : List (ℚ × ℚ)) :
    BMap.get? (((BMap.collect ((axes.map AxisRecord.axisTag).zip maps)).filter fun x => isFree limits x.1).filter
      fun x => segValid rne x.2) a.axisTag = some m ↔ maps[i]? = some m ∧ segValid rne m = true := by
  have hsl := BMap.collect_sorted ((axes.map AxisRecord.axisTag).zip maps)
  rw [BMap.get?_eq_some (filter_sorted (filter_sorted hsl _) _), List.mem_filter, List.mem_filter,
    ← BMap.get?_eq_some hsl, segs_get hn maps ha]
  simp only [hfree, and_true]

/-- C64: if no axis is limited to a range and not all are pinned, and each free axis has a valid map, the avar table keeps the
maps of the free axes as they are, in order. -/
theorem C64_kept {axes : List AxisRecord} (hn : (axes.map AxisRecord.axisTag).Nodup) {limits : UserLimits}
    (hs : BMap.Sorted limits) (hno : ∀ x ∈ limits, ∀ lo hi, x.2 ≠ .range lo hi) {maps : List (List (ℚ × ℚ))}
    (hnorm : ∃ norm, normLimits rne axes none limits = .ok norm)
    (hfree : ∃ a ∈ axes, isFree limits a.axisTag = true)
    (hv : ∀ (i : ℕ) (a : AxisRecord), axes[i]? = some a → isFree limits a.axisTag = true →
      ∃ m, maps[i]? = some m ∧ segValid rne m = true) :
    instantiateAvar rne axes limits maps =
      .ok (some (((axes.zip maps).filter fun x => isFree limits x.1.axisTag).map Prod.snd)) := by
  obtain ⟨norm, hnorm⟩ := hnorm
  have hr := (normLimits_ranges hn hs hnorm).2.2 hno
  unfold instantiateAvar
  rw [hnorm]
  simp only [Res.ok_bind, full_isSome hs, Bool.not_not]
  rw [if_neg]
  · rw [segs_new hr, Res.ok_bind, filterMap_valid]
    have hU : (axes.map AxisRecord.axisTag).filter (fun t => isFree limits t) =
        ((axes.zip maps).filter fun x => isFree limits x.1.axisTag).map fun x => x.1.axisTag := by
      clear hnorm hr hfree hn
      induction axes generalizing maps with
      | nil => rfl
      | cons a axes ih =>
        cases maps with
        | nil =>
          have : ∀ b ∈ a :: axes, isFree limits b.axisTag = false := by
            intro b hb
            cases e : isFree limits b.axisTag with
            | false => rfl
            | true =>
              obtain ⟨i, hi⟩ := List.mem_iff_getElem?.1 hb
              obtain ⟨m, hm, _⟩ := hv i b hi e
              simp at hm
          simp only [List.zip_nil_right, List.filter_nil, List.map_nil]
          rw [List.filter_eq_nil_iff]
          intro t ht
          obtain ⟨b, hb, rfl⟩ := List.mem_map.1 ht
          simp [this b hb]
        | cons m maps =>
          have ih := ih (maps := maps) (fun i b hb hf => hv (i + 1) b hb hf)
          rw [List.map_cons, List.zip_cons_cons, List.filter_cons, List.filter_cons]
          cases e : isFree limits a.axisTag
          · simpa using ih
          · simp [ih]
    rw [hU, mapL_map_ok (k := Prod.snd) _ (fun x hx => by
      obtain ⟨hx1, hx2⟩ := List.mem_filter.1 hx
      obtain ⟨i, hi⟩ := List.mem_iff_getElem?.1 hx1
      rw [List.getElem?_zip_eq_some] at hi
      obtain ⟨m, hm, hmv⟩ := hv i _ hi.1 hx2
      have e : m = x.2 := by rw [hm] at hi; exact Option.some.inj hi.2
      subst e
      rw [(avar_segs hn maps hi.1 hx2 x.2).2 ⟨hm, hmv⟩]
      rfl)]
    rfl
  · rw [List.all_eq_true]
    intro hc
    obtain ⟨a, ha, hf⟩ := hfree
    have := hc a ha
    rw [hf] at this
    simp at this

/-- C64: and it does not return otherwise: a free axis without a map, or with one which is not valid, makes it panic. -/
theorem C64_needs_valid {axes : List AxisRecord} (hn : (axes.map AxisRecord.axisTag).Nodup) {limits : UserLimits}
    (hs : BMap.Sorted limits) {maps : List (List (ℚ × ℚ))} {r : Option (List (List (ℚ × ℚ)))}
    (h : instantiateAvar rne axes limits maps = .ok r) :
    ∀ (i : ℕ) (a : AxisRecord), axes[i]? = some a → isFree limits a.axisTag = true →
      ∃ m, maps[i]? = some m ∧ segValid rne m = true := by
  intro i a ha hf
  have hno : ∀ x ∈ limits, ∀ lo hi, x.2 ≠ .range lo hi := by
    intro x hx lo hi e
    obtain ⟨t, u⟩ := x
    simp only at e
    subst e
    exact C64_range hn hs hx maps r h
  unfold instantiateAvar at h
  obtain ⟨norm, hnorm, h⟩ := Res.bind_inv h
  have hr := (normLimits_ranges hn hs hnorm).2.2 hno
  simp only [full_isSome hs, Bool.not_not] at h
  rw [if_neg] at h
  · rw [segs_new hr, Res.ok_bind, filterMap_valid] at h
    obtain ⟨l, hl, h⟩ := Res.bind_inv h
    have htm : a.axisTag ∈ (axes.map AxisRecord.axisTag).filter fun t => isFree limits t :=
      List.mem_filter.2 ⟨List.mem_map_of_mem (List.mem_of_getElem? ha), hf⟩
    obtain ⟨m, _, hm⟩ := mapL_each hl _ htm
    refine ⟨m, (avar_segs hn maps ha hf m).1 ?_⟩
    revert hm
    generalize BMap.get? _ a.axisTag = o
    intro hm
    cases o with
    | none => cases hm
    | some w => cases hm; rfl
  · rw [List.all_eq_true]
    intro hc
    have := hc a (List.mem_of_getElem? ha)
    rw [hf] at this
    simp at this

/-- C64: with every axis pinned the table is removed. -/
theorem C64_removed {axes : List AxisRecord} {limits : UserLimits} (hs : BMap.Sorted limits)
    (hnorm : ∃ norm, normLimits rne axes none limits = .ok norm) (hall : ∀ a ∈ axes, isFree limits a.axisTag = false)
    (maps : List (List (ℚ × ℚ))) : instantiateAvar rne axes limits maps = .ok none := by
  obtain ⟨norm, hnorm⟩ := hnorm
  unfold instantiateAvar
  rw [hnorm]
  simp only [Res.ok_bind, full_isSome hs]
  rw [if_pos]
  · rfl
  · rw [List.all_eq_true]
    intro a ha
    rw [hall a ha]
    rfl

/-! ### Examples -/

def widthAxis : AxisRecord := ⟨wdth, 50, 100, 200, 0, 257⟩
def plainMap : List (ℚ × ℚ) := [(-1, -1), (0, 0), (1 / 2, 3 / 4), (1, 1)]

theorem plainMap_valid : segValid rne plainMap = true := by
  unfold segValid
  have e2 : ∀ c, OnGrid c → plainMap.countP (isPair rne c) = plainMap.countP (isPair id c) := by
    intro c hc
    apply List.countP_congr
    intro x hx
    have : OnGrid x.1 ∧ OnGrid x.2 := by
      have e3 := grid_of 12288 (by norm_num) (by norm_num)
      norm_num at e3
      simp only [plainMap, List.mem_cons, List.not_mem_nil, or_false] at hx
      rcases hx with rfl | rfl | rfl | rfl
      · exact ⟨grid_neg_one, grid_neg_one⟩
      · exact ⟨grid_zero, grid_zero⟩
      · exact ⟨grid_half, e3⟩
      · exact ⟨grid_one, grid_one⟩
    unfold isPair
    rw [rne_grid_sub this.1 hc, rne_grid_sub this.2 hc]; rfl
  rw [e2 1 grid_one, e2 (-1) grid_neg_one]
  decide +kernel

theorem width_one : normOne rne [] [(wdth, .full 50)] (wdth, 50, 100, 200) = .ok (wdth, .full 0) := by
  unfold normOne
  have : BMap.get? [(wdth, UserLimit.full 50)] wdth = some (.full 50) := BMap.get?_insert_self (m := []) wdth _
  simp only [this, Res.unwrap, Res.ok_bind]
  show (normLimit rne 50 50 100 200 none >>= _) = _
  rw [C49_minimum (by norm_num) (le_refl _)]
  rfl

theorem width_norm : normLimits rne [exAxis, widthAxis] none [(wdth, .full 50)] = .ok [(wdth, .full 0)] := by
  have e2 : (BMap.collect (([exAxis, widthAxis].filter fun a => (BMap.get? [(wdth, UserLimit.full 50)] a.axisTag).isSome).map
    fun a => (a.axisTag, a.minValue, a.defaultValue, a.maxValue))) = [(wdth, 50, 100, 200)] := by decide +kernel
  unfold normLimits
  rw [if_pos (by decide +kernel)]
  simp only
  rw [e2, if_pos (by decide +kernel), mapL_cons', width_one]
  rfl

/-- The hypotheses of `C64_kept` hold: width pinned, weight free. -/
example : instantiateAvar rne [exAxis, widthAxis] [(wdth, .full 50)] [plainMap, []] = .ok (some [plainMap]) := by
  have hs : BMap.Sorted [(wdth, UserLimit.full 50)] := by simp [BMap.Sorted]
  have f1 : isFree [(wdth, .full 50)] exAxis.axisTag = true := by decide +kernel
  have f2 : isFree [(wdth, .full 50)] widthAxis.axisTag = false := by decide +kernel
  have := C64_kept (axes := [exAxis, widthAxis]) (limits := [(wdth, .full 50)]) (maps := [plainMap, []]) (by decide +kernel)
    hs (by simp) ⟨_, width_norm⟩ ⟨exAxis, by simp, f1⟩ ?_
  · rw [this]
    simp [f1, f2]
  · intro i a ha hf
    match i, ha with
    | 0, ha => cases ha; exact ⟨_, rfl, plainMap_valid⟩
    | 1, ha => cases ha; rw [f2] at hf; cases hf
    | i + 2, ha => simp at ha

/-- The hypotheses of `C64_range` hold: weight limited to 400 and above, with a valid map. -/
example (r : Option (List (List (ℚ × ℚ)))) : instantiateAvar rne [exAxis] [(wght, .range 400 900)] [plainMap] ≠ .ok r :=
  C64_range (by simp) (by simp [BMap.Sorted]) List.mem_cons_self _ r

/-- The hypotheses of `C64_removed` hold. -/
example : instantiateAvar rne [widthAxis] [(wdth, .full 50)] [plainMap] = .ok none := by
  refine C64_removed (by simp [BMap.Sorted]) ⟨[(wdth, .full 0)], ?_⟩ ?_ _
  · have e2 : (BMap.collect (([widthAxis].filter fun a => (BMap.get? [(wdth, UserLimit.full 50)] a.axisTag).isSome).map
      fun a => (a.axisTag, a.minValue, a.defaultValue, a.maxValue))) = [(wdth, 50, 100, 200)] := by decide +kernel
    unfold normLimits
    rw [if_pos (by decide +kernel)]
    simp only
    rw [e2, if_pos (by decide +kernel), mapL_cons', width_one]
    rfl
  · intro a ha
    rw [List.mem_singleton.1 ha]
    decide +kernel

end FT.Props
