import Verif.Props.InstancerFvar

/-!
# C72: style attributes of an instance
-/

namespace FT.Props
open FT FT.F32 FT.Var FT.AxisMaps FT.Instancer

/-! ### Specification -/

/-- The coordinates of an axis value: its nominal value on its axis, or its locations. -/
def coords (v : Stat.AxisValue) : List (UInt16 × ℚ) :=
  (match v.axisIndex, v.nominal with
    | some i, some x => [(i, x)]
    | _, _ => []) ++ v.locations.getD []

/-- An axis value with all coordinates within the limits. -/
def inLimits (limits : UserLimits) (axes : List Stat.Axis) (v : Stat.AxisValue) : Bool :=
  (coords v).all fun c => match axes[c.1.toNat]? with
    | some a => allowed limits a.tag c.2
    | none => false

/-- The axis values refer to axes of the table, by 16.16 numbers. -/
structure StatOk (t : Stat.Table) : Prop where
  axis : ∀ v ∈ t.values, v.nominal.isSome → v.axisIndex.isSome
  index : ∀ v ∈ t.values, ∀ c ∈ coords v, c.1.toNat < t.axes.length
  grid : ∀ v ∈ t.values, ∀ c ∈ coords v, On16 c.2

/-! ### Proofs -/

theorem outside_eq {limits : UserLimits} (hs : BMap.Sorted limits) (hl : ∀ x ∈ limits, ∀ v, x.2 = .full v → On16 v) (t : Tag)
    {c : ℚ} (hc : On16 c) : outside rne limits t c = !allowed limits t c := by
  unfold outside allowed
  have hf := full_get hs t
  have hr := ranges_get hs t
  cases e : BMap.get? limits t with
  | none =>
    have e1 : BMap.get? limits.full t = none := by
      cases e' : BMap.get? limits.full t with
      | none => rfl
      | some v => rw [hf, e] at e'; cases e'
    have e2 : BMap.get? limits.ranges t = none := by
      cases e' : BMap.get? limits.ranges t with
      | none => rfl
      | some v => rw [hr, e] at e'; cases e'
    rw [e1, e2]; rfl
  | some u =>
    cases u with
    | drop =>
      have e1 : BMap.get? limits.full t = none := by
        cases e' : BMap.get? limits.full t with
        | none => rfl
        | some v => rw [hf, e] at e'; cases e'
      have e2 : BMap.get? limits.ranges t = none := by
        cases e' : BMap.get? limits.ranges t with
        | none => rfl
        | some v => rw [hr, e] at e'; cases e'
      rw [e1, e2]; rfl
    | full v =>
      have e2 : BMap.get? limits.ranges t = none := by
        cases e' : BMap.get? limits.ranges t with
        | none => rfl
        | some v => rw [hr, e] at e'; cases e'
      rw [(hf v).2 e, e2]
      have := pin_exact hc (hl _ ((BMap.get?_eq_some hs).1 e) v rfl)
      simp only [Bool.or_false, this]
      simp
    | range lo hi =>
      have e1 : BMap.get? limits.full t = none := by
        cases e' : BMap.get? limits.full t with
        | none => rfl
        | some v => rw [hf, e] at e'; cases e'
      rw [e1, (hr (lo, hi)).2 e]
      rw [Bool.eq_iff_iff]
      simp [imp_iff_not_or]

theorem outsideAt_eq {limits : UserLimits} (hs : BMap.Sorted limits) (hl : ∀ x ∈ limits, ∀ v, x.2 = .full v → On16 v)
    {axes : List Stat.Axis} {i : UInt16} {c : ℚ} (hi : i.toNat < axes.length) (hc : On16 c) :
    outsideAt rne limits axes i c = .ok !(match axes[i.toNat]? with
      | some a => allowed limits a.tag c
      | none => false) := by
  unfold outsideAt
  rw [List.getElem?_eq_getElem hi]
  simp only [Res.unwrap, Res.ok_bind, Res.pure_eq, outside_eq hs hl _ hc]

theorem anyOutside_eq {limits : UserLimits} (hs : BMap.Sorted limits) (hl : ∀ x ∈ limits, ∀ v, x.2 = .full v → On16 v)
    {axes : List Stat.Axis} : ∀ {m : List (UInt16 × ℚ)}, (∀ c ∈ m, c.1.toNat < axes.length ∧ On16 c.2) →
    anyOutside rne limits axes m = .ok !(m.all fun c => match axes[c.1.toNat]? with
      | some a => allowed limits a.tag c.2
      | none => false)
  | [], _ => rfl
  | (i, v) :: m, h => by
    obtain ⟨h1, h2⟩ := h (i, v) List.mem_cons_self
    have ih := anyOutside_eq hs hl (m := m) fun c hc => h c (List.mem_cons_of_mem _ hc)
    simp only [anyOutside]
    rw [outsideAt_eq hs hl h1 h2, Res.ok_bind, ih, List.all_cons]
    cases (match axes[i.toNat]? with | some a => allowed limits a.tag v | none => false) <;> simp

theorem keepValues_eq {limits : UserLimits} (hs : BMap.Sorted limits) (hl : ∀ x ∈ limits, ∀ v, x.2 = .full v → On16 v)
    {axes : List Stat.Axis} : ∀ {vs : List Stat.AxisValue}, (∀ v ∈ vs, v.nominal.isSome → v.axisIndex.isSome) →
    (∀ v ∈ vs, ∀ c ∈ coords v, c.1.toNat < axes.length) → (∀ v ∈ vs, ∀ c ∈ coords v, On16 c.2) →
    keepValues rne limits axes vs = .ok (vs.filter (inLimits limits axes))
  | [], _, _, _ => rfl
  | v :: vs, h1, h2, h3 => by
    have ih := keepValues_eq hs hl (axes := axes) (vs := vs) (fun w hw => h1 w (List.mem_cons_of_mem _ hw))
      (fun w hw => h2 w (List.mem_cons_of_mem _ hw)) (fun w hw => h3 w (List.mem_cons_of_mem _ hw))
    have g1 := h1 v List.mem_cons_self
    have g2 := h2 v List.mem_cons_self
    have g3 := h3 v List.mem_cons_self
    have hloc : locationsOutside rne limits axes v = .ok !((v.locations.getD []).all fun c => match axes[c.1.toNat]? with
        | some a => allowed limits a.tag c.2
        | none => false) := by
      unfold locationsOutside
      cases e : v.locations with
      | none => rfl
      | some m =>
        refine anyOutside_eq hs hl fun c hc => ?_
        have : c ∈ coords v := by unfold coords; rw [e]; exact List.mem_append_right _ hc
        exact ⟨g2 c this, g3 c this⟩
    have hnom : nominalOutside rne limits axes v = .ok !((match v.axisIndex, v.nominal with
        | some i, some x => [(i, x)]
        | _, _ => []).all fun c => match axes[c.1.toNat]? with
        | some a => allowed limits a.tag c.2
        | none => false) := by
      unfold nominalOutside
      cases e : v.nominal with
      | none => cases v.axisIndex <;> rfl
      | some x =>
        obtain ⟨i, ei⟩ := Option.isSome_iff_exists.1 (g1 (by rw [e]; rfl))
        have : (i, x) ∈ coords v := by unfold coords; rw [e, ei]; exact List.mem_append_left _ (by simp)
        rw [ei]
        simp only [Res.unwrap, Res.ok_bind]
        rw [outsideAt_eq hs hl (g2 _ this) (g3 _ this)]
        simp
    simp only [keepValues]
    rw [hnom, hloc, ih, Res.ok_bind, List.filter_cons]
    unfold inLimits coords
    rw [List.all_append]
    generalize (List.all (match v.axisIndex, v.nominal with
        | some i, some x => [(i, x)]
        | _, _ => []) _) = a
    generalize ((v.locations.getD []).all _) = b
    cases a <;> cases b <;> simp

/-- C72: exactly the axis values with all coordinates within the limits are kept, in order. -/
theorem C72_stat {limits : UserLimits} (hs : BMap.Sorted limits) (hl : ∀ x ∈ limits, ∀ v, x.2 = .full v → On16 v)
    {t : Stat.Table} (h : StatOk t) :
    instantiateStat rne limits t = .ok { t with values := t.values.filter (inLimits limits t.axes) } := by
  unfold instantiateStat
  split
  · rename_i hc
    have : t.values.filter (inLimits limits t.axes) = t.values := by
      rw [List.filter_eq_self]
      intro v hv
      rw [Bool.or_eq_true] at hc
      rcases hc with hc | hc
      · unfold inLimits
        rw [List.all_eq_true]
        intro c hcc
        have := h.index v hv c hcc
        rw [List.isEmpty_iff.1 hc] at this
        simp at this
      · rw [List.isEmpty_iff.1 hc] at hv; cases hv
    rw [this]
  · rw [keepValues_eq hs hl h.axis h.index h.grid]
    rfl

theorem outsideAt_noErr (rd : ℚ → ℚ) (limits : UserLimits) (axes : List Stat.Axis) (i : UInt16) (v : ℚ) :
    outsideAt rd limits axes i v ≠ .err := by
  unfold outsideAt
  cases axes[i.toNat]? <;> simp [Res.unwrap, bind, Res.bind, pure]

theorem anyOutside_noErr (rd : ℚ → ℚ) (limits : UserLimits) (axes : List Stat.Axis) :
    ∀ m : List (UInt16 × ℚ), anyOutside rd limits axes m ≠ .err
  | [] => by simp [anyOutside]
  | (i, v) :: m => by
    simp only [anyOutside]
    have := outsideAt_noErr rd limits axes i v
    have ih := anyOutside_noErr rd limits axes m
    cases e : outsideAt rd limits axes i v with
    | err => exact absurd e this
    | panic => simp [bind, Res.bind]
    | ok b => cases b <;> simp [bind, Res.bind, pure, ih]

/-- C72: a nominal value without an axis, or on an axis the table does not have, is a panic. -/
theorem C72_bad_axis {rd : ℚ → ℚ} {limits : UserLimits} {t : Stat.Table} (ha : t.axes ≠ [])
    (h : ∃ v ∈ t.values, v.nominal.isSome ∧ ∀ i, v.axisIndex = some i → t.axes.length ≤ i.toNat) :
    instantiateStat rd limits t = .panic := by
  obtain ⟨v, hv, h1, h2⟩ := h
  have hp : nominalOutside rd limits t.axes v = .panic := by
    unfold nominalOutside
    obtain ⟨x, ex⟩ := Option.isSome_iff_exists.1 h1
    rw [ex]
    cases e : v.axisIndex with
    | none => rfl
    | some i =>
      simp only [Res.unwrap, Res.ok_bind]
      unfold outsideAt
      rw [List.getElem?_eq_none (h2 i e)]
      rfl
  have key : ∀ vs : List Stat.AxisValue, v ∈ vs → keepValues rd limits t.axes vs = .panic := by
    intro vs
    induction vs with
    | nil => intro h; cases h
    | cons w vs ih =>
      intro hm
      simp only [keepValues]
      by_cases hw : v = w
      · subst hw; rw [hp]; rfl
      · have ih' := ih (by
          rcases List.mem_cons.1 hm with h | h
          · exact absurd h hw
          · exact h)
        rw [ih']
        have n1 : nominalOutside rd limits t.axes w ≠ .err := by
          unfold nominalOutside
          cases w.nominal with
          | none => simp
          | some x =>
            cases w.axisIndex with
            | none => simp [Res.unwrap, bind, Res.bind]
            | some i => simpa [Res.unwrap, bind, Res.bind] using outsideAt_noErr rd limits t.axes i x
        have n2 : locationsOutside rd limits t.axes w ≠ .err := by
          unfold locationsOutside
          cases w.locations with
          | none => simp
          | some m => exact anyOutside_noErr rd limits t.axes m
        cases e1 : nominalOutside rd limits t.axes w with
        | err => exact absurd e1 n1
        | panic => rfl
        | ok a =>
          rw [Res.ok_bind]
          cases a with
          | true => rfl
          | false =>
            cases e2 : locationsOutside rd limits t.axes w with
            | err => exact absurd e2 n2
            | panic => rfl
            | ok b => rfl
  unfold instantiateStat
  rw [if_neg, key _ hv]
  · rfl
  · rw [Bool.or_eq_true, List.isEmpty_iff, List.isEmpty_iff]
    rintro (h | h)
    · exact ha h
    · rw [h] at hv; cases hv

/-- The limits with the default of the axis where an axis is dropped. -/
structure WithDefaults (axes : List AxisRecord) (limits limits' : UserLimits) : Prop where
  keys : limits'.map Prod.fst = limits.map Prod.fst
  values : ∀ y ∈ limits', ∃ x ∈ limits, y.1 = x.1 ∧
    ((∃ a ∈ axes, a.axisTag = x.1 ∧ x.2 = .drop ∧ y.2 = .full a.defaultValue) ∨ (x.2 ≠ .drop ∧ y.2 = x.2))

/-- C72: what becomes of the STAT table of a font, whenever the instancer returns. -/
theorem C72_font {f f' : VarFont} {limits : UserLimits} (h : instantiate rne limits f = .ok f') (hs : BMap.Sorted limits)
    {fv : Fvar} (hfv : f.fvar = some fv) (hn : (fv.axes.map AxisRecord.axisTag).Nodup)
    (hl : ∀ x ∈ limits, ∀ v, x.2 = .full v → On16 v) (hd : ∀ a ∈ fv.axes, On16 a.defaultValue)
    {t : Stat.Table} (ht : f.stat = some t) (ok : StatOk t) :
    ∃ limits', WithDefaults fv.axes limits limits' ∧
      f'.stat = some { t with values := t.values.filter (inLimits limits' t.axes) } := by
  unfold instantiate at h
  rw [hfv] at h
  simp only [Res.unwrap, Res.ok_bind] at h
  obtain ⟨limits', hp, h⟩ := Res.bind_inv h
  obtain ⟨norm, hnorm, h⟩ := Res.bind_inv h
  obtain ⟨f1, h1, h⟩ := Res.bind_inv h
  obtain ⟨f2, h2, h⟩ := Res.bind_inv h
  obtain ⟨f3, h3, h⟩ := Res.bind_inv h
  obtain ⟨fv', _, hlast⟩ := Res.bind_inv h
  obtain ⟨pk, pv⟩ := populate_spec hn hp
  have hs' : BMap.Sorted limits' := sorted_same_keys pk hs
  have hl' : ∀ x ∈ limits', ∀ v, x.2 = .full v → On16 v := by
    intro y hy v hv
    obtain ⟨x, hx, _, hc⟩ := pv y hy
    rcases hc with ⟨a, ha, _, _, e⟩ | ⟨_, e⟩
    · rw [hv] at e; cases e; exact hd a ha
    · rw [hv] at e; exact hl x hx v e.symm
  have s1 : f1.stat = f.stat := by
    unfold gvarStep at h1
    cases e : f.gvar with
    | none => rw [e] at h1; cases h1; rfl
    | some g =>
      rw [e] at h1
      simp only at h1
      obtain ⟨_, _, h1⟩ := Res.bind_inv h1
      obtain ⟨_, _, h1⟩ := Res.bind_inv h1
      cases h1; rfl
  have s2 : f2.stat = f1.stat := by
    unfold avarStep at h2
    cases e : f1.avar with
    | none => rw [e] at h2; cases h2; rfl
    | some g =>
      rw [e] at h2
      simp only at h2
      obtain ⟨_, _, h2⟩ := Res.bind_inv h2
      cases h2; rfl
  have s3 : f3.stat = some { t with values := t.values.filter (inLimits limits' t.axes) } := by
    unfold statStep at h3
    rw [s2, s1, ht] at h3
    simp only [C72_stat hs' hl' ok, Res.ok_bind] at h3
    cases h3; rfl
  refine ⟨limits', ⟨pk, pv⟩, ?_⟩
  split at hlast
  · cases hlast
  · cases hlast; exact s3

/-! ### Instances -/

/-- A table with a weight and a width axis, four values. -/
def exStat : Stat.Table := ⟨some 2, [⟨wght, 256, 0⟩, ⟨wdth, 257, 1⟩],
  [⟨some 0, 2, 258, some 400, none, some 700, none⟩, ⟨some 0, 0, 259, some 700, none, none, none⟩,
   ⟨some 1, 0, 260, some 75, none, none, none⟩, ⟨none, 0, 261, none, none, none, some [(0, 400), (1, 75)]⟩]⟩

example : StatOk exStat := by
  refine ⟨?_, ?_, ?_⟩
  · simp [exStat]
  · simp [exStat, coords]
    rintro a b (⟨rfl, _⟩ | ⟨rfl, _⟩) <;> decide
  · have f : ∀ n : ℤ, On16 (n : ℚ) := fun n => ⟨n * 65536, by push_cast; ring⟩
    have h4 := f 400
    have h7 := f 700
    have h5 := f 75
    norm_num at h4 h7 h5
    intro v hv c hc
    simp only [exStat, List.mem_cons, List.not_mem_nil, or_false] at hv
    rcases hv with rfl | rfl | rfl | rfl <;> simp [coords] at hc
    · subst hc; exact h4
    · subst hc; exact h7
    · subst hc; exact h5
    · rcases hc with rfl | rfl
      · exact h4
      · exact h5

/-- Pinning the weight at 400 removes the second value; limiting the width to 80..100 the last two. -/
example : (exStat.values.filter (inLimits [(wght, .full 400)] exStat.axes)).map Stat.AxisValue.nameID = [258, 260, 261] ∧
    (exStat.values.filter (inLimits [(wdth, .range 80 100)] exStat.axes)).map Stat.AxisValue.nameID = [258, 259] := by
  decide +kernel

/-- A value for the third of two axes. -/
example : ∃ v ∈ [Stat.AxisValue.mk (some 2) 0 258 (some 400) none none none], v.nominal.isSome ∧
    ∀ i, v.axisIndex = some i → exStat.axes.length ≤ i.toNat :=
  ⟨_, List.mem_singleton.2 rfl, rfl, by rintro i ⟨⟩; decide⟩

end FT.Props
