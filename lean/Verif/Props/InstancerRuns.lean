import Verif.Props.Instancer

/-!
# C46: when the instancer returns, and when it does not
-/

namespace FT.Props
open FT FT.F32 FT.Var FT.Gvar FT.Glyf FT.Iup FT.Instancer

/-! ### It returns -/

/-- How far all deltasets together could move point `k`. -/
def reach (c : Pt → Int16) (ds : List DeltaSet) (k : ℕ) : ℚ := (ds.map fun d => |deltaAt c d k|).sum

theorem reach_nonneg (c : Pt → Int16) (ds : List DeltaSet) (k : ℕ) : 0 ≤ reach c ds k :=
  List.sum_nonneg (by simp only [List.mem_map]; rintro _ ⟨d, _, rfl⟩; exact abs_nonneg _)

theorem total_le_reach (c : Pt → Int16) (k : ℕ) : ∀ ds : List DeltaSet, |total c ds k| ≤ reach c ds k
  | [] => by simp [total, reach]
  | d :: ds => by
    have := total_le_reach c k ds
    simp only [total, reach, List.map_cons, List.sum_cons] at this ⊢
    exact le_trans (abs_add_le _ _) (by linarith)

theorem pinned_reach {tags : List Tag} {loc : Loc} {c : Pt → Int16} (hc : c = Prod.fst ∨ c = Prod.snd) (k : ℕ)
    {ds out : List DeltaSet} (h : Pinned tags loc ds out) : reach c out k ≤ reach c ds k := by
  induction h with
  | nil => exact le_refl _
  | keep h1 _ _ ih =>
    have := h1.less c hc k
    simp only [reach, List.map_cons, List.sum_cons] at ih ⊢
    linarith
  | @drop d ds out _ _ ih =>
    have := abs_nonneg (deltaAt c d k)
    simp only [reach, List.map_cons, List.sum_cons] at ih ⊢
    linarith

theorem pinned_counts {tags : List Tag} {loc : Loc} {n : ℕ} {ds out : List DeltaSet} (h : Pinned tags loc ds out) :
    (∀ d ∈ ds, d.deltas.length = n) → ∀ d ∈ out, d.deltas.length = n := by
  induction h with
  | nil => simp
  | @keep d d' ds out h1 _ _ ih =>
    intro hd x hx
    rcases List.mem_cons.1 hx with rfl | hx
    · rw [h1.count, hd d List.mem_cons_self]
    · exact ih (fun y hy => hd y (List.mem_cons_of_mem _ hy)) x hx
  | drop _ _ ih => exact fun hd => ih fun y hy => hd y (List.mem_cons_of_mem _ hy)

theorem pinned_nonempty {tags : List Tag} {loc : Loc} {ds out : List DeltaSet} (h : Pinned tags loc ds out) :
    (∃ d ∈ ds, (loc.length : ℚ) / 2 ^ 24 < influence loc (pinnedAxes loc (setRegion tags d))) → out ≠ [] := by
  induction h with
  | nil => simp
  | keep => simp
  | drop h1 _ ih =>
    rintro ⟨x, hx, h⟩
    rcases List.mem_cons.1 hx with rfl | hx
    · exact absurd h (not_lt.2 h1)
    · exact ih ⟨x, hx, h⟩

theorem addI16_ok {a b : Int16} (h : |(a.toInt + b.toInt : ℚ)| ≤ 32767) : ∃ s, addI16 a b = .ok s := by
  rcases addI16_cases a b with ⟨s, hs, _⟩ | ⟨_, hn⟩
  · exact ⟨s, hs⟩
  · exfalso
    apply hn
    have h := abs_le.1 h
    have h1 : ((-32767 : ℤ) : ℚ) ≤ ((a.toInt + b.toInt : ℤ) : ℚ) := by push_cast; exact h.1
    have h2 : ((a.toInt + b.toInt : ℤ) : ℚ) ≤ ((32767 : ℤ) : ℚ) := by push_cast; exact h.2
    have h1 : (-32767 : ℤ) ≤ a.toInt + b.toInt := by exact_mod_cast h1
    have h2 : a.toInt + b.toInt ≤ (32767 : ℤ) := by exact_mod_cast h2
    omega

theorem addDeltas_ok : ∀ {l m : List Pt}, m.length = l.length → (∀ (k : ℕ) (p q : Pt), l[k]? = some p → m[k]? = some q →
    |(p.1.toInt + q.1.toInt : ℚ)| ≤ 32767 ∧ |(p.2.toInt + q.2.toInt : ℚ)| ≤ 32767) → ∃ r, addDeltas l m = .ok r
  | [], [], _, _ => ⟨[], rfl⟩
  | [], _ :: _, h, _ => by simp at h
  | _ :: _, [], h, _ => by simp at h
  | p :: l, q :: m, h, hr => by
    obtain ⟨r, e⟩ := addDeltas_ok (l := l) (m := m) (by simpa using h) (fun k a b ha hb => hr (k + 1) a b ha hb)
    obtain ⟨h1, h2⟩ := hr 0 p q rfl rfl
    obtain ⟨x, hx⟩ := addI16_ok h1
    obtain ⟨y, hy⟩ := addI16_ok h2
    exact ⟨(x, y) :: r, by simp only [addDeltas, hx, hy, e, Res.ok_bind, Res.pure_eq]⟩

theorem deltaAt_some {c : Pt → Int16} {d : DeltaSet} {k : ℕ} {p : Pt} (h : d.deltas[k]? = some p) :
    deltaAt c d k = ((c p).toInt : ℚ) := by
  unfold deltaAt
  rw [h, Option.elim_some]

theorem combine_ok {a b : DeltaSet} (h : b.deltas.length = a.deltas.length)
    (hr : ∀ c : Pt → Int16, (c = Prod.fst ∨ c = Prod.snd) → ∀ k, |deltaAt c a k + deltaAt c b k| ≤ 32767) :
    ∃ s, combine a b = .ok s := by
  obtain ⟨r, e⟩ := addDeltas_ok h (fun k p q hp hq => by
    have h1 := hr _ (.inl rfl) k
    have h2 := hr _ (.inr rfl) k
    rw [deltaAt_some hp, deltaAt_some hq] at h1 h2
    exact ⟨h1, h2⟩)
  exact ⟨{ a with deltas := r }, by simp only [combine, e, Res.ok_bind, Res.pure_eq]⟩

theorem mergeAll_ok {tags : List Tag} {pinned : Loc} (hall : ∀ t ∈ tags, (BMap.get? pinned t).isSome = true) {n : ℕ} :
    ∀ (ds : List DeltaSet) (a : DeltaSet), (∀ d ∈ ds, tags.length ≤ d.peak.length) → (∀ d ∈ ds, d.deltas.length = n) →
    a.deltas.length = n →
    (∀ c : Pt → Int16, (c = Prod.fst ∨ c = Prod.snd) → ∀ k, |deltaAt c a k| + reach c ds k ≤ 32767) →
    ∃ m, mergeAll tags pinned ds [([], a)] = .ok m
  | [], a, _, _, _, _ => ⟨_, rfl⟩
  | d :: ds, a, hp, hl, ha, hb => by
    have hstep : ∀ c : Pt → Int16, (c = Prod.fst ∨ c = Prod.snd) → ∀ k, |deltaAt c a k| + |deltaAt c d k| + reach c ds k ≤ 32767 := by
      intro c hc k
      have := hb c hc k
      simp only [reach, List.map_cons, List.sum_cons] at this ⊢
      linarith
    obtain ⟨s, hs⟩ := combine_ok (a := a) (b := d) (by rw [ha, hl d List.mem_cons_self]) (fun c hc k => by
      refine le_trans (abs_add_le _ _) ?_
      have := hstep c hc k
      have := reach_nonneg c ds k
      linarith)
    obtain ⟨c1, _, c3⟩ := combine_inv hs
    obtain ⟨m, hm⟩ := mergeAll_ok hall ds s (fun x hx => hp x (List.mem_cons_of_mem _ hx))
      (fun x hx => hl x (List.mem_cons_of_mem _ hx)) (c1.trans ha) (fun c hc k => by
        rw [c3 c hc k]
        have := hstep c hc k
        have := abs_add_le (deltaAt c a k) (deltaAt c d k)
        linarith)
    refine ⟨m, ?_⟩
    simp only [mergeAll, tentFrom_pinned tags 0 (show 0 + tags.length ≤ d.peak.length by
      have := hp d List.mem_cons_self; omega) hall, Res.ok_bind, mergeOne, get?_one, hs, insert_single, Res.pure_eq, hm]

theorem movePoints_ok : ∀ {ps : List Point} {ds : List Pt}, ps.length ≤ ds.length → (∀ (k : ℕ) (p : Point) (d : Pt),
    ps[k]? = some p → ds[k]? = some d → |(p.x.toInt + d.1.toInt : ℚ)| ≤ 32767 ∧ |(p.y.toInt + d.2.toInt : ℚ)| ≤ 32767) →
    ∃ r, movePoints ps ds = .ok r
  | [], _, _, _ => ⟨_, rfl⟩
  | _ :: _, [], h, _ => by simp at h
  | p :: ps, d :: ds, h, hr => by
    obtain ⟨r, e⟩ := movePoints_ok (ps := ps) (ds := ds) (by simpa using h) (fun k a b ha hb => hr (k + 1) a b ha hb)
    obtain ⟨h1, h2⟩ := hr 0 p d rfl rfl
    obtain ⟨x, hx⟩ := addI16_ok h1
    obtain ⟨y, hy⟩ := addI16_ok h2
    exact ⟨(⟨x, y, p.onCurve⟩ :: r.1, r.2), by simp only [movePoints, hx, hy, e, Res.ok_bind, Res.pure_eq]⟩

theorem moveContours_ok : ∀ {cs : List (List Point)} {ds : List Pt}, cs.flatten.length ≤ ds.length → (∀ (k : ℕ) (p : Point) (d : Pt),
    cs.flatten[k]? = some p → ds[k]? = some d →
    |(p.x.toInt + d.1.toInt : ℚ)| ≤ 32767 ∧ |(p.y.toInt + d.2.toInt : ℚ)| ≤ 32767) → ∃ r, moveContours cs ds = .ok r
  | [], _, _, _ => ⟨_, rfl⟩
  | c :: cs, ds, h, hr => by
    simp only [List.flatten_cons, List.length_append] at h hr
    obtain ⟨r, e⟩ := movePoints_ok (ps := c) (ds := ds) (by omega) (fun k p d hp hd => hr k p d (by
      rw [List.getElem?_append_left (List.getElem?_eq_some_iff.1 hp).1]; exact hp) hd)
    have h2 := (movePoints_inv e).2.1
    obtain ⟨r', e'⟩ := moveContours_ok (cs := cs) (ds := r.2) (by rw [h2, List.length_drop]; omega) (fun k p d hp hd => by
      rw [h2, List.getElem?_drop] at hd
      refine hr (c.length + k) p d ?_ hd
      rw [List.getElem?_append_right (by omega), show c.length + k - c.length = k by omega]
      exact hp)
    exact ⟨r.1 :: r', by simp only [moveContours, e, e', Res.ok_bind, Res.pure_eq]⟩

/-- C46: with every axis pinned the instancer returns if some deltaset has more than negligible influence, every deltaset has
deltas for all points, and no sum of deltas can leave the `i16`s. -/
theorem C46_returns {tags : List Tag} (hn : tags.Nodup) (hne : tags ≠ []) {loc : Loc} (hs : BMap.Sorted loc)
    (htags : ∀ t, t ∈ tags ↔ t ∈ loc.map Prod.fst) (hg : ∀ x ∈ loc, OnGrid x.2) {ds : List DeltaSet}
    (hd : ∀ d ∈ ds, OnAxes tags.length d) {g : Glyph} {n : ℕ} (hl : ∀ d ∈ ds, d.deltas.length = n)
    (hgn : g.contours.flatten.length ≤ n)
    (hinf : ∃ d ∈ ds, (loc.length : ℚ) / 2 ^ 24 < influence loc (setRegion tags d))
    (hx : ∀ k, reach Prod.fst ds k ≤ 32767 ∧ reach Prod.snd ds k ≤ 32767)
    (hp : ∀ (k : ℕ) (p : Point), g.contours.flatten[k]? = some p →
      |(p.x.toInt : ℚ)| + reach Prod.fst ds k ≤ 32767 ∧ |(p.y.toInt : ℚ)| + reach Prod.snd ds k ≤ 32767) :
    ∃ g', instantiateGlyph rne tags (pins loc) g (some ds) = .ok (g', none) := by
  obtain ⟨out, ho, hpin⟩ := C46_pin hn hs (fun x hx => (htags _).2 (List.mem_map_of_mem hx)) hg hd
  have hall := fun t ht => (htags t).1 ht
  have hle : loc.isEmpty = false := by
    cases loc with
    | nil =>
      cases tags with
      | nil => exact absurd rfl hne
      | cons t ts => exact absurd ((htags t).1 List.mem_cons_self) (by simp)
    | cons => rfl
  have hoe : out ≠ [] := pinned_nonempty hpin (by
    obtain ⟨d, h1, h2⟩ := hinf
    exact ⟨d, h1, by rw [(free_nil hall (hd d h1)).2]; exact h2⟩)
  have hpk := pinned_peaks hpin hd
  have hcn := pinned_counts hpin hl
  have hre : ∀ c : Pt → Int16, (c = Prod.fst ∨ c = Prod.snd) → ∀ k, reach c out k ≤ 32767 := by
    intro c hc k
    refine le_trans (pinned_reach hc k hpin) ?_
    rcases hc with rfl | rfl
    · exact (hx k).1
    · exact (hx k).2
  have hmerge : ∃ m, mergeAll tags loc out [] = .ok m := by
    cases out with
    | nil => exact absurd rfl hoe
    | cons d os =>
      obtain ⟨m, hm⟩ := mergeAll_ok (loc_pinned hs hall) os d (fun x hx => hpk x (List.mem_cons_of_mem _ hx))
        (fun x hx => hcn x (List.mem_cons_of_mem _ hx)) (hcn d List.mem_cons_self) (fun c hc k => by
          have := hre c hc k
          simp only [reach, List.map_cons, List.sum_cons] at this ⊢
          exact this)
      refine ⟨m, ?_⟩
      have : BMap.get? ([] : List (List (Tag × ℤ × ℤ × ℤ) × DeltaSet)) [] = none := rfl
      simp only [mergeAll, tentFrom_pinned tags 0 (show 0 + tags.length ≤ d.peak.length by
        have := hpk d List.mem_cons_self; omega) (loc_pinned hs hall), Res.ok_bind, mergeOne, this]
      exact hm
  obtain ⟨m, hm⟩ := hmerge
  rcases mergeAll_full (loc_pinned hs hall) hpk hm with ⟨h, _⟩ | ⟨D, rfl, hDl, hD⟩
  · exact absurd h hoe
  have hDn : D.deltas.length = n := by
    cases out with
    | nil => exact absurd rfl hoe
    | cons d os => rw [hDl d (by simp), hcn d List.mem_cons_self]
  obtain ⟨cs, hcs⟩ := moveContours_ok (cs := g.contours) (ds := D.deltas) (by rw [hDn]; exact hgn) (fun k p d hk hdk => by
    obtain ⟨p1, p2⟩ := hp k p hk
    have e1 := hD _ (.inl rfl) k
    have e2 := hD _ (.inr rfl) k
    rw [deltaAt_some hdk] at e1 e2
    have r1 := le_trans (total_le_reach Prod.fst k out) (pinned_reach (.inl rfl) k hpin)
    have r2 := le_trans (total_le_reach Prod.snd k out) (pinned_reach (.inr rfl) k hpin)
    rw [← e1] at r1
    rw [← e2] at r2
    exact ⟨le_trans (abs_add_le _ _) (by linarith), le_trans (abs_add_le _ _) (by linarith)⟩)
  refine ⟨{ g with contours := cs }, ?_⟩
  have hdata : instantiateData rne tags (pins loc) ds = .ok (D.deltas, []) := by
    unfold instantiateData
    simp only [pinSome, pins_full, pins_ranges, hle, ho, Res.ok_bind, Bool.false_eq_true, if_false, List.isEmpty_nil, if_true, hm,
      Res.pure_eq, get?_one, Option.elim_some]
    rfl
  simp only [instantiateGlyph, hdata, Res.ok_bind, hcs, Res.pure_eq, List.isEmpty_nil, if_true]

/-! ### It panics -/

theorem moveContours_nil : ∀ {cs : List (List Point)}, cs.flatten ≠ [] → moveContours cs [] = .panic
  | [], h => absurd rfl h
  | [] :: cs, h => by
    have := moveContours_nil (cs := cs) (by simpa using h)
    simp only [moveContours, movePoints, Res.ok_bind, this]
    rfl
  | (_ :: _) :: _, _ => rfl

/-- C46: where no deltaset of a glyph has influence, for instance at the default location, the instancer panics although the
outline need not move at all. -/
theorem C46_no_influence {tags : List Tag} (hn : tags.Nodup) (hne : tags ≠ []) {loc : Loc} (hs : BMap.Sorted loc)
    (htags : ∀ t, t ∈ tags ↔ t ∈ loc.map Prod.fst) (hg : ∀ x ∈ loc, OnGrid x.2) {ds : List DeltaSet}
    (hd : ∀ d ∈ ds, OnAxes tags.length d) (hz : ∀ d ∈ ds, influence loc (setRegion tags d) = 0) {g : Glyph}
    (hpt : g.contours.flatten ≠ []) : instantiateGlyph rne tags (pins loc) g (some ds) = .panic := by
  have hin : ∀ x ∈ loc, x.1 ∈ tags := fun x hx => (htags _).2 (List.mem_map_of_mem hx)
  have hle : loc.isEmpty = false := by
    cases loc with
    | nil =>
      cases tags with
      | nil => exact absurd rfl hne
      | cons t ts => exact absurd ((htags t).1 List.mem_cons_self) (by simp)
    | cons => rfl
  have key : ∀ l : List DeltaSet, (∀ d ∈ l, d ∈ ds) → pinAxes rne tags loc l = .ok [] := by
    intro l
    induction l with
    | nil => intro _; rfl
    | cons d l ih =>
      intro h
      have hdd := h d List.mem_cons_self
      obtain ⟨sup, h0, _, _, h1, _⟩ := pin_one hn hs hin hg (hd d hdd)
      have e := h1 (by rw [(free_nil (fun t ht => (htags t).1 ht) (hd d hdd)).2]; exact hz d hdd)
      simp only [pinAxes, h0, ih (fun x hx => h x (List.mem_cons_of_mem _ hx)), Res.ok_bind, e, if_true, Res.pure_eq]
  have hdata : instantiateData rne tags (pins loc) ds = .ok ([], []) := by
    unfold instantiateData
    simp only [pinSome, pins_full, pins_ranges, hle, key ds (fun _ h => h), Res.ok_bind, Bool.false_eq_true, if_false, List.isEmpty_nil,
      if_true]
    rfl
  simp only [instantiateGlyph, hdata, Res.ok_bind, moveContours_nil hpt]
  rfl

theorem bind_noErr {α β : Type} {x : Res α} {f : α → Res β} (h1 : x ≠ .err) (h2 : ∀ a, f a ≠ .err) : (x >>= f) ≠ .err := by
  cases x with
  | ok a => exact h2 a
  | err => exact absurd rfl h1
  | panic => intro h; cases h

theorem unwrap_noErr {α : Type} (o : Option α) : Res.unwrap o ≠ .err := by
  cases o <;> intro h <;> cases h

theorem pure_noErr {α : Type} (a : α) : (pure a : Res α) ≠ .err := by intro h; cases h

theorem addI16_noErr (a b : Int16) : addI16 a b ≠ .err := by
  unfold addI16
  simp only
  split_ifs <;> intro h <;> cases h

theorem packedKey_noErr (x : ℚ) : packedKey x ≠ .err := by
  unfold packedKey
  split <;> intro h <;> cases h

theorem supportOf_noErr (tags : List Tag) (d : DeltaSet) : ∀ loc, supportOf tags d loc ≠ .err
  | [] => by intro h; cases h
  | (_, _) :: rest => bind_noErr (unwrap_noErr _) fun _ => bind_noErr (unwrap_noErr _) fun _ => bind_noErr (unwrap_noErr _) fun _ =>
    bind_noErr (unwrap_noErr _) fun _ => bind_noErr (supportOf_noErr tags d rest) fun _ => pure_noErr _

theorem pinAxes_noErr (rd : ℚ → ℚ) (tags : List Tag) (loc : Loc) : ∀ ds, pinAxes rd tags loc ds ≠ .err
  | [] => by intro h; cases h
  | d :: ds => bind_noErr (supportOf_noErr _ _ _) fun _ => bind_noErr (pinAxes_noErr rd tags loc ds) fun _ => pure_noErr _

theorem pinSome_noErr (rd : ℚ → ℚ) (tags : List Tag) (loc : Loc) (ds : List DeltaSet) : pinSome rd tags loc ds ≠ .err := by
  unfold pinSome
  split_ifs
  · intro h; cases h
  · exact pinAxes_noErr _ _ _ _

theorem tentFrom_noErr (pinned : Loc) (d : DeltaSet) : ∀ (ts : List Tag) (ix : ℕ), tentFrom pinned d ix ts ≠ .err
  | [], _ => by intro h; cases h
  | _ :: ts, ix => by
    refine bind_noErr (unwrap_noErr _) fun _ => ?_
    split_ifs
    · exact tentFrom_noErr pinned d ts _
    · exact bind_noErr (unwrap_noErr _) fun _ => bind_noErr (unwrap_noErr _) fun _ => bind_noErr (packedKey_noErr _) fun _ =>
        bind_noErr (packedKey_noErr _) fun _ => bind_noErr (packedKey_noErr _) fun _ =>
        bind_noErr (tentFrom_noErr pinned d ts _) fun _ => pure_noErr _

theorem addDeltas_noErr : ∀ l m : List Pt, addDeltas l m ≠ .err
  | [], [] => by intro h; cases h
  | [], _ :: _ => by intro h; cases h
  | _ :: _, [] => by intro h; cases h
  | _ :: l, _ :: m => bind_noErr (addI16_noErr _ _) fun _ => bind_noErr (addI16_noErr _ _) fun _ =>
    bind_noErr (addDeltas_noErr l m) fun _ => pure_noErr _

theorem mergeOne_noErr (m : List (List (Tag × ℤ × ℤ × ℤ) × DeltaSet)) (t : List (Tag × ℤ × ℤ × ℤ)) (d : DeltaSet) :
    mergeOne m t d ≠ .err := by
  unfold mergeOne
  split
  · exact bind_noErr (bind_noErr (addDeltas_noErr _ _) fun _ => pure_noErr _) fun _ => pure_noErr _
  · intro h; cases h

theorem mergeAll_noErr (tags : List Tag) (pinned : Loc) : ∀ (ds : List DeltaSet) (m : List (List (Tag × ℤ × ℤ × ℤ) × DeltaSet)),
    mergeAll tags pinned ds m ≠ .err
  | [], _ => by intro h; cases h
  | _ :: ds, _ => bind_noErr (tentFrom_noErr _ _ _ _) fun _ => bind_noErr (mergeOne_noErr _ _ _) fun _ =>
    mergeAll_noErr tags pinned ds _

theorem tentFrom_ne {pinned : Loc} {d : DeltaSet} : ∀ (ts : List Tag) (ix : ℕ) {r : List (Tag × ℤ × ℤ × ℤ)},
    (∃ t ∈ ts, BMap.get? pinned t = none) → tentFrom pinned d ix ts = .ok r → r ≠ []
  | [], _, _, ⟨_, h, _⟩, _ => by simp at h
  | t :: ts, ix, r, ⟨x, hx, hn⟩, h => by
    obtain ⟨_, _, h⟩ := Res.bind_inv h
    split_ifs at h with hp
    · refine tentFrom_ne ts _ ⟨x, ?_, hn⟩ h
      rcases List.mem_cons.1 hx with rfl | hx
      · rw [hn] at hp; exact absurd hp (by simp)
      · exact hx
    · obtain ⟨_, _, h⟩ := Res.bind_inv h
      obtain ⟨_, _, h⟩ := Res.bind_inv h
      obtain ⟨_, _, h⟩ := Res.bind_inv h
      obtain ⟨_, _, h⟩ := Res.bind_inv h
      obtain ⟨_, _, h⟩ := Res.bind_inv h
      obtain ⟨_, _, h⟩ := Res.bind_inv h
      cases h
      simp

theorem mergeAll_free {tags : List Tag} {pinned : Loc} (hfree : ∃ t ∈ tags, BMap.get? pinned t = none) :
    ∀ (ds : List DeltaSet) {m m' : List (List (Tag × ℤ × ℤ × ℤ) × DeltaSet)}, BMap.get? m [] = none →
    mergeAll tags pinned ds m = .ok m' → BMap.get? m' [] = none
  | [], _, _, h0, h => by cases h; exact h0
  | d :: ds, m, m', h0, h => by
    obtain ⟨t, ht, h⟩ := Res.bind_inv h
    obtain ⟨n, hn, h⟩ := Res.bind_inv h
    have hne := tentFrom_ne _ _ hfree ht
    refine mergeAll_free hfree ds ?_ h
    unfold mergeOne at hn
    split at hn
    · obtain ⟨s, _, hn⟩ := Res.bind_inv hn
      cases hn
      rw [BMap.get?_insert_ne _ (Ne.symm hne), h0]
    · cases hn
      rw [BMap.get?_insert_ne _ (Ne.symm hne), h0]

/-- C46: if any axis of the font is left free or limited, the instancer panics at the first glyph which has an outline and
variation data. -/
theorem C46_free_axis {tags : List Tag} {limits : Limits} (hfree : ∃ t ∈ tags, BMap.get? limits.full t = none)
    {ds : List DeltaSet} {g : Glyph} (hpt : g.contours.flatten ≠ []) :
    instantiateGlyph rne tags limits g (some ds) = .panic := by
  have key : ∀ r, instantiateData rne tags limits ds = .ok r → r.1 = [] := by
    intro r h
    unfold instantiateData at h
    obtain ⟨new, _, h⟩ := Res.bind_inv h
    split_ifs at h
    · obtain ⟨m, hm, h⟩ := Res.bind_inv h
      cases h
      have := mergeAll_free hfree new (m := []) rfl hm
      rw [this]
      rfl
  have ne : instantiateData rne tags limits ds ≠ .err := by
    unfold instantiateData
    refine bind_noErr ?_ fun _ => ?_
    · exact pinSome_noErr _ _ _ _
    · split_ifs
      · exact bind_noErr (mergeAll_noErr _ _ _ _) fun _ => pure_noErr _
      · intro h; cases h
  cases e : instantiateData rne tags limits ds with
  | ok r => simp only [instantiateGlyph, e, Res.ok_bind, key r e, moveContours_nil hpt]; rfl
  | err => exact absurd e ne
  | panic => simp only [instantiateGlyph, e]; rfl

/-- C46: and if any axis is limited to a range, it panics at every glyph with variation data. -/
theorem C46_range {tags : List Tag} {limits : Limits} {t : Tag} {lo hi : ℚ} (h : (t, Limit.range lo hi) ∈ limits)
    {ds : List DeltaSet} (g : Glyph) : instantiateGlyph rne tags limits g (some ds) = .panic := by
  have hr : limits.ranges.isEmpty = false := by
    have : (t, lo, hi) ∈ limits.ranges := List.mem_filterMap.2 ⟨_, h, rfl⟩
    cases e : limits.ranges with
    | nil => rw [e] at this; simp at this
    | cons => rfl
  have : instantiateData rne tags limits ds = .panic := by
    unfold instantiateData
    simp only [hr, Bool.false_eq_true, if_false]
    have := pinSome_noErr rne tags limits.full ds
    revert this
    generalize pinSome rne tags limits.full ds = x
    cases x with
    | ok => intro _; rfl
    | err => intro h; exact absurd rfl h
    | panic => intro _; rfl
  simp only [instantiateGlyph, this]
  rfl

/-- C46: components of composite glyphs are not moved, whatever the deltas say about them. -/
theorem C46_components {tags : List Tag} {limits : Limits} {v v' : Option (List DeltaSet)} {g g' : Glyph}
    (h : instantiateGlyph rne tags limits g v = .ok (g', v')) : g'.components = g.components := by
  cases v with
  | none => cases h; rfl
  | some ds =>
    obtain ⟨_, _, h⟩ := Res.bind_inv h
    obtain ⟨_, _, h⟩ := Res.bind_inv h
    cases h
    rfl

end FT.Props
