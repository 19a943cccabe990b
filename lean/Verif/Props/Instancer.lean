import Verif.Model.Instancer
import Verif.Props.Support
import Verif.Props.Contour
import Verif.Props.GlyfBounds
import Verif.Lemmas.ResBind
import Mathlib.Algebra.BigOperators.Ring.List

/-!
# C46: pinning axes

`Instancer.* F32.rne` is the code.
-/

namespace FT.Props
open FT FT.F32 FT.Var FT.Gvar FT.Glyf FT.Iup FT.Instancer

/-! ### Specification -/

/-- The region of a tuple variation: its start, peak and end on each axis of the font. -/
def regionOf : List Tag → List ℚ → List ℚ → List ℚ → Region
  | t :: ts, s :: ss, p :: ps, e :: es => (t, s, p, e) :: regionOf ts ss ps es
  | _, _, _, _ => []

def setRegion (tags : List Tag) (d : DeltaSet) : Region := regionOf tags d.start d.peak d.stop

/-- A deltaset as the file format has it: a number of the `F2DOT14` grid for every axis. -/
structure OnAxes (n : ℕ) (d : DeltaSet) : Prop where
  start : d.start.length = n
  peak : d.peak.length = n
  stop : d.stop.length = n
  grid : ∀ x ∈ d.start ++ d.peak ++ d.stop, OnGrid x

/-- `L` has the coordinates `loc` gives. -/
def AgreesOn (L loc : Loc) : Prop := ∀ x ∈ loc, coord L x.1 = x.2

/-- The axes of a region which `loc` leaves free. -/
def freeAxes (loc : Loc) (r : Region) : Region := r.filter fun x => decide (x.1 ∉ loc.map Prod.fst)

/-- The others. -/
def pinnedAxes (loc : Loc) (r : Region) : Region := r.filter fun x => decide (x.1 ∈ loc.map Prod.fst)

/-- The coordinate `c` of delta `k`. -/
def deltaAt (c : Pt → Int16) (d : DeltaSet) (k : ℕ) : ℚ := (d.deltas[k]?).elim 0 fun p => ((c p).toInt : ℚ)

/-- By how much the deltasets move point `k` at a location, after the OpenType specification. -/
def shift (c : Pt → Int16) (tags : List Tag) (L : Loc) (ds : List DeltaSet) (k : ℕ) : ℚ :=
  (ds.map fun d => influence L (setRegion tags d) * deltaAt c d k).sum

/-! ### Regions -/

theorem mem_regionOf : ∀ (ts : List Tag) (ss ps es : List ℚ) (i : ℕ) {t : Tag} {s p e : ℚ}, ts[i]? = some t → ss[i]? = some s →
    ps[i]? = some p → es[i]? = some e → (t, s, p, e) ∈ regionOf ts ss ps es
  | _ :: _, _ :: _, _ :: _, _ :: _, 0, _, _, _, _, h1, h2, h3, h4 => by
    simp only [List.getElem?_cons_zero, Option.some.injEq] at h1 h2 h3 h4
    subst h1 h2 h3 h4
    simp [regionOf]
  | _ :: ts, _ :: ss, _ :: ps, _ :: es, i + 1, _, _, _, _, h1, h2, h3, h4 => by
    simp only [List.getElem?_cons_succ] at h1 h2 h3 h4
    exact List.mem_cons_of_mem _ (mem_regionOf ts ss ps es i h1 h2 h3 h4)

theorem regionOf_mem : ∀ (ts : List Tag) (ss ps es : List ℚ) {x : Tag × (ℚ × ℚ × ℚ)}, x ∈ regionOf ts ss ps es →
    x.2.1 ∈ ss ∧ x.2.2.1 ∈ ps ∧ x.2.2.2 ∈ es
  | [], _, _, _, _, h => by simp [regionOf] at h
  | _ :: _, [], _, _, _, h => by simp [regionOf] at h
  | _ :: _, _ :: _, [], _, _, h => by simp [regionOf] at h
  | _ :: _, _ :: _, _ :: _, [], _, h => by simp [regionOf] at h
  | _ :: ts, _ :: ss, _ :: ps, _ :: es, _, h => by
    rcases List.mem_cons.1 h with rfl | h
    · simp
    · obtain ⟨a, b, c⟩ := regionOf_mem ts ss ps es h
      exact ⟨List.mem_cons_of_mem _ a, List.mem_cons_of_mem _ b, List.mem_cons_of_mem _ c⟩

theorem regionOf_tags : ∀ (ts : List Tag) (ss ps es : List ℚ), ss.length = ts.length → ps.length = ts.length →
    es.length = ts.length → (regionOf ts ss ps es).map Prod.fst = ts
  | [], _, _, _, _, _, _ => by simp [regionOf]
  | _ :: _, [], _, _, h, _, _ => by simp at h
  | _ :: _, _ :: _, [], _, _, h, _ => by simp at h
  | _ :: _, _ :: _, _ :: _, [], _, _, h => by simp at h
  | _ :: ts, _ :: ss, _ :: ps, _ :: es, h1, h2, h3 => by
    simp only [List.length_cons, Nat.add_right_cancel_iff] at h1 h2 h3
    simp [regionOf, regionOf_tags ts ss ps es h1 h2 h3]

theorem OnAxes.tags {tags : List Tag} {d : DeltaSet} (h : OnAxes tags.length d) : (setRegion tags d).map Prod.fst = tags :=
  regionOf_tags _ _ _ _ h.start h.peak h.stop

theorem OnAxes.nums {tags : List Tag} {d : DeltaSet} (h : OnAxes tags.length d) : RegionNums OnGrid (setRegion tags d) := by
  intro x hx
  obtain ⟨a, b, c⟩ := regionOf_mem _ _ _ _ hx
  exact ⟨h.grid _ (by simp [a]), h.grid _ (by simp [b]), h.grid _ (by simp [c])⟩

theorem tent_unit (v a p b : ℚ) : 0 ≤ tent v a p b ∧ tent v a p b ≤ 1 := by
  unfold tent
  split_ifs with h1 h2 h3 h4
  · exact ⟨le_refl _, zero_le_one⟩
  · exact ⟨zero_le_one, le_refl _⟩
  · push Not at h2
    exact ⟨div_nonneg (by linarith) (by linarith), (div_le_one (by linarith)).2 (by linarith)⟩
  · push Not at h2 h4
    have : p < v := lt_of_le_of_ne h4 (Ne.symm h3)
    exact ⟨div_nonneg (by linarith) (by linarith), (div_le_one (by linarith)).2 (by linarith)⟩
  · exact ⟨zero_le_one, le_refl _⟩

theorem influence_cons (L : Loc) (x : Tag × (ℚ × ℚ × ℚ)) (r : Region) :
    influence L (x :: r) = tent (coord L x.1) x.2.1 x.2.2.1 x.2.2.2 * influence L r := by simp [influence]

theorem influence_unit (L : Loc) : ∀ r : Region, 0 ≤ influence L r ∧ influence L r ≤ 1
  | [] => by simp [influence]
  | x :: r => by
    obtain ⟨a, b⟩ := tent_unit (coord L x.1) x.2.1 x.2.2.1 x.2.2.2
    obtain ⟨c, e⟩ := influence_unit L r
    rw [influence_cons]
    exact ⟨mul_nonneg a c, by nlinarith⟩

theorem influence_filter (L : Loc) (q : Tag × (ℚ × ℚ × ℚ) → Bool) : ∀ r : Region,
    influence L r = influence L (r.filter q) * influence L (r.filter fun x => !q x)
  | [] => by simp [influence]
  | x :: r => by
    have ih := influence_filter L q r
    cases h : q x
    · rw [List.filter_cons_of_neg (by simp [h]), List.filter_cons_of_pos (by simp [h]), influence_cons, influence_cons, ih]; ring
    · rw [List.filter_cons_of_pos (by simp [h]), List.filter_cons_of_neg (by simp [h]), influence_cons, influence_cons, ih]; ring

theorem influence_perm (L : Loc) {r s : Region} (h : r.Perm s) : influence L r = influence L s :=
  (h.map _).prod_eq

theorem influence_congr {L M : Loc} {r : Region} (h : ∀ x ∈ r, coord L x.1 = coord M x.1) : influence L r = influence M r := by
  unfold influence
  congr 1
  exact List.map_congr_left (fun x hx => by rw [h x hx])

/-- Where the specification gives no influence, neither does the code. -/
theorem scalar_zero {loc : Loc} (hloc : ∀ t, OnGrid (coord loc t)) {r : Region} (hr : RegionNums OnGrid r)
    (h : influence loc r = 0) : supportScalar rne loc r = 0 := by
  unfold influence at h
  rw [List.prod_eq_zero_iff] at h
  obtain ⟨x, hx, h⟩ := List.mem_map.1 h
  obtain ⟨a, b, c⟩ := hr x hx
  have hs := axisStep_tent (l := x.2.1) (u := x.2.2.2) (grid_far (hloc x.1) b)
  have hg := axisStep_grid (hloc x.1) a b c
  refine scalarLoop_stop loc r 1 x hx ?_
  cases e : axisStep id (coord loc x.1) x.2.1 x.2.2.1 x.2.2.2 with
  | skip => rw [e] at hs; simp only at hs; rw [hs] at h; exact absurd h one_ne_zero
  | stop => rw [e] at hg; exact hg
  | times f =>
    exfalso
    rw [e] at hs; simp only at hs; rw [hs] at h; subst h
    unfold axisStep at e
    split_ifs at e with h1 h2 h3 h4 h5 h6
    · push Not at h2 h5
      simp only [id, Step.times.injEq, div_eq_zero_iff] at e
      rcases e with e | e <;> linarith
    · push Not at h2 h5 h6
      simp only [id, Step.times.injEq, div_eq_zero_iff] at e
      rcases e with e | e
      · linarith
      · have : x.2.2.1 = x.2.2.2 := by linarith
        have : coord loc x.1 = x.2.2.1 := le_antisymm (by linarith) h6
        linarith

/-! ### The support of the pinned axes -/

theorem idxOf?_get {tags : List Tag} {t : Tag} (h : t ∈ tags) : ∃ i, tags.idxOf? t = some i ∧ tags[i]? = some t := by
  cases e : tags.idxOf? t with
  | none => rw [List.idxOf?_eq_none_iff] at e; exact absurd h e
  | some i =>
    refine ⟨i, rfl, ?_⟩
    rw [List.idxOf?, List.findIdx?_eq_some_iff_getElem] at e
    obtain ⟨hi, he, _⟩ := e
    rw [List.getElem?_eq_getElem hi]
    simpa using he

theorem supportOf_ok {tags : List Tag} {d : DeltaSet} (hd : OnAxes tags.length d) : ∀ loc : Loc, (∀ x ∈ loc, x.1 ∈ tags) →
    ∃ sup, supportOf tags d loc = .ok sup ∧ sup.map Prod.fst = loc.map Prod.fst ∧ ∀ x ∈ sup, x ∈ setRegion tags d
  | [], _ => ⟨[], rfl, rfl, by simp⟩
  | (t, v) :: loc, h => by
    obtain ⟨sup, hs, h1, h2⟩ := supportOf_ok hd loc (fun x hx => h x (List.mem_cons_of_mem _ hx))
    obtain ⟨i, hi, hg⟩ := idxOf?_get (h (t, v) List.mem_cons_self)
    have hlt : i < tags.length := (List.getElem?_eq_some_iff.1 hg).1
    have e1 : d.start[i]? = some (d.start[i]'(by rw [hd.start]; exact hlt)) := List.getElem?_eq_getElem _
    have e2 : d.peak[i]? = some (d.peak[i]'(by rw [hd.peak]; exact hlt)) := List.getElem?_eq_getElem _
    have e3 : d.stop[i]? = some (d.stop[i]'(by rw [hd.stop]; exact hlt)) := List.getElem?_eq_getElem _
    refine ⟨(t, d.start[i]'(by rw [hd.start]; exact hlt), d.peak[i]'(by rw [hd.peak]; exact hlt),
      d.stop[i]'(by rw [hd.stop]; exact hlt)) :: sup, ?_, ?_, ?_⟩
    rotate_left
    · simp [h1]
    · intro x hx
      rcases List.mem_cons.1 hx with rfl | hx
      · exact mem_regionOf _ _ _ _ i hg e1 e2 e3
      · exact h2 x hx
    · simp only [supportOf, hi, e1, e2, e3, hs, Res.unwrap, Res.ok_bind, Res.pure_eq]

theorem sorted_keys_nodup {loc : Loc} (hs : BMap.Sorted loc) : (loc.map Prod.fst).Nodup := by
  unfold BMap.Sorted at hs
  rw [List.Nodup, List.pairwise_map]
  exact hs.imp fun h => BMap.lt_ne h

theorem support_perm {tags : List Tag} (hn : tags.Nodup) {d : DeltaSet} (hd : OnAxes tags.length d) {loc : Loc}
    (hs : BMap.Sorted loc) {sup : Region} (h1 : sup.map Prod.fst = loc.map Prod.fst) (h2 : ∀ x ∈ sup, x ∈ setRegion tags d) :
    sup.Perm (pinnedAxes loc (setRegion tags d)) := by
  unfold pinnedAxes
  have nr : ((setRegion tags d).map Prod.fst).Nodup := by rw [hd.tags]; exact hn
  refine (List.perm_ext_iff_of_nodup (List.Nodup.of_map Prod.fst (by rw [h1]; exact sorted_keys_nodup hs))
    ((List.Nodup.of_map _ nr).filter _)).2 fun x => ?_
  rw [List.mem_filter]
  constructor
  · intro hx
    refine ⟨h2 x hx, ?_⟩
    rw [decide_eq_true_iff, ← h1]
    exact List.mem_map_of_mem hx
  · rintro ⟨hx, hk⟩
    rw [decide_eq_true_iff, ← h1] at hk
    obtain ⟨y, hy, e⟩ := List.mem_map.1 hk
    rw [← List.inj_on_of_nodup_map nr (h2 y hy) hx e]
    exact hy

/-- The influence of a region is that of its pinned axes times that of the others. -/
theorem influence_pinned {tags : List Tag} (hn : tags.Nodup) {d : DeltaSet} (hd : OnAxes tags.length d) {loc : Loc}
    (hs : BMap.Sorted loc) {sup : Region} (h1 : sup.map Prod.fst = loc.map Prod.fst) (h2 : ∀ x ∈ sup, x ∈ setRegion tags d)
    {L : Loc} (hL : AgreesOn L loc) :
    influence L (setRegion tags d) = influence loc sup * influence L (freeAxes loc (setRegion tags d)) := by
  rw [influence_filter L (fun x => decide (x.1 ∈ loc.map Prod.fst)),
    show influence L ((setRegion tags d).filter fun x => decide (x.1 ∈ loc.map Prod.fst)) = influence L sup from
      (influence_perm L (support_perm hn hd hs h1 h2)).symm]
  have : influence L sup = influence loc sup := by
    refine influence_congr fun x hx => ?_
    have hk : x.1 ∈ loc.map Prod.fst := by rw [← h1]; exact List.mem_map_of_mem hx
    obtain ⟨y, hy, e⟩ := List.mem_map.1 hk
    rw [← e, hL y hy, coord, (BMap.get?_eq_some hs).2 (by exact hy)]
  rw [this]
  unfold freeAxes
  simp only [decide_not]

/-! ### Scaling -/

theorem scaleNum_le {f : ℚ} (h0 : 0 ≤ f) (h1 : f ≤ 1) (x : Int16) :
    |rne (x.toInt * f)| ≤ |(x.toInt : ℚ)| ∧ (scaleNum rne f x).toInt = truncQ (rne (x.toInt * f)) := by
  have b1 : (-32768 : ℤ) ≤ x.toInt := Int16.le_toInt x
  have b2 : x.toInt < 32768 := Int16.toInt_lt x
  have hr : |x.toInt| ≤ 2 ^ 24 := by rw [abs_le]; omega
  have er := rne_int _ hr
  have key : (0 ≤ x.toInt → 0 ≤ rne (x.toInt * f) ∧ rne (x.toInt * f) ≤ x.toInt) ∧
      (x.toInt < 0 → (x.toInt : ℚ) ≤ rne (x.toInt * f) ∧ rne (x.toInt * f) ≤ 0) := by
    constructor
    · intro h
      have h : (0 : ℚ) ≤ x.toInt := by exact_mod_cast h
      exact ⟨rne_nonneg (mul_nonneg h h0), by
        conv => rhs; rw [← er]
        exact rne_mono (by nlinarith)⟩
    · intro h
      have h : (x.toInt : ℚ) < 0 := by exact_mod_cast h
      refine ⟨by conv => lhs; rw [← er]
                 exact rne_mono (by nlinarith), ?_⟩
      rw [← rne_zero]; exact rne_mono (by nlinarith)
  have babs : |rne (x.toInt * f)| ≤ |(x.toInt : ℚ)| := by
    rcases le_or_gt 0 x.toInt with h | h
    · obtain ⟨a, b⟩ := key.1 h
      rw [abs_of_nonneg a]; exact le_trans b (le_abs_self _)
    · obtain ⟨a, b⟩ := key.2 h
      have h : (x.toInt : ℚ) < 0 := by exact_mod_cast h
      rw [abs_of_nonpos b, abs_of_neg h]; linarith
  refine ⟨babs, ?_⟩
  have tb : -32768 ≤ truncQ (rne (x.toInt * f)) ∧ truncQ (rne (x.toInt * f)) ≤ 32767 := by
    unfold truncQ
    split_ifs with h
    · have : rne (x.toInt * f) ≤ (32767 : ℤ) := by
        rcases le_or_gt 0 x.toInt with h' | h'
        · refine le_trans (key.1 h').2 ?_
          have : x.toInt ≤ 32767 := by omega
          exact_mod_cast this
        · exact le_trans (key.2 h').2 (by norm_num)
      have h3 := (Int.floor_mono this).trans_eq (Int.floor_intCast _)
      have h4 := Int.floor_nonneg.2 h
      omega
    · push Not at h
      have hx : x.toInt < 0 := by
        by_contra hc
        exact absurd (key.1 (not_lt.1 hc)).1 (not_le.2 h)
      have : -rne (x.toInt * f) ≤ (32768 : ℤ) := by
        have := (key.2 hx).1
        have h5 : ((-32768 : ℤ) : ℚ) ≤ x.toInt := by exact_mod_cast b1
        push_cast at h5 ⊢
        linarith
      have h3 := (Int.floor_mono this).trans_eq (Int.floor_intCast _)
      have h4 : 0 ≤ ⌊-rne (x.toInt * f)⌋ := Int.floor_nonneg.2 (by linarith)
      omega
  unfold scaleNum toI16
  generalize truncQ (rne (x.toInt * f)) = z at tb
  have : max (-32768) (min z 32767) = z := by omega
  rw [this]
  exact Int16.toInt_ofInt_of_le (by omega) (by omega)

theorem truncQ_abs (q : ℚ) : |(truncQ q : ℚ)| ≤ |q| := by
  unfold truncQ
  split_ifs with h
  · have : (0 : ℚ) ≤ ⌊q⌋ := by exact_mod_cast Int.floor_nonneg.2 h
    rw [abs_of_nonneg h, abs_of_nonneg this]
    exact Int.floor_le q
  · push Not at h
    have : (0 : ℚ) ≤ ⌊-q⌋ := by exact_mod_cast Int.floor_nonneg.2 (by linarith : 0 ≤ -q)
    push_cast
    rw [abs_of_neg h, abs_neg, abs_of_nonneg this]
    exact Int.floor_le (-q)

theorem scaleNum_abs {f : ℚ} (h0 : 0 ≤ f) (h1 : f ≤ 1) (x : Int16) : |((scaleNum rne f x).toInt : ℚ)| ≤ |(x.toInt : ℚ)| := by
  obtain ⟨a, b⟩ := scaleNum_le h0 h1 x
  rw [b]
  exact le_trans (truncQ_abs _) a

theorem rne_error_15 {x : ℚ} (h : |x| ≤ 2 ^ 15) : |rne x - x| ≤ 1 / 512 := by
  rcases eq_or_ne x 0 with rfl | h0
  · rw [rne_zero]; norm_num
  refine le_trans (C04_rounding_error x) ?_
  have hp : 0 < |x| := abs_pos.2 h0
  have hl : Int.log 2 |x| < 16 :=
    (Int.lt_zpow_iff_log_lt (b := 2) (by norm_num) hp).1 (lt_of_le_of_lt h (by norm_num))
  have hu : ue x ≤ -8 := by unfold ue; omega
  have : (2 : ℚ) ^ ue x ≤ 2 ^ (-8 : ℤ) := zpow_le_zpow_right₀ (by norm_num) hu
  have e : (2 : ℚ) ^ (-8 : ℤ) = 1 / 2 ^ 8 := by norm_num
  rw [e] at this
  norm_num at this
  linarith

theorem scaleNum_error {f w : ℚ} (n : ℕ) (h0 : 0 ≤ f) (h1 : f ≤ 1) (hw : |f - w| ≤ n / 2 ^ 24) (x : Int16) :
    |((scaleNum rne f x).toInt : ℚ) - w * x.toInt| ≤ 1 + (n + 1) / 512 := by
  rw [(scaleNum_le h0 h1 x).2]
  have b1 : (-32768 : ℚ) ≤ x.toInt := by exact_mod_cast Int16.le_toInt x
  have b2 : (x.toInt : ℚ) ≤ 32768 := by exact_mod_cast (Int16.toInt_lt x).le
  have hx : |(x.toInt : ℚ)| ≤ 2 ^ 15 := by rw [abs_le]; constructor <;> linarith
  have hxf : |(x.toInt : ℚ) * f| ≤ 2 ^ 15 := by
    rw [abs_mul, abs_of_nonneg h0]
    have := abs_nonneg (x.toInt : ℚ)
    nlinarith
  have e1 := abs_le.1 (rne_error_15 hxf)
  obtain ⟨t1, t2⟩ := truncQ_bounds (rne (x.toInt * f))
  have e2 : |(x.toInt : ℚ) * f - w * x.toInt| ≤ n / 512 := by
    have : (x.toInt : ℚ) * f - w * x.toInt = x.toInt * (f - w) := by ring
    rw [this, abs_mul]
    have := abs_nonneg (f - w)
    have : (n : ℚ) / 512 = 2 ^ 15 * (n / 2 ^ 24) := by ring
    rw [this]
    exact mul_le_mul hx hw (abs_nonneg _) (by norm_num)
  have e2 := abs_le.1 e2
  have : ((n : ℚ) + 1) / 512 = n / 512 + 1 / 512 := by ring
  rw [abs_le, this]
  constructor <;> linarith [e1.1, e1.2, e2.1, e2.2]

/-! ### Pinning -/

/-- `d'` is `d` with its deltas scaled so that, on the axes left free, it contributes what `d` contributed at the pinned
coordinates, up to truncation to a whole number and single precision. -/
structure Contributes (tags : List Tag) (loc : Loc) (d d' : DeltaSet) : Prop where
  tuples : d'.start = d.start ∧ d'.peak = d.peak ∧ d'.stop = d.stop
  count : d'.deltas.length = d.deltas.length
  close : ∀ L, AgreesOn L loc → ∀ c : Pt → Int16, (c = Prod.fst ∨ c = Prod.snd) → ∀ k,
    |influence L (freeAxes loc (setRegion tags d)) * deltaAt c d' k - influence L (setRegion tags d) * deltaAt c d k| ≤
      1 + (loc.length + 1) / 512
  less : ∀ c : Pt → Int16, (c = Prod.fst ∨ c = Prod.snd) → ∀ k, |deltaAt c d' k| ≤ |deltaAt c d k|

/-- The deltasets after pinning: each one scaled, or left out for want of influence. -/
inductive Pinned (tags : List Tag) (loc : Loc) : List DeltaSet → List DeltaSet → Prop
  | nil : Pinned tags loc [] []
  | keep {d d' ds out} : Contributes tags loc d d' → 0 < influence loc (pinnedAxes loc (setRegion tags d)) →
    Pinned tags loc ds out → Pinned tags loc (d :: ds) (d' :: out)
  | drop {d ds out} : influence loc (pinnedAxes loc (setRegion tags d)) ≤ loc.length / 2 ^ 24 → Pinned tags loc ds out →
    Pinned tags loc (d :: ds) out


theorem coord_grid {loc : Loc} (hs : BMap.Sorted loc) (hg : ∀ x ∈ loc, OnGrid x.2) (t : Tag) : OnGrid (coord loc t) := by
  unfold coord
  cases e : BMap.get? loc t with
  | none => exact ⟨0, by norm_num, by norm_num, by norm_num⟩
  | some v => exact hg (t, v) ((BMap.get?_eq_some hs).1 e)

theorem isF32_grid {x : ℚ} (h : OnGrid x) : IsF32 x := by
  have := rne_grid_sub h (y := 0) ⟨0, by norm_num, by norm_num, by norm_num⟩
  rwa [sub_zero] at this

theorem agrees_self {loc : Loc} (hs : BMap.Sorted loc) : AgreesOn loc loc := fun x hx => by
  rw [coord, (BMap.get?_eq_some hs).2 (by exact hx)]

theorem int16_abs (x : Int16) : |(x.toInt : ℚ)| ≤ 32768 := by
  have b1 : (-32768 : ℚ) ≤ x.toInt := by exact_mod_cast Int16.le_toInt x
  have b2 : (x.toInt : ℚ) ≤ 32768 := by exact_mod_cast (Int16.toInt_lt x).le
  rw [abs_le]; exact ⟨b1, b2⟩

theorem deltaAt_abs (c : Pt → Int16) (d : DeltaSet) (k : ℕ) : |deltaAt c d k| ≤ 32768 := by
  unfold deltaAt
  cases d.deltas[k]? with
  | none => rw [Option.elim_none, abs_zero]; norm_num
  | some p => rw [Option.elim_some]; exact int16_abs _

theorem deltaAt_map {c : Pt → Int16} (hc : c = Prod.fst ∨ c = Prod.snd) (g : Int16 → Int16) {d e : DeltaSet}
    (h : e.deltas = d.deltas.map fun p => (g p.1, g p.2)) (k : ℕ) :
    deltaAt c e k = (d.deltas[k]?).elim 0 fun p => ((g (c p)).toInt : ℚ) := by
  unfold deltaAt
  rw [h, List.getElem?_map]
  generalize d.deltas[k]? = o
  rcases hc with rfl | rfl
  · rcases o with _ | p
    · rw [Option.map_none, Option.elim_none, Option.elim_none]
    · rw [Option.map_some, Option.elim_some, Option.elim_some]
  · rcases o with _ | p
    · rw [Option.map_none, Option.elim_none, Option.elim_none]
    · rw [Option.map_some, Option.elim_some, Option.elim_some]

theorem deltaAt_scale {c : Pt → Int16} (hc : c = Prod.fst ∨ c = Prod.snd) (rd : ℚ → ℚ) (f : ℚ) (d : DeltaSet) (k : ℕ) :
    deltaAt c (scaleDeltas rd f d) k = (d.deltas[k]?).elim 0 fun p => ((scaleNum rd f (c p)).toInt : ℚ) :=
  deltaAt_map hc _ rfl k

/-- Pinning one deltaset. -/
theorem pin_one {tags : List Tag} (hn : tags.Nodup) {loc : Loc} (hs : BMap.Sorted loc) (hin : ∀ x ∈ loc, x.1 ∈ tags)
    (hg : ∀ x ∈ loc, OnGrid x.2) {d : DeltaSet} (hd : OnAxes tags.length d) :
    ∃ sup, supportOf tags d loc = .ok sup ∧
      0 ≤ supportScalar rne loc sup ∧ supportScalar rne loc sup ≤ 1 ∧
      (influence loc (pinnedAxes loc (setRegion tags d)) = 0 → supportScalar rne loc sup = 0) ∧
      (supportScalar rne loc sup = 0 → influence loc (pinnedAxes loc (setRegion tags d)) ≤ loc.length / 2 ^ 24) ∧
      Contributes tags loc d (scaleDeltas rne (supportScalar rne loc sup) d) := by
  obtain ⟨sup, h0, h1, h2⟩ := supportOf_ok hd loc hin
  have hloc := coord_grid hs hg
  have hnums : RegionNums OnGrid sup := fun x hx => hd.nums x (h2 x hx)
  have hlen : sup.length = loc.length := by simpa using congrArg List.length h1
  have hp := C43_precision loc sup hloc hnums
  rw [hlen] at hp
  obtain ⟨r0, r1⟩ := C43_range loc sup (fun x hx => by
    obtain ⟨a, b, c⟩ := hnums x hx
    exact ⟨isF32_grid a, isF32_grid b, isF32_grid c⟩)
  have hperm := influence_perm loc (support_perm hn hd hs h1 h2)
  refine ⟨sup, h0, r0, r1, fun h => scalar_zero hloc hnums (hperm.trans h), fun h => ?_, ⟨rfl, rfl, rfl⟩, ?_, ?_, ?_⟩
  · rw [← hperm]
    rw [h] at hp
    have := abs_le.1 hp
    linarith [this.1]
  · simp [scaleDeltas]
  · intro L hL c hc k
    rw [influence_pinned hn hd hs h1 h2 hL, deltaAt_scale hc]
    obtain ⟨i0, i1⟩ := influence_unit L (freeAxes loc (setRegion tags d))
    have hb : (0 : ℚ) ≤ 1 + (loc.length + 1) / 512 := by positivity
    unfold deltaAt
    cases e : d.deltas[k]? with
    | none => simpa using hb
    | some p =>
      simp only [Option.elim_some]
      have := scaleNum_error loc.length r0 r1 hp (c p)
      rw [show ∀ a b w x : ℚ, a * x - w * a * b = a * (x - w * b) from fun a b w x => by ring, abs_mul, abs_of_nonneg i0]
      calc influence L (freeAxes loc (setRegion tags d)) * _ ≤ 1 * _ := mul_le_mul_of_nonneg_right i1 (abs_nonneg _)
        _ ≤ _ := by rw [one_mul]; exact this
  · intro c hc k
    rw [deltaAt_scale hc]
    unfold deltaAt
    generalize d.deltas[k]? = o
    rcases o with _ | p
    · rw [Option.elim_none, Option.elim_none]
    · rw [Option.elim_some, Option.elim_some]
      exact scaleNum_abs r0 r1 (c p)

/-- C46: pinning gives every deltaset, on the axes left free, the contribution it had with the pinned axes at their
coordinates, within `1 + (A + 1) / 512` units for `A` pinned axes; deltasets are left out only for want of influence, and always
where the specification gives the pinned axes none. -/
theorem C46_pin {tags : List Tag} (hn : tags.Nodup) {loc : Loc} (hs : BMap.Sorted loc) (hin : ∀ x ∈ loc, x.1 ∈ tags)
    (hg : ∀ x ∈ loc, OnGrid x.2) : ∀ {ds : List DeltaSet}, (∀ d ∈ ds, OnAxes tags.length d) →
    ∃ out, pinAxes rne tags loc ds = .ok out ∧ Pinned tags loc ds out
  | [], _ => ⟨[], rfl, .nil⟩
  | d :: ds, hd => by
    obtain ⟨out, ho, hp⟩ := C46_pin hn hs hin hg (fun x hx => hd x (List.mem_cons_of_mem _ hx))
    obtain ⟨sup, h0, _, _, hz, hz', hc⟩ := pin_one hn hs hin hg (hd d List.mem_cons_self)
    simp only [pinAxes, h0, ho, Res.ok_bind, Res.pure_eq]
    refine ⟨_, rfl, ?_⟩
    split_ifs with h
    · exact .drop (hz' h) hp
    · refine .keep hc ?_ hp
      exact lt_of_le_of_ne (influence_unit _ _).1 fun e => h (hz e.symm)

/-! ### All axes pinned -/

/-- The sum of what the deltasets say about point `k`. -/
def total (c : Pt → Int16) (ds : List DeltaSet) (k : ℕ) : ℚ := (ds.map fun d => deltaAt c d k).sum

theorem free_nil {tags : List Tag} {loc : Loc} (hall : ∀ t ∈ tags, t ∈ loc.map Prod.fst) {d : DeltaSet}
    (hd : OnAxes tags.length d) : freeAxes loc (setRegion tags d) = [] ∧ pinnedAxes loc (setRegion tags d) = setRegion tags d := by
  have : ∀ x ∈ setRegion tags d, x.1 ∈ loc.map Prod.fst := fun x hx =>
    hall _ (by rw [← hd.tags]; exact List.mem_map_of_mem hx)
  constructor
  · unfold freeAxes
    rw [List.filter_eq_nil_iff]
    intro x hx
    simpa using this x hx
  · unfold pinnedAxes
    rw [List.filter_eq_self]
    intro x hx
    simpa using this x hx

theorem pinned_total {tags : List Tag} {loc : Loc} (hs : BMap.Sorted loc) (hall : ∀ t ∈ tags, t ∈ loc.map Prod.fst)
    {c : Pt → Int16} (hc : c = Prod.fst ∨ c = Prod.snd) (k : ℕ) {ds out : List DeltaSet} (h : Pinned tags loc ds out) :
    (∀ d ∈ ds, OnAxes tags.length d) →
    |total c out k - shift c tags loc ds k| ≤ ds.length * (1 + (loc.length + 1) / 512) := by
  induction h with
  | nil => intro _; simp [total, shift]
  | @keep d d' ds out h1 h2 _ ih =>
    intro hd
    have ih := ih (fun x hx => hd x (List.mem_cons_of_mem _ hx))
    obtain ⟨e1, e2⟩ := free_nil hall (hd d List.mem_cons_self)
    have hx := h1.close loc (agrees_self hs) c hc k
    rw [e1] at hx
    have e3 : influence loc [] = 1 := rfl
    rw [e3, one_mul] at hx
    simp only [total, shift, List.map_cons, List.sum_cons, List.length_cons] at ih ⊢
    push_cast
    have ih := abs_le.1 ih
    have hx := abs_le.1 hx
    rw [abs_le]
    constructor <;> nlinarith [ih.1, ih.2, hx.1, hx.2]
  | @drop d ds out h1 _ ih =>
    intro hd
    have ih := ih (fun x hx => hd x (List.mem_cons_of_mem _ hx))
    obtain ⟨e1, e2⟩ := free_nil hall (hd d List.mem_cons_self)
    rw [e2] at h1
    simp only [total, shift, List.map_cons, List.sum_cons, List.length_cons] at ih ⊢
    push_cast
    have hx : |influence loc (setRegion tags d) * deltaAt c d k| ≤ loc.length / 512 := by
      rw [abs_mul, abs_of_nonneg (influence_unit _ _).1]
      have : (loc.length : ℚ) / 512 = loc.length / 2 ^ 24 * 32768 := by ring
      rw [this]
      exact mul_le_mul h1 (deltaAt_abs _ _ _) (abs_nonneg _) (by positivity)
    have hx := abs_le.1 hx
    have ih := abs_le.1 ih
    have : (loc.length : ℚ) / 512 ≤ 1 + (loc.length + 1) / 512 := by rw [add_div]; linarith
    rw [abs_le]
    constructor <;> nlinarith [ih.1, ih.2, hx.1, hx.2]

/-! ### Merging -/

theorem addDeltas_inv : ∀ {l m r : List Pt}, addDeltas l m = .ok r → r.length = l.length ∧ m.length = l.length ∧
    ∀ (k : ℕ) (p q : Pt), l[k]? = some p → m[k]? = some q → ∃ s, r[k]? = some s ∧ s.1.toInt = p.1.toInt + q.1.toInt ∧
      s.2.toInt = p.2.toInt + q.2.toInt
  | [], [], r, h => by cases h; simp
  | [], _ :: _, _, h => by cases h
  | _ :: _, [], _, h => by cases h
  | a :: l, b :: m, r, h => by
    obtain ⟨x, hx, h⟩ := Res.bind_inv h
    obtain ⟨y, hy, h⟩ := Res.bind_inv h
    obtain ⟨r', hr, h⟩ := Res.bind_inv h
    cases h
    obtain ⟨i1, i2, i3⟩ := addDeltas_inv hr
    refine ⟨by simp [i1], by simp [i2], ?_⟩
    rintro (_ | k) p q hp hq
    · simp only [List.getElem?_cons_zero, Option.some.injEq] at hp hq
      subst hp hq
      exact ⟨(x, y), rfl, addI16_inv hx, addI16_inv hy⟩
    · simp only [List.getElem?_cons_succ] at hp hq ⊢
      exact i3 k p q hp hq

theorem combine_inv {a b s : DeltaSet} (h : combine a b = .ok s) : s.deltas.length = a.deltas.length ∧
    b.deltas.length = a.deltas.length ∧
    ∀ c : Pt → Int16, (c = Prod.fst ∨ c = Prod.snd) → ∀ k, deltaAt c s k = deltaAt c a k + deltaAt c b k := by
  obtain ⟨r, hr, h⟩ := Res.bind_inv h
  cases h
  obtain ⟨h1, h2, h3⟩ := addDeltas_inv hr
  refine ⟨h1, h2, fun c hc k => ?_⟩
  unfold deltaAt
  simp only
  rcases lt_or_ge k a.deltas.length with hk | hk
  · obtain ⟨s, hs, e1, e2⟩ := h3 k a.deltas[k] (b.deltas[k]'(by omega)) (List.getElem?_eq_getElem hk)
      (List.getElem?_eq_getElem (by omega))
    rw [hs, List.getElem?_eq_getElem hk, List.getElem?_eq_getElem (by omega)]
    simp only [Option.elim_some]
    rcases hc with rfl | rfl
    · rw [e1]; push_cast; rfl
    · rw [e2]; push_cast; rfl
  · rw [List.getElem?_eq_none (by omega), List.getElem?_eq_none (by omega), List.getElem?_eq_none (by omega)]
    simp

theorem tentFrom_pinned {pinned : Loc} {d : DeltaSet} : ∀ (ts : List Tag) (ix : ℕ), ix + ts.length ≤ d.peak.length →
    (∀ t ∈ ts, (BMap.get? pinned t).isSome = true) → tentFrom pinned d ix ts = .ok []
  | [], _, _, _ => rfl
  | t :: ts, ix, h, hp => by
    simp only [List.length_cons] at h
    have := tentFrom_pinned (d := d) ts (ix + 1) (by omega) (fun x hx => hp x (List.mem_cons_of_mem _ hx))
    simp only [tentFrom, List.getElem?_eq_getElem (show ix < d.peak.length by omega), Res.unwrap, Res.ok_bind,
      hp t List.mem_cons_self, if_true, this]

theorem get?_one (a : DeltaSet) : BMap.get? [(([] : List (Tag × ℤ × ℤ × ℤ)), a)] [] = some a :=
  BMap.get?_insert_self (m := []) [] a

theorem insert_single (a b : DeltaSet) : BMap.insert [(([] : List (Tag × ℤ × ℤ × ℤ)), a)] [] b = [([], b)] := by
  refine BMap.ext (BMap.insert_sorted (by simp [BMap.Sorted]) _ _) (by simp [BMap.Sorted]) fun k => ?_
  by_cases hk : k = []
  · subst hk
    rw [BMap.get?_insert_self, get?_one]
  · rw [BMap.get?_insert_ne _ hk]
    have : ∀ x : DeltaSet, BMap.get? [(([] : List (Tag × ℤ × ℤ × ℤ)), x)] k = none := fun x => by
      rw [BMap.get?_eq_none (by simp [BMap.Sorted])]
      simp [Ne.symm hk]
    rw [this, this]

theorem mergeAll_pinned {tags : List Tag} {pinned : Loc} (hall : ∀ t ∈ tags, (BMap.get? pinned t).isSome = true) :
    ∀ (ds : List DeltaSet) (a : DeltaSet) {m : List (List (Tag × ℤ × ℤ × ℤ) × DeltaSet)},
    (∀ d ∈ ds, tags.length ≤ d.peak.length) → mergeAll tags pinned ds [([], a)] = .ok m →
    ∃ D, m = [([], D)] ∧ D.deltas.length = a.deltas.length ∧
      ∀ c : Pt → Int16, (c = Prod.fst ∨ c = Prod.snd) → ∀ k, deltaAt c D k = deltaAt c a k + total c ds k
  | [], a, m, _, h => by
    cases h
    exact ⟨a, rfl, rfl, fun c _ k => by simp [total]⟩
  | d :: ds, a, m, hd, h => by
    obtain ⟨tent, ht, h⟩ := Res.bind_inv h
    rw [tentFrom_pinned tags 0 (by have := hd d List.mem_cons_self; omega) hall] at ht
    cases ht
    obtain ⟨m', hm, h⟩ := Res.bind_inv h
    simp only [mergeOne, get?_one] at hm
    obtain ⟨n, hn, hm⟩ := Res.bind_inv hm
    rw [insert_single] at hm
    cases hm
    obtain ⟨D, e1, e2, e3⟩ := mergeAll_pinned hall ds n (fun x hx => hd x (List.mem_cons_of_mem _ hx)) h
    obtain ⟨n1, _, n3⟩ := combine_inv hn
    refine ⟨D, e1, e2.trans n1, fun c hc k => ?_⟩
    rw [e3 c hc k, n3 c hc k]
    simp only [total, List.map_cons, List.sum_cons]
    ring

/-! ### Moving points -/

theorem movePoints_inv : ∀ {ps : List Point} {ds : List Pt} {r : List Point × List Pt}, movePoints ps ds = .ok r →
    r.1.length = ps.length ∧ r.2 = ds.drop ps.length ∧ ∀ (k : ℕ) (p : Point), ps[k]? = some p → ∃ p' d, r.1[k]? = some p' ∧
      ds[k]? = some d ∧ p'.x.toInt = p.x.toInt + d.1.toInt ∧ p'.y.toInt = p.y.toInt + d.2.toInt ∧ p'.onCurve = p.onCurve
  | [], ds, r, h => by cases h; simp
  | _ :: _, [], _, h => by cases h
  | p :: ps, d :: ds, r, h => by
    obtain ⟨x, hx, h⟩ := Res.bind_inv h
    obtain ⟨y, hy, h⟩ := Res.bind_inv h
    obtain ⟨r', hr, h⟩ := Res.bind_inv h
    cases h
    obtain ⟨h1, h2, h3⟩ := movePoints_inv hr
    refine ⟨by simp [h1], by simp [h2], ?_⟩
    rintro (_ | k) q hq
    · simp only [List.getElem?_cons_zero, Option.some.injEq] at hq
      subst hq
      exact ⟨_, d, rfl, rfl, addI16_inv hx, addI16_inv hy, rfl⟩
    · simp only [List.getElem?_cons_succ] at hq ⊢
      exact h3 k q hq

theorem moveContours_inv : ∀ {cs : List (List Point)} {ds : List Pt} {cs' : List (List Point)}, moveContours cs ds = .ok cs' →
    cs'.map List.length = cs.map List.length ∧ ∀ (k : ℕ) (p : Point), cs.flatten[k]? = some p → ∃ p' d,
      cs'.flatten[k]? = some p' ∧ ds[k]? = some d ∧ p'.x.toInt = p.x.toInt + d.1.toInt ∧ p'.y.toInt = p.y.toInt + d.2.toInt ∧
      p'.onCurve = p.onCurve
  | [], ds, r, h => by cases h; simp
  | c :: cs, ds, cs', h => by
    obtain ⟨r, hr, h⟩ := Res.bind_inv h
    obtain ⟨r', hr', h⟩ := Res.bind_inv h
    cases h
    obtain ⟨h1, h2, h3⟩ := movePoints_inv hr
    obtain ⟨i1, i2⟩ := moveContours_inv hr'
    refine ⟨by simp [h1, i1], fun k p hp => ?_⟩
    simp only [List.flatten_cons] at hp ⊢
    rcases lt_or_ge k c.length with hk | hk
    · rw [List.getElem?_append_left hk] at hp
      rw [List.getElem?_append_left (by omega)]
      exact h3 k p hp
    · rw [List.getElem?_append_right hk] at hp
      rw [List.getElem?_append_right (by omega), h1]
      obtain ⟨p', d, e1, e2, e3⟩ := i2 _ _ hp
      rw [h2, List.getElem?_drop, show c.length + (k - c.length) = k by omega] at e2
      exact ⟨p', d, e1, e2, e3⟩


/-! ### Glyphs -/

/-- Limits which pin the axes at a location. -/
def pins (loc : Loc) : Limits := loc.map fun x => (x.1, .full x.2)

theorem pins_full (loc : Loc) : (pins loc).full = loc := by
  induction loc with
  | nil => rfl
  | cons x l ih =>
    unfold pins Limits.full at ih ⊢
    rw [List.map_cons, List.filterMap_cons]
    simp only [ih]

theorem pins_ranges (loc : Loc) : (pins loc).ranges = [] := by
  induction loc with
  | nil => rfl
  | cons x l ih =>
    unfold pins Limits.ranges at ih ⊢
    rw [List.map_cons, List.filterMap_cons]
    simp only [ih]

/-- `g'` is `g` with every point moved by what the deltasets say about it at `loc`, up to `1 + (A + 1) / 512` units for each of
them, where `A` is the number of axes. -/
structure Moved (tags : List Tag) (loc : Loc) (ds : List DeltaSet) (g g' : Glyph) : Prop where
  rest : g' = { g with contours := g'.contours }
  counts : g'.contours.map List.length = g.contours.map List.length
  points : ∀ (k : ℕ) (p : Point), g.contours.flatten[k]? = some p → ∃ p', g'.contours.flatten[k]? = some p' ∧
    p'.onCurve = p.onCurve ∧
    |(p'.x.toInt - p.x.toInt : ℚ) - shift Prod.fst tags loc ds k| ≤ ds.length * (1 + (loc.length + 1) / 512) ∧
    |(p'.y.toInt - p.y.toInt : ℚ) - shift Prod.snd tags loc ds k| ≤ ds.length * (1 + (loc.length + 1) / 512)

theorem loc_pinned {tags : List Tag} {loc : Loc} (hs : BMap.Sorted loc) (hall : ∀ t ∈ tags, t ∈ loc.map Prod.fst) :
    ∀ t ∈ tags, (BMap.get? loc t).isSome = true := by
  intro t ht
  obtain ⟨x, hx, e⟩ := List.mem_map.1 (hall t ht)
  rw [(BMap.get?_eq_some hs (v := x.2)).2 (by rw [← e]; exact hx)]
  rfl

theorem pinned_peaks {tags : List Tag} {loc : Loc} {ds out : List DeltaSet} (h : Pinned tags loc ds out) :
    (∀ d ∈ ds, OnAxes tags.length d) → ∀ d ∈ out, tags.length ≤ d.peak.length := by
  induction h with
  | nil => simp
  | @keep d d' ds out h1 _ _ ih =>
    intro hd x hx
    rcases List.mem_cons.1 hx with rfl | hx
    · rw [h1.tuples.2.1, (hd d List.mem_cons_self).peak]
    · exact ih (fun y hy => hd y (List.mem_cons_of_mem _ hy)) x hx
  | drop _ _ ih => exact fun hd => ih fun y hy => hd y (List.mem_cons_of_mem _ hy)

/-- What is merged into the default when every axis is pinned. -/
theorem mergeAll_full {tags : List Tag} {pinned : Loc} (hall : ∀ t ∈ tags, (BMap.get? pinned t).isSome = true)
    {out : List DeltaSet} (hp : ∀ d ∈ out, tags.length ≤ d.peak.length) {m : List (List (Tag × ℤ × ℤ × ℤ) × DeltaSet)}
    (h : mergeAll tags pinned out [] = .ok m) : (out = [] ∧ m = []) ∨ ∃ D, m = [([], D)] ∧
      (∀ d ∈ out.head?, D.deltas.length = d.deltas.length) ∧
      ∀ c : Pt → Int16, (c = Prod.fst ∨ c = Prod.snd) → ∀ k, deltaAt c D k = total c out k := by
  cases out with
  | nil => left; cases h; exact ⟨rfl, rfl⟩
  | cons d ds =>
    right
    obtain ⟨tent, ht, h⟩ := Res.bind_inv h
    rw [tentFrom_pinned tags 0 (by have := hp d List.mem_cons_self; omega) hall] at ht
    cases ht
    obtain ⟨m', hm, h⟩ := Res.bind_inv h
    have : BMap.get? ([] : List (List (Tag × ℤ × ℤ × ℤ) × DeltaSet)) [] = none := rfl
    simp only [mergeOne, this] at hm
    cases hm
    obtain ⟨D, e1, e2, e3⟩ := mergeAll_pinned hall ds d (fun x hx => hp x (List.mem_cons_of_mem _ hx)) h
    refine ⟨D, e1, by simpa using e2, fun c hc k => ?_⟩
    rw [e3 c hc k]
    simp [total]

/-- C46: with every axis pinned, if the instancer returns, it has moved every point of the outline by what the deltasets of the
glyph say at that location, within `1 + (A + 1) / 512` units for each deltaset, kept all else, and the glyph does not vary any more. -/
theorem C46_glyph {tags : List Tag} (hn : tags.Nodup) (hne : tags ≠ []) {loc : Loc} (hs : BMap.Sorted loc)
    (htags : ∀ t, t ∈ tags ↔ t ∈ loc.map Prod.fst) (hg : ∀ x ∈ loc, OnGrid x.2) {ds : List DeltaSet}
    (hd : ∀ d ∈ ds, OnAxes tags.length d) {g g' : Glyph} {v : Option (List DeltaSet)}
    (h : instantiateGlyph rne tags (pins loc) g (some ds) = .ok (g', v)) : v = none ∧ Moved tags loc ds g g' := by
  obtain ⟨out, ho, hp⟩ := C46_pin hn hs (fun x hx => (htags _).2 (List.mem_map_of_mem hx)) hg hd
  have hle : loc.isEmpty = false := by
    cases loc with
    | nil =>
      cases tags with
      | nil => exact absurd rfl hne
      | cons t ts => exact absurd ((htags t).1 List.mem_cons_self) (by simp)
    | cons => rfl
  have hall := fun t ht => (htags t).1 ht
  obtain ⟨r, hr, h⟩ := Res.bind_inv h
  obtain ⟨cs, hcs, h⟩ := Res.bind_inv h
  rw [Res.pure_eq, Res.ok.injEq, Prod.mk.injEq] at h
  unfold instantiateData at hr
  simp only [pinSome, pins_full, pins_ranges, hle, ho, Res.ok_bind, Bool.false_eq_true, if_false, List.isEmpty_nil, if_true] at hr
  obtain ⟨m, hm, hr⟩ := Res.bind_inv hr
  rw [Res.pure_eq, Res.ok.injEq] at hr
  have hmf := mergeAll_full (loc_pinned hs hall) (pinned_peaks hp hd) hm
  obtain ⟨hc1, hc2⟩ := moveContours_inv hcs
  obtain ⟨rfl, rfl⟩ := h
  subst hr
  refine ⟨?_, rfl, hc1, ?_⟩
  · rcases hmf with ⟨_, rfl⟩ | ⟨D, rfl, _⟩
    · simp
    · simp
  · intro k p hk
    obtain ⟨p', d, e1, e2, e3, e4, e5⟩ := hc2 k p hk
    refine ⟨p', e1, e5, ?_⟩
    rcases hmf with ⟨_, rfl⟩ | ⟨D, rfl, _, hD⟩
    · simp [BMap.get?] at e2
    · rw [get?_one] at e2
      simp only [Option.elim_some] at e2
      have hx := hD Prod.fst (.inl rfl) k
      have hy := hD Prod.snd (.inr rfl) k
      unfold deltaAt at hx hy
      rw [e2, Option.elim_some] at hx hy
      have b1 := pinned_total hs hall (.inl rfl) k hp hd (c := Prod.fst)
      have b2 := pinned_total hs hall (.inr rfl) k hp hd (c := Prod.snd)
      rw [e3, e4]
      push_cast
      rw [add_sub_cancel_left, add_sub_cancel_left, hx, hy]
      exact ⟨b1, b2⟩

end FT.Props
