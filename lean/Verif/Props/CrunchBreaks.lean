import Verif.Props.CrunchOpt
import Mathlib.Data.List.Destutter

/-!
C102: where the optimiser of `fontcrunch` may end its curves, and what it makes of a stretch in all.
-/

namespace FT.Props
open FT FT.Glyf FT.Crunch

/-! ### Specification -/

/-- The value of a table at a place between its entries. -/
def TableAt (l : List Pt) (s : ℚ) (p : Pt) : Prop :=
  ∃ a b : Pt, l[⌊s⌋.toNat]? = some a ∧ l[⌊s⌋.toNat + 1]? = some b ∧
    p = ⟨(1 - Int.fract s) * a.x + Int.fract s * b.x, (1 - Int.fract s) * a.y + Int.fract s * b.y⟩

/-- The nearest half, the one further from zero if there are two. -/
def NearestHalf (x h : ℚ) : Prop := (∃ z : ℤ, h = z / 2) ∧ |x - h| ≤ 1 / 4 ∧ (|x - h| = 1 / 4 → |x| < |h|)

/-- Of tenths of a unit along the curve, what is found there, in halves. -/
def Sampled (t : Thetas) (n : Nat) (samples : List Pt) : Prop :=
  samples.length = n + 1 ∧ ∀ (i : Nat) (p : Pt), samples[i]? = some p → ∃ o : Pt, TableAt t.xys (t.arclen * i / n) o ∧ NearestHalf o.x p.x ∧ NearestHalf o.y p.y

/-! ### Rounding -/

theorem roundAway_near (x : ℚ) : |x - roundAway x| ≤ 1 / 2 ∧ (|x - roundAway x| = 1 / 2 → |x| < |(roundAway x : ℚ)|) := by
  unfold roundAway
  have key : ∀ y : ℚ, 0 ≤ y → |y - ⌊y + 1 / 2⌋| ≤ 1 / 2 ∧ (|y - ⌊y + 1 / 2⌋| = 1 / 2 → |y| < |((⌊y + 1 / 2⌋ : ℤ) : ℚ)|) := by
    intro y hy
    have h1 := Int.floor_le (y + 1 / 2)
    have h2 := Int.lt_floor_add_one (y + 1 / 2)
    have h3 : (0 : ℚ) ≤ ((⌊y + 1 / 2⌋ : ℤ) : ℚ) := by
      have : (0 : ℤ) ≤ ⌊y + 1 / 2⌋ := Int.floor_nonneg.mpr (by linarith)
      exact_mod_cast this
    refine ⟨abs_le.mpr ⟨by linarith, by linarith⟩, ?_⟩
    intro h
    rw [abs_of_nonneg hy, abs_of_nonneg h3]
    rcases abs_cases (y - ((⌊y + 1 / 2⌋ : ℤ) : ℚ)) with ⟨e, _⟩ | ⟨e, _⟩ <;> rw [e] at h <;> linarith
  split
  · next h => exact key x h
  · next h =>
    obtain ⟨k1, k2⟩ := key (-x) (by linarith)
    have e : x - ((-⌊-x + 1 / 2⌋ : ℤ) : ℚ) = -(-x - ((⌊-x + 1 / 2⌋ : ℤ) : ℚ)) := by push_cast; ring
    rw [e, abs_neg]
    refine ⟨k1, fun h => ?_⟩
    have := k2 h
    push_cast
    rw [abs_neg] at this ⊢
    exact this

theorem nearestHalf (x : ℚ) : NearestHalf x (1 / 2 * roundAway (2 * x)) := by
  obtain ⟨h1, h2⟩ := roundAway_near (2 * x)
  have e : 2 * x - roundAway (2 * x) = 2 * (x - 1 / 2 * roundAway (2 * x)) := by ring
  rw [e, abs_mul, abs_of_pos (by norm_num : (0 : ℚ) < 2)] at h1 h2
  refine ⟨⟨roundAway (2 * x), by ring⟩, by linarith, ?_⟩
  intro h
  have := h2 (by linarith)
  rw [abs_mul, abs_of_pos (by norm_num : (0 : ℚ) < 2)] at this
  rw [abs_mul, abs_of_pos (by norm_num : (0 : ℚ) < 1 / 2)]
  linarith

/-! ### The table -/

theorem entryAt_table {l : List Pt} {s : ℚ} {p : Pt} (h : entryAt l s = .ok p) (hl : ⌊s⌋.toNat + 1 ≤ l.length) : TableAt l s p := by
  unfold entryAt at h
  simp only at h
  rw [if_neg (by omega)] at h
  split at h
  · next a b ha hb =>
    cases h
    refine ⟨a, b, ha, hb, ?_⟩
    unfold lerp
    rw [← Int.self_sub_floor]
    congr 1 <;> ring
  · cases h

theorem entryAt_total {l : List Pt} {s : ℚ} (hl : ⌊s⌋.toNat + 2 ≤ l.length) : ∃ p, entryAt l s = .ok p := by
  unfold entryAt
  simp only
  rw [if_neg (by omega), List.getElem?_eq_getElem (by omega : ⌊s⌋.toNat < l.length), List.getElem?_eq_getElem (by omega : ⌊s⌋.toNat + 1 < l.length)]
  exact ⟨_, rfl⟩

/-! ### The breaks -/

/-- A break stands for the sample at its place. -/
def BreakOf (t : Thetas) (n i : Nat) (b : Break) : Prop :=
  b.s = t.arclen * i / n ∧ ∃ o : Pt, TableAt t.xys b.s o ∧ b.xy = roundHalf o ∧ entryAt t.dirs b.s = .ok b.dir

theorem breakLoop_spec (t : Thetas) (n : Nat) : ∀ (k : Nat) (lastd : ℚ) (bs r : List Break), k ≤ n + 1 →
    (∀ b ∈ bs, HalfPt b.xy ∧ ∃ i, i < n + 1 - k ∧ BreakOf t n i b) → breakLoop t n k lastd bs = .ok (some r) →
    (∀ b ∈ r, HalfPt b.xy ∧ ∃ i, i < n + 1 ∧ BreakOf t n i b) ∧
    ∃ os : List Pt, os.length = k ∧ (∀ j o, os[j]? = some o → TableAt t.xys (t.arclen * (n + 1 - k + j : Nat) / n) o) ∧
      (match bs with
        | [] => r.reverse.map Break.xy = (os.map roundHalf).destutter (· ≠ ·)
        | b :: rest => r.reverse.map Break.xy = rest.reverse.map Break.xy ++ (os.map roundHalf).destutter' (· ≠ ·) b.xy)
  | 0, lastd, bs, r, _, hb, h => by
    unfold breakLoop at h
    cases h
    refine ⟨hb, [], rfl, by simp, ?_⟩
    cases bs with
    | nil => rfl
    | cons b rest => simp
  | k + 1, lastd, bs, r, hk, hb, h => by
    unfold breakLoop at h
    simp only at h
    split at h
    · cases h
    next hlen =>
    obtain ⟨o, h1, h⟩ := Res.bind_inv h
    have ho : TableAt t.xys (t.arclen * (n + 1 - (k + 1) : Nat) / n) o := entryAt_table h1 (by omega)
    have hcons : ∀ {os : List Pt}, (∀ j o, os[j]? = some o → TableAt t.xys (t.arclen * (n + 1 - k + j : Nat) / n) o) →
        ∀ j o', (o :: os)[j]? = some o' → TableAt t.xys (t.arclen * (n + 1 - (k + 1) + j : Nat) / n) o' := by
      intro os hos j o' hj
      cases j with
      | zero =>
        cases hj
        exact ho
      | succ j =>
        have := hos j o' hj
        rw [show n + 1 - (k + 1) + (j + 1) = n + 1 - k + j by omega]
        exact this
    have hnew : ∀ {dir : Pt}, entryAt t.dirs (t.arclen * (n + 1 - (k + 1) : Nat) / n) = .ok dir →
        HalfPt (⟨t.arclen * (n + 1 - (k + 1) : Nat) / n, roundHalf o, dir⟩ : Break).xy ∧
          ∃ i, i < n + 1 - k ∧ BreakOf t n i ⟨t.arclen * (n + 1 - (k + 1) : Nat) / n, roundHalf o, dir⟩ := fun hd =>
      ⟨roundHalf_half o, n + 1 - (k + 1), by omega, rfl, o, ho, rfl, hd⟩
    have hold : ∀ b ∈ bs, HalfPt b.xy ∧ ∃ i, i < n + 1 - k ∧ BreakOf t n i b := fun b hm => by
      obtain ⟨g1, i, g2, g3⟩ := hb b hm
      exact ⟨g1, i, by omega, g3⟩
    cases bs with
    | nil =>
      simp only at h
      obtain ⟨dir, h2, h⟩ := Res.bind_inv h
      obtain ⟨g1, os, g2, g3, g4⟩ := breakLoop_spec t n k _ _ r (by omega) (by
        intro b hm
        rw [List.mem_singleton] at hm
        subst hm
        exact hnew h2) h
      refine ⟨g1, o :: os, by simp [g2], hcons g3, ?_⟩
      simp only at g4 ⊢
      rw [g4]
      rfl
    | cons b rest =>
      simp only at h
      have hbq := half_quarters (hb b (by simp)).1
      split at h
      · next hc =>
        obtain ⟨dir, h2, h⟩ := Res.bind_inv h
        obtain ⟨g1, os, g2, g3, g4⟩ := breakLoop_spec t n k _ _ r (by omega) (by
          intro x hm
          rcases List.mem_cons.mp hm with rfl | hm
          · exact hnew h2
          · exact hold x hm) h
        refine ⟨g1, o :: os, by simp [g2], hcons g3, ?_⟩
        have hne : b.xy ≠ roundHalf o := by
          intro e
          rw [Bool.not_eq_true', ← Bool.not_eq_true] at hc
          exact hc ((close_quarters (half_quarters (roundHalf_half o)) hbq).mpr e.symm)
        simp only at g4 ⊢
        rw [g4, List.map_cons, List.destutter'_cons_pos _ hne]
        simp
      · next hc =>
        have he : roundHalf o = b.xy := by
          rw [Bool.not_eq_true', Bool.not_eq_false] at hc
          exact (close_quarters (half_quarters (roundHalf_half o)) hbq).mp hc
        have hneg : ¬ (b.xy ≠ roundHalf o) := fun h => h he.symm
        split at h
        · obtain ⟨dir, h2, h⟩ := Res.bind_inv h
          obtain ⟨g1, os, g2, g3, g4⟩ := breakLoop_spec t n k _ _ r (by omega) (by
            intro x hm
            rcases List.mem_cons.mp hm with rfl | hm
            · exact hnew h2
            · exact hold x (by simp [hm])) h
          refine ⟨g1, o :: os, by simp [g2], hcons g3, ?_⟩
          simp only at g4 ⊢
          rw [g4, List.map_cons, List.destutter'_cons_neg _ hneg, he]
        · obtain ⟨g1, os, g2, g3, g4⟩ := breakLoop_spec t n k _ _ r (by omega) hold h
          refine ⟨g1, o :: os, by simp [g2], hcons g3, ?_⟩
          simp only at g4 ⊢
          rw [g4, List.map_cons, List.destutter'_cons_neg _ hneg]

theorem breakLoop_total (t : Thetas) (n : Nat) (ha : 0 ≤ t.arclen) (hx : ⌊t.arclen⌋.toNat + 2 ≤ t.xys.length) (hd : ⌊t.arclen⌋.toNat + 2 ≤ t.dirs.length) :
    ∀ (k : Nat) (lastd : ℚ) (bs : List Break), ∃ r, breakLoop t n k lastd bs = .ok (some r)
  | 0, _, bs => ⟨bs, rfl⟩
  | k + 1, lastd, bs => by
    have hs : ⌊t.arclen * (n + 1 - (k + 1) : Nat) / n⌋.toNat ≤ ⌊t.arclen⌋.toNat := by
      refine Int.toNat_le_toNat (Int.floor_le_floor ?_)
      rcases Nat.eq_zero_or_pos n with rfl | hn
      · simpa using ha
      · have hn' : (0 : ℚ) < n := by exact_mod_cast hn
        rw [div_le_iff₀ hn']
        refine mul_le_mul_of_nonneg_left ?_ ha
        exact_mod_cast (by omega : n + 1 - (k + 1) ≤ n)
    obtain ⟨o, ho⟩ := entryAt_total (l := t.xys) (s := t.arclen * (n + 1 - (k + 1) : Nat) / n) (by omega)
    obtain ⟨d, hd⟩ := entryAt_total (l := t.dirs) (s := t.arclen * (n + 1 - (k + 1) : Nat) / n) (by omega)
    unfold breakLoop
    simp only
    rw [if_neg (by omega), ho, Res.ok_bind]
    cases bs with
    | nil =>
      simp only
      rw [hd, Res.ok_bind]
      exact breakLoop_total t n ha hx ‹_› k _ _
    | cons b rest =>
      simp only
      rw [hd]
      split
      · exact breakLoop_total t n ha hx ‹_› k _ _
      · split
        · exact breakLoop_total t n ha hx ‹_› k _ _
        · exact breakLoop_total t n ha hx ‹_› k _ _

/-- **C102** (the breaks). Where the tables are long enough, the curves may end at the samples, rounded to halves, one after the other but
none twice in a row; a break has the direction of the table at its place. -/
theorem C102_breaks (t : Thetas) (n : Nat) (hn : (n : ℤ) = roundAway (10 * t.arclen)) (h0 : n ≠ 0) (ha : 0 ≤ t.arclen)
    (hx : ⌊t.arclen⌋.toNat + 2 ≤ t.xys.length) (hd : ⌊t.arclen⌋.toNat + 2 ≤ t.dirs.length) :
    ∃ (bs : List Break) (samples : List Pt), findBreaks t = .ok (some bs) ∧ Sampled t n samples ∧ bs.map Break.xy = samples.destutter (· ≠ ·) ∧
      ∀ b ∈ bs, HalfPt b.xy ∧ (∃ i : Nat, i ≤ n ∧ b.s = t.arclen * i / n ∧ samples[i]? = some b.xy) ∧ TableAt t.dirs b.s b.dir := by
  obtain ⟨r, hr⟩ := breakLoop_total t n ha hx hd (n + 1) 0 []
  obtain ⟨g1, os, g2, g3, g4⟩ := breakLoop_spec t n (n + 1) 0 [] r (Nat.le_refl _) (by simp) hr
  simp only [Nat.sub_self, Nat.zero_add] at g3
  refine ⟨r.reverse, os.map roundHalf, ?_, ⟨by simp [g2], ?_⟩, g4, ?_⟩
  · unfold findBreaks
    simp only
    rw [show (roundAway (10 * t.arclen)).toNat = n by omega, if_neg h0, hr]
    rfl
  · intro i p h
    rw [List.getElem?_map, Option.map_eq_some_iff] at h
    obtain ⟨o, ho, rfl⟩ := h
    exact ⟨o, g3 i o ho, nearestHalf o.x, nearestHalf o.y⟩
  · intro b hb
    obtain ⟨k1, i, k2, k3, o, k4, k5, k6⟩ := g1 b (List.mem_reverse.mp hb)
    refine ⟨k1, ⟨i, by omega, k3, ?_⟩, ?_⟩
    · obtain ⟨o', ho'⟩ : ∃ o', os[i]? = some o' := ⟨_, List.getElem?_eq_getElem (by omega)⟩
      have h' := g3 i o' ho'
      rw [← k3] at h'
      have : o' = o := by
        obtain ⟨a, b, e1, e2, rfl⟩ := k4
        obtain ⟨a', b', e1', e2', rfl⟩ := h'
        rw [e1] at e1'
        rw [e2] at e2'
        cases e1'
        cases e2'
        rfl
      rw [List.getElem?_map, ho', this, k5]
      rfl
    · refine entryAt_table k6 ?_
      have hs : ⌊b.s⌋.toNat ≤ ⌊t.arclen⌋.toNat := by
        refine Int.toNat_le_toNat (Int.floor_le_floor ?_)
        have hn' : (0 : ℚ) < n := by exact_mod_cast Nat.pos_of_ne_zero h0
        rw [k3, div_le_iff₀ hn']
        refine mul_le_mul_of_nonneg_left ?_ ha
        exact_mod_cast (by omega : i ≤ n)
      omega

/-! ### Tabulating -/

variable {unit : Pt → Pt} {step : Quad → Nat → ℚ}

/-- What the table being filled is like, with arc length `y`. -/
def FillOk (x : Filling × ℚ) : Prop :=
  x.1.xys.length = x.1.ix ∧ x.1.dirs.length = x.1.ix ∧ 0 ≤ x.2 ∧ (x.1.ix : ℤ) ≤ ⌊x.2⌋ + 1

theorem fill_ix (limit s : ℚ) (xy d : Pt) (f : Filling) : ((fill unit limit s xy d f).ix : ℤ) = max (f.ix : ℤ) (⌊limit⌋ + 1) := by
  unfold fill
  simp only [List.length_map, List.length_range']
  push_cast
  omega

theorem fill_lengths (limit s : ℚ) (xy d : Pt) (f : Filling) (h1 : f.xys.length = f.ix) (h2 : f.dirs.length = f.ix) :
    (fill unit limit s xy d f).xys.length = (fill unit limit s xy d f).ix ∧ (fill unit limit s xy d f).dirs.length = (fill unit limit s xy d f).ix := by
  unfold fill
  simp [h1, h2]

theorem fill_prefix (limit s : ℚ) (xy d : Pt) (f : Filling) : f.xys <+: (fill unit limit s xy d f).xys := ⟨_, rfl⟩

theorem fillStep_ok (hstep : ∀ q i, 0 ≤ step q i) {q : Quad} {x : Filling × ℚ} {i : Nat} (h : FillOk x) : FillOk (fillStep unit step q x i) := by
  obtain ⟨h1, h2, h3, h4⟩ := h
  unfold fillStep FillOk
  simp only
  obtain ⟨l1, l2⟩ := fill_lengths (unit := unit) x.2 x.2 (q.at (i / 100)) (q.deriv (i / 100)) x.1 h1 h2
  refine ⟨l1, l2, add_nonneg h3 (hstep q i), ?_⟩
  rw [fill_ix]
  have : ⌊x.2⌋ ≤ ⌊x.2 + step q i⌋ := Int.floor_le_floor (by linarith [hstep q i])
  omega

theorem steps_ok (hstep : ∀ q i, 0 ≤ step q i) (q : Quad) : ∀ (l : List Nat) (x : Filling × ℚ), FillOk x →
    FillOk (l.foldl (fillStep unit step q) x) ∧ x.1.xys <+: (l.foldl (fillStep unit step q) x).1.xys ∧
      (l.foldl (fillStep unit step q) x).2 = x.2 + (l.map (step q)).sum
  | [], x, h => ⟨h, List.prefix_rfl, by simp⟩
  | i :: l, x, h => by
    obtain ⟨g1, g2, g3⟩ := steps_ok hstep q l _ (fillStep_ok (unit := unit) (q := q) (i := i) hstep h)
    refine ⟨g1, List.IsPrefix.trans ?_ g2, ?_⟩
    · unfold fillStep
      exact fill_prefix (unit := unit) _ _ _ (q.deriv (i / 100)) _
    · rw [List.foldl_cons, g3]
      simp only [fillStep, List.map_cons, List.sum_cons]
      ring

theorem quads_ok (hstep : ∀ q i, 0 ≤ step q i) : ∀ (l : List Quad) (x : Filling × ℚ), FillOk x →
    FillOk (l.foldl (fillQuad unit step) x) ∧ x.1.xys <+: (l.foldl (fillQuad unit step) x).1.xys ∧
      (l.foldl (fillQuad unit step) x).2 = x.2 + (l.map fun q => ((List.range 100).map (step q)).sum).sum
  | [], x, h => ⟨h, List.prefix_rfl, by simp⟩
  | q :: l, x, h => by
    obtain ⟨k1, k2, k3⟩ := steps_ok (unit := unit) hstep q (List.range 100) x h
    obtain ⟨g1, g2, g3⟩ := quads_ok hstep l _ k1
    refine ⟨g1, k2.trans g2, ?_⟩
    rw [List.foldl_cons]
    unfold fillQuad at g3 ⊢
    rw [g3, k3, List.map_cons, List.sum_cons]
    ring

/-- **C102** (the table). If no step has a negative length, the tables have one entry for each whole unit of length up to two beyond the
end, and begin where the stretch begins; the length is the sum of the steps. -/
theorem C102_table (hstep : ∀ q i, 0 ≤ step q i) (q : Quad) (l : List Quad) :
    ∃ t, Thetas.new unit step (q :: l) = .ok t ∧ t.arclen = ((q :: l).map fun q => ((List.range 100).map (step q)).sum).sum ∧ 0 ≤ t.arclen ∧
      (t.xys.length : ℤ) = ⌊t.arclen⌋ + 3 ∧ t.dirs.length = t.xys.length ∧ t.xys.head? = some q.p0 := by
  have h0 : FillOk ((⟨0, [], [], ⟨0, 0⟩, ⟨0, 0⟩, -1⟩, 0) : Filling × ℚ) := ⟨rfl, rfl, le_refl _, by norm_num⟩
  obtain ⟨g1, g2, g3⟩ := quads_ok (unit := unit) hstep (q :: l) _ h0
  obtain ⟨qn, hq⟩ : ∃ qn, (q :: l).getLast? = some qn := ⟨_, List.getLast?_eq_getLast_of_ne_nil (by simp)⟩
  have hhead : ∃ rest, ((q :: l).foldl (fillQuad unit step) (⟨0, [], [], ⟨0, 0⟩, ⟨0, 0⟩, -1⟩, 0)).1.xys = q.p0 :: rest := by
    have e : (fillStep unit step q (⟨0, [], [], ⟨0, 0⟩, ⟨0, 0⟩, -1⟩, 0) 0).1.xys = [q.p0] := by
      unfold fillStep fill
      simp only [Int.floor_zero]
      norm_num [Quad.at, lerp, List.range']
    have k0 := fillStep_ok (unit := unit) (q := q) (i := 0) hstep h0
    obtain ⟨k1, k2, _⟩ := steps_ok (unit := unit) hstep q (List.range' 1 99) _ k0
    obtain ⟨_, k3, _⟩ := quads_ok (unit := unit) hstep l _ k1
    have k4 := k2.trans k3
    rw [e] at k4
    obtain ⟨rest, hr⟩ := k4
    refine ⟨rest, ?_⟩
    rw [List.foldl_cons]
    unfold fillQuad at hr ⊢
    rw [List.range_eq_range', show List.range' 0 100 = 0 :: List.range' 1 99 from rfl, List.foldl_cons]
    rw [List.range_eq_range'] at hr
    exact hr.symm
  unfold Thetas.new
  generalize hx : (q :: l).foldl (fillQuad unit step) (⟨0, [], [], ⟨0, 0⟩, ⟨0, 0⟩, -1⟩, 0) = x at g1 g2 g3 hhead
  obtain ⟨f, arclen⟩ := x
  simp only [hq]
  obtain ⟨m1, m2, m3, m4⟩ := g1
  obtain ⟨l1, l2⟩ := fill_lengths (unit := unit) (arclen + 2) arclen qn.p2 (qn.deriv 1) f m1 m2
  refine ⟨_, rfl, by simpa using g3, m3, ?_, by rw [l1, l2], ?_⟩
  · simp only at m4 ⊢
    rw [l1, fill_ix, show arclen + 2 = arclen + ((2 : ℤ) : ℚ) by norm_num, Int.floor_add_intCast]
    omega
  · obtain ⟨rest, hr⟩ := hhead
    obtain ⟨more, hm⟩ := fill_prefix (unit := unit) (arclen + 2) arclen qn.p2 (qn.deriv 1) f
    simp only at hr
    simp only
    rw [← hm, hr]
    rfl

/-! ### In all -/

variable {F : Type} {S : Scores F} {measure : Thetas → ℚ → ℚ → Quad → Res F}

/-- The length of a stretch: the sum of the steps along it. -/
def stretchLength (step : Quad → Nat → ℚ) (qs : List Quad) : ℚ := (qs.map fun q => ((List.range 100).map (step q)).sum).sum

theorem roundAway_zero {x : ℚ} (h : 0 ≤ x) : roundAway x = 0 ↔ x < 1 / 2 := by
  unfold roundAway
  rw [if_pos h, Int.floor_eq_iff]
  constructor
  · rintro ⟨_, h⟩
    push_cast at h
    linarith
  · intro h'
    exact ⟨by push_cast; linarith, by push_cast; linarith⟩

theorem roundAway_nonneg {x : ℚ} (h : 0 ≤ x) : 0 ≤ roundAway x := by
  unfold roundAway
  rw [if_pos h]
  exact Int.floor_nonneg.mpr (by linarith)

theorem roundHalf_whole {p : Pt} (h : WholePt p) : roundHalf p = p := by
  obtain ⟨a, b, rfl⟩ := h
  unfold roundHalf
  simp only
  rw [show (2 : ℚ) * a = ((2 * a : ℤ) : ℚ) by push_cast; ring, show (2 : ℚ) * b = ((2 * b : ℤ) : ℚ) by push_cast; ring, roundAway_int, roundAway_int]
  push_cast
  congr 1 <;> ring

theorem destutter'_head (a : Pt) : ∀ l : List Pt, (l.destutter' (· ≠ ·) a).head? = some a
  | [] => rfl
  | b :: l => by
    rw [List.destutter'_cons]
    split
    · rfl
    · exact destutter'_head a l

theorem destutter'_last (a : Pt) : ∀ l : List Pt, (l.destutter' (· ≠ ·) a).getLast? = (a :: l).getLast?
  | [] => rfl
  | b :: l => by
    rw [List.destutter'_cons]
    split
    · rw [List.getLast?_cons, destutter'_last b l, List.getLast?_cons_cons, List.getLast?_cons]
      rfl
    · next h =>
      have : a = b := by simpa using h
      subst this
      rw [destutter'_last a l, List.getLast?_cons_cons]

/-- **C102** (a stretch). What the optimiser makes of a stretch that begins at whole coordinates and is at least a twentieth of a unit long,
if measuring does not panic: curves from where the stretch begins to what the table says is its end, in halves; each begins where the one
before ends. Shorter stretches are declined. -/
theorem C102_optimiser (hstep : ∀ q i, 0 ≤ step q i) (q : Quad) (l : List Quad) (hw : WholePt q.p0) :
    (stretchLength step (q :: l) < 1 / 20 → optimiser S measure unit step (q :: l) = .ok none) ∧
    (1 / 20 ≤ stretchLength step (q :: l) → (∀ t a b q, ∃ m, measure t a b q = .ok m) →
      ∃ (t : Thetas) (qs : List Quad) (o e : Pt), Thetas.new unit step (q :: l) = .ok t ∧ TableAt t.xys t.arclen o ∧ NearestHalf o.x e.x ∧ NearestHalf o.y e.y ∧
        optimiser S measure unit step (q :: l) = .ok (some qs) ∧ Connected q.p0 qs e ∧ (∀ x ∈ qs, Piece x) ∧ qs.IsChain Joint) := by
  obtain ⟨t, h1, h2, h3, h4, h5, h6⟩ := C102_table (unit := unit) hstep q l
  have h2 : t.arclen = stretchLength step (q :: l) := h2
  rw [← h2]
  have hfl : 0 ≤ ⌊t.arclen⌋ := Int.floor_nonneg.mpr h3
  have hlen : ⌊t.arclen⌋.toNat + 2 ≤ t.xys.length := by omega
  constructor
  · intro h
    have : roundAway (10 * t.arclen) = 0 := (roundAway_zero (by linarith)).mpr (by linarith)
    unfold optimiser optimize findBreaks
    rw [h1, Res.ok_bind]
    simp only [this]
    rfl
  · intro h hm
    have hne : roundAway (10 * t.arclen) ≠ 0 := fun e => by
      have := (roundAway_zero (by linarith)).mp e
      linarith
    have hpos := roundAway_nonneg (x := 10 * t.arclen) (by linarith)
    obtain ⟨bs, samples, g1, ⟨g2, g3⟩, g4, g5⟩ := C102_breaks t (roundAway (10 * t.arclen)).toNat (by omega) (by omega) h3 hlen (by omega)
    obtain ⟨p, rest, rfl⟩ : ∃ p rest, samples = p :: rest := by cases samples <;> simp_all
    have hp : p = q.p0 := by
      have hz : t.arclen * ((0 : Nat) : ℚ) / ((roundAway (10 * t.arclen)).toNat : ℚ) = 0 := by simp
      obtain ⟨c, d, hcd⟩ := hw
      have key : ∀ (c : ℤ) (y : ℚ), NearestHalf (c : ℚ) y → y = c := by
        rintro c y ⟨⟨z, rfl⟩, n1, n2⟩
        have e : (c : ℚ) - (z : ℚ) / 2 = ((2 * c - z : ℤ) : ℚ) / 2 := by push_cast; ring
        rw [e, abs_div, abs_of_pos (by norm_num : (0 : ℚ) < 2)] at n1
        have : |((2 * c - z : ℤ) : ℚ)| < 1 := by linarith
        have : |2 * c - z| < 1 := by exact_mod_cast this
        have : 2 * c - z = 0 := Int.abs_lt_one_iff.mp this
        have : (z : ℚ) = 2 * c := by exact_mod_cast (by omega : z = 2 * c)
        rw [this]
        ring
      have g := g3 0 p rfl
      obtain ⟨o, ⟨a', b', e1', e2', rfl⟩, n1, n2⟩ := g
      simp only [hz, Int.floor_zero, Int.toNat_zero, Int.fract_zero] at e1' n1 n2
      rw [← List.head?_eq_getElem?, h6] at e1'
      cases e1'
      rw [hcd] at n1 n2 ⊢
      have n1 := key c p.x (by simpa using n1)
      have n2 := key d p.y (by simpa using n2)
      cases p
      simp_all
    have ghead : (bs.map Break.xy).head? = some q.p0 := by
      rw [g4, ← hp]
      exact destutter'_head p rest
    obtain ⟨b0, e0, e0'⟩ : ∃ b0, bs.head? = some b0 ∧ b0.xy = q.p0 := by
      rw [List.head?_map, Option.map_eq_some_iff] at ghead
      exact ghead
    obtain ⟨qs, hqs⟩ := (C102_declines (S := S) (measure := measure t) (fun b hb => (g5 b hb).1) e0).2 (by rw [e0']; exact hw) (hm t)
    obtain ⟨b0', bn, k1, k2, k3, k4, k5⟩ := C102_search (fun b hb => (g5 b hb).1) hqs
    rw [e0] at k1
    cases k1
    have glast : (bs.map Break.xy).getLast? = (p :: rest).getLast? := by
      rw [g4]
      exact destutter'_last p rest
    rw [List.getLast?_map, k2, List.getLast?_eq_getElem?, g2] at glast
    obtain ⟨o, hT, n1, n2⟩ := g3 _ bn.xy glast.symm
    have hn0 : ((roundAway (10 * t.arclen)).toNat : ℚ) ≠ 0 := by
      have : (roundAway (10 * t.arclen)).toNat ≠ 0 := by omega
      exact_mod_cast this
    rw [Nat.add_sub_cancel, mul_div_assoc, div_self hn0, mul_one] at hT
    refine ⟨t, qs, o, bn.xy, h1, hT, n1, n2, ?_, e0' ▸ k3, fun x hx => (k4 x hx).1, k5⟩
    unfold optimiser optimize
    rw [h1, Res.ok_bind, g1, Res.ok_bind]
    exact hqs

/-- **C102** (control points). The point where two lines meet, each given by a point and a direction; there is none exactly if the
directions are parallel or nearly so. -/
theorem C102_intersect (p0 d0 p1 d1 : Pt) :
    (intersect p0 d0 p1 d1 = none ↔ |d0.x * d1.y - d0.y * d1.x| < 1 / 2 ^ 52) ∧
    ∀ m, intersect p0 d0 p1 d1 = some m → (∃ k : ℚ, m = ⟨p0.x + k * d0.x, p0.y + k * d0.y⟩) ∧ ∃ k : ℚ, m = ⟨p1.x + k * d1.x, p1.y + k * d1.y⟩ := by
  unfold intersect
  simp only
  constructor
  · split
    · next h => exact ⟨fun _ => h, fun _ => rfl⟩
    · next h => exact ⟨fun e => (by cases e), fun e => absurd e h⟩
  · intro m h
    split at h
    · cases h
    · next hd =>
      cases h
      have hdet : d0.x * d1.y - d0.y * d1.x ≠ 0 := by
        intro e
        rw [e, abs_zero] at hd
        exact hd (by positivity)
      constructor
      · refine ⟨((p1.x - p0.x) * d1.y - (p1.y - p0.y) * d1.x) / (d0.x * d1.y - d0.y * d1.x), ?_⟩
        rw [Pt.mk.injEq]
        constructor <;> field_simp <;> ring
      · refine ⟨((p1.x - p0.x) * d0.y - (p1.y - p0.y) * d0.x) / (d0.x * d1.y - d0.y * d1.x), ?_⟩
        rw [Pt.mk.injEq]
        constructor <;> field_simp <;> ring

/-- A line of ten units in two curves becomes one. -/
example : let S : Scores ℚ := plainScores
    let qs : List Quad := [⟨⟨0, 0⟩, ⟨5 / 2, 0⟩, ⟨5, 0⟩⟩, ⟨⟨5, 0⟩, ⟨15 / 2, 0⟩, ⟨10, 0⟩⟩]
    1 / 20 ≤ stretchLength (fun _ _ => 1 / 20) qs ∧
      (match optimiser S (fun _ _ _ _ => .ok 0) id (fun _ _ => 1 / 20) qs with
        | .ok (some new) => decide (new = [⟨⟨0, 0⟩, ⟨5, 0⟩, ⟨10, 0⟩⟩])
        | _ => false) = true := by
  decide +kernel

end FT.Props
