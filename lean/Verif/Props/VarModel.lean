import Verif.Lemmas.VarCut
import Verif.Props.Support
import Mathlib.Algebra.Module.Defs
import Mathlib.Algebra.Module.Rat

/-!
# C44: a variation model gives every master back

In exact arithmetic (`rd = id`).
-/

namespace FT.Props
open FT FT.F32 FT.Var

/-! ### Specification -/

/-- Masters at distinct normalized locations. Coordinates are equal or more than `f32::EPSILON` apart. -/
structure Masters (locs : List Loc) : Prop where
  sorted : ∀ l ∈ locs, BMap.Sorted l
  range : ∀ l ∈ locs, ∀ x ∈ l, -1 ≤ x.2 ∧ x.2 ≤ 1
  apart : ∀ l ∈ locs, ∀ m ∈ locs, ∀ t, EpsApart (coord l t) (coord m t)
  distinct : locs.Pairwise fun l m => ∃ t, coord l t ≠ coord m t

/-- `a` moves the same axes as `c`, and on each of them agrees with `c` or lies on the same side of the default as `c`
and strictly nearer to it than some master. -/
def InBox (L : List Loc) (c a : Loc) : Prop := ∀ t, (coord a t = 0 ↔ coord c t = 0) ∧
  (coord a t = coord c t ∨ (0 < coord c t ∧ 0 < coord a t ∧ ∃ m ∈ L, coord a t < coord m t) ∨
    (coord c t < 0 ∧ coord a t < 0 ∧ ∃ m ∈ L, coord m t < coord a t))

/-- `y` is between `x` and `z`. -/
def Mid (x y z : ℚ) : Prop := (x ≤ y ∧ y ≤ z) ∨ (z ≤ y ∧ y ≤ x)

/-- Of two earlier masters in the box of a third, the later lies between the other two on every axis. -/
def Staircase (L : List Loc) : Prop := ∀ (i k j : Nat) a b c, i < k → k < j → L[i]? = some a → L[k]? = some b →
  L[j]? = some c → InBox L c a → InBox L c b → ∀ t, Mid (coord a t) (coord b t) (coord c t)

/-- The masters which have a value. -/
def valued {V : Type} (locs : List Loc) (values : List (Option V)) : List Loc :=
  (locs.zip values).filterMap fun x => x.2.map fun _ => x.1

/-- Interpolation: the deltas weighted by the influence of their regions. -/
def interpolate {V : Type} [AddCommGroup V] [Module ℚ V] (out : List (V × Region)) (l : Loc) : V :=
  (out.map fun x => influence l x.2 • x.1).sum

/-! ### Supports -/

theorem coord_some {l : Loc} {t : Tag} {v : ℚ} (h : BMap.get? l t = some v) : coord l t = v := by
  unfold coord; rw [h]

theorem coord_none {l : Loc} {t : Tag} (h : BMap.get? l t = none) : coord l t = 0 := by
  unfold coord; rw [h]

theorem coord_zero {L : List Loc} (hcl : Clean L) {l : Loc} (hl : l ∈ L) (t : Tag) :
    coord l t = 0 ↔ BMap.get? l t = none := by
  cases h : BMap.get? l t with
  | none => simp [coord_none h]
  | some v =>
    rw [coord_some h]
    have := hcl.nonzero l hl (t, v) ((BMap.get?_eq_some (hcl.sorted l hl)).1 h)
    simp only at this
    simp [this]

theorem inBox_of {L : List Loc} (hcl : Clean L) {c a : Loc} (hc : c ∈ L) (ha : a ∈ L) (h : InBoxOf L c a) : InBox L c a := by
  intro t
  obtain ⟨h1, h2⟩ := h
  refine ⟨?_, ?_⟩
  · rw [coord_zero hcl ha, coord_zero hcl hc]
    constructor
    · intro hn
      by_contra hcn
      cases hv : BMap.get? c t with
      | none => exact hcn hv
      | some v => obtain ⟨w, hw, _⟩ := h2 t v hv; rw [hn] at hw; cases hw
    · intro hn
      by_contra han
      exact h1 t han hn
  · cases hv : BMap.get? c t with
    | none =>
      left
      have : BMap.get? a t = none := by
        by_contra han
        exact h1 t han hv
      rw [coord_none hv, coord_none this]
    | some v =>
      obtain ⟨w, hw, hb⟩ := h2 t v hv
      rw [coord_some hv, coord_some hw]
      rcases hb with hb | ⟨b1, b2⟩
      · exact Or.inl hb
      · right
        have h0 := hcl.nonzero c hc (t, v) ((BMap.get?_eq_some (hcl.sorted c hc)).1 hv)
        simp only at h0
        unfold box at b1 b2
        by_cases hp : v > 0
        · rw [if_pos hp] at b1 b2
          left
          obtain ⟨m, hm⟩ := extreme_exists (f := max) t L none c v hc hv
          simp only [outer, hm] at b1 b2
          rcases (extreme_max_spec t L none m hm).2.2 with h | ⟨k, hk, e⟩
          · cases h
          · exact ⟨hp, b1, k, hk, by rw [coord_some e]; exact b2⟩
        · rw [if_neg hp] at b1 b2
          right
          obtain ⟨m, hm⟩ := extreme_exists (f := min) t L none c v hc hv
          simp only [outer, hm] at b1 b2
          rcases (extreme_min_spec t L none m hm).2.2 with h | ⟨k, hk, e⟩
          · cases h
          · exact ⟨lt_of_le_of_ne (not_lt.1 hp) h0, b2, k, hk, by rw [coord_some e]; exact b1⟩

theorem differ_get {a c : Loc} (h : ∃ t, coord a t ≠ coord c t) : ∃ t, BMap.get? a t ≠ BMap.get? c t := by
  obtain ⟨t, ht⟩ := h
  exact ⟨t, fun e => ht (by unfold coord; rw [e])⟩

/-- What the masters of a model satisfy once zeros are gone and they are in order. -/
structure Ordered (L : List Loc) : Prop where
  clean : Clean L
  apart : ∀ l ∈ L, ∀ m ∈ L, ∀ t, EpsApart (coord l t) (coord m t)
  distinct : L.Pairwise fun l m => ∃ t, coord l t ≠ coord m t
  lengths : L.Pairwise fun l m => l.length ≤ m.length

theorem Ordered.get_apart {L : List Loc} (ho : Ordered L) {a c : Loc} (ha : a ∈ L) (hc : c ∈ L) :
    ∀ t v w, BMap.get? c t = some v → BMap.get? a t = some w → EpsApart w v := by
  intro t v w hv hw
  have := ho.apart a ha c hc t
  rwa [coord_some hv, coord_some hw] at this

theorem supportsFrom_spec {L : List Loc} (ho : Ordered L) : ∀ (rest pre : List Loc), L = pre ++ rest →
    ∃ ss, supportsFrom id (pre.map (boxes L)) (rest.map (boxes L)) = .ok ss ∧ ss.length = rest.length ∧
      ∀ (k : Nat) c s, rest[k]? = some c → ss[k]? = some s → Cutting L c s ∧
        (Staircase L → ∀ a ∈ pre ++ rest.take k, InBoxOf L c a → Excludes c a s)
  | [], pre, _ => ⟨[], rfl, rfl, fun k c s h => by simp at h⟩
  | c :: rest, pre, hL => by
    have hcL : c ∈ L := by rw [hL]; simp
    have hpre : ∀ a ∈ pre, a ∈ L := fun a ha => by rw [hL]; simp [ha]
    have hlen : ∀ (i : Nat) a, pre[i]? = some a → L[i]? = some a := by
      intro i a h
      have : i < pre.length := (List.getElem?_eq_some_iff.1 h).1
      rw [hL, List.getElem?_append_left this, h]
    have hcj : L[pre.length]? = some c := by
      rw [hL, List.getElem?_append_right (le_refl _)]; simp
    obtain ⟨s, e, hcut, hex⟩ := cutAll_spec (Staircase L) ho.clean hcL pre [] (boxes L c) hpre
      (fun a ha => ho.get_apart (hpre a ha) hcL)
      (fun a ha => by
        have := ho.distinct
        rw [hL, List.pairwise_append] at this
        exact differ_get (this.2.2 a ha c List.mem_cons_self))
      (by
        intro hst i j a b hij hi hj ba bb t x y z hx hy hz
        simp only [List.nil_append] at hi hj
        have hjl : j < pre.length := (List.getElem?_eq_some_iff.1 hj).1
        have := hst i j pre.length a b c hij hjl (hlen i a hi) (hlen j b hj) hcj
          (inBox_of ho.clean hcL (hpre a (List.mem_of_getElem? hi)) ba)
          (inBox_of ho.clean hcL (hpre b (List.mem_of_getElem? hj)) bb) t
        rw [coord_some hx, coord_some hy, coord_some hz] at this
        exact this)
      (cutting_start ho.clean hcL) (fun _ a ha => by simp at ha)
    obtain ⟨ss, e', hl', hss⟩ := supportsFrom_spec ho rest (pre ++ [c]) (by rw [hL]; simp)
    refine ⟨s :: ss, ?_, by simp [hl'], ?_⟩
    · simp only [List.map_cons, supportsFrom, e]
      rw [show List.map (boxes L) pre ++ [boxes L c] = List.map (boxes L) (pre ++ [c]) by simp, e']
    · intro k c' s' hc' hs'
      cases k with
      | zero =>
        simp only [List.getElem?_cons_zero, Option.some.injEq] at hc' hs'
        subst hc'; subst hs'
        refine ⟨hcut, fun hst a ha => hex hst a (by simpa using ha)⟩
      | succ k =>
        simp only [List.getElem?_cons_succ] at hc' hs'
        obtain ⟨h1, h2⟩ := hss k c' s' hc' hs'
        exact ⟨h1, fun hst a ha => h2 hst a (by simpa using ha)⟩

theorem keys_nodup {κ α : Type} [Key κ] {m : List (κ × α)} (h : BMap.Sorted m) : (m.map (·.1)).Nodup := by
  unfold BMap.Sorted at h
  rw [List.Nodup, List.pairwise_map]
  exact h.imp fun h => BMap.lt_ne h

theorem mem_keys {l : Loc} (hs : BMap.Sorted l) (t : Tag) : t ∈ l.map (·.1) ↔ BMap.get? l t ≠ none := by
  constructor
  · intro h
    obtain ⟨x, hx, rfl⟩ := List.mem_map.1 h
    rw [(BMap.get?_eq_some hs (k := x.1) (v := x.2)).2 hx]; simp
  · intro h
    cases e : BMap.get? l t with
    | none => exact absurd e h
    | some v => exact List.mem_map.2 ⟨(t, v), (BMap.get?_eq_some hs).1 e, rfl⟩

/-- A longer master with all the axes of a shorter one has no others. -/
theorem keys_back {c a : Loc} (sa : BMap.Sorted a) (sc : BMap.Sorted c) (hlen : a.length ≤ c.length)
    (h : ∀ t, BMap.get? c t ≠ none → BMap.get? a t ≠ none) : ∀ t, BMap.get? a t ≠ none → BMap.get? c t ≠ none := by
  intro t ht hn
  have nd : (t :: c.map (·.1)).Nodup := List.nodup_cons.2 ⟨fun hm => (mem_keys sc t).1 hm hn, keys_nodup sc⟩
  have hsub : (t :: c.map (·.1)) ⊆ a.map (·.1) := by
    intro u hu
    rcases List.mem_cons.1 hu with rfl | hu
    · exact (mem_keys sa u).2 ht
    · exact (mem_keys sa u).2 (h u ((mem_keys sc u).1 hu))
  have := (nd.subperm hsub).length_le
  simp at this
  omega

theorem cutting_takesPart {L : List Loc} (hcl : Clean L) {c : Loc} (hc : c ∈ L) {t : Tag} {v lo up : ℚ}
    (hv : BMap.get? c t = some v) (h1 : (box L t v).1 ≤ lo) (h2 : lo ≤ v) (h3 : v ≤ up) (h4 : up ≤ (box L t v).2.2) :
    TakesPart lo v up ∧ (0 ≤ lo ∨ up ≤ 0) := by
  have h0 := hcl.nonzero c hc (t, v) ((BMap.get?_eq_some (hcl.sorted c hc)).1 hv)
  simp only at h0
  obtain ⟨_, _, b3, b4⟩ := box_bounds hc hv h0
  rcases lt_or_gt_of_ne h0 with h | h
  · have := b4 h
    exact ⟨⟨h0, h2, h3, fun hh => by linarith [hh.2]⟩, Or.inr (by linarith)⟩
  · have := b3 h
    exact ⟨⟨h0, h2, h3, fun hh => by linarith [hh.1]⟩, Or.inl (by linarith)⟩

theorem cutting_mem {L : List Loc} {c : Loc} {s : Region} (hs : Cutting L c s) {x : Tag × (ℚ × ℚ × ℚ)} (hx : x ∈ s) :
    BMap.get? c x.1 = some x.2.2.1 := by
  have hg : BMap.get? s x.1 = some x.2 := (BMap.get?_eq_some hs.sorted).2 hx
  cases hv : BMap.get? c x.1 with
  | none => rw [hs.away x.1 hv] at hg; cases hg
  | some v =>
    obtain ⟨lo, up, h, _⟩ := hs.here x.1 v hv
    rw [h] at hg
    rw [← Option.some.inj hg]

theorem clearOfPeaks {L : List Loc} (ho : Ordered L) {c a : Loc} (hc : c ∈ L) (ha : a ∈ L) {s : Region} (hs : Cutting L c s) :
    ClearOfPeaks a s := by
  intro x hx
  have hv := cutting_mem hs hx
  have := ho.apart a ha c hc x.1
  rw [coord_some hv] at this
  rcases this with h | h
  · exact Or.inl h
  · exact Or.inr h.le

/-- At its own master a support has influence 1. -/
theorem support_self {L : List Loc} {c : Loc} {s : Region} (hs : Cutting L c s) :
    supportScalar id c s = 1 :=
  scalarLoop_peak rfl c s 1 fun _ hx _ => coord_some (cutting_mem hs hx)

/-- At an earlier master it has none. -/
theorem support_earlier {L : List Loc} (ho : Ordered L) {c a : Loc} (hc : c ∈ L) (ha : a ∈ L) {s : Region}
    (hs : Cutting L c s) (hlen : a.length ≤ c.length) (hex : InBoxOf L c a → Excludes c a s) : supportScalar id a s = 0 := by
  -- one axis outside is enough
  have stop : ∀ t v lo up, BMap.get? c t = some v → BMap.get? s t = some (lo, v, up) → (box L t v).1 ≤ lo → lo ≤ v → v ≤ up →
      up ≤ (box L t v).2.2 → coord a t ≠ v → (coord a t ≤ lo ∨ up ≤ coord a t) → supportScalar id a s = 0 := by
    intro t v lo up hv hg h1 h2 h3 h4 hne hout
    refine scalarLoop_stop a s 1 (t, lo, v, up) ((BMap.get?_eq_some hs.sorted).1 hg) ?_
    refine axisStep_stop (cutting_takesPart ho.clean hc hv h1 h2 h3 h4).1 hout ?_
    have := ho.apart a ha c hc t
    rw [coord_some hv] at this
    rcases this with h | h
    · exact absurd h hne
    · exact h.le
  by_cases hin : InBoxOf L c a
  · obtain ⟨t, v, w, lo, up, hv, hw, hne, hg, hout⟩ := hex hin
    obtain ⟨lo', up', hg', h1, h2, h3, h4⟩ := hs.here t v hv
    rw [hg] at hg'
    cases hg'
    rw [← coord_some hw] at hout hne
    exact stop t v lo up hv hg h1 h2 h3 h4 hne hout
  · have hnin : ¬ Inside L c a := by
      intro h
      refine hin ⟨keys_back (ho.clean.sorted a ha) (ho.clean.sorted c hc) hlen ?_, h⟩
      intro t ht hn
      cases hv : BMap.get? c t with
      | none => exact ht hv
      | some v => obtain ⟨w, hw, _⟩ := h t v hv; rw [hn] at hw; cases hw
    unfold Inside at hnin
    push Not at hnin
    obtain ⟨t, v, hv, hall⟩ := hnin
    obtain ⟨lo, up, hg, h1, h2, h3, h4⟩ := hs.here t v hv
    obtain ⟨ht, hz⟩ := cutting_takesPart ho.clean hc hv h1 h2 h3 h4
    refine stop t v lo up hv hg h1 h2 h3 h4 ?_ ?_
    · cases hw : BMap.get? a t with
      | none => rw [coord_none hw]; exact fun e => ht.1 e.symm
      | some w => rw [coord_some hw]; exact (hall w hw).1
    · cases hw : BMap.get? a t with
      | none =>
        rw [coord_none hw]
        exact hz
      | some w =>
        rw [coord_some hw]
        obtain ⟨_, h⟩ := hall w hw
        by_cases hlo : w ≤ lo
        · exact Or.inl hlo
        · right
          have := h (lt_of_le_of_lt h1 (not_le.1 hlo))
          linarith

/-! ### The triangular system -/

section triangular
variable {V : Type} [AddCommGroup V] [Module ℚ V]

theorem subtractAll_weights (l : Loc) : ∀ (post pre : List (V × Region)) (d : V),
    subtractAll (pre ++ post) (weightsFrom id l pre.length (post.map (·.2))) d =
      .ok (d - (post.map fun x => supportScalar id l x.2 • x.1).sum)
  | [], pre, d => by simp [weightsFrom, subtractAll]
  | x :: post, pre, d => by
    have ih := fun d => subtractAll_weights l post (pre ++ [x]) d
    simp only [List.append_assoc, List.singleton_append, List.length_append, List.length_singleton] at ih
    simp only [List.map_cons, weightsFrom, List.sum_cons]
    by_cases h : supportScalar id l x.2 = 0
    · rw [if_neg (by simpa using h), ih, h]
      simp
    · rw [if_pos h]
      simp only [subtractAll]
      rw [List.getElem?_append_right (le_refl _)]
      simp only [Nat.sub_self, List.getElem?_cons_zero]
      rw [ih, sub_sub]

/-- The deltas reproduce each value from its own delta and those before it. -/
theorem deltasLoop_spec (values : List V) : ∀ (Lr : List Loc) (os : List Nat) (sr : List Region) (out : List (V × Region)),
    os.length = Lr.length → sr.length = Lr.length → (∀ ix ∈ os, ix < values.length) →
    ∃ fin, deltasLoop values (os.zip (((Lr.zipIdx out.length).map fun x =>
        weightsFrom id x.1 0 ((out.map (·.2) ++ sr).take x.2)).zip sr)) out = .ok (out ++ fin) ∧
      fin.map (·.2) = sr ∧
      ∀ (k : Nat) l ix, Lr[k]? = some l → os[k]? = some ix → ∃ v x, values[ix]? = some v ∧ fin[k]? = some x ∧
        x.1 + ((out ++ fin.take k).map fun y => supportScalar id l y.2 • y.1).sum = v
  | [], os, sr, out, ho, hs, _ => by
    simp only [List.length_nil, List.length_eq_zero_iff] at ho hs
    subst ho; subst hs
    exact ⟨[], by simp [deltasLoop], rfl, fun k l ix h => by simp at h⟩
  | l :: Lr, [], sr, out, ho, _, _ => by simp at ho
  | l :: Lr, ix :: os, [], out, _, hs, _ => by simp at hs
  | l :: Lr, ix :: os, s :: sr, out, ho, hs, hv => by
    have hix := hv ix List.mem_cons_self
    obtain ⟨v, hvv⟩ : ∃ v, values[ix]? = some v := ⟨_, List.getElem?_eq_getElem hix⟩
    have e1 : (out.map (·.2) ++ s :: sr).take out.length = out.map (·.2) := by
      have := List.take_left (l₁ := out.map (·.2)) (l₂ := s :: sr)
      rwa [List.length_map] at this
    have e2 := subtractAll_weights l out [] v
    simp only [List.nil_append, List.length_nil] at e2
    obtain ⟨D, hD⟩ : ∃ D, D = v - (out.map fun x => supportScalar id l x.2 • x.1).sum := ⟨_, rfl⟩
    rw [← hD] at e2
    obtain ⟨fin, h1, h2, h3⟩ := deltasLoop_spec values Lr os sr (out ++ [(D, s)]) (by simpa using ho) (by simpa using hs)
      (fun i hi => hv i (List.mem_cons_of_mem _ hi))
    refine ⟨(D, s) :: fin, ?_, by simp [h2], ?_⟩
    · simp only [List.zipIdx_cons, List.map_cons, List.zip_cons_cons, deltasLoop, hvv]
      rw [e1, e2]
      simp only
      simp only [List.length_append, List.length_singleton, List.map_append, List.map_cons, List.map_nil,
        List.append_assoc, List.singleton_append] at h1
      exact h1
    · intro k l' ix' hl hi
      cases k with
      | zero =>
        simp only [List.getElem?_cons_zero, Option.some.injEq] at hl hi
        subst hl; subst hi
        refine ⟨v, (D, s), hvv, rfl, ?_⟩
        simp [hD]
      | succ k =>
        simp only [List.getElem?_cons_succ] at hl hi
        obtain ⟨v', x, a, b, c⟩ := h3 k l' ix' hl hi
        refine ⟨v', x, a, by simpa using b, ?_⟩
        simpa using c

theorem sum_split (f : V × Region → ℚ) (fin : List (V × Region)) (k : Nat) (x : V × Region) (hx : fin[k]? = some x)
    (h1 : f x = 1) (h0 : ∀ (j : Nat) y, k < j → fin[j]? = some y → f y = 0) :
    (fin.map fun y => f y • y.1).sum = x.1 + ((fin.take k).map fun y => f y • y.1).sum := by
  have hk := (List.getElem?_eq_some_iff.1 hx)
  obtain ⟨hk, rfl⟩ := hk
  have e : fin = fin.take k ++ fin[k] :: fin.drop (k + 1) := by
    rw [List.getElem_cons_drop]; exact (List.take_append_drop k fin).symm
  have z : ((fin.drop (k + 1)).map fun y => f y • y.1).sum = 0 := by
    apply List.sum_eq_zero
    intro z hz
    obtain ⟨y, hy, rfl⟩ := List.mem_map.1 hz
    obtain ⟨i, hi⟩ := List.mem_iff_getElem?.1 hy
    rw [List.getElem?_drop] at hi
    rw [h0 (k + 1 + i) y (by omega) hi, zero_smul]
  conv_lhs => rw [e]
  rw [List.map_append, List.sum_append, List.map_cons, List.sum_cons, z, h1, one_smul, add_zero, add_comm]

end triangular

/-! ### The order of the masters -/

theorem dropZeros_sorted {l : Loc} (h : BMap.Sorted l) : BMap.Sorted (dropZeros l) := sorted_filter _ h

theorem coord_dropZeros {l : Loc} (h : BMap.Sorted l) (t : Tag) : coord (dropZeros l) t = coord l t := by
  cases e : BMap.get? l t with
  | none =>
    rw [coord_none e]
    cases e' : BMap.get? (dropZeros l) t with
    | none => rw [coord_none e']
    | some v =>
      have := (BMap.get?_eq_some (dropZeros_sorted h)).1 e'
      have := (BMap.get?_eq_some h).2 (List.mem_of_mem_filter this)
      rw [e] at this; cases this
  | some v =>
    rw [coord_some e]
    by_cases hv : v = 0
    · cases e' : BMap.get? (dropZeros l) t with
      | none => rw [coord_none e', hv]
      | some w =>
        have := (BMap.get?_eq_some (dropZeros_sorted h)).1 e'
        have := (BMap.get?_eq_some h).2 (List.mem_of_mem_filter this)
        rw [e] at this
        rw [coord_some e', Option.some.inj this]
    · apply coord_some
      rw [BMap.get?_eq_some (dropZeros_sorted h)]
      exact List.mem_filter.2 ⟨(BMap.get?_eq_some h).1 e, by simpa using hv⟩

theorem cmpLoc_length {ao : List Tag} {ps : List (Tag × Option ℤ)} {a b : Loc} (h : cmpLoc id ao ps a b ≠ .gt) :
    a.length ≤ b.length := by
  unfold cmpLoc at h
  cases e : compare a.length b.length with
  | lt => exact (compare_lt_iff_lt.1 e).le
  | eq => exact (compare_eq_iff_eq.1 e).le
  | gt => rw [e] at h; simp at h

/-- The masters in the order of the model. -/
def inOrder (ao : List Tag) (locs : List Loc) : List Loc := (arranged id ao locs).map (·.1)

theorem inOrder_perm (ao : List Tag) (locs : List Loc) : (inOrder ao locs).Perm (locs.map dropZeros) := by
  have := (sortBy_perm (fun a b => cmpLoc id ao (axisPoints (locs.map dropZeros)) a.1 b.1) (locs.map dropZeros).zipIdx).map (·.1)
  rw [List.zipIdx_map_fst] at this
  exact this

theorem inOrder_mem {ao : List Tag} {locs : List Loc} {l : Loc} (h : l ∈ inOrder ao locs) : ∃ k ∈ locs, l = dropZeros k := by
  have := (inOrder_perm ao locs).mem_iff.1 h
  obtain ⟨k, hk, rfl⟩ := List.mem_map.1 this
  exact ⟨k, hk, rfl⟩

theorem inOrder_sorted {locs : List Loc} (hm : Masters locs) (ao : List Tag) :
    (inOrder ao locs).Pairwise fun a b => cmpLoc id ao (axisPoints (locs.map dropZeros)) a b ≠ .gt := by
  unfold inOrder arranged
  rw [List.pairwise_map]
  have g := good_cmpLoc ao (axisPoints (locs.map dropZeros)) (fun l => l ∈ locs.map dropZeros) (by
    intro a b ha hb t
    obtain ⟨k, hk, rfl⟩ := List.mem_map.1 ha
    obtain ⟨k', hk', rfl⟩ := List.mem_map.1 hb
    rw [coord_dropZeros (hm.sorted k hk), coord_dropZeros (hm.sorted k' hk')]
    exact hm.apart k hk k' hk' t)
  refine sortBy_sorted (S := fun x : Loc × Nat => x.1 ∈ locs.map dropZeros)
    ⟨fun a b h => g.swap _ _ h, fun a b d h h' => g.trans _ _ _ h h'⟩ _ ?_
  intro y hy
  have := List.mem_map_of_mem (f := fun z : Loc × Nat => z.1) hy
  rw [List.zipIdx_map_fst] at this
  exact this

theorem inOrder_ordered {locs : List Loc} (hm : Masters locs) (ao : List Tag) : Ordered (inOrder ao locs) := by
  refine ⟨⟨?_, ?_⟩, ?_, ?_, (inOrder_sorted hm ao).imp cmpLoc_length⟩
  · intro l hl
    obtain ⟨k, hk, rfl⟩ := inOrder_mem hl
    exact dropZeros_sorted (hm.sorted k hk)
  · intro l hl x hx
    obtain ⟨k, hk, rfl⟩ := inOrder_mem hl
    simpa using (List.mem_filter.1 hx).2
  · intro l hl m hm' t
    obtain ⟨k, hk, rfl⟩ := inOrder_mem hl
    obtain ⟨k', hk', rfl⟩ := inOrder_mem hm'
    rw [coord_dropZeros (hm.sorted k hk), coord_dropZeros (hm.sorted k' hk')]
    exact hm.apart k hk k' hk' t
  · refine ((inOrder_perm ao locs).pairwise_iff (fun {a b} h => ?_)).2 ?_
    · obtain ⟨t, ht⟩ := h
      exact ⟨t, Ne.symm ht⟩
    · rw [List.pairwise_map]
      refine hm.distinct.imp_of_mem ?_
      intro a b ha hb ⟨t, ht⟩
      exact ⟨t, by rwa [coord_dropZeros (hm.sorted a ha), coord_dropZeros (hm.sorted b hb)]⟩

theorem packed_unit {v : ℚ} (h1 : -1 ≤ v) (h2 : v ≤ 1) : (axisPoints.packed v).isSome = true := by
  have a1 : rne (v * 16384) ≤ 16384 := by
    have := rne_mono (x := v * 16384) (y := ((16384 : ℤ) : ℚ)) (by push_cast; linarith)
    rw [rne_int 16384 (by norm_num)] at this
    exact_mod_cast this
  have a2 : -16384 ≤ rne (v * 16384) := by
    have := rne_mono (x := ((-16384 : ℤ) : ℚ)) (y := v * 16384) (by push_cast; linarith)
    rw [rne_int (-16384) (by norm_num)] at this
    exact_mod_cast this
  obtain ⟨x, hx⟩ : ∃ x, x = rne (v * 16384) := ⟨_, rfl⟩
  rw [← hx] at a1 a2
  have b1 : rne (x + 1 / 2) ≤ 16385 := by
    have := rne_mono (x := x + 1 / 2) (y := ((16385 : ℤ) : ℚ)) (by push_cast; linarith)
    rw [rne_int 16385 (by norm_num)] at this
    exact_mod_cast this
  have b2 : -16384 ≤ rne (x + 1 / 2) := by
    have := rne_mono (x := ((-16384 : ℤ) : ℚ)) (y := x + 1 / 2) (by push_cast; linarith)
    rw [rne_int (-16384) (by norm_num)] at this
    exact_mod_cast this
  have c1 : ⌊rne (x + 1 / 2)⌋ ≤ 16385 := by
    have := Int.floor_le (rne (x + 1 / 2))
    exact_mod_cast le_trans this b1
  have c2 : -16384 ≤ ⌊rne (x + 1 / 2)⌋ := Int.le_floor.2 (by exact_mod_cast b2)
  have d : otRound x = ⌊rne (x + 1 / 2)⌋ := by
    unfold otRound toI32
    rw [min_eq_left (by omega), max_eq_right (by omega)]
  unfold axisPoints.packed f2dot14AsPacked
  rw [← hx]
  simp only
  rw [d, if_pos ⟨by omega, by omega⟩]
  rfl

/-- A model of such masters exists. -/
theorem newModel_ok {locs : List Loc} (hm : Masters locs) (ao : List Tag) : ∃ ss,
    newModel id locs ao = .ok ⟨inOrder ao locs, (arranged id ao locs).map (·.2), ss, weights id (inOrder ao locs) ss⟩ ∧
    ss.length = (inOrder ao locs).length ∧
    ∀ (k : Nat) c s, (inOrder ao locs)[k]? = some c → ss[k]? = some s → Cutting (inOrder ao locs) c s ∧
      (Staircase (inOrder ao locs) → ∀ a ∈ (inOrder ao locs).take k, InBoxOf (inOrder ao locs) c a → Excludes c a s) := by
  have ho := inOrder_ordered hm ao
  obtain ⟨ss, e, hl, hs⟩ := supportsFrom_spec ho (inOrder ao locs) [] rfl
  refine ⟨ss, ?_, hl, fun k c s h h' => by simpa using hs k c s h h'⟩
  have hp : (locs.all fun l => l.all fun x => (axisPoints.packed x.2).isSome) = true := by
    rw [List.all_eq_true]
    intro l hl
    rw [List.all_eq_true]
    intro x hx
    exact packed_unit (hm.range l hl x hx).1 (hm.range l hl x hx).2
  unfold newModel
  rw [if_pos hp]
  have : supports id ((arranged id ao locs).map (·.1)) = .ok ss := by
    unfold supports
    rw [regions_eq (show Clean ((arranged id ao locs).map (·.1)) from ho.clean)]
    exact e
  rw [this]
  rfl

theorem Masters.sublist {l l' : List Loc} (h : Masters l) (hs : l'.Sublist l) : Masters l' :=
  ⟨fun x hx => h.sorted x (hs.subset hx), fun x hx => h.range x (hs.subset hx),
    fun x hx y hy => h.apart x (hs.subset hx) y (hs.subset hy), h.distinct.sublist hs⟩

theorem valued_sublist {V : Type} : ∀ (locs : List Loc) (values : List (Option V)), (valued locs values).Sublist locs
  | [], _ => by simp [valued]
  | _ :: _, [] => by simp [valued]
  | l :: locs, none :: values => (valued_sublist locs values).cons l
  | l :: locs, some v :: values => (valued_sublist locs values).cons_cons l

theorem valued_length {V : Type} : ∀ (locs : List Loc) (values : List (Option V)), values.length ≤ locs.length →
    (valued locs values).length = (values.filterMap id).length
  | [], [], _ => rfl
  | [], _ :: _, h => by simp at h
  | _ :: _, [], _ => rfl
  | l :: locs, none :: values, h => valued_length locs values (by simpa using h)
  | l :: locs, some v :: values, h => by
    have := valued_length locs values (by simpa using h)
    simp only [valued] at this
    simp [valued, this]

theorem valued_at {V : Type} : ∀ (locs : List Loc) (values : List (Option V)) (i : Nat) (l : Loc) (v : V), locs[i]? = some l →
    values[i]? = some (some v) → ∃ k : Nat, (valued locs values)[k]? = some l ∧ (values.filterMap id)[k]? = some v
  | [], _, _, _, _, h, _ => by simp at h
  | _ :: _, [], _, _, _, _, h => by simp at h
  | l :: locs, none :: values, 0, _, _, _, h => by simp at h
  | l :: locs, some v :: values, 0, l', v', h, h' => by
    simp only [List.getElem?_cons_zero, Option.some.injEq] at h h'
    subst h; subst h'
    exact ⟨0, by simp [valued], by simp⟩
  | l :: locs, none :: values, i + 1, l', v', h, h' => by
    obtain ⟨k, a, b⟩ := valued_at locs values i l' v' (by simpa using h) (by simpa using h')
    exact ⟨k, by simpa [valued] using a, by simpa using b⟩
  | l :: locs, some v :: values, i + 1, l', v', h, h' => by
    obtain ⟨k, a, b⟩ := valued_at locs values i l' v' (by simpa using h) (by simpa using h')
    exact ⟨k + 1, by simpa [valued] using a, by simpa using b⟩

/-! ### The theorem -/

/-- C44: the deltas computed from master values reproduce every master's value at its own location, provided that, in
the order in which the model puts the masters, of two earlier masters in the box of a third the later lies between the
other two. Values may be missing; the model is that of the masters which have one. -/
theorem C44_masters {V : Type} [AddCommGroup V] [Module ℚ V] (locs : List Loc) (ao : List Tag) (values : List (Option V))
    (hm : Masters locs) (hlen : values.length ≤ locs.length) :
    ∃ m, newModel id (valued locs values) ao = .ok m ∧
      ∃ out, getDeltas id locs ao values = .ok out ∧
        (Staircase m.locations → ∀ (i : Nat) l v, locs[i]? = some l → values[i]? = some (some v) → interpolate out l = v) := by
  have hm' := hm.sublist (valued_sublist locs values)
  obtain ⟨ss, e, hl, hs⟩ := newModel_ok hm' ao
  have ho := inOrder_ordered hm' ao
  refine ⟨_, e, ?_⟩
  have hlenL : (inOrder ao (valued locs values)).length = (valued locs values).length := by
    rw [(inOrder_perm ao _).length_eq, List.length_map]
  have hlenA : (arranged id ao (valued locs values)).length = (valued locs values).length := by
    rw [← hlenL]; simp [inOrder]
  have hcount := valued_length locs values hlen
  have hwl : (weights id (inOrder ao (valued locs values)) ss).length = (valued locs values).length := by
    simp [weights, hlenL]
  have hidx : ∀ x ∈ arranged id ao (valued locs values), ∃ k, (valued locs values)[x.2]? = some k ∧ x.1 = dropZeros k := by
    intro x hx
    have := (sortBy_perm _ _).mem_iff.1 hx
    have := List.mk_mem_zipIdx_iff_getElem?.1 (show (x.1, x.2) ∈ _ from this)
    rw [List.getElem?_map] at this
    cases hk : (valued locs values)[x.2]? with
    | none => rw [hk] at this; simp at this
    | some k => rw [hk] at this; exact ⟨k, rfl, by simpa using this.symm⟩
  obtain ⟨fin, h1, h2, h3⟩ := deltasLoop_spec (values.filterMap id) (inOrder ao (valued locs values))
    ((arranged id ao (valued locs values)).map (·.2)) ss [] (by simp [inOrder]) hl (by
      intro ix hix
      obtain ⟨x, hx, rfl⟩ := List.mem_map.1 hix
      obtain ⟨k, hk, _⟩ := hidx x hx
      rw [← hcount]
      exact (List.getElem?_eq_some_iff.1 hk).1)
  refine ⟨fin, ?_, ?_⟩
  · have e' := e
    unfold valued at e'
    unfold getDeltas
    rw [e']
    simp only
    rw [if_pos (by rw [← hcount]; exact hwl.symm)]
    simpa [weights, valued] using h1
  · intro hst i l v hli hvi
    simp only at hst
    obtain ⟨k, hk, hvk⟩ := valued_at locs values i l v hli hvi
    have hlm : l ∈ valued locs values := List.mem_of_getElem? hk
    -- where the model puts it
    have hz : (dropZeros l, k) ∈ arranged id ao (valued locs values) := by
      refine (sortBy_perm _ _).mem_iff.2 (List.mk_mem_zipIdx_iff_getElem?.2 ?_)
      rw [List.getElem?_map, hk]; rfl
    obtain ⟨p, hp⟩ := List.mem_iff_getElem?.1 hz
    have hpL : (inOrder ao (valued locs values))[p]? = some (dropZeros l) := by
      unfold inOrder; rw [List.getElem?_map, hp]; rfl
    have hpO : ((arranged id ao (valued locs values)).map (·.2))[p]? = some k := by
      rw [List.getElem?_map, hp]; rfl
    obtain ⟨v', x, hv', hx, hsum⟩ := h3 p (dropZeros l) k hpL hpO
    rw [hvk] at hv'
    cases hv'
    have hdl : dropZeros l ∈ inOrder ao (valued locs values) := List.mem_of_getElem? hpL
    have hss : ∀ (j : Nat) y, fin[j]? = some y → ss[j]? = some y.2 := by
      intro j y hy
      rw [← h2, List.getElem?_map, hy]; rfl
    have hjl : ∀ (j : Nat) y, fin[j]? = some y → ∃ c, (inOrder ao (valued locs values))[j]? = some c := by
      intro j y hy
      have h1 := (List.getElem?_eq_some_iff.1 (hss j y hy)).1
      rw [hl] at h1
      exact ⟨_, List.getElem?_eq_getElem h1⟩
    have split := sum_split (fun y => supportScalar id (dropZeros l) y.2) fin p x hx
      (support_self (hs p _ _ hpL (hss p x hx)).1)
      (by
        intro j y hj hy
        obtain ⟨c, hc⟩ := hjl j y hy
        obtain ⟨hcut, hexc⟩ := hs j c y.2 hc (hss j y hy)
        refine support_earlier ho (List.mem_of_getElem? hc) hdl hcut ?_ (hexc hst _ ?_)
        · obtain ⟨a1, a2⟩ := List.getElem?_eq_some_iff.1 hpL
          obtain ⟨b1, b2⟩ := List.getElem?_eq_some_iff.1 hc
          rw [← a2, ← b2]
          exact List.pairwise_iff_getElem.1 ho.lengths p j a1 b1 hj
        · refine List.mem_of_getElem? (i := p) ?_
          rw [List.getElem?_take_of_lt hj]; exact hpL)
    simp only [List.nil_append] at hsum
    rw [hsum] at split
    rw [← split]
    unfold interpolate
    congr 1
    apply List.map_congr_left
    intro y hy
    obtain ⟨j, hj⟩ := List.mem_iff_getElem?.1 hy
    obtain ⟨c, hc⟩ := hjl j y hj
    have hcut := (hs j c y.2 hc (hss j y hj)).1
    rw [C43_exact _ _ (clearOfPeaks ho (List.mem_of_getElem? hc) hdl hcut)]
    congr 1
    unfold influence
    congr 1
    apply List.map_congr_left
    intro z _
    rw [coord_dropZeros (hm'.sorted l hlm)]

/-! ### Layouts which need no staircase -/

/-- At most one other master lies in the box of a master. -/
def Sparse (locs : List Loc) : Prop := ∀ a ∈ locs, ∀ b ∈ locs, ∀ c ∈ locs, InBox locs c a → InBox locs c b →
  (∀ t, coord a t = coord c t) ∨ (∀ t, coord b t = coord c t) ∨ (∀ t, coord a t = coord b t)

/-- Every master moves at most one axis. -/
def SingleAxis (locs : List Loc) : Prop := ∀ l ∈ locs, ∀ t u, coord l t ≠ 0 → coord l u ≠ 0 → t = u

theorem inBox_back {locs : List Loc} (hm : Masters locs) {ao : List Tag} {c a : Loc} (hc : c ∈ locs) (ha : a ∈ locs)
    (h : InBox (inOrder ao locs) (dropZeros c) (dropZeros a)) : InBox locs c a := by
  intro t
  have := h t
  rw [coord_dropZeros (hm.sorted c hc), coord_dropZeros (hm.sorted a ha)] at this
  refine ⟨this.1, ?_⟩
  rcases this.2 with h | ⟨h1, h2, m, hmm, h3⟩ | ⟨h1, h2, m, hmm, h3⟩
  · exact Or.inl h
  · obtain ⟨k, hk, rfl⟩ := inOrder_mem hmm
    exact Or.inr (Or.inl ⟨h1, h2, k, hk, by rwa [coord_dropZeros (hm.sorted k hk)] at h3⟩)
  · obtain ⟨k, hk, rfl⟩ := inOrder_mem hmm
    exact Or.inr (Or.inr ⟨h1, h2, k, hk, by rwa [coord_dropZeros (hm.sorted k hk)] at h3⟩)

theorem InBox.sublist {l l' : List Loc} (hs : l'.Sublist l) {c a : Loc} (h : InBox l' c a) : InBox l c a := by
  intro t
  refine ⟨(h t).1, ?_⟩
  rcases (h t).2 with h | ⟨h1, h2, m, hmm, h3⟩ | ⟨h1, h2, m, hmm, h3⟩
  · exact Or.inl h
  · exact Or.inr (Or.inl ⟨h1, h2, m, hs.subset hmm, h3⟩)
  · exact Or.inr (Or.inr ⟨h1, h2, m, hs.subset hmm, h3⟩)

theorem Sparse.sublist {l l' : List Loc} (h : Sparse l) (hs : l'.Sublist l) : Sparse l' :=
  fun a ha b hb c hc i1 i2 => h a (hs.subset ha) b (hs.subset hb) c (hs.subset hc) (i1.sublist hs) (i2.sublist hs)

theorem staircase_sparse {locs : List Loc} (hm : Masters locs) (ao : List Tag) (hs : Sparse locs) : Staircase (inOrder ao locs) := by
  intro i k j a b c hik hkj hi hk hj ba bb
  exfalso
  have hd := (inOrder_ordered hm ao).distinct
  rw [List.pairwise_iff_getElem] at hd
  obtain ⟨i1, hi'⟩ := List.getElem?_eq_some_iff.1 hi
  obtain ⟨k1, hk'⟩ := List.getElem?_eq_some_iff.1 hk
  obtain ⟨j1, hj'⟩ := List.getElem?_eq_some_iff.1 hj
  have d1 := hd i k i1 k1 hik
  have d2 := hd i j i1 j1 (by omega)
  have d3 := hd k j k1 j1 hkj
  rw [hi', hk'] at d1
  rw [hi', hj'] at d2
  rw [hk', hj'] at d3
  obtain ⟨a', ha', rfl⟩ := inOrder_mem (List.mem_of_getElem? hi)
  obtain ⟨b', hb', rfl⟩ := inOrder_mem (List.mem_of_getElem? hk)
  obtain ⟨c', hc', rfl⟩ := inOrder_mem (List.mem_of_getElem? hj)
  simp only [coord_dropZeros (hm.sorted a' ha'), coord_dropZeros (hm.sorted b' hb'), coord_dropZeros (hm.sorted c' hc')] at d1 d2 d3
  rcases hs a' ha' b' hb' c' hc' (inBox_back hm hc' ha' ba) (inBox_back hm hc' hb' bb) with h | h | h
  · obtain ⟨t, ht⟩ := d2; exact ht (h t)
  · obtain ⟨t, ht⟩ := d3; exact ht (h t)
  · obtain ⟨t, ht⟩ := d1; exact ht (h t)

theorem Good.self {α : Type} {c : α → α → Ordering} (g : Good (fun _ _ => True) c) (a : α) : c a a = .eq := by
  have := g.swap a a trivial
  cases h : c a a <;> rw [h] at this <;> simp [Ordering.swap] at this

theorem cmpLex_single {α : Type} {c : α → α → Ordering} (t : α) (h : c t t = .eq) : cmpLex c [t] [t] = .eq := by
  unfold cmpLex; rw [h]; rfl

theorem thenCmp_step {α : Type} {c d : α → α → Ordering} {a b : α} (h : thenCmp c d a b ≠ .gt) (hc : c a b = .eq) :
    d a b ≠ .gt := by
  unfold thenCmp at h; rw [hc] at h; exact h

theorem cmpZip_single {α : Type} (c : α → α → Ordering) (x y : α) : cmpZip c [x] [y] = c x y := by
  unfold cmpZip
  cases c x y <;> rfl

theorem get?_single {κ α : Type} [Key κ] (k : κ) (v : α) : BMap.get? [(k, v)] k = some v := by
  simp [BMap.get?, Key.irrefl]

/-- Two masters on one and the same axis and side, in order. -/
theorem cmpLoc_single {ao : List Tag} {ps : List (Tag × Option ℤ)} {t : Tag} {u v : ℚ} (hap : EpsApart u v) (hs : u < 0 ↔ v < 0)
    (hu : (t, axisPoints.packed u) ∈ ps) (hv : (t, axisPoints.packed v) ∈ ps) (h : cmpLoc id ao ps [(t, u)] [(t, v)] ≠ .gt) :
    |u| ≤ |v| := by
  have n1 : onPointCount ps [(t, u)] = 1 := by
    unfold onPointCount
    rw [List.filter_cons_of_pos (by simpa using hu)]; rfl
  have n2 : onPointCount ps [(t, v)] = 1 := by
    unfold onPointCount
    rw [List.filter_cons_of_pos (by simpa using hv)]; rfl
  have e1 : ∀ x : ℚ, orderedAxes ao [(t, x)] = [t] := by
    intro x
    unfold orderedAxes
    rw [List.map_cons, List.map_nil]
    by_cases hc : t ∈ ao
    · rw [List.filter_cons_of_pos (by simpa using hc), List.filter_cons_of_neg (by simpa using hc)]; rfl
    · rw [List.filter_cons_of_neg (by simpa using hc), List.filter_cons_of_pos (by simpa using hc)]; rfl
  have c1 : ∀ x : ℚ, coord [(t, x)] t = x := by
    intro x
    exact coord_some (get?_single t x)
  have p1 : cmpPos ao t t = .eq := (good_cmpPos ao).self t
  have p2 : cmpTag t t = .eq := good_cmpTag.self t
  have s1 : cmpSign id u v = .eq := by
    rw [cmpSign_eq]
    unfold signum
    by_cases hn : u < 0
    · rw [if_pos hn, if_pos (hs.1 hn)]; exact compare_eq_iff_eq.2 rfl
    · rw [if_neg hn, if_neg (fun h => hn (hs.2 h))]; exact compare_eq_iff_eq.2 rfl
  have l1 : compare (List.length [(t, u)]) (List.length [(t, v)]) = .eq := rfl
  have z1 : cmpZip (cmpPos ao) [t] [t] = .eq := by
    unfold cmpZip; rw [p1]; rfl
  have z2 : cmpLex cmpTag [t] [t] = .eq := cmpLex_single _ p2
  have z3 : cmpVals (cmpSign id) [(t, u)] [(t, v)] [t] = .eq := by
    rw [cmpVals_zip, List.map_cons, List.map_cons, c1, c1]
    exact (cmpZip_single _ _ _).trans s1
  have z4 : cmpVals (cmpAbs id) [(t, u)] [(t, v)] [t] = compare |u| |v| := by
    rw [cmpVals_zip, List.map_cons, List.map_cons, c1, c1]
    exact (cmpZip_single _ _ _).trans (cmpAbs_eq hap hs)
  have l2 : compare (onPointCount ps [(t, v)]) (onPointCount ps [(t, u)]) = .eq := by rw [n1, n2]; rfl
  rw [cmpLoc_then] at h
  have h := thenCmp_step h l1
  have h := thenCmp_step h l2
  have h := thenCmp_step h (by simp only [e1]; exact z1)
  have h := thenCmp_step h (by simp only [e1]; exact z2)
  have h := thenCmp_step h (by simp only [e1]; exact z3)
  simp only [e1, z4] at h
  by_contra hlt
  rw [compare_gt_iff_gt.2 (not_le.1 hlt)] at h
  exact h rfl

theorem staircase_single {locs : List Loc} (hm : Masters locs) (ao : List Tag) (hs : SingleAxis locs) : Staircase (inOrder ao locs) := by
  intro i k j a b c hik hkj hi hk hj ba bb t
  have ho := inOrder_ordered hm ao
  have hsort := List.pairwise_iff_getElem.1 (inOrder_sorted hm ao)
  obtain ⟨i1, hi'⟩ := List.getElem?_eq_some_iff.1 hi
  obtain ⟨k1, hk'⟩ := List.getElem?_eq_some_iff.1 hk
  obtain ⟨j1, hj'⟩ := List.getElem?_eq_some_iff.1 hj
  have d1 := hsort i k i1 k1 hik
  have d3 := hsort k j k1 j1 hkj
  rw [hi', hk'] at d1
  rw [hk', hj'] at d3
  have ma := List.mem_of_getElem? hi
  have mb := List.mem_of_getElem? hk
  have mc := List.mem_of_getElem? hj
  by_cases h0 : coord c t = 0
  · have ha0 := ((ba t).1).2 h0
    have hb0 := ((bb t).1).2 h0
    rw [h0, ha0, hb0]
    exact Or.inl ⟨le_refl _, le_refl _⟩
  · -- a master which moves axis `t` is just that
    have shape : ∀ l ∈ inOrder ao locs, coord l t ≠ 0 → l = [(t, coord l t)] := by
      intro l hl hne
      have hsl := ho.clean.sorted l hl
      obtain ⟨l0, hl0, e⟩ := inOrder_mem hl
      have only : ∀ x ∈ l, x = (t, coord l t) := by
        intro x hx
        have hx' := (BMap.get?_eq_some hsl (k := x.1) (v := x.2)).2 hx
        have hx0 := ho.clean.nonzero l hl x hx
        have cx := coord_some hx'
        have : x.1 = t := by
          apply hs l0 hl0
          · rw [← coord_dropZeros (hm.sorted l0 hl0), ← e, cx]; exact hx0
          · rw [← coord_dropZeros (hm.sorted l0 hl0), ← e]; exact hne
        rw [← this, cx]
      cases l with
      | nil => exact absurd rfl hne
      | cons x r =>
        cases r with
        | nil =>
          have h1 := only x List.mem_cons_self
          generalize coord [x] t = q at h1 ⊢
          rw [h1]
        | cons y r =>
          have h1 := only x List.mem_cons_self
          have h2 := only y (List.mem_cons_of_mem _ List.mem_cons_self)
          have := BMap.lt_ne (hsl.head_lt y List.mem_cons_self)
          generalize coord (x :: y :: r) t = q at h1 h2
          rw [h1, h2] at this
          exact absurd rfl this
    have pts : ∀ l ∈ inOrder ao locs, coord l t ≠ 0 → (t, axisPoints.packed (coord l t)) ∈ axisPoints (locs.map dropZeros) := by
      intro l hl hne
      have e := shape l hl hne
      have hm' := (inOrder_perm ao locs).mem_iff.1 hl
      unfold axisPoints
      refine List.mem_flatMap.2 ⟨l, List.mem_filter.2 ⟨hm', by rw [e]; rfl⟩, ?_⟩
      refine List.mem_flatMap.2 ⟨(t, coord l t), (BMap.get?_eq_some (ho.clean.sorted l hl)).1 ?_, by simp⟩
      cases hg : BMap.get? l t with
      | none => exact absurd (coord_none hg) hne
      | some v => rw [coord_some hg]
    have ha0 : coord a t ≠ 0 := fun h => h0 (((ba t).1).1 h)
    have hb0 : coord b t ≠ 0 := fun h => h0 (((bb t).1).1 h)
    have sa : coord a t < 0 ↔ coord c t < 0 := by
      rcases (ba t).2 with h | ⟨h1, h2, _⟩ | ⟨h1, h2, _⟩
      · rw [h]
      · constructor <;> intro h <;> linarith
      · exact ⟨fun _ => h1, fun _ => h2⟩
    have sb : coord b t < 0 ↔ coord c t < 0 := by
      rcases (bb t).2 with h | ⟨h1, h2, _⟩ | ⟨h1, h2, _⟩
      · rw [h]
      · constructor <;> intro h <;> linarith
      · exact ⟨fun _ => h1, fun _ => h2⟩
    have le1 : |coord a t| ≤ |coord b t| := by
      rw [shape a ma ha0, shape b mb hb0] at d1
      exact cmpLoc_single (ho.apart a ma b mb t) (sa.trans sb.symm) (pts a ma ha0) (pts b mb hb0) d1
    have le2 : |coord b t| ≤ |coord c t| := by
      rw [shape b mb hb0, shape c mc h0] at d3
      exact cmpLoc_single (ho.apart b mb c mc t) sb (pts b mb hb0) (pts c mc h0) d3
    rcases lt_or_gt_of_ne h0 with h | h
    · have hb := sb.2 h
      have ha := sa.2 h
      rw [abs_of_neg ha, abs_of_neg hb] at le1
      rw [abs_of_neg hb, abs_of_neg h] at le2
      exact Or.inr ⟨by linarith, by linarith⟩
    · have hb : 0 < coord b t := lt_of_le_of_ne (not_lt.1 fun hh => not_lt.2 h.le (sb.1 hh)) (Ne.symm hb0)
      have ha : 0 < coord a t := lt_of_le_of_ne (not_lt.1 fun hh => not_lt.2 h.le (sa.1 hh)) (Ne.symm ha0)
      rw [abs_of_pos ha, abs_of_pos hb] at le1
      rw [abs_of_pos hb, abs_of_pos h] at le2
      exact Or.inl ⟨le1, le2⟩

/-- C44: so whenever no master has two others in its box (see `sparse_corners`) ... -/
theorem C44_sparse {V : Type} [AddCommGroup V] [Module ℚ V] (locs : List Loc) (ao : List Tag) (values : List (Option V))
    (hm : Masters locs) (hlen : values.length ≤ locs.length) (hs : Sparse locs) :
    ∃ out, getDeltas id locs ao values = .ok out ∧
      ∀ (i : Nat) l v, locs[i]? = some l → values[i]? = some (some v) → interpolate out l = v := by
  obtain ⟨m, e, out, e', h⟩ := C44_masters locs ao values hm hlen
  refine ⟨out, e', h ?_⟩
  have hm' := hm.sublist (valued_sublist locs values)
  obtain ⟨ss, e2, _⟩ := newModel_ok hm' ao
  rw [e2] at e
  cases e
  exact staircase_sparse hm' ao (hs.sublist (valued_sublist locs values))

/-- ... and whenever every master moves at most one axis, however many masters an axis has. -/
theorem C44_single_axis {V : Type} [AddCommGroup V] [Module ℚ V] (locs : List Loc) (ao : List Tag) (values : List (Option V))
    (hm : Masters locs) (hlen : values.length ≤ locs.length) (hs : SingleAxis locs) :
    ∃ out, getDeltas id locs ao values = .ok out ∧
      ∀ (i : Nat) l v, locs[i]? = some l → values[i]? = some (some v) → interpolate out l = v := by
  obtain ⟨m, e, out, e', h⟩ := C44_masters locs ao values hm hlen
  refine ⟨out, e', h ?_⟩
  have hm' := hm.sublist (valued_sublist locs values)
  obtain ⟨ss, e2, _⟩ := newModel_ok hm' ao
  rw [e2] at e
  cases e
  exact staircase_single hm' ao fun l hl => hs l ((valued_sublist locs values).subset hl)

/-- On each axis all masters on one side of the default are at the same place. -/
def Corners (locs : List Loc) : Prop := ∀ a ∈ locs, ∀ b ∈ locs, ∀ t, 0 < coord a t * coord b t → coord a t = coord b t

theorem sparse_corners {locs : List Loc} (h : Corners locs) : Sparse locs := by
  intro a ha b hb c hc ia _
  left
  intro t
  rcases (ia t).2 with h' | ⟨h1, h2, _⟩ | ⟨h1, h2, _⟩
  · exact h'
  · exact h a ha c hc t (mul_pos h2 h1)
  · exact h a ha c hc t (mul_pos_of_neg_of_neg h2 h1)

/-! ### Witnesses -/

theorem coord_away {l : Loc} (hs : BMap.Sorted l) {t : Tag} (h : t ∉ l.map (·.1)) : coord l t = 0 := by
  apply coord_none
  by_contra hn
  exact h ((mem_keys hs t).2 hn)

instance {κ α : Type} [Key κ] (m : List (κ × α)) : Decidable (BMap.Sorted m) := by unfold BMap.Sorted; infer_instance

/-- A decidable form of `Masters`. -/
def mastersCheck (locs : List Loc) : Bool :=
  locs.all (fun l => decide (BMap.Sorted l) && l.all (fun x => decide (-1 ≤ x.2 ∧ x.2 ≤ 1)) &&
    locs.all (fun m => (l.map (·.1) ++ m.map (·.1)).all fun t => decide (EpsApart (coord l t) (coord m t)))) &&
  decide (locs.Pairwise fun l m => ((l.map (·.1)).any fun t => decide (coord l t ≠ coord m t)) = true ∨
    ((m.map (·.1)).any fun t => decide (coord l t ≠ coord m t)) = true)

theorem masters_of {locs : List Loc} (h : mastersCheck locs = true) : Masters locs := by
  unfold mastersCheck at h
  simp only [Bool.and_eq_true, List.all_eq_true, decide_eq_true_eq] at h
  obtain ⟨h, hd⟩ := h
  refine ⟨fun l hl => (h l hl).1.1, fun l hl x hx => (h l hl).1.2 x hx, ?_, ?_⟩
  · intro l hl m hm t
    by_cases ht : t ∈ l.map (·.1) ++ m.map (·.1)
    · exact (h l hl).2 m hm t ht
    · rw [List.mem_append, not_or] at ht
      rw [coord_away (h l hl).1.1 ht.1, coord_away (h m hm).1.1 ht.2]
      exact Or.inl rfl
  · refine hd.imp ?_
    intro l m hh
    rcases hh with hh | hh
    all_goals
      obtain ⟨t, _, ht⟩ := List.any_eq_true.1 hh
      exact ⟨t, by simpa using ht⟩

/-- Masters for which the model goes wrong: the fourth has the second and third in its box, its region is cut
at each in turn on the same axis, and the second cut undoes the first. -/
def badMasters : List Loc := [[], [(wdth, 2/5), (wght, 9/10)], [(wdth, 3/5), (wght, 3/10)], [(wdth, 3/5), (wght, 1/2)],
  [(wdth, 1), (wght, 1)]]

set_option synthInstance.maxSize 1000 in
/-- Without the staircase the claim fails: a master with value 0 is interpolated to 40/3. -/
theorem C44_needs_staircase : Masters badMasters ∧ ∃ out, getDeltas id badMasters [wdth, wght]
      [some (0 : ℚ), some 0, some 0, some 100, some 0] = .ok out ∧ interpolate out [(wdth, 2/5), (wght, 9/10)] = 40 / 3 := by
  have hp : (badMasters.all fun l => l.all fun x => (axisPoints.packed x.2).isSome) = true := by
    rw [List.all_eq_true]
    intro l hl
    rw [List.all_eq_true]
    intro x hx
    have : ∀ l ∈ badMasters, ∀ x ∈ l, -1 ≤ x.2 ∧ x.2 ≤ 1 := by decide +kernel
    exact packed_unit (this l hl x hx).1 (this l hl x hx).2
  refine ⟨masters_of (by decide +kernel), ?_⟩
  have e : ((badMasters.zip [some (0 : ℚ), some 0, some 0, some 100, some 0]).filterMap fun x => x.2.map fun _ => x.1) = badMasters := by
    decide +kernel
  unfold getDeltas
  rw [e]
  unfold newModel
  rw [if_pos hp]
  have ha : arranged id [wdth, wght] badMasters = badMasters.zipIdx := by decide +kernel
  rw [ha]
  refine ⟨[(0, []), (0, [(wdth, (0, 2/5, 1)), (wght, (0, 9/10, 1))]), (0, [(wdth, (0, 3/5, 1)), (wght, (0, 3/10, 9/10))]),
    (100, [(wdth, (0, 3/5, 1)), (wght, (3/10, 1/2, 1))]), (0, [(wdth, (2/5, 1, 1)), (wght, (1/2, 1, 1))])], ?_, ?_⟩
  · have hs : supports id (List.map (fun x => x.1) badMasters.zipIdx) = .ok [[], [(wdth, (0, 2/5, 1)), (wght, (0, 9/10, 1))],
        [(wdth, (0, 3/5, 1)), (wght, (0, 3/10, 9/10))], [(wdth, (0, 3/5, 1)), (wght, (3/10, 1/2, 1))],
        [(wdth, (2/5, 1, 1)), (wght, (1/2, 1, 1))]] := by decide +kernel
    rw [hs]
    decide +kernel
  · decide +kernel

/-- Three masters of one axis and the corner of another. -/
example : Masters [[], [(wght, 1/2)], [(wght, 1)], [(wdth, -1)], [(wdth, -1), (wght, 1)]] := masters_of (by decide +kernel)

example : SingleAxis [[], [(wght, 1/2)], [(wght, 1)], [(wght, -1)], [(wdth, -1)]] := by
  intro l hl t u ht hu
  simp only [List.mem_cons, List.not_mem_nil, or_false] at hl
  have key : ∀ (a : Tag) (x : ℚ) t, coord [(a, x)] t ≠ 0 → t = a := by
    intro a x t h
    by_contra hn
    apply h
    apply coord_away (by simp [BMap.Sorted])
    simpa using hn
  rcases hl with rfl | rfl | rfl | rfl | rfl
  · exact absurd rfl ht
  all_goals rw [key _ _ _ ht, key _ _ _ hu]

/-- Four corners. -/
example : Sparse [[], [(wght, 1)], [(wdth, -1)], [(wdth, -1), (wght, 1)]] := by
  apply sparse_corners
  have hm : Masters [[], [(wght, 1)], [(wdth, -1)], [(wdth, -1), (wght, 1)]] := masters_of (by decide +kernel)
  intro a ha b hb t h
  have ht : t ∈ a.map (·.1) := by
    by_contra hn
    rw [coord_away (hm.sorted a ha) hn] at h
    simp at h
  have : ∀ a ∈ [[], [(wght, (1 : ℚ))], [(wdth, -1)], [(wdth, -1), (wght, 1)]],
      ∀ b ∈ [[], [(wght, (1 : ℚ))], [(wdth, -1)], [(wdth, -1), (wght, 1)]], ∀ t ∈ a.map (·.1),
      0 < coord a t * coord b t → coord a t = coord b t := by decide +kernel
  exact this a ha b hb t ht h

end FT.Props
