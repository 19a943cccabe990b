import Verif.Props.IupSegment

/-!
C41: expanding the omitted deltas of a contour.
-/

namespace FT.Props
open FT FT.F32 FT.Glyf FT.Iup

/-! ### Specification -/

/-- The position `z` of a closed contour of `n` points, counted round. -/
def around (n : Nat) (z : ℤ) : Nat := (z % (n : ℤ)).toNat

/-- The delta of point `i` is given. -/
def Given (gs : List (Option Pt)) (i : Nat) : Prop := ∃ d, gs[i]? = some (some d)

/-- `p` is the first point with a given delta met going backwards round the contour from point `i`. -/
def NearestBefore (gs : List (Option Pt)) (i p : Nat) : Prop :=
  ∃ a : Nat, 1 ≤ a ∧ p = around gs.length ((i : ℤ) - a) ∧ Given gs p ∧
    ∀ t : Nat, 1 ≤ t → t < a → ¬ Given gs (around gs.length ((i : ℤ) - t))

/-- `q` is the first point with a given delta met going forwards round the contour from point `i`. -/
def NearestAfter (gs : List (Option Pt)) (i q : Nat) : Prop :=
  ∃ a : Nat, 1 ≤ a ∧ q = around gs.length ((i : ℤ) + a) ∧ Given gs q ∧
    ∀ t : Nat, 1 ≤ t → t < a → ¬ Given gs (around gs.length ((i : ℤ) + t))

/-- Both coordinates of `r` are inferred for the point `c` from references at `c1` and `c2` with deltas `d1` and `d2`. -/
def InferredPoint (c1 d1 c2 d2 c r : Pt) : Prop :=
  Inferred c1.1.toInt d1.1.toInt c2.1.toInt d2.1.toInt c.1.toInt r.1.toInt ∧
  Inferred c1.2.toInt d1.2.toInt c2.2.toInt d2.2.toInt c.2.toInt r.2.toInt

/-- The subtractions made for a pair of references fit sixteen bits. -/
def RefsFit (c1 d1 c2 d2 : Pt) : Prop := AxisFits c1.1 d1.1 c2.1 d2.1 ∧ AxisFits c1.2 d1.2 c2.2 d2.2

/-! ### Lemmas -/

theorem segPt_spec (c1 d1 c2 d2 c : Pt) :
    (RefsFit c1 d1 c2 d2 ∧ ∃ r, segPt c1 d1 c2 d2 c = .ok r ∧ InferredPoint c1 d1 c2 d2 c r) ∨
    (¬ RefsFit c1 d1 c2 d2 ∧ segPt c1 d1 c2 d2 c = .panic) := by
  unfold segPt RefsFit InferredPoint
  rcases segVal_spec c1.1 d1.1 c2.1 d2.1 c.1 with ⟨f, x, e, i⟩ | ⟨f, e⟩
  · rcases segVal_spec c1.2 d1.2 c2.2 d2.2 c.2 with ⟨f', y, e', i'⟩ | ⟨f', e'⟩
    · exact .inl ⟨⟨f, f'⟩, (x, y), by rw [e, e']; rfl, i, i'⟩
    · exact .inr ⟨fun g => f' g.2, by rw [e, e']; rfl⟩
  · exact .inr ⟨fun g => f g.1, by rw [e]; rfl⟩

theorem around_small {n : Nat} {z : ℤ} (h0 : 0 ≤ z) (h1 : z < n) : around n z = z.toNat := by
  unfold around; rw [Int.emod_eq_of_lt h0 h1]

theorem around_lt {n : Nat} (z : ℤ) (h : 0 < n) : around n z < n := by
  unfold around
  have h1 := Int.emod_nonneg z (b := n) (by omega)
  have h2 := Int.emod_lt_of_pos z (b := n) (by omega)
  omega

theorem around_add (n : Nat) (z : ℤ) : around n (z + n) = around n z := by unfold around; simp

theorem around_neg {n : Nat} {z : ℤ} (h0 : -n ≤ z) (h1 : z < 0) : around n z = (z + n).toNat := by
  rw [← around_add, around_small (by omega) (by omega)]

theorem around_ge {n : Nat} {z : ℤ} (h0 : (n : ℤ) ≤ z) (h1 : z < 2 * n) : around n z = (z - n).toNat := by
  have := around_add n (z - n)
  rw [sub_add_cancel] at this
  rw [this, around_small (by omega) (by omega)]

theorem around_nat {n i : Nat} (h : i < n) : around n (i : ℤ) = i := by
  rw [around_small (by omega) (by omega)]; simp

theorem Given.lt {gs : List (Option Pt)} {i : Nat} (h : Given gs i) : i < gs.length := by
  obtain ⟨d, h⟩ := h
  exact (List.getElem?_eq_some_iff.1 h).1

theorem nearestBefore_unique {gs : List (Option Pt)} {i p p' : Nat} (h : NearestBefore gs i p) (h' : NearestBefore gs i p') :
    p = p' := by
  obtain ⟨a, ha, e, g, m⟩ := h
  obtain ⟨a', ha', e', g', m'⟩ := h'
  rcases lt_trichotomy a a' with hlt | heq | hgt
  · exact absurd (e ▸ g) (m' a ha hlt)
  · rw [e, e', heq]
  · exact absurd (e' ▸ g') (m a' ha' hgt)

theorem nearestAfter_unique {gs : List (Option Pt)} {i p p' : Nat} (h : NearestAfter gs i p) (h' : NearestAfter gs i p') :
    p = p' := by
  obtain ⟨a, ha, e, g, m⟩ := h
  obtain ⟨a', ha', e', g', m'⟩ := h'
  rcases lt_trichotomy a a' with hlt | heq | hgt
  · exact absurd (e ▸ g) (m' a ha hlt)
  · rw [e, e', heq]
  · exact absurd (e' ▸ g') (m a' ha' hgt)

/-- Lookups which never miss where they are used. -/
def cAt (cs : List Pt) (i : Nat) : Pt := cs.getD i (0, 0)
def dAt (gs : List (Option Pt)) (i : Nat) : Pt := (gs.getD i none).getD (0, 0)

/-- The inferred value of point `i` from references `p` and `q`. -/
def refVal (gs : List (Option Pt)) (cs : List Pt) (p q i : Nat) : Res Pt :=
  segPt (cAt cs p) (dAt gs p) (cAt cs q) (dAt gs q) (cAt cs i)

theorem cAt_some {cs : List Pt} {i : Nat} (h : i < cs.length) : cs[i]? = some (cAt cs i) := by
  unfold cAt; rw [List.getD_eq_getElem?_getD, List.getElem?_eq_getElem h]; rfl

theorem dAt_given {gs : List (Option Pt)} {i : Nat} {d : Pt} (h : gs[i]? = some (some d)) : dAt gs i = d := by
  unfold dAt; rw [List.getD_eq_getElem?_getD, h]; rfl

theorem dAt_some {gs : List (Option Pt)} {i : Nat} (h : Given gs i) : gs[i]? = some (some (dAt gs i)) := by
  obtain ⟨d, h⟩ := h
  rw [dAt_given h, h]

theorem slice_map (cs : List Pt) {a b : Nat} (h : a ≤ b) (hb : b ≤ cs.length) :
    slice cs a b = .ok ((List.range' a (b - a)).map (cAt cs)) := by
  unfold slice
  rw [if_pos ⟨h, hb⟩]
  congr 1
  apply List.ext_getElem?
  intro k
  by_cases hk : k < b - a
  · rw [List.getElem?_take_of_lt hk, List.getElem?_drop, List.getElem?_map, List.getElem?_range' hk,
      cAt_some (show a + k < cs.length by omega)]
    simp
  · rw [List.getElem?_eq_none (by simp; omega), List.getElem?_eq_none (by simp; omega)]

abbrev asDeltas (gs : List (Option Pt)) : List (Option TupleVar.Delta) := gs.map (Option.map twoD)

theorem asDeltas_at {gs : List (Option Pt)} {i : Nat} (h : Given gs i) :
    (asDeltas gs)[i]? = some (some (twoD (dAt gs i))) := by
  rw [List.getElem?_map, dAt_some h]; rfl

theorem segAt_eq {gs : List (Option Pt)} {cs : List Pt} (hl : cs.length = gs.length) {a b r1 r2 : Nat} (hab : a < b)
    (hb : b ≤ gs.length) (h1 : Given gs r1) (h2 : Given gs r2) :
    segAt (asDeltas gs) cs a b r1 r2 = Res.mapL (refVal gs cs r1 r2) (List.range' a (b - a)) := by
  unfold segAt
  rw [slice_map cs (by omega) (by omega)]
  simp only [Res.ok_bind]
  rw [cAt_some (hl ▸ h1.lt), cAt_some (hl ▸ h2.lt), asDeltas_at h1, asDeltas_at h2]
  simp only [Res.ok_bind, Res.unwrap_some]
  rw [iupSegment_eq (by simp; omega), mapL_comp]
  rfl

theorem givenAt_eq {gs : List (Option Pt)} {i : Nat} (h : Given gs i) : givenAt (asDeltas gs) i = .ok (dAt gs i) := by
  unfold givenAt
  rw [asDeltas_at h]
  rfl

theorem mem_indices {gs : List (Option Pt)} {i : Nat} : i ∈ indices (asDeltas gs) ↔ Given gs i := by
  unfold indices Given
  rw [List.mem_filter, List.mem_range, List.getElem?_map]
  constructor
  · rintro ⟨h, e⟩
    rw [List.length_map] at h
    rw [List.getElem?_eq_getElem h] at e ⊢
    cases hg : gs[i] with
    | none => rw [hg] at e; simp at e
    | some d => exact ⟨d, rfl⟩
  · rintro ⟨d, e⟩
    rw [List.length_map]
    exact ⟨(List.getElem?_eq_some_iff.1 e).1, by rw [e]; rfl⟩

theorem indices_sorted (ds : List (Option TupleVar.Delta)) : (indices ds).Pairwise (· < ·) := by
  unfold indices
  exact List.Pairwise.filter _ List.pairwise_lt_range

/-- A computation of point values which agrees with what is given and with the nearest references. -/
structure Agrees (gs : List (Option Pt)) (cs : List Pt) (E : Nat → Res Pt) : Prop where
  given : ∀ i, Given gs i → E i = .ok (dAt gs i)
  omitted : ∀ i p q, i < gs.length → ¬ Given gs i → NearestBefore gs i p → NearestAfter gs i q → E i = refVal gs cs p q i

theorem nearest_inner {gs : List (Option Pt)} {p q i : Nat} (hp : Given gs p) (hq : Given gs q) (h1 : p < i) (h2 : i < q)
    (hno : ∀ k, p < k → k < q → ¬ Given gs k) : NearestBefore gs i p ∧ NearestAfter gs i q := by
  have lp := hp.lt
  have lq := hq.lt
  refine ⟨⟨i - p, by omega, ?_, hp, ?_⟩, ⟨q - i, by omega, ?_, hq, ?_⟩⟩
  · rw [around_small (by omega) (by omega)]; omega
  · intro t ht hta
    rw [around_small (by omega) (by omega)]
    exact hno _ (by omega) (by omega)
  · rw [around_small (by omega) (by omega)]; omega
  · intro t ht hta
    rw [around_small (by omega) (by omega)]
    exact hno _ (by omega) (by omega)

theorem nearest_first {gs : List (Option Pt)} {s l i : Nat} (hs : Given gs s) (hl : Given gs l) (h1 : i < s) (hsl : s ≤ l)
    (hno : ∀ k, k < s → ¬ Given gs k) (hno' : ∀ k, l < k → ¬ Given gs k) : NearestBefore gs i l ∧ NearestAfter gs i s := by
  have ls := hs.lt
  have ll := hl.lt
  refine ⟨⟨i + gs.length - l, by omega, ?_, hl, ?_⟩, ⟨s - i, by omega, ?_, hs, ?_⟩⟩
  · rw [around_neg (by omega) (by omega)]; omega
  · intro t ht hta
    by_cases hti : t ≤ i
    · rw [around_small (by omega) (by omega)]
      exact hno _ (by omega)
    · rw [around_neg (by omega) (by omega)]
      exact hno' _ (by omega)
  · rw [around_small (by omega) (by omega)]; omega
  · intro t ht hta
    rw [around_small (by omega) (by omega)]
    exact hno _ (by omega)

theorem nearest_last {gs : List (Option Pt)} {s l i : Nat} (hs : Given gs s) (hl : Given gs l) (h1 : l < i)
    (h2 : i < gs.length) (hsl : s ≤ l)
    (hno : ∀ k, k < s → ¬ Given gs k) (hno' : ∀ k, l < k → ¬ Given gs k) : NearestBefore gs i l ∧ NearestAfter gs i s := by
  have ls := hs.lt
  have ll := hl.lt
  refine ⟨⟨i - l, by omega, ?_, hl, ?_⟩, ⟨s + gs.length - i, by omega, ?_, hs, ?_⟩⟩
  · rw [around_small (by omega) (by omega)]; omega
  · intro t ht hta
    rw [around_small (by omega) (by omega)]
    exact hno' _ (by omega)
  · rw [around_ge (by omega) (by omega)]; omega
  · intro t ht hta
    by_cases hti : i + t < gs.length
    · rw [around_small (by omega) (by omega)]
      exact hno' _ (by omega)
    · rw [around_ge (by omega) (by omega)]
      exact hno _ (by omega)

theorem range'_split (a b c : Nat) (h : a ≤ b) (h2 : b ≤ c) :
    List.range' a (c - a) = List.range' a (b - a) ++ List.range' b (c - b) := by
  have : c - a = (b - a) + (c - b) := by omega
  rw [this, ← List.range'_append_1]
  congr 2
  omega

/-- The loop over the later references computes each point's value in turn. -/
theorem iupLoop_eq {gs : List (Option Pt)} {cs : List Pt} (hl : cs.length = gs.length) {E : Nat → Res Pt}
    (hE : Agrees gs cs E) : ∀ (es : List Nat) (start : Nat), Given gs start → (start :: es).Pairwise (· < ·) →
    (∀ e ∈ es, Given gs e) → (∀ k, start < k → Given gs k → k ∈ es) →
    iupLoop (asDeltas gs) cs start es = (Res.mapL E (List.range' (start + 1) ((start :: es).getLast (by simp) - start)) >>=
      fun l => .ok (l, (start :: es).getLast (by simp)))
  | [], start, _, _, _, _ => by
    simp [iupLoop, Res.mapL]
  | e :: es, start, hs, hp, hg, hm => by
    have hlt : start < e := by
      have := List.pairwise_cons.1 hp
      exact this.1 e (by simp)
    have hge : Given gs e := hg e (by simp)
    have hp' : (e :: es).Pairwise (· < ·) := (List.pairwise_cons.1 hp).2
    have hno : ∀ k, start < k → k < e → ¬ Given gs k := by
      intro k h1 h2 g
      rcases List.mem_cons.1 (hm k h1 g) with h | h
      · omega
      · have := (List.pairwise_cons.1 hp').1 k h; omega
    have ih := iupLoop_eq hl hE es e hge hp' (fun x hx => hg x (by simp [hx])) (by
      intro k hk g
      rcases List.mem_cons.1 (hm k (by omega) g) with h | h
      · omega
      · exact h)
    have hle : e ≤ (e :: es).getLast (by simp) := by
      rcases List.mem_cons.1 (List.getLast_mem (l := e :: es) (by simp)) with h | h
      · omega
      · have := (List.pairwise_cons.1 hp').1 _ h; omega
    rw [iupLoop, ih, givenAt_eq hge]
    have hlast : (start :: e :: es).getLast (by simp) = (e :: es).getLast (by simp) := List.getLast_cons (by simp)
    rw [hlast]
    obtain ⟨L, hL⟩ : ∃ L, L = (e :: es).getLast (by simp) := ⟨_, rfl⟩
    rw [← hL] at hle ⊢
    have sp : List.range' (start + 1) (L - start) = List.range' (start + 1) (e - (start + 1)) ++ e :: List.range' (e + 1) (L - e) := by
      have h1 := range'_split (start + 1) e (L + 1) (by omega) (by omega)
      rw [show L + 1 - (start + 1) = L - start from by omega, show L + 1 - e = (L - e) + 1 from by omega, List.range'_succ] at h1
      exact h1
    have seg : (if 1 < e - start then segAt (asDeltas gs) cs (start + 1) e start e else .ok []) =
        Res.mapL E (List.range' (start + 1) (e - (start + 1))) := by
      by_cases hgap : 1 < e - start
      · rw [if_pos hgap, segAt_eq hl (by omega) (by have := hge.lt; omega) hs hge]
        apply mapL_congr'
        intro i hi
        rw [List.mem_range'_1] at hi
        have nn := nearest_inner hs hge (i := i) (by omega) (by omega) hno
        exact (hE.omitted i start e (by have := hge.lt; omega) (hno i (by omega) (by omega)) nn.1 nn.2).symm
      · rw [if_neg hgap, show e - (start + 1) = 0 from by omega]; rfl
    rw [seg, sp, mapL_append', mapL_cons', hE.given e hge]
    cases Res.mapL E (List.range' (start + 1) (e - (start + 1))) with
    | err => rfl
    | panic => rfl
    | ok v =>
      simp only [Res.ok_bind]
      cases Res.mapL E (List.range' (e + 1) (L - e)) <;> rfl

/-- `iup_contour` computes each point's value in turn. -/
theorem iupContour_eq {gs : List (Option Pt)} {cs : List Pt} (hl : cs.length = gs.length) {E : Nat → Res Pt}
    (hE : Agrees gs cs E) (hne : gs.length = 0 ∨ ∃ i, Given gs i) :
    iupContour (asDeltas gs) cs = Res.mapL E (List.range gs.length) := by
  unfold iupContour
  split
  · rename_i hall
    rw [List.length_map]
    apply mapL_congr'
    intro i hi
    rw [List.mem_range] at hi
    have hg : Given gs i := by
      rw [List.all_eq_true] at hall
      have := hall (Option.map twoD gs[i]) (List.mem_map.2 ⟨gs[i], List.getElem_mem hi, rfl⟩)
      cases hgi : gs[i] with
      | none => rw [hgi] at this; simp at this
      | some d => exact ⟨d, by rw [List.getElem?_eq_getElem hi, hgi]⟩
    rw [givenAt_eq hg, hE.given i hg]
  · rename_i hall
    have hs := indices_sorted (asDeltas gs)
    have hm : ∀ i, i ∈ indices (asDeltas gs) ↔ Given gs i := fun i => mem_indices
    cases hi : indices (asDeltas gs) with
    | nil =>
      exfalso
      rcases hne with h | ⟨i, h⟩
      · apply hall
        rw [List.length_eq_zero_iff.1 h]; rfl
      · have := (hm i).2 h
        rw [hi] at this; simp at this
    | cons start rest =>
      rw [hi] at hs hm
      simp only
      have hgs : Given gs start := (hm start).1 (by simp)
      have hbefore : ∀ k, k < start → ¬ Given gs k := by
        intro k hk g
        rcases List.mem_cons.1 ((hm k).2 g) with h | h
        · omega
        · have := (List.pairwise_cons.1 hs).1 k h; omega
      have loop := iupLoop_eq hl hE rest start hgs hs (fun e he => (hm e).1 (by simp [he])) (by
        intro k hk g
        rcases List.mem_cons.1 ((hm k).2 g) with h | h
        · omega
        · exact h)
      rw [loop]
      obtain ⟨L, hL⟩ : ∃ L, L = (start :: rest).getLast (by simp) := ⟨_, rfl⟩
      have hgL : Given gs L := (hm L).1 (hL ▸ List.getLast_mem _)
      have hmax : ∀ k ∈ start :: rest, k ≤ L := by
        intro k hk
        rw [hL]
        obtain ⟨j, hj, ej⟩ := List.getElem_of_mem hk
        rw [List.getLast_eq_getElem]
        rw [← ej]
        rcases Nat.lt_or_ge j ((start :: rest).length - 1) with h | h
        · exact Nat.le_of_lt (List.pairwise_iff_getElem.1 hs _ _ _ _ h)
        · have : j = (start :: rest).length - 1 := by omega
          subst this; exact le_refl _
      have hafter : ∀ k, L < k → ¬ Given gs k := by
        intro k hk g
        have := hmax k ((hm k).2 g); omega
      have hsL : start ≤ L := hmax start (by simp)
      have lL := hgL.lt
      rw [← hL]
      have first : (if start ≠ 0 then segAt (asDeltas gs) cs 0 start start L else .ok []) =
          Res.mapL E (List.range' 0 (start - 0)) := by
        by_cases h0 : start ≠ 0
        · rw [if_pos h0, segAt_eq hl (by omega) (by omega) hgs hgL]
          apply mapL_congr'
          intro i hi
          rw [List.mem_range'_1] at hi
          have nn := nearest_first hgs hgL (i := i) (by omega) hsL hbefore hafter
          rw [hE.omitted i L start (by omega) (hbefore i (by omega)) nn.1 nn.2]
          unfold refVal
          exact segPt_symm _ _ _ _ _
        · rw [if_neg h0, show start - 0 = 0 from by omega]; rfl
      have last : (if L ≠ (asDeltas gs).length - 1 then segAt (asDeltas gs) cs (L + 1) (asDeltas gs).length L start else .ok []) =
          Res.mapL E (List.range' (L + 1) (gs.length - (L + 1))) := by
        rw [List.length_map]
        by_cases h0 : L ≠ gs.length - 1
        · rw [if_pos h0, segAt_eq hl (by omega) (by omega) hgL hgs]
          apply mapL_congr'
          intro i hi
          rw [List.mem_range'_1] at hi
          have nn := nearest_last hgs hgL (i := i) (by omega) (by omega) hsL hbefore hafter
          exact (hE.omitted i L start (by omega) (hafter i (by omega)) nn.1 nn.2).symm
        · rw [if_neg h0, show gs.length - (L + 1) = 0 from by omega]; rfl
      have sp : List.range gs.length = List.range' 0 (start - 0) ++ start :: (List.range' (start + 1) (L - start) ++
          List.range' (L + 1) (gs.length - (L + 1))) := by
        rw [List.range_eq_range']
        have h1 := range'_split 0 start gs.length (by omega) (by omega)
        rw [show gs.length - start = (gs.length - (start + 1)) + 1 from by omega, List.range'_succ,
          range'_split (start + 1) (L + 1) gs.length (by omega) (by omega), show L + 1 - (start + 1) = L - start from by omega] at h1
        simpa using h1
      rw [first, givenAt_eq hgs, sp, mapL_append', mapL_cons', mapL_append', hE.given start hgs]
      cases Res.mapL E (List.range' 0 (start - 0)) with
      | err => rfl
      | panic => rfl
      | ok v =>
        simp only [Res.ok_bind]
        cases Res.mapL E (List.range' (start + 1) (L - start)) with
        | err => rfl
        | panic => rfl
        | ok w =>
          simp only [Res.ok_bind]
          rw [last]
          cases Res.mapL E (List.range' (L + 1) (gs.length - (L + 1))) <;> rfl

/-! ### C41 -/

theorem nearest_exists {gs : List (Option Pt)} (h : ∃ j, Given gs j) {i : Nat} (hi : i < gs.length) :
    (∃ p, NearestBefore gs i p) ∧ ∃ q, NearestAfter gs i q := by
  classical
  obtain ⟨j, hj⟩ := h
  have lj := hj.lt
  constructor
  · have ex : ∃ a : Nat, 1 ≤ a ∧ Given gs (around gs.length ((i : ℤ) - a)) := by
      by_cases hc : j < i
      · refine ⟨i - j, by omega, ?_⟩
        rw [around_small (by omega) (by omega), show (((i : ℤ) - ((i - j : Nat) : ℤ))).toNat = j from by omega]
        exact hj
      · refine ⟨i + gs.length - j, by omega, ?_⟩
        rw [around_neg (by omega) (by omega),
          show ((i : ℤ) - ((i + gs.length - j : Nat) : ℤ) + gs.length).toNat = j from by omega]
        exact hj
    exact ⟨_, Nat.find ex, (Nat.find_spec ex).1, rfl, (Nat.find_spec ex).2, fun t h1 h2 g => Nat.find_min ex h2 ⟨h1, g⟩⟩
  · have ex : ∃ a : Nat, 1 ≤ a ∧ Given gs (around gs.length ((i : ℤ) + a)) := by
      by_cases hc : i < j
      · refine ⟨j - i, by omega, ?_⟩
        rw [around_small (by omega) (by omega), show (((i : ℤ) + ((j - i : Nat) : ℤ))).toNat = j from by omega]
        exact hj
      · refine ⟨j + gs.length - i, by omega, ?_⟩
        rw [around_ge (by omega) (by omega),
          show ((i : ℤ) + ((j + gs.length - i : Nat) : ℤ) - gs.length).toNat = j from by omega]
        exact hj
    exact ⟨_, Nat.find ex, (Nat.find_spec ex).1, rfl, (Nat.find_spec ex).2, fun t h1 h2 g => Nat.find_min ex h2 ⟨h1, g⟩⟩

open Classical in
/-- The value of each point, from its nearest references. -/
noncomputable def pointVal (gs : List (Option Pt)) (cs : List Pt) (i : Nat) : Res Pt :=
  if Given gs i then .ok (dAt gs i)
  else if h : ∃ p q, NearestBefore gs i p ∧ NearestAfter gs i q then
    refVal gs cs h.choose h.choose_spec.choose i
  else .panic

theorem pointVal_agrees (gs : List (Option Pt)) (cs : List Pt) : Agrees gs cs (pointVal gs cs) where
  given i h := by unfold pointVal; rw [if_pos h]
  omitted i p q _ hn hp hq := by
    unfold pointVal
    have h : ∃ p q, NearestBefore gs i p ∧ NearestAfter gs i q := ⟨p, q, hp, hq⟩
    rw [if_neg hn, dif_pos h]
    have hs := h.choose_spec.choose_spec
    exact congrArg₂ (fun a b => refVal gs cs a b i) (nearestBefore_unique hs.1 hp) (nearestAfter_unique hs.2 hq)

theorem mapL_range_ok {E : Nat → Res Pt} {n : Nat} {out : List Pt} (h : Res.mapL E (List.range n) = .ok out) :
    out.length = n ∧ ∀ i, i < n → ∃ r, out[i]? = some r ∧ E i = .ok r := by
  induction n generalizing out with
  | zero =>
    simp only [List.range_zero, Res.mapL] at h
    injection h with h; subst h
    exact ⟨rfl, fun i hi => by omega⟩
  | succ n ih =>
    rw [List.range_succ, mapL_append'] at h
    cases hm : Res.mapL E (List.range n) with
    | err => rw [hm] at h; simp at h
    | panic => rw [hm] at h; simp at h
    | ok a =>
      rw [hm] at h
      simp only [Res.ok_bind, Res.mapL] at h
      cases he : E n with
      | err => rw [he] at h; simp at h
      | panic => rw [he] at h; simp at h
      | ok r =>
        rw [he] at h
        simp only [Res.ok_bind, Res.ok.injEq] at h
        subst h
        obtain ⟨hl, hi⟩ := ih hm
        refine ⟨by simp [hl], fun i hlt => ?_⟩
        by_cases hin : i < n
        · obtain ⟨r', h1, h2⟩ := hi i hin
          exact ⟨r', by rw [List.getElem?_append_left (by omega)]; exact h1, h2⟩
        · have : i = n := by omega
          subst this
          exact ⟨r, by rw [List.getElem?_append_right (by omega), hl]; simp, he⟩

theorem mapL_all_ok {E : Nat → Res Pt} : ∀ (l : List Nat), (∀ i ∈ l, ∃ r, E i = .ok r) → ∃ out, Res.mapL E l = .ok out
  | [], _ => ⟨[], rfl⟩
  | a :: l, h => by
    obtain ⟨r, hr⟩ := h a (by simp)
    obtain ⟨out, ho⟩ := mapL_all_ok l (fun i hi => h i (by simp [hi]))
    exact ⟨r :: out, by rw [mapL_cons', hr, ho]; rfl⟩

theorem not_given_iff {gs : List (Option Pt)} {i : Nat} (h : gs[i]? = some none) : ¬ Given gs i := by
  rintro ⟨d, e⟩
  rw [h] at e; simp at e

theorem iupContour_none {gs : List (Option Pt)} (cs : List Pt) (h : ¬ ∃ i, Given gs i) :
    iupContour (asDeltas gs) cs = .ok (List.replicate gs.length (0, 0)) := by
  unfold iupContour
  have hi : indices (asDeltas gs) = [] := by
    rw [List.eq_nil_iff_forall_not_mem]
    exact fun i hm => h ⟨i, mem_indices.1 hm⟩
  split
  · rename_i hall
    cases gs with
    | nil => rfl
    | cons o gs =>
      exfalso
      cases o with
      | none => simp at hall
      | some d => exact h ⟨0, d, rfl⟩
  · rw [hi]
    simp

/-- C41: expanding a contour gives one delta per point, keeps the given ones, is nought throughout if none is given, and
infers every other one from the nearest given deltas on both sides going round. -/
theorem C41_contour (gs : List (Option Pt)) (cs : List Pt) (hl : cs.length = gs.length) (out : List Pt)
    (h : iupContour (asDeltas gs) cs = .ok out) :
    out.length = gs.length ∧
    (∀ (i : Nat) (d : Pt), gs[i]? = some (some d) → out[i]? = some d) ∧
    ((∀ i : Nat, ¬ Given gs i) → out = List.replicate gs.length (0, 0)) ∧
    (∀ i : Nat, gs[i]? = some none → (∃ j, Given gs j) →
      ∃ (p q : Nat) (cp dp cq dq c r : Pt), NearestBefore gs i p ∧ NearestAfter gs i q ∧
        cs[p]? = some cp ∧ gs[p]? = some (some dp) ∧ cs[q]? = some cq ∧ gs[q]? = some (some dq) ∧ cs[i]? = some c ∧
        out[i]? = some r ∧ InferredPoint cp dp cq dq c r) := by
  by_cases hne : ∃ i, Given gs i
  · rw [iupContour_eq hl (pointVal_agrees gs cs) (.inr hne)] at h
    obtain ⟨hlen, hv⟩ := mapL_range_ok h
    refine ⟨hlen, fun i d hg => ?_, fun hno => absurd hne.choose_spec (hno _), fun i hi _ => ?_⟩
    · obtain ⟨r, h1, h2⟩ := hv i (List.getElem?_eq_some_iff.1 hg).1
      rw [(pointVal_agrees gs cs).given i ⟨d, hg⟩, dAt_given hg] at h2
      injection h2 with h2
      rw [h1, h2]
    · have hlt := (List.getElem?_eq_some_iff.1 hi).1
      obtain ⟨r, h1, h2⟩ := hv i hlt
      obtain ⟨⟨p, hp⟩, ⟨q, hq⟩⟩ := nearest_exists hne hlt
      rw [(pointVal_agrees gs cs).omitted i p q hlt (not_given_iff hi) hp hq] at h2
      have gp : Given gs p := by obtain ⟨_, _, _, g, _⟩ := hp; exact g
      have gq : Given gs q := by obtain ⟨_, _, _, g, _⟩ := hq; exact g
      refine ⟨p, q, cAt cs p, dAt gs p, cAt cs q, dAt gs q, cAt cs i, r, hp, hq, cAt_some (hl ▸ gp.lt), dAt_some gp,
        cAt_some (hl ▸ gq.lt), dAt_some gq, cAt_some (hl ▸ hlt), h1, ?_⟩
      unfold refVal at h2
      rcases segPt_spec (cAt cs p) (dAt gs p) (cAt cs q) (dAt gs q) (cAt cs i) with ⟨_, r', e, g⟩ | ⟨_, e⟩
      · rw [e] at h2
        injection h2 with h2
        exact h2 ▸ g
      · rw [e] at h2; simp at h2
  · rw [iupContour_none cs hne] at h
    injection h with h
    subst h
    refine ⟨by simp, fun i d hg => absurd ⟨i, d, hg⟩ hne, fun _ => rfl, fun i _ hj => absurd hj hne⟩

/-- C41: it returns exactly if the differences of the coordinates and of the deltas of every pair of references around
an omitted point fit sixteen bits. -/
theorem C41_returns (gs : List (Option Pt)) (cs : List Pt) (hl : cs.length = gs.length) :
    (∃ out, iupContour (asDeltas gs) cs = .ok out) ↔
    ∀ (i p q : Nat) (cp dp cq dq : Pt), gs[i]? = some none → NearestBefore gs i p → NearestAfter gs i q →
      cs[p]? = some cp → gs[p]? = some (some dp) → cs[q]? = some cq → gs[q]? = some (some dq) → RefsFit cp dp cq dq := by
  by_cases hne : ∃ i, Given gs i
  · rw [iupContour_eq hl (pointVal_agrees gs cs) (.inr hne)]
    constructor
    · rintro ⟨out, h⟩ i p q cp dp cq dq hi hp hq e1 e2 e3 e4
      have hlt := (List.getElem?_eq_some_iff.1 hi).1
      obtain ⟨r, _, h2⟩ := (mapL_range_ok h).2 i hlt
      rw [(pointVal_agrees gs cs).omitted i p q hlt (not_given_iff hi) hp hq] at h2
      unfold refVal at h2
      have l1 := (List.getElem?_eq_some_iff.1 e1).1
      have l3 := (List.getElem?_eq_some_iff.1 e3).1
      rw [cAt_some l1] at e1
      rw [cAt_some l3] at e3
      injection e1 with e1
      injection e3 with e3
      rw [e1, e3, dAt_given e2, dAt_given e4] at h2
      rcases segPt_spec cp dp cq dq (cAt cs i) with ⟨f, _⟩ | ⟨_, e⟩
      · exact f
      · rw [e] at h2; simp at h2
    · intro h
      apply mapL_all_ok
      intro i hi
      rw [List.mem_range] at hi
      by_cases hg : Given gs i
      · exact ⟨_, (pointVal_agrees gs cs).given i hg⟩
      · obtain ⟨⟨p, hp⟩, ⟨q, hq⟩⟩ := nearest_exists hne hi
        have gp : Given gs p := by obtain ⟨_, _, _, g, _⟩ := hp; exact g
        have gq : Given gs q := by obtain ⟨_, _, _, g, _⟩ := hq; exact g
        rw [(pointVal_agrees gs cs).omitted i p q hi hg hp hq]
        have hin : gs[i]? = some none := by
          rw [List.getElem?_eq_getElem hi]
          cases hgi : gs[i] with
          | none => rfl
          | some d => exact absurd ⟨d, by rw [List.getElem?_eq_getElem hi, hgi]⟩ hg
        have f := h i p q _ _ _ _ hin hp hq (cAt_some (hl ▸ gp.lt)) (dAt_some gp) (cAt_some (hl ▸ gq.lt)) (dAt_some gq)
        unfold refVal
        rcases segPt_spec (cAt cs p) (dAt gs p) (cAt cs q) (dAt gs q) (cAt cs i) with ⟨_, r, e, _⟩ | ⟨nf, _⟩
        · exact ⟨r, e⟩
        · exact absurd f nf
  · constructor
    · intro _ i p q cp dp cq dq _ _ _ _ e2
      exact absurd ⟨p, dp, e2⟩ hne
    · intro _
      exact ⟨_, iupContour_none cs hne⟩

/-- C41: an inferred value stays between the deltas of its references, unless these are at the same place and move
differently, when it is nought. -/
theorem C41_stays_between {x1 d1 x2 d2 x r : ℤ} (h : Inferred x1 d1 x2 d2 x r) :
    (min d1 d2 ≤ r ∧ r ≤ max d1 d2) ∨ (x1 = x2 ∧ d1 ≠ d2 ∧ r = 0) := by
  obtain ⟨h1, h2, h3, h4⟩ := h
  have key : ∀ {a da b db : ℤ}, a < b → BetweenRefs a da b db x r → min da db ≤ r ∧ r ≤ max da db := by
    intro a da b db hab hb
    obtain ⟨b1, b2, b3⟩ := hb
    by_cases ha : x ≤ a
    · rw [b1 ha]; exact ⟨min_le_left _ _, le_max_left _ _⟩
    · by_cases hb' : b ≤ x
      · rw [b2 hb']; exact ⟨min_le_right _ _, le_max_right _ _⟩
      · have := b3 (by omega) (by omega)
        exact ⟨this.1, this.2.1⟩
  rcases lt_trichotomy x1 x2 with hlt | heq | hgt
  · exact .inl (key hlt (h3 hlt))
  · by_cases hd : d1 = d2
    · left; rw [h1 heq hd]; exact ⟨min_le_left _ _, le_max_left _ _⟩
    · exact .inr ⟨heq, hd, h2 heq hd⟩
  · left
    have := key hgt (h4 hgt)
    rw [min_comm, max_comm]; exact this

/-- Two references at the same place which move by 5 and 7: the point between them does not move. -/
theorem C41_same_place : iupContour (asDeltas [some (5, 0), none, some (7, 0)]) [(10, 0), (20, 0), (10, 0)] =
    .ok [(5, 0), (0, 0), (7, 0)] := by decide +kernel

/-- References 40000 units apart: panic. -/
theorem C41_far_apart_panics : iupContour (asDeltas [some (5, 0), none, some (7, 0)]) [(-20000, 0), (0, 0), (20000, 0)] =
    .panic := by decide +kernel

/-- A scalar delta: panic. -/
theorem C41_scalar_panics : iupContour [some (.d1 5), none] [(0, 0), (0, 0)] = .panic := by decide +kernel

example : iupContour (asDeltas [none, some (10, -4), none, some (20, 4), none]) [(0, 0), (0, 0), (5, 5), (10, 10), (12, 12)] =
    .ok [(10, -4), (10, -4), (15, 0), (20, 4), (20, 4)] := by decide +kernel

end FT.Props
