import Verif.Props.Iup

/-!
C42: dropping inferable deltas is lossless.
-/

namespace FT.Props
open FT FT.F32 FT.Glyf FT.Iup

/-! ### Chains of kept positions -/

/-- A descending chain of linked positions from `u` to `v`, with the positions visited before `v`. -/
inductive Descent (L : ℤ → ℤ → Prop) : ℤ → List ℤ → ℤ → Prop where
  | nil (u : ℤ) : Descent L u [] u
  | cons {u w : ℤ} {l : List ℤ} {v : ℤ} : w < u → L w u → Descent L w l v → Descent L u (u :: l) v

theorem Descent.le {L : ℤ → ℤ → Prop} {u v : ℤ} {l : List ℤ} (h : Descent L u l v) : v ≤ u := by
  induction h with
  | nil => exact le_refl _
  | cons h1 _ _ ih => omega

theorem Descent.mem {L : ℤ → ℤ → Prop} {u v : ℤ} {l : List ℤ} (h : Descent L u l v) : ∀ x ∈ l, v < x ∧ x ≤ u := by
  induction h with
  | nil => simp
  | cons h1 _ hd ih =>
    intro x hx
    have := hd.le
    rcases List.mem_cons.1 hx with h | h
    · omega
    · have := ih x h; omega

theorem Descent.start_mem {L : ℤ → ℤ → Prop} {u v : ℤ} {l : List ℤ} (h : Descent L u l v) (hne : v < u) : u ∈ l := by
  cases h with
  | nil => omega
  | cons => simp

theorem Descent.gap {L : ℤ → ℤ → Prop} {u v : ℤ} {l : List ℤ} (h : Descent L u l v) :
    ∀ t, v < t → t ≤ u → t ∉ l → ∃ w x, w < t ∧ t < x ∧ L w x ∧ x ∈ l ∧ (w ∈ l ∨ w = v) ∧ ∀ y ∈ l, y ≤ w ∨ x ≤ y := by
  induction h with
  | nil => intro t h1 h2; omega
  | @cons u w l v h1 hL hd ih =>
    intro t ht1 ht2 hn
    by_cases hw : t ≤ w
    · obtain ⟨a, x, h3, h4, h5, h6, h7, h8⟩ := ih t ht1 hw (fun h => hn (by simp [h]))
      refine ⟨a, x, h3, h4, h5, by simp [h6], ?_, ?_⟩
      · rcases h7 with h | h
        · left; simp [h]
        · exact .inr h
      · intro y hy
        rcases List.mem_cons.1 hy with h | h
        · right; have := (hd.mem x h6).2; omega
        · exact h8 y h
    · have htu : t ≠ u := fun h => hn (by simp [h])
      refine ⟨w, u, by omega, by omega, hL, by simp, ?_, ?_⟩
      · rcases lt_or_eq_of_le hd.le with h | h
        · left; have := hd.start_mem h; simp [this]
        · exact .inr h.symm
      · intro y hy
        rcases List.mem_cons.1 hy with h | h
        · right; omega
        · left; exact (hd.mem y h).2

theorem Descent.map {L L' : ℤ → ℤ → Prop} {f : ℤ → ℤ} (hf : ∀ a b, a < b → f a < f b) (hL : ∀ a b, L a b → L' (f a) (f b))
    {u v : ℤ} {l : List ℤ} (h : Descent L u l v) : Descent L' (f u) (l.map f) (f v) := by
  induction h with
  | nil => exact .nil _
  | cons h1 h2 _ ih => exact .cons (hf _ _ h1) (hL _ _ h2) ih

/-! ### A chain that goes round once is lossless -/

/-- The deltas kept at the positions of a list. -/
def keepG (ds : List Pt) (sol : List ℤ) : List (Option Pt) :=
  ds.zipIdx.map (fun x => if (x.2 : Int) ∈ sol then some x.1 else none)

theorem keepAt_eq (ds : List Pt) (sol : List ℤ) : keepAt ds sol = asDeltas (keepG ds sol) := by
  unfold keepAt keepG asDeltas
  rw [List.map_map]
  apply List.map_congr_left
  intro x _
  simp only [Function.comp]
  split <;> rfl

theorem keepG_length (ds : List Pt) (sol : List ℤ) : (keepG ds sol).length = ds.length := by
  unfold keepG; simp

theorem keepG_at (ds : List Pt) (sol : List ℤ) {i : Nat} (h : i < ds.length) :
    (keepG ds sol)[i]? = some (if (i : ℤ) ∈ sol then some (cAt ds i) else none) := by
  unfold keepG
  rw [List.getElem?_map, List.getElem?_zipIdx, cAt_some h]
  simp

theorem keepG_given {ds : List Pt} {sol : List ℤ} {i : Nat} : Given (keepG ds sol) i ↔ i < ds.length ∧ (i : ℤ) ∈ sol := by
  constructor
  · intro h
    have hl := h.lt
    rw [keepG_length] at hl
    obtain ⟨d, e⟩ := h
    rw [keepG_at ds sol hl] at e
    refine ⟨hl, ?_⟩
    by_cases hm : (i : ℤ) ∈ sol
    · exact hm
    · rw [if_neg hm] at e; simp at e
  · rintro ⟨hl, hm⟩
    exact ⟨cAt ds i, by rw [keepG_at ds sol hl, if_pos hm]⟩

theorem map_cAt (ds : List Pt) : (List.range ds.length).map (cAt ds) = ds := by
  apply List.ext_getElem?
  intro i
  by_cases h : i < ds.length
  · rw [List.getElem?_map, List.getElem?_range h, cAt_some h]; rfl
  · rw [List.getElem?_eq_none (by simp; omega), List.getElem?_eq_none (by omega)]

theorem mapL_ok_map {α β : Type} (f : α → β) : ∀ (l : List α), Res.mapL (fun a => .ok (f a)) l = .ok (l.map f)
  | [] => rfl
  | a :: l => by rw [mapL_cons', mapL_ok_map f l]; rfl

/-- Every position between `w` and `x` gets its delta from references there. -/
def LinkOf (ds cs : List Pt) (w x : ℤ) : Prop :=
  ∀ t, w < t → t < x → segPt (cAt cs (around ds.length w)) (cAt ds (around ds.length w)) (cAt cs (around ds.length x))
    (cAt ds (around ds.length x)) (cAt cs (around ds.length t)) = .ok (cAt ds (around ds.length t))

theorem around_cast {n : Nat} (z : ℤ) (h : 0 < n) : ((around n z : Nat) : ℤ) = z % n := by
  unfold around
  have h1 := Int.emod_nonneg z (b := n) (by omega)
  omega

theorem around_congr {n : Nat} {y z : ℤ} (h : y % n = z % n) : around n y = around n z := by
  unfold around; rw [h]

theorem emod_window {n : ℤ} {y z u : ℤ} (h : y % n = z % n) (h1 : u - n < y) (h2 : y ≤ u) (h3 : u - n < z)
    (h4 : z ≤ u) : y = z := by
  have d := Int.emod_emod_of_dvd (n := y - z) (m := n) (dvd_refl n)
  have h5 : (y - z) % n = 0 := Int.emod_eq_emod_iff_emod_sub_eq_zero.1 h
  obtain ⟨c, hc⟩ := Int.dvd_of_emod_eq_zero h5
  have hn : 0 < n := by omega
  have : c = 0 := by
    rcases lt_trichotomy c 0 with h' | h' | h'
    · have : n * c ≤ n * (-1) := Int.mul_le_mul_of_nonneg_left (by omega) (by omega)
      omega
    · exact h'
    · have : n * 1 ≤ n * c := Int.mul_le_mul_of_nonneg_left (by omega) (by omega)
      omega
  subst this
  omega

theorem lossless {ds cs : List Pt} (hl : cs.length = ds.length) (hn : 0 < ds.length) {u : ℤ} {l : List ℤ}
    (h : Descent (LinkOf ds cs) u l (u - ds.length)) :
    iupContour (asDeltas (keepG ds (l.map (· % (ds.length : ℤ))))) cs = .ok ds := by
  obtain ⟨n, hN⟩ : ∃ n, n = ds.length := ⟨_, rfl⟩
  rw [← hN] at h hn hl
  obtain ⟨gs, hgs⟩ : ∃ gs, gs = keepG ds (l.map (· % (ds.length : ℤ))) := ⟨_, rfl⟩
  have hlen : gs.length = n := by rw [hgs, keepG_length, hN]
  have giv : ∀ i, Given gs i ↔ i < n ∧ ∃ z ∈ l, z % (n : ℤ) = i := by
    intro i
    rw [hgs, keepG_given, List.mem_map, ← hN]
  have dat : ∀ i, Given gs i → dAt gs i = cAt ds i := by
    intro i hg
    have hi := ((giv i).1 hg).1
    have := dAt_some hg
    rw [hgs, keepG_at ds _ (hN ▸ hi)] at this
    rw [hgs]
    split at this
    · injection this with this
      injection this with this
      exact this.symm
    · simp at this
  have giv' : ∀ z ∈ l, Given gs (around n z) := by
    intro z hz
    exact (giv _).2 ⟨around_lt z hn, z, hz, (around_cast z hn).symm⟩
  have inwin : ∀ t, u - n < t → t ≤ u → Given gs (around n t) → t ∈ l := by
    intro t h1 h2 hg
    obtain ⟨_, z, hz, e⟩ := (giv _).1 hg
    rw [around_cast t hn] at e
    have := h.mem z hz
    have := emod_window e this.1 this.2 h1 h2
    exact this ▸ hz
  have hu : u ∈ l := h.start_mem (by omega)
  rw [← hgs]
  rw [iupContour_eq (E := fun i => .ok (cAt ds i)) (by rw [hl, hlen]) ⟨?_, ?_⟩ (.inr ⟨_, giv' u hu⟩), hlen,
    mapL_ok_map, hN, map_cAt]
  · intro i hg
    rw [dat i hg]
  · intro i p q hi hng hp hq
    rw [hlen] at hi
    -- the position of the window congruent to i
    obtain ⟨t, ht⟩ : ∃ t, t = u - (u - i) % (n : ℤ) := ⟨_, rfl⟩
    have m1 := Int.emod_nonneg (u - i) (b := n) (by omega)
    have m2 := Int.emod_lt_of_pos (u - i) (b := n) (by omega)
    have tmod : ∀ s : ℤ, (t + s) % (n : ℤ) = ((i : ℤ) + s) % n := by
      intro s
      apply Int.emod_eq_emod_iff_emod_sub_eq_zero.2
      have e : t + s - (i + s) = (u - i) - (u - i) % (n : ℤ) := by omega
      rw [e]
      exact Int.emod_eq_zero_of_dvd (Int.dvd_self_sub_emod)
    have ti : around n t = i := by
      have := tmod 0
      rw [add_zero, add_zero] at this
      rw [around_congr this, around_nat hi]
    have tl : t ∉ l := fun hm => hng (ti ▸ giv' t hm)
    obtain ⟨w, x, h1, h2, hL, hx, hw, hy⟩ := h.gap t (by omega) (by omega) tl
    have hxr := h.mem x hx
    have hwr : u - n ≤ w := by
      rcases hw with hw | hw
      · have := h.mem w hw; omega
      · omega
    have gw : Given gs (around n w) := by
      rcases hw with hw | hw
      · exact giv' w hw
      · have e : around n w = around n u := by rw [hw, ← around_add n (u - n), sub_add_cancel]
        rw [e]; exact giv' u hu
    have nb : NearestBefore gs i (around n w) := by
      refine ⟨(t - w).toNat, by omega, ?_, gw, ?_⟩
      · rw [hlen]
        apply around_congr
        have := tmod (-(t - w))
        rw [show t + -(t - w) = w from by omega] at this
        rw [this]; congr 1; omega
      · intro s hs1 hs2 g
        rw [hlen] at g
        have e : around n ((i : ℤ) - s) = around n (t - s) := around_congr (by
          have := tmod (-s)
          rw [sub_eq_add_neg, sub_eq_add_neg, this])
        rw [e] at g
        have := inwin (t - s) (by omega) (by omega) g
        have := hy _ this
        omega
    have na : NearestAfter gs i (around n x) := by
      refine ⟨(x - t).toNat, by omega, ?_, giv' x hx, ?_⟩
      · rw [hlen]
        apply around_congr
        have := tmod (x - t)
        rw [show t + (x - t) = x from by omega] at this
        rw [this]; congr 1; omega
      · intro s hs1 hs2 g
        rw [hlen] at g
        have e : around n ((i : ℤ) + s) = around n (t + s) := around_congr (tmod s).symm
        rw [e] at g
        have := inwin (t + s) (by omega) (by omega) g
        have := hy _ this
        omega
    rw [nearestBefore_unique hp nb, nearestAfter_unique hq na]
    unfold refVal
    rw [dat _ gw, dat _ (giv' x hx)]
    have := hL t h1 h2
    rw [← hN, ti] at this
    exact this.symm

/-! ### The test of a link -/

theorem around_offset {n : Nat} (hn : 0 < n) (i : ℤ) {s : Nat} (hs : s ≤ n) :
    around n (i + s) = if around n i + s < n then around n i + s else around n i + s - n := by
  have a := around_cast i hn
  have la := around_lt i hn
  have e : around n (i + s) = around n ((around n i : ℤ) + s) := around_congr (by rw [a]; simp)
  rw [e]
  split
  · rw [around_small (by omega) (by omega)]; omega
  · rw [around_ge (by omega) (by omega)]; omega

theorem around_between {n : Nat} {i j : ℤ} (h2 : 2 ≤ j - i) (hn : j - i ≤ n) :
    (around n i + (j - i).toNat = around n j ∧ around n i + 1 ≤ around n j) ∨
    (around n i + (j - i).toNat = around n j + n ∧ around n j < around n i + 1) := by
  have hp : 0 < n := by omega
  have e := around_offset hp i (s := (j - i).toNat) (by omega)
  rw [show i + ((j - i).toNat : ℤ) = j from by omega] at e
  have la := around_lt i hp
  have lb := around_lt j hp
  split at e <;> omega

theorem portion_length {α : Type} (l : List α) {n : Nat} (hl : l.length = n) {i j : ℤ} (h2 : 2 ≤ j - i) (hn : j - i ≤ n) :
    (portion l (around n i) (around n j)).length = (j - i - 1).toNat := by
  have hp : 0 < n := by omega
  have la := around_lt i hp
  have lb := around_lt j hp
  unfold portion
  rcases around_between h2 hn with ⟨h, h'⟩ | ⟨h, h'⟩
  · rw [if_neg (by omega), List.length_take, List.length_drop]
    omega
  · rw [if_pos h', List.length_append, List.length_drop, List.length_take]
    omega

theorem portion_at {α : Type} (l : List α) {n : Nat} (hl : l.length = n) {i j : ℤ} (h2 : 2 ≤ j - i) (hn : j - i ≤ n) {s : Nat}
    (hs : s < (j - i - 1).toNat) : (portion l (around n i) (around n j))[s]? = l[around n (i + ((s + 1 : Nat) : ℤ))]? := by
  have hp : 0 < n := by omega
  have la := around_lt i hp
  have lb := around_lt j hp
  rw [around_offset hp i (s := s + 1) (by omega)]
  unfold portion
  rcases around_between h2 hn with ⟨h, h'⟩ | ⟨h, h'⟩
  · rw [if_neg (by omega), List.getElem?_take_of_lt (by omega), List.getElem?_drop, if_pos (by omega)]
    congr 1; omega
  · rw [if_pos h']
    by_cases hc : around n i + (s + 1) < n
    · rw [if_pos hc, List.getElem?_append_left (by rw [List.length_drop]; omega), List.getElem?_drop]
      congr 1; omega
    · rw [if_neg hc, List.getElem?_append_right (by rw [List.length_drop]; omega), List.getElem?_take_of_lt (by
        rw [List.length_drop]; omega), List.length_drop]
      congr 1; omega

theorem sub_zero_of {a b x : Int16} (h : subI16 a b = .ok x) (hx : x.toInt = 0) : a = b := by
  rcases subI16_iff a b with ⟨_, s, e, v⟩ | ⟨_, e⟩
  · rw [e] at h
    injection h with h
    subst h
    exact Int16.toInt_inj.1 (by omega)
  · rw [e] at h; simp at h

theorem allClose_true : ∀ {l : List (Pt × Pt)}, allClose l = .ok true → ∀ x ∈ l, x.1 = x.2
  | [], _ => by simp
  | (d, p) :: l, h => by
    unfold allClose at h
    rcases subI16_iff d.1 p.1 with ⟨_, x, ex, _⟩ | ⟨_, ex⟩
    swap
    · rw [ex] at h; simp at h
    rcases subI16_iff d.2 p.2 with ⟨_, y, ey, _⟩ | ⟨_, ey⟩
    swap
    · rw [ex, ey] at h; simp at h
    rw [ex, ey] at h
    simp only [Res.ok_bind] at h
    by_cases hc : ((x.toInt * x.toInt + y.toInt * y.toInt : ℤ) : ℚ) ≤ 1 / 2
    · rw [if_pos hc] at h
      have hz : x.toInt * x.toInt + y.toInt * y.toInt ≤ 0 := by
        by_contra hcc
        have : (1 : ℤ) ≤ x.toInt * x.toInt + y.toInt * y.toInt := by omega
        have : (1 : ℚ) ≤ ((x.toInt * x.toInt + y.toInt * y.toInt : ℤ) : ℚ) := by exact_mod_cast this
        linarith
      have hx : x.toInt = 0 := by nlinarith [mul_self_nonneg x.toInt, mul_self_nonneg y.toInt]
      have hy : y.toInt = 0 := by nlinarith [mul_self_nonneg x.toInt, mul_self_nonneg y.toInt]
      intro z hm
      rcases List.mem_cons.1 hm with hz | hz
      · subst hz
        exact Prod.ext (sub_zero_of ex hx) (sub_zero_of ey hy)
      · exact allClose_true h z hz
    · rw [if_neg hc] at h; simp at h

theorem mapL_at {α β : Type} {f : α → Res β} : ∀ (l : List α) {bs : List β}, Res.mapL f l = .ok bs →
    ∀ (s : Nat) (a : α), l[s]? = some a → ∃ b, bs[s]? = some b ∧ f a = .ok b
  | [], bs, _, s, a, h => by simp at h
  | x :: l, bs, hm, s, a, h => by
    rw [mapL_cons'] at hm
    cases hf : f x with
    | err => rw [hf] at hm; simp at hm
    | panic => rw [hf] at hm; simp at hm
    | ok b =>
      rw [hf] at hm
      cases ht : Res.mapL f l with
      | err => rw [ht] at hm; simp at hm
      | panic => rw [ht] at hm; simp at hm
      | ok cs =>
        rw [ht] at hm
        simp only [Res.ok_bind, Res.ok.injEq] at hm
        subst hm
        cases s with
        | zero =>
          simp only [List.getElem?_cons_zero, Option.some.injEq] at h
          subst h
          exact ⟨b, rfl, hf⟩
        | succ s =>
          simp only [List.getElem?_cons_succ] at h ⊢
          exact mapL_at l ht s a h

/-- A link the optimiser accepts reproduces everything between. -/
theorem canIup_link {ds cs : List Pt} (hl : cs.length = ds.length) {i j : ℤ} (hn : j - i ≤ ds.length)
    (h : canIup ds cs i j = .ok true) : LinkOf ds cs i j := by
  unfold canIup at h
  by_cases h2 : j - i < 2
  · rw [if_pos h2] at h; simp at h
  rw [if_neg h2] at h
  have hp : 0 < ds.length := by omega
  change (Res.unwrap cs[around ds.length i]? >>= fun ca => Res.unwrap ds[around ds.length i]? >>= fun da =>
    Res.unwrap cs[around ds.length j]? >>= fun cb => Res.unwrap ds[around ds.length j]? >>= fun db =>
    iupSegment (portion cs (around ds.length i) (around ds.length j)) ca (some (twoD da)) cb (some (twoD db)) >>= fun interp =>
    if interp.length = (portion ds (around ds.length i) (around ds.length j)).length then
      allClose ((portion ds (around ds.length i) (around ds.length j)).zip interp) else .panic) = .ok true at h
  rw [cAt_some (by rw [hl]; exact around_lt i hp), cAt_some (around_lt i hp), cAt_some (by rw [hl]; exact around_lt j hp),
    cAt_some (around_lt j hp)] at h
  simp only [Res.unwrap_some, Res.ok_bind] at h
  have lc := portion_length cs hl (i := i) (j := j) (by omega) hn
  have ld := portion_length ds rfl (i := i) (j := j) (by omega) hn
  rw [iupSegment_eq (by intro e; rw [e] at lc; simp at lc; omega)] at h
  cases hm : Res.mapL (segPt (cAt cs (around ds.length i)) (cAt ds (around ds.length i)) (cAt cs (around ds.length j))
      (cAt ds (around ds.length j))) (portion cs (around ds.length i) (around ds.length j)) with
  | err => rw [hm] at h; simp at h
  | panic => rw [hm] at h; simp at h
  | ok interp =>
    rw [hm] at h
    simp only [Res.ok_bind] at h
    by_cases hlen : interp.length = (portion ds (around ds.length i) (around ds.length j)).length
    swap
    · rw [if_neg hlen] at h; simp at h
    rw [if_pos hlen] at h
    have close := allClose_true h
    have key := mapL_at _ hm
    intro t h1 h3
    have hs : (t - i - 1).toNat < (j - i - 1).toNat := by omega
    have at1 := portion_at cs hl (i := i) (j := j) (by omega) hn hs
    have at2 := portion_at ds rfl (i := i) (j := j) (by omega) hn hs
    rw [show i + (((t - i - 1).toNat + 1 : Nat) : ℤ) = t from by omega] at at1 at2
    rw [cAt_some (cs := cs) (i := around ds.length t) (by rw [hl]; exact around_lt t hp)] at at1
    rw [cAt_some (cs := ds) (i := around ds.length t) (around_lt t hp)] at at2
    obtain ⟨r, e1, e2⟩ := key _ _ at1
    rw [e2]
    have hz : ((portion ds (around ds.length i) (around ds.length j)).zip interp)[(t - i - 1).toNat]? =
        some (cAt ds (around ds.length t), r) := by
      rw [List.getElem?_zip_eq_some]
      exact ⟨at2, e1⟩
    have := close _ (List.mem_of_getElem? hz)
    simp only at this
    rw [this]

/-! ### The dynamic program -/

/-- A predecessor the dynamic program may record. -/
def GoodLink (ds cs : List Pt) (lookback j i : ℤ) : Prop :=
  -1 ≤ j ∧ j < i ∧ (j = i - 1 ∨ (i - lookback < j ∧ canIup ds cs j i = .ok true))

theorem dpInner_good {ds cs : List Pt} {forced costs : List Int} {i lim lookback : ℤ} (h1 : -2 ≤ lim)
    (h2 : i - lookback ≤ lim) : ∀ (k : Nat) (j best prev : ℤ) (r : ℤ × ℤ), j ≤ i - 2 → GoodLink ds cs lookback prev i →
    dpInner ds cs forced costs i lim k j best prev = .ok r → GoodLink ds cs lookback r.2 i ∧ r.1 ≤ best
  | 0, j, best, prev, r, _, hg, h => by
    simp only [dpInner, Res.ok.injEq] at h
    subst h
    exact ⟨hg, le_refl _⟩
  | k + 1, j, best, prev, r, hj, hg, h => by
    unfold dpInner at h
    by_cases hlim : lim < j
    swap
    · rw [if_neg hlim] at h
      injection h with h
      subst h
      exact ⟨hg, le_refl _⟩
    rw [if_pos hlim] at h
    cases hc : costs[(j + 1).toNat]? with
    | none => rw [hc] at h; simp [Res.unwrap] at h
    | some c =>
      rw [hc] at h
      simp only [Res.unwrap_some, Res.ok_bind] at h
      -- after the comparison
      have step : ∀ r' : ℤ × ℤ, GoodLink ds cs lookback r'.2 i → r'.1 ≤ best →
          (if j ∈ forced then Res.ok r' else dpInner ds cs forced costs i lim k (j - 1) r'.1 r'.2) = .ok r →
          GoodLink ds cs lookback r.2 i ∧ r.1 ≤ best := by
        intro r' g' b' h'
        by_cases hf : j ∈ forced
        · rw [if_pos hf] at h'
          injection h' with h'
          subst h'
          exact ⟨g', b'⟩
        · rw [if_neg hf] at h'
          have := dpInner_good h1 h2 k (j - 1) r'.1 r'.2 r (by omega) g' h'
          exact ⟨this.1, le_trans this.2 b'⟩
      by_cases hcost : c + 1 < best
      · rw [if_pos hcost] at h
        cases hcan : canIup ds cs j i with
        | err => rw [hcan] at h; simp at h
        | panic => rw [hcan] at h; simp at h
        | ok b =>
          rw [hcan] at h
          simp only [Res.ok_bind, Res.pure_eq] at h
          cases b with
          | true => exact step (c + 1, j) ⟨by omega, by omega, .inr ⟨by omega, hcan⟩⟩ (by simp only; omega) h
          | false => exact step (best, prev) hg (le_refl _) h
      · rw [if_neg hcost] at h
        exact step (best, prev) hg (le_refl _) h

/-- What holds of the tables built so far. -/
structure DpInv (ds cs : List Pt) (lookback : ℤ) (costs chain : List ℤ) : Prop where
  len : costs.length = chain.length + 1
  zero : costs[0]? = some 0
  le : ∀ (k : Nat) (v : ℤ), costs[k]? = some v → v ≤ k
  link : ∀ (i : Nat) (j : ℤ), chain[i]? = some j → GoodLink ds cs lookback j i

theorem dpStep_good {ds cs : List Pt} {forced costs chain : List ℤ} {lookback : ℤ} (inv : DpInv ds cs lookback costs chain)
    {r : ℤ × ℤ} (h : dpStep ds cs forced lookback costs chain = .ok r) :
    GoodLink ds cs lookback r.2 chain.length ∧ r.1 ≤ (chain.length : ℤ) + 1 := by
  unfold dpStep at h
  simp only [Int.toNat_natCast] at h
  have hlt : chain.length < costs.length := by rw [inv.len]; omega
  rw [List.getElem?_eq_getElem hlt] at h
  simp only [Res.unwrap_some, Res.ok_bind, Res.pure_eq] at h
  have hc := inv.le chain.length _ (List.getElem?_eq_getElem hlt)
  have base : GoodLink ds cs lookback ((chain.length : ℤ) - 1) chain.length := ⟨by omega, by omega, .inl rfl⟩
  split at h
  · injection h with h
    subst h
    exact ⟨base, by simp only; omega⟩
  · have := dpInner_good (le_max_right _ _) (le_max_left _ _) _ _ _ _ _ (le_refl _) base h
    exact ⟨this.1, by omega⟩

theorem dpLoop_good {ds cs : List Pt} {forced : List ℤ} {lookback : ℤ} : ∀ (k : Nat) (costs chain : List ℤ) (r : List ℤ × List ℤ),
    DpInv ds cs lookback costs chain → dpLoop ds cs forced lookback k costs chain = .ok r →
    DpInv ds cs lookback r.2 r.1 ∧ r.1.length = chain.length + k
  | 0, costs, chain, r, inv, h => by
    simp only [dpLoop, Res.ok.injEq] at h
    subst h
    exact ⟨inv, rfl⟩
  | k + 1, costs, chain, r, inv, h => by
    unfold dpLoop at h
    cases hs : dpStep ds cs forced lookback costs chain with
    | err => rw [hs] at h; simp at h
    | panic => rw [hs] at h; simp at h
    | ok v =>
      rw [hs] at h
      simp only [Res.ok_bind] at h
      obtain ⟨hg, hv⟩ := dpStep_good inv hs
      have inv' : DpInv ds cs lookback (costs ++ [v.1]) (chain ++ [v.2]) := by
        refine ⟨by simp [inv.len], ?_, ?_, ?_⟩
        · rw [List.getElem?_append_left (by rw [inv.len]; omega)]; exact inv.zero
        · intro m w hm
          by_cases hlt : m < costs.length
          · rw [List.getElem?_append_left hlt] at hm
            exact inv.le m w hm
          · have hl := (List.getElem?_eq_some_iff.1 hm).1
            rw [List.length_append, List.length_singleton] at hl
            have : m = costs.length := by omega
            subst this
            rw [List.getElem?_append_right (le_refl _)] at hm
            simp only [Nat.sub_self, List.getElem?_cons_zero, Option.some.injEq] at hm
            have := inv.len
            omega
        · intro m w hm
          by_cases hlt : m < chain.length
          · rw [List.getElem?_append_left hlt] at hm
            exact inv.link m w hm
          · have hl := (List.getElem?_eq_some_iff.1 hm).1
            rw [List.length_append, List.length_singleton] at hl
            have : m = chain.length := by omega
            subst this
            rw [List.getElem?_append_right (le_refl _)] at hm
            simp only [Nat.sub_self, List.getElem?_cons_zero, Option.some.injEq] at hm
            subst hm
            exact hg
      have := dpLoop_good k _ _ r inv' h
      refine ⟨this.1, ?_⟩
      rw [this.2, List.length_append, List.length_singleton]; omega

theorem dp_good {ds cs : List Pt} {forced : List ℤ} {lookback : ℤ} {r : List ℤ × List ℤ} (h : dp ds cs forced lookback = .ok r) :
    DpInv ds cs lookback r.2 r.1 ∧ r.1.length = ds.length := by
  have := dpLoop_good ds.length [0] [] r ⟨rfl, rfl, by
    intro k v hk
    cases k with
    | zero => simp at hk; omega
    | succ k => simp at hk, by simp⟩ h
  simpa using this

/-! ### Following the chain -/

/-- A good link reproduces everything between. -/
theorem GoodLink.link {ds cs : List Pt} (hl : cs.length = ds.length) {lookback j i : ℤ} (hb : lookback ≤ ds.length)
    (h : GoodLink ds cs lookback j i) : LinkOf ds cs j i := by
  obtain ⟨h1, h2, h3 | ⟨h3, h4⟩⟩ := h
  · intro t ht1 ht2; omega
  · exact canIup_link hl (by omega) h4

theorem walk_descent {chain : List ℤ} {L : ℤ → ℤ → Prop}
    (hc : ∀ (i : Nat) (j : ℤ), chain[i]? = some j → -1 ≤ j ∧ j < i ∧ L j i) :
    ∀ (k : Nat) (i : ℤ), -1 ≤ i → i < chain.length → i + 2 ≤ k → ∃ l, walk chain k i = l ++ [-1] ∧ Descent L i l (-1)
  | 0, i, h1, _, h3 => by omega
  | k + 1, i, h1, h2, h3 => by
    unfold walk
    by_cases h0 : 0 ≤ i
    · rw [if_pos h0]
      have hlt : i.toNat < chain.length := by omega
      rw [List.getElem?_eq_getElem hlt]
      simp only
      have := hc i.toNat chain[i.toNat] (List.getElem?_eq_getElem hlt)
      rw [show ((i.toNat : Nat) : ℤ) = i from by omega] at this
      obtain ⟨l, e, d⟩ := walk_descent hc k chain[i.toNat] this.1 (by omega) (by omega)
      exact ⟨i :: l, by rw [e]; rfl, .cons this.2.1 this.2.2 d⟩
    · have : i = -1 := by omega
      subst this
      exact ⟨[], by simp, .nil _⟩

theorem walkTo_descent {chain : List ℤ} {L : ℤ → ℤ → Prop}
    (hc : ∀ (i : Nat) (j : ℤ), chain[i]? = some j → j < i ∧ L j i) (stop : ℤ) :
    ∀ (k : Nat) (i : ℤ), (walkTo chain stop k i).2 = stop → Descent L i (walkTo chain stop k i).1 stop
  | 0, i, h => by
    simp only [walkTo] at h ⊢
    subst h
    exact .nil _
  | k + 1, i, h => by
    unfold walkTo at h ⊢
    by_cases hs : stop < i
    · rw [if_pos hs] at h ⊢
      by_cases h0 : 0 ≤ i
      · rw [if_pos h0] at h ⊢
        cases hj : chain[i.toNat]? with
        | none => rw [hj] at h; simp only at h; omega
        | some j =>
          rw [hj] at h
          simp only at h ⊢
          have := hc i.toNat j hj
          rw [show ((i.toNat : Nat) : ℤ) = i from by omega] at this
          exact .cons this.1 this.2 (walkTo_descent hc stop k j h)
      · rw [if_neg h0] at h; simp only at h; omega
    · rw [if_neg hs] at h ⊢
      simp only at h ⊢
      subst h
      exact .nil _

theorem walkTo_closes {chain : List ℤ} (hc : ∀ (i : Nat) (j : ℤ), chain[i]? = some j → -1 ≤ j ∧ j < i) :
    ∀ (k : Nat) (i : ℤ), -1 ≤ i → i < chain.length → i + 1 ≤ k → (walkTo chain (-1) k i).2 = -1
  | 0, i, h1, _, h3 => by
    simp only [walkTo]; omega
  | k + 1, i, h1, h2, h3 => by
    unfold walkTo
    by_cases hs : -1 < i
    · rw [if_pos hs, if_pos (show 0 ≤ i by omega)]
      have hlt : i.toNat < chain.length := by omega
      rw [List.getElem?_eq_getElem hlt]
      simp only
      have := hc i.toNat chain[i.toNat] (List.getElem?_eq_getElem hlt)
      exact walkTo_closes hc k _ this.1 (by omega) (by omega)
    · rw [if_neg hs]
      simp only; omega

/-! ### Rotation -/

theorem cAt_eq {l m : List Pt} {i j : Nat} (h : l[i]? = m[j]?) : cAt l i = cAt m j := by
  unfold cAt; rw [List.getD_eq_getElem?_getD, List.getD_eq_getElem?_getD, h]

theorem rotateList_length {α : Type} (l : List α) (k : ℤ) : (rotateList l k).length = l.length := by
  unfold rotateList
  simp only
  split
  · rfl
  · rw [List.length_append, List.length_drop, List.length_take]; omega

theorem rotateList_at {α : Type} (l : List α) (k : ℤ) {j : Nat} (hj : j < l.length) :
    (rotateList l k)[j]? = l[around l.length ((j : ℤ) - k)]? := by
  have hp : 0 < l.length := by omega
  have ak := around_cast k hp
  have lk := around_lt k hp
  have e : around l.length ((j : ℤ) - k) = around l.length ((j : ℤ) - around l.length k) := around_congr (by
    rw [ak]; simp)
  unfold rotateList
  simp only
  change (if around l.length k = 0 then l else l.drop (l.length - around l.length k) ++ l.take (l.length - around l.length k))[j]? = _
  rw [e]
  clear e ak
  generalize around l.length k = K at lk ⊢
  split
  · rename_i h
    rw [h]; simp only [Nat.cast_zero, sub_zero]
    rw [around_nat hj]
  · by_cases hc : j < K
    · rw [List.getElem?_append_left (by rw [List.length_drop]; omega), List.getElem?_drop, around_neg (by omega) (by omega)]
      congr 1; omega
    · rw [List.getElem?_append_right (by rw [List.length_drop]; omega), List.getElem?_take_of_lt (by
        rw [List.length_drop]; omega), List.length_drop, around_small (by omega) (by omega)]
      congr 1; omega

theorem cAt_rotate (l : List Pt) (k z : ℤ) (hp : 0 < l.length) :
    cAt (rotateList l k) (around l.length z) = cAt l (around l.length (z - k)) := by
  apply cAt_eq
  rw [rotateList_at l k (around_lt z hp)]
  congr 1
  apply around_congr
  rw [around_cast z hp]
  simp

theorem link_rotate {ds cs : List Pt} (hl : cs.length = ds.length) (hp : 0 < ds.length) (k : ℤ) {w x : ℤ}
    (h : LinkOf (rotateList ds k) (rotateList cs k) w x) : LinkOf ds cs (w - k) (x - k) := by
  intro t h1 h2
  have := h (t + k) (by omega) (by omega)
  rw [rotateList_length] at this
  have c := cAt_rotate cs k
  rw [hl] at c
  rw [cAt_rotate ds k w hp, cAt_rotate ds k x hp, cAt_rotate ds k _ hp, c _ (by omega), c _ (by omega), c _ (by omega),
    show t + k - k = t from by omega] at this
  exact this

theorem link_double {ds cs : List Pt} (hl : cs.length = ds.length) (hp : 0 < ds.length) {w x : ℤ}
    (h : LinkOf (ds ++ ds) (cs ++ cs) w x) : LinkOf ds cs w x := by
  have key : ∀ (l : List Pt) (z : ℤ), l.length = ds.length → cAt (l ++ l) (around (ds ++ ds).length z) = cAt l (around ds.length z) := by
    intro l z hll
    apply cAt_eq
    rw [List.length_append]
    have h2 : 0 < ds.length + ds.length := by omega
    have a := around_lt z h2
    have e : around ds.length z = around ds.length (around (ds.length + ds.length) z) := around_congr (by
      rw [around_cast z h2]
      push_cast
      rw [Int.emod_emod_of_dvd]
      exact ⟨2, by ring⟩)
    rw [e]
    clear e
    generalize around (ds.length + ds.length) z = K at a ⊢
    by_cases hc : K < ds.length
    · rw [List.getElem?_append_left (by omega), around_nat hc]
    · rw [List.getElem?_append_right (by omega), around_ge (by omega) (by omega)]
      congr 1; omega
  intro t h1 h2
  have := h t h1 h2
  rw [key ds w rfl, key ds x rfl, key ds t rfl, key cs w hl, key cs x hl, key cs t hl] at this
  exact this

/-! ### C42 -/

theorem optimizeForced_lossless {ds cs : List Pt} (hl : cs.length = ds.length) (hp : 0 < ds.length) {forced : List ℤ} {top : ℤ}
    {out : List (Option TupleVar.Delta)} (h : optimizeForced ds cs forced top = .ok out) :
    iupContour out cs = .ok ds := by
  unfold optimizeForced at h
  simp only at h
  obtain ⟨k, hk⟩ : ∃ k, k = (ds.length : ℤ) - 1 - top := ⟨_, rfl⟩
  rw [← hk] at h
  cases hd : dp (rotateList ds k) (rotateList cs k) (rotateSet forced k ds.length) ds.length with
  | err => rw [hd] at h; simp at h
  | panic => rw [hd] at h; simp at h
  | ok r =>
    rw [hd] at h
    simp only [Res.ok_bind, Res.pure_eq, Res.ok.injEq] at h
    obtain ⟨inv, hlen⟩ := dp_good hd
    rw [rotateList_length] at hlen
    have hl' : (rotateList cs k).length = (rotateList ds k).length := by rw [rotateList_length, rotateList_length, hl]
    obtain ⟨l, e, d⟩ := walk_descent (L := LinkOf (rotateList ds k) (rotateList cs k)) (fun i j hj => by
      have g := inv.link i j hj
      exact ⟨g.1, g.2.1, g.link hl' (by rw [rotateList_length])⟩) (ds.length + 1) ((ds.length : ℤ) - 1) (by omega) (by omega)
      (by omega)
    rw [e] at h
    have d' := d.map (f := fun z => z - k) (fun a b hab => by omega) (fun a b hab => link_rotate hl hp k hab)
    have lo := lossless hl hp (u := (ds.length : ℤ) - 1 - k) (l := l.map (fun z => z - k)) (by
      convert d' using 1
      omega)
    rw [← h, ← lo]
    congr 1
    apply List.ext_getElem?
    intro i
    have klen : (keepAt (rotateList ds k) (l ++ [-1])).length = ds.length := by
      rw [keepAt_eq, asDeltas, List.length_map, keepG_length, rotateList_length]
    by_cases hi : i < ds.length
    swap
    · rw [List.getElem?_eq_none (by rw [rotateList_length, klen]; omega),
        List.getElem?_eq_none (by rw [asDeltas, List.length_map, keepG_length]; omega)]
    rw [rotateList_at _ _ (by omega), klen, keepAt_eq, asDeltas, List.getElem?_map, asDeltas, List.getElem?_map,
      keepG_at _ _ (by rw [rotateList_length]; exact around_lt _ hp), keepG_at _ _ hi]
    have ec : cAt (rotateList ds k) (around ds.length ((i : ℤ) - -k)) = cAt ds i := by
      rw [cAt_rotate _ _ _ hp, show (i : ℤ) - -k - k = i from by omega, around_nat hi]
    rw [ec]
    have em : (((around ds.length ((i : ℤ) - -k) : Nat) : ℤ) ∈ l ++ [-1]) ↔
        ((i : ℤ) ∈ (l.map (fun z => z - k)).map (· % (ds.length : ℤ))) := by
      rw [List.mem_append, List.map_map, List.mem_map, around_cast _ hp]
      have n0 := Int.emod_nonneg ((i : ℤ) - -k) (b := ds.length) (by omega)
      have n1 := Int.emod_lt_of_pos ((i : ℤ) - -k) (b := ds.length) (by omega)
      constructor
      · rintro (hm | hm)
        · refine ⟨_, hm, ?_⟩
          simp only [Function.comp]
          rw [Int.emod_sub_emod, show (i : ℤ) - -k - k = i from by omega, Int.emod_eq_of_lt (by omega) (by omega)]
        · rw [List.mem_singleton] at hm; omega
      · rintro ⟨z, hz, e⟩
        simp only [Function.comp] at e
        left
        have hzr := d.mem z hz
        have : ((i : ℤ) - -k) % (ds.length : ℤ) = z := by
          rw [← e, show (z - k) % (ds.length : ℤ) - -k = (z - k) % (ds.length : ℤ) + k from by omega, Int.emod_add_emod,
            show z - k + k = z from by omega, Int.emod_eq_of_lt (by omega) (by omega)]
        rw [this]; exact hz
    simp only [em]

theorem bestLoop_sol {chain costs : List ℤ} {n : Nat} {L : ℤ → ℤ → Prop}
    (hc : ∀ (i : Nat) (j : ℤ), chain[i]? = some j → j < i ∧ L j i) : ∀ (starts : List Nat) (best : ℤ) (sol res : List ℤ),
    (∃ (u : ℤ) (l : List ℤ), Descent L u l (u - n) ∧ sol = l.map (· % (n : ℤ))) →
    bestLoop chain costs n starts best sol = .ok res →
    ∃ (u : ℤ) (l : List ℤ), Descent L u l (u - n) ∧ res = l.map (· % (n : ℤ))
  | [], best, sol, res, hs, h => by
    simp only [bestLoop, Res.ok.injEq] at h
    subst h
    exact hs
  | start :: rest, best, sol, res, hs, h => by
    unfold bestLoop at h
    simp only at h
    split at h
    · rename_i hw
      cases h4 : mulI16 (n : ℤ) 4 with
      | err => rw [h4] at h; simp at h
      | panic => rw [h4] at h; simp at h
      | ok four =>
        rw [h4] at h
        cases h3 : mulI16 (n : ℤ) 3 with
        | err => rw [h3] at h; simp at h
        | panic => rw [h3] at h; simp at h
        | ok three =>
          rw [h3] at h
          simp only [Res.ok_bind] at h
          split at h
          · exact bestLoop_sol hc rest _ _ res ⟨start, _, walkTo_descent hc _ _ _ hw, rfl⟩ h
          · exact bestLoop_sol hc rest _ _ res hs h
    · exact bestLoop_sol hc rest _ _ res hs h

theorem optimizeFree_lossless {ds cs : List Pt} (hl : cs.length = ds.length) (hp : 0 < ds.length)
    {out : List (Option TupleVar.Delta)} (h : optimizeFree ds cs = .ok out) : iupContour out cs = .ok ds := by
  unfold optimizeFree at h
  simp only at h
  by_cases hbig : 16384 ≤ ds.length
  · rw [if_pos hbig] at h; cases h
  rw [if_neg hbig] at h
  simp only [Res.pure_eq, Res.ok_bind] at h
  cases hd : dp (ds ++ ds) (cs ++ cs) [] ds.length with
  | err => rw [hd] at h; simp at h
  | panic => rw [hd] at h; simp at h
  | ok r =>
    rw [hd] at h
    simp only [Res.ok_bind, Res.pure_eq] at h
    obtain ⟨inv, hlen⟩ := dp_good hd
    rw [List.length_append] at hlen
    have hc : ∀ (i : Nat) (j : ℤ), r.1[i]? = some j → j < i ∧ LinkOf ds cs j i := by
      intro i j hj
      have g := inv.link i j hj
      exact ⟨g.2.1, link_double hl hp (g.link (by simp [hl]) (by rw [List.length_append]; omega))⟩
    cases hb : bestLoop r.1 r.2 ds.length (List.range' (ds.length - 1) (ds.length + 2)) ((ds.length : ℤ) + 1) [] with
    | err => rw [hb] at h; simp at h
    | panic => rw [hb] at h; simp at h
    | ok sol =>
      rw [hb] at h
      simp only [Res.ok_bind, Res.ok.injEq] at h
      have hsol : ∃ (u : ℤ) (l : List ℤ), Descent (LinkOf ds cs) u l (u - ds.length) ∧ sol = l.map (· % (ds.length : ℤ)) := by
        rw [show ds.length + 2 = (ds.length + 1) + 1 from rfl, List.range'_succ] at hb
        unfold bestLoop at hb
        simp only at hb
        have est : ((ds.length - 1 : Nat) : ℤ) - ds.length = -1 := by omega
        rw [est] at hb
        have close := walkTo_closes (chain := r.1) (fun i j hj => ⟨(inv.link i j hj).1, (inv.link i j hj).2.1⟩)
          (2 * ds.length + 2) ((ds.length - 1 : Nat) : ℤ) (by omega) (by omega) (by omega)
        rw [if_pos close] at hb
        cases h4 : mulI16 (ds.length : ℤ) 4 with
        | err => rw [h4] at hb; simp at hb
        | panic => rw [h4] at hb; simp at hb
        | ok four =>
          rw [h4] at hb
          cases h3 : mulI16 (ds.length : ℤ) 3 with
          | err => rw [h3] at hb; simp at hb
          | panic => rw [h3] at hb; simp at hb
          | ok three =>
            rw [h3] at hb
            simp only [Res.ok_bind] at hb
            have i1 : ds.length - 1 + 1 < r.2.length := by rw [inv.len, hlen]; omega
            have c1 := inv.le _ _ (List.getElem?_eq_getElem i1)
            rw [List.getElem?_eq_getElem i1, show ((-1 : ℤ) + 1).toNat = 0 from rfl, inv.zero] at hb
            simp only [Option.getD_some] at hb
            rw [if_pos (by omega)] at hb
            refine bestLoop_sol hc _ _ _ sol ⟨((ds.length - 1 : Nat) : ℤ), _, ?_, rfl⟩ hb
            rw [est]
            exact walkTo_descent hc (-1) _ _ close
      obtain ⟨u, l, d, e⟩ := hsol
      rw [← h, keepAt_eq, e]
      exact lossless hl hp d

theorem absI16_small {x : Int16} {a : ℤ} (h : absI16 x = .ok a) (ha : (a : ℚ) ≤ 1 / 2) : x = 0 := by
  unfold absI16 at h
  split at h
  · simp at h
  · injection h with h
    subst h
    have : |x.toInt| ≤ 0 := by
      by_contra hc
      have : (1 : ℤ) ≤ |x.toInt| := by omega
      have : (1 : ℚ) ≤ ((|x.toInt| : ℤ) : ℚ) := by exact_mod_cast this
      linarith
    have : x.toInt = 0 := abs_eq_zero.1 (le_antisymm this (abs_nonneg _))
    exact Int16.toInt_inj.1 (by rw [this]; rfl)

theorem allSmall_true : ∀ {l : List Pt}, allSmall l = .ok true → l = List.replicate l.length (0, 0)
  | [], _ => rfl
  | (x, y) :: l, h => by
    unfold allSmall at h
    cases hx : absI16 x with
    | err => rw [hx] at h; simp at h
    | panic => rw [hx] at h; simp at h
    | ok ax =>
      rw [hx] at h
      simp only [Res.ok_bind] at h
      by_cases h1 : (ax : ℚ) ≤ 1 / 2
      swap
      · rw [if_neg h1] at h; simp at h
      rw [if_pos h1] at h
      cases hy : absI16 y with
      | err => rw [hy] at h; simp at h
      | panic => rw [hy] at h; simp at h
      | ok ay =>
        rw [hy] at h
        simp only [Res.ok_bind] at h
        by_cases h2 : (ay : ℚ) ≤ 1 / 2
        swap
        · rw [if_neg h2] at h; simp at h
        rw [if_pos h2] at h
        have ih := allSmall_true h
        rw [absI16_small hx h1, absI16_small hy h2, List.length_cons, List.replicate_succ, ← ih]

theorem segPt_same (c d x : Pt) : segPt c d c d x = .ok d := by
  unfold segPt segVal
  simp

theorem all_same_lossless {d : Pt} {rest cs : List Pt} (hl : cs.length = (d :: rest).length) (h : ∀ x ∈ rest, x = d) :
    iupContour (some (twoD d) :: List.replicate rest.length none) cs = .ok (d :: rest) := by
  have all : ∀ i, i < (d :: rest).length → cAt (d :: rest) i = d := by
    intro i hi
    have := cAt_some hi
    have hm := List.mem_of_getElem? this
    rcases List.mem_cons.1 hm with e | e
    · exact e
    · exact h _ e
  have hp : 0 < (d :: rest).length := by simp
  have lo := lossless hl hp (u := 0) (l := [0]) (.cons (by simp; omega) (by
      intro t h1 h2
      rw [all _ (around_lt _ hp), all _ (around_lt _ hp), all _ (around_lt _ hp)]
      have e : around (d :: rest).length (0 - ((d :: rest).length : ℤ)) = around (d :: rest).length 0 := by
        rw [← around_add, sub_add_cancel]
      rw [e]
      exact segPt_same _ _ _) (.nil _))
  rw [← lo]
  congr 1
  apply List.ext_getElem?
  intro i
  by_cases hi : i < (d :: rest).length
  swap
  · rw [List.getElem?_eq_none (by simp at hi ⊢; omega), List.getElem?_eq_none (by rw [asDeltas, List.length_map, keepG_length]; omega)]
  rw [asDeltas, List.getElem?_map, keepG_at _ _ hi]
  cases i with
  | zero => simp [cAt]
  | succ i =>
    have : ¬ (((i + 1 : Nat) : ℤ) ∈ List.map (· % ((d :: rest).length : ℤ)) [0]) := by simp; omega
    rw [if_neg this]
    simp only [List.getElem?_cons_succ, List.length_cons] at hi ⊢
    rw [List.getElem?_replicate, if_pos (by omega)]
    rfl

/-- C42: whatever deltas the optimiser drops, interpolating them again gives back the original deltas. -/
theorem C42_contour (ds cs : List Pt) (hl : cs.length = ds.length) (out : List (Option TupleVar.Delta))
    (h : optimizeContour ds cs = .ok out) : iupContour out cs = .ok ds := by
  unfold optimizeContour at h
  cases hs : allSmall ds with
  | err => rw [hs] at h; simp at h
  | panic => rw [hs] at h; simp at h
  | ok small =>
    rw [hs] at h
    simp only [Res.ok_bind] at h
    cases small with
    | true =>
      simp only [if_true, Res.pure_eq, Res.ok.injEq] at h
      have e : List.replicate ds.length (none : Option TupleVar.Delta) = asDeltas (List.replicate ds.length none) := by
        rw [asDeltas, List.map_replicate]; rfl
      rw [← h, e, iupContour_none]
      · rw [List.length_replicate, ← allSmall_true hs]
      · rintro ⟨i, d, hd⟩
        have := List.mem_of_getElem? hd
        simp at this
    | false =>
      simp only [Bool.false_eq_true, if_false] at h
      match ds, h, hl with
      | [], h, hl => simp [allSmall] at hs
      | [d], h, hl =>
        simp only [Res.pure_eq, Res.ok.injEq] at h
        rw [← h]
        exact all_same_lossless (d := d) (rest := []) hl (by simp)
      | d :: e :: rest, h, hl =>
        simp only at h
        split at h
        · rename_i hall
          simp only [Res.pure_eq, Res.ok.injEq] at h
          rw [← h]
          exact all_same_lossless (d := d) (rest := e :: rest) hl (by
            intro x hx
            simpa using List.all_eq_true.1 hall x hx)
        · split at h
          · simp at h
          · cases hf : forcedSet (d :: e :: rest) cs with
            | err => rw [hf] at h; simp at h
            | panic => rw [hf] at h; simp at h
            | ok forced =>
              rw [hf] at h
              simp only [Res.ok_bind] at h
              cases forced with
              | nil => exact optimizeFree_lossless hl (by simp) h
              | cons f fs => exact optimizeForced_lossless hl (by simp) h

/-- The crate's own two examples. -/
example : optimizeContour [(155, 0), (123, 0), (32, 0), (64, 0), (155, 0)]
    [(751, 0), (433, 700), (323, 700), (641, 0), (751, 0)] =
    .ok [some (.d2 155 0), some (.d2 123 0), some (.d2 32 0), some (.d2 64 0), none] := by decide +kernel

example : optimizeContour [(38, 27), (38, -13), (73, -13), (73, 27), (38, 27)]
    [(152, 284), (152, 204), (567, 204), (567, 284), (152, 284)] =
    .ok [some (.d2 38 27), none, some (.d2 73 (-13)), none, none] := by decide +kernel

end FT.Props
