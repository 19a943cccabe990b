import Verif.Props.IupGlyph

/-! C42: exactly which contours the optimiser can cope with. -/

namespace FT.Props
open FT FT.Iup

/-- A point at `c` that moves by `d` stands out from two neighbours at `c1 ≤ c2` that move by `d1` and `d2`: between them it
moves further than either; at one side of two that are at one place and move together it moves differently; beyond
the end of two that are apart it moves past the near one in the direction away from the far one. -/
def StandsOut (c1 d1 c2 d2 c d : ℤ) : Prop :=
  if c1 ≤ c ∧ c ≤ c2 then d < min d1 d2 ∨ max d1 d2 < d
  else if c1 = c2 then d1 = d2 ∧ d ≠ d1
  else if c < c1 then (d < d1 ∧ d2 < d1) ∨ (d1 < d ∧ d1 < d2)
  else (d < d2 ∧ d1 < d2) ∨ (d2 < d ∧ d2 < d1)

theorem half_le (a b : ℤ) : (a : ℚ) - 1 / 2 ≤ b ↔ a ≤ b := by
  constructor
  · intro h
    have : (a : ℚ) < b + 1 := by linarith
    have : a < b + 1 := by exact_mod_cast this
    omega
  · intro h
    have : (a : ℚ) ≤ b := by exact_mod_cast h
    linarith

theorem le_half (a b : ℤ) : (b : ℚ) ≤ a + 1 / 2 ↔ b ≤ a := by
  constructor
  · intro h
    have : (b : ℚ) < a + 1 := by linarith
    have : b < a + 1 := by exact_mod_cast this
    omega
  · intro h
    have : (b : ℚ) ≤ a := by exact_mod_cast h
    linarith

theorem half_lt (a b : ℤ) : (a : ℚ) - 1 / 2 < b ↔ a ≤ b := by
  constructor
  · intro h
    have : (a : ℚ) < b + 1 := by linarith
    have : a < b + 1 := by exact_mod_cast this
    omega
  · intro h
    have : (a : ℚ) ≤ b := by exact_mod_cast h
    linarith

theorem lt_half (a b : ℤ) : (b : ℚ) < a + 1 / 2 ↔ b ≤ a := by
  constructor
  · intro h
    have : (b : ℚ) < a + 1 := by linarith
    have : b < a + 1 := by exact_mod_cast this
    omega
  · intro h
    have : (b : ℚ) ≤ a := by exact_mod_cast h
    linarith

theorem half_abs (a b : ℤ) : (1 : ℚ) / 2 < |(a : ℚ) - b| ↔ a ≠ b := by
  constructor
  · rintro h rfl
    simp at h
    linarith
  · intro h
    have : (1 : ℤ) ≤ |a - b| := by
      have := abs_pos.2 (show a - b ≠ 0 by omega)
      omega
    have : (1 : ℚ) ≤ ((|a - b| : ℤ) : ℚ) := by exact_mod_cast this
    push_cast at this
    linarith

/-- The test of the code, tolerance and all, is this. -/
theorem forcedAxis_iff (cj dj lcj ldj ncj ndj : Int16) : forcedAxis cj dj lcj ldj ncj ndj = true ↔
    if lcj.toInt ≤ ncj.toInt then StandsOut lcj.toInt ldj.toInt ncj.toInt ndj.toInt cj.toInt dj.toInt
    else StandsOut ncj.toInt ndj.toInt lcj.toInt ldj.toInt cj.toInt dj.toInt := by
  have key : ∀ c1 d1 c2 d2 c d : ℤ,
      ((if (c1 : ℚ) ≤ c ∧ (c : ℚ) ≤ c2 then ! decide (min (d1 : ℚ) d2 - 1 / 2 ≤ d ∧ (d : ℚ) ≤ max (d1 : ℚ) d2 + 1 / 2)
        else if (c1 : ℚ) = c2 then
          if (d1 : ℚ) = d2 then decide ((1 : ℚ) / 2 < |(d : ℚ) - d1|) else false
        else if (d1 : ℚ) ≠ d2 then
          if (c : ℚ) < c1 then decide ((d : ℚ) ≠ d1) && (decide ((d : ℚ) - 1 / 2 < d1) != decide ((d1 : ℚ) < d2))
          else decide ((d2 : ℚ) ≠ d) && (decide ((d2 : ℚ) < d + 1 / 2) != decide ((d1 : ℚ) < d2))
        else false) = true) ↔ StandsOut c1 d1 c2 d2 c d := by
    intro c1 d1 c2 d2 c d
    unfold StandsOut
    have m1 : min (d1 : ℚ) d2 = ((min d1 d2 : ℤ) : ℚ) := by push_cast; rfl
    have m2 : max (d1 : ℚ) d2 = ((max d1 d2 : ℤ) : ℚ) := by push_cast; rfl
    rw [m1, m2]
    simp only [half_le, le_half, half_lt, lt_half, half_abs, Int.cast_le, Int.cast_lt, Int.cast_inj, ne_eq]
    split
    · simp only [Bool.not_eq_true', decide_eq_false_iff_not]
      omega
    · split
      · split <;> simp_all
      · split
        · split
          · by_cases a : d = d1 <;> by_cases b : d ≤ d1 <;> by_cases c : d1 < d2 <;> simp [a, b, c] <;> omega
          · by_cases a : d2 = d <;> by_cases b : d2 ≤ d <;> by_cases c : d1 < d2 <;> simp [a, b, c] <;> omega
        · split <;> simp <;> omega
  unfold forcedAxis
  simp only [Int16.le_iff_toInt_le]
  by_cases h : lcj.toInt ≤ ncj.toInt
  · simp only [if_pos h]
    exact key _ _ _ _ _ _
  · simp only [if_neg h]
    exact key _ _ _ _ _ _

/-- The same whichever neighbour comes first. -/
def ForcedAxis (prev prevd next nextd c d : Int16) : Prop :=
  if prev.toInt ≤ next.toInt then StandsOut prev.toInt prevd.toInt next.toInt nextd.toInt c.toInt d.toInt
  else StandsOut next.toInt nextd.toInt prev.toInt prevd.toInt c.toInt d.toInt

/-- The point at place `i` of a closed contour stands out from the one before and the one after, in one direction. -/
def Forced (ds cs : List Pt) (i : Nat) : Prop :=
  ∃ d c pd pc nd nc, ds[i]? = some d ∧ cs[i]? = some c ∧
    ds[(i + ds.length - 1) % ds.length]? = some pd ∧ cs[(i + cs.length - 1) % cs.length]? = some pc ∧
    ds[(i + 1) % ds.length]? = some nd ∧ cs[(i + 1) % cs.length]? = some nc ∧
    (ForcedAxis pc.1 pd.1 nc.1 nd.1 c.1 d.1 ∨ ForcedAxis pc.2 pd.2 nc.2 nd.2 c.2 d.2)

theorem before_eq {i n : Nat} (h : i < n) : (((i : ℤ) - 1) % (n : ℤ)).toNat = (i + n - 1) % n := by
  have : ((i : ℤ) - 1) % (n : ℤ) = (((i + n - 1 : Nat) : ℤ)) % (n : ℤ) := by
    rw [show ((i + n - 1 : Nat) : ℤ) = ((i : ℤ) - 1) + n from by omega, Int.add_emod_right]
  rw [this]
  norm_cast

theorem forcedAt_iff {ds cs : List Pt} (hl : cs.length = ds.length) {i : Nat} (hi : i < ds.length) :
    ∃ b, forcedAt ds cs i = .ok b ∧ (b = true ↔ Forced ds cs i) := by
  have hp : 0 < ds.length := by omega
  have a1 := Nat.mod_lt (i + ds.length - 1) hp
  have a2 := Nat.mod_lt (i + cs.length - 1) (show 0 < cs.length by omega)
  have a3 := Nat.mod_lt (i + 1) hp
  have a4 := Nat.mod_lt (i + 1) (show 0 < cs.length by omega)
  unfold forcedAt
  rw [before_eq hi, before_eq (show i < cs.length by omega)]
  rw [List.getElem?_eq_getElem hi, List.getElem?_eq_getElem (show i < cs.length by omega), List.getElem?_eq_getElem a1,
    List.getElem?_eq_getElem a2, List.getElem?_eq_getElem a3, List.getElem?_eq_getElem a4]
  refine ⟨_, rfl, ?_⟩
  rw [Bool.or_eq_true, forcedAxis_iff, forcedAxis_iff]
  constructor
  · intro h
    exact ⟨_, _, _, _, _, _, List.getElem?_eq_getElem hi, List.getElem?_eq_getElem (show i < cs.length by omega),
      List.getElem?_eq_getElem a1, List.getElem?_eq_getElem a2, List.getElem?_eq_getElem a3, List.getElem?_eq_getElem a4, h⟩
  · rintro ⟨d, c, pd, pc, nd, nc, e1, e2, e3, e4, e5, e6, h⟩
    rw [List.getElem?_eq_getElem hi] at e1
    rw [List.getElem?_eq_getElem (show i < cs.length by omega)] at e2
    rw [List.getElem?_eq_getElem a1] at e3
    rw [List.getElem?_eq_getElem a2] at e4
    rw [List.getElem?_eq_getElem a3] at e5
    rw [List.getElem?_eq_getElem a4] at e6
    cases e1; cases e2; cases e3; cases e4; cases e5; cases e6
    exact h

theorem forcedSet_iff {ds cs : List Pt} (hl : cs.length = ds.length) {l : List ℤ} (h : forcedSet ds cs = .ok l) :
    l ≠ [] ↔ ∃ i, Forced ds cs i := by
  unfold forcedSet at h
  rw [if_neg (by omega)] at h
  have key : ∀ (is : List Nat) (r : List (Nat × Bool)), (∀ i ∈ is, i < ds.length) →
      Res.mapL (fun i => forcedAt ds cs i >>= fun b => (pure (i, b) : Res (Nat × Bool))) is = .ok r →
      (r.filter (·.2) ≠ [] ↔ ∃ i ∈ is, Forced ds cs i) := by
    intro is
    induction is with
    | nil => intro r _ e; cases e; simp
    | cons i is ih =>
      intro r hi e
      obtain ⟨b, e1, hb⟩ := forcedAt_iff hl (hi i (by simp))
      rw [mapL_cons', e1] at e
      simp only [Res.ok_bind, Res.pure_eq] at e
      cases e2 : Res.mapL (fun i => forcedAt ds cs i >>= fun b => (.ok (i, b) : Res (Nat × Bool))) is with
      | err => rw [e2] at e; cases e
      | panic => rw [e2] at e; cases e
      | ok r' =>
        rw [e2] at e
        cases e
        have := ih r' (fun j hj => hi j (by simp [hj])) e2
        cases b with
        | true => simp [← hb]
        | false =>
          have hn : ¬ Forced ds cs i := by rw [← hb]; simp
          simp only [List.filter_cons, Bool.false_eq_true, if_false, List.mem_cons, exists_eq_or_imp, hn, false_or]
          exact this
  cases e : Res.mapL (fun i => forcedAt ds cs i >>= fun b => (pure (i, b) : Res (Nat × Bool))) (List.range ds.length).reverse with
  | err => rw [e] at h; cases h
  | panic => rw [e] at h; cases h
  | ok r =>
    rw [e] at h
    cases h
    have := key _ r (by intro i hi; simpa using hi) e
    rw [ne_eq, List.map_eq_nil_iff, ← ne_eq, this]
    constructor
    · rintro ⟨i, _, h⟩; exact ⟨i, h⟩
    · rintro ⟨i, h⟩
      refine ⟨i, ?_, h⟩
      obtain ⟨_, _, _, _, _, _, e1, _⟩ := h
      have := (List.getElem?_eq_some_iff.1 e1).1
      simpa using this

theorem allSmall_false_of {ds : List Pt} (h : allSmall ds = .ok true) : ∃ d, ∀ p ∈ ds, p = d := by
  refine ⟨(0, 0), ?_⟩
  intro p hp
  rw [allSmall_true h] at hp
  exact (List.mem_replicate.1 hp).2

/-- A free contour of 8192 points or more. -/
theorem free_panics {ds cs : List Pt} (hl : cs.length = ds.length) (hn : 8192 ≤ ds.length) (hd : ∀ p ∈ ds, Fits15 p)
    (hc : ∀ p ∈ cs, Fits15 p) : optimizeFree ds cs = .panic := by
  unfold optimizeFree
  simp only
  split
  · rfl
  · simp only [Res.pure_eq, Res.ok_bind]
    have can : ∀ i j : ℤ, 2 ≤ j - i → j - i ≤ (ds ++ ds).length → ∃ b, canIup (ds ++ ds) (cs ++ cs) i j = .ok b := fun i j a b =>
      canIup_total (by simp [hl]) (fun p hp => hd p (by simpa using hp)) (fun p hp => hc p (by simpa using hp)) a b
    obtain ⟨r, er⟩ := dpLoop_total can (forced := []) (lookback := ds.length) (by rw [List.length_append]; omega)
      (ds ++ ds).length [0] [] rfl
    have er : dp (ds ++ ds) (cs ++ cs) [] ds.length = .ok r := er
    rw [er]
    simp only [Res.ok_bind]
    obtain ⟨inv, hlen⟩ := dp_good er
    rw [List.length_append] at hlen
    rw [show ds.length + 2 = (ds.length + 1) + 1 from rfl, List.range'_succ]
    unfold bestLoop
    simp only
    have est : ((ds.length - 1 : Nat) : ℤ) - ds.length = -1 := by omega
    rw [est]
    have close := walkTo_closes (chain := r.1) (fun i j hj => ⟨(inv.link i j hj).1, (inv.link i j hj).2.1⟩)
      (2 * ds.length + 2) ((ds.length - 1 : Nat) : ℤ) (by omega) (by omega) (by omega)
    rw [if_pos close, show mulI16 (ds.length : ℤ) 4 = .panic from by unfold mulI16; rw [if_neg (by omega)]]
    rfl

/-- **C42** (exactly). Of contours whose coordinates and deltas fit fifteen bits, the optimiser returns for those that move as
a whole, those of at most 8191 points, and those of at most 32767 points of which one stands out from its neighbours. For
all others it panics. -/
theorem C42_returns_exactly (ds cs : List Pt) (hl : cs.length = ds.length) (hd : ∀ p ∈ ds, Fits15 p) (hc : ∀ p ∈ cs, Fits15 p) :
    (((∃ d, ∀ p ∈ ds, p = d) ∨ ds.length ≤ 8191 ∨ (ds.length ≤ 32767 ∧ ∃ i, Forced ds cs i)) →
      ∃ out, optimizeContour ds cs = .ok out) ∧
    (¬ ((∃ d, ∀ p ∈ ds, p = d) ∨ ds.length ≤ 8191 ∨ (ds.length ≤ 32767 ∧ ∃ i, Forced ds cs i)) →
      optimizeContour ds cs = .panic) := by
  by_cases hn : ds.length ≤ 8191
  · exact ⟨fun _ => C42_returns ds cs hl hn hd hc, fun h => absurd (.inr (.inl hn)) h⟩
  · unfold optimizeContour
    obtain ⟨b, e⟩ := allSmall_total hd
    rw [e]
    simp only [Res.ok_bind]
    cases b with
    | true => exact ⟨fun _ => ⟨_, rfl⟩, fun h => absurd (.inl (allSmall_false_of e)) h⟩
    | false =>
      simp only [Bool.false_eq_true, if_false]
      match ds, hl, hn, hd with
      | [], hl, hn, hd => simp at hn
      | [d], hl, hn, hd => simp at hn
      | d :: d2 :: rest, hl, hn, hd =>
        simp only
        split
        · rename_i hall
          refine ⟨fun _ => ⟨_, rfl⟩, fun h => absurd (.inl ⟨d, ?_⟩) h⟩
          intro p hp
          rcases List.mem_cons.1 hp with rfl | hp
          · rfl
          · simpa using List.all_eq_true.1 hall p hp
        · rename_i hall
          have hu : ¬ ∃ x, ∀ p ∈ d :: d2 :: rest, p = x := by
            rintro ⟨x, hx⟩
            apply hall
            rw [List.all_eq_true]
            intro p hp
            rw [hx d (by simp), hx p (by simp [List.mem_cons.1 hp])]
            simp
          obtain ⟨ds, hds⟩ : ∃ ds, ds = d :: d2 :: rest := ⟨_, rfl⟩
          rw [← hds] at hl hn hd hu ⊢
          split
          · rename_i hbig
            refine ⟨?_, fun _ => rfl⟩
            rintro (h | h | ⟨h, _⟩)
            · exact absurd h hu
            · omega
            · omega
          · rename_i hbig
            obtain ⟨f, ef⟩ := forcedSet_total hl
            have hf := forcedSet_iff hl ef
            rw [ef]
            simp only [Res.ok_bind]
            cases f with
            | nil =>
              have hno : ¬ ∃ i, Forced ds cs i := by rw [← hf]; simp
              refine ⟨?_, fun _ => free_panics hl (by omega) hd hc⟩
              rintro (h | h | ⟨_, h⟩)
              · exact absurd h hu
              · omega
              · exact absurd h hno
            | cons f fs =>
              refine ⟨fun _ => ?_, fun h => absurd (.inr (.inr ⟨by omega, hf.1 (by simp)⟩)) h⟩
              unfold optimizeForced
              simp only
              obtain ⟨k, hk⟩ : ∃ k, k = (ds.length : ℤ) - 1 - fs.foldl max f := ⟨_, rfl⟩
              rw [← hk]
              have can : ∀ i j : ℤ, 2 ≤ j - i → j - i ≤ (rotateList ds k).length →
                  ∃ b, canIup (rotateList ds k) (rotateList cs k) i j = .ok b := fun i j a b =>
                canIup_total (by rw [rotateList_length, rotateList_length, hl]) (fun p hp => hd p (rotate_mem hp))
                  (fun p hp => hc p (rotate_mem hp)) a b
              obtain ⟨r, er⟩ := dpLoop_total can (forced := rotateSet (f :: fs) k ds.length) (lookback := ds.length)
                (by rw [rotateList_length]) (rotateList ds k).length [0] [] rfl
              unfold dp
              rw [er]
              exact ⟨_, rfl⟩

/-- **C42.** 8192 points at one place, half of which move by one unit: the optimiser panics. If one of them moves and the
others do not, it returns. -/
theorem C42_long_panics :
    optimizeContour (List.replicate 4096 (1, 0) ++ List.replicate 4096 (0, 0)) (List.replicate 8192 (0, 0)) = .panic ∧
      ∃ out, optimizeContour ((1, 0) :: List.replicate 8191 (0, 0)) (List.replicate 8192 (0, 0)) = .ok out := by
  have f0 : Fits15 (0, 0) := by decide
  have f1 : Fits15 (1, 0) := by decide
  have fc : ∀ p ∈ List.replicate 8192 ((0, 0) : Pt), Fits15 p := by
    intro p hp
    rw [(List.mem_replicate.1 hp).2]
    exact f0
  constructor
  · refine (C42_returns_exactly _ _ ?_ ?_ fc).2 ?_
    · rw [List.length_append, List.length_replicate, List.length_replicate, List.length_replicate]
    · intro p hp
      rcases List.mem_append.1 hp with hp | hp
      · rw [(List.mem_replicate.1 hp).2]; exact f1
      · rw [(List.mem_replicate.1 hp).2]; exact f0
    · have hlen : (List.replicate 4096 ((1, 0) : Pt) ++ List.replicate 4096 (0, 0)).length = 8192 := by
        rw [List.length_append, List.length_replicate, List.length_replicate]
      have at_ : ∀ (i : Nat) (d : Pt), (List.replicate 4096 ((1, 0) : Pt) ++ List.replicate 4096 (0, 0))[i]? = some d →
          i < 8192 ∧ d.2 = 0 ∧ d.1.toInt = if i < 4096 then 1 else 0 := by
        intro i d h
        have hi := (List.getElem?_eq_some_iff.1 h).1
        rw [hlen] at hi
        refine ⟨hi, ?_⟩
        rw [List.getElem?_append, List.length_replicate] at h
        by_cases h1 : i < 4096
        · rw [if_pos h1, List.getElem?_replicate, if_pos h1] at h
          cases h
          rw [if_pos h1]
          exact ⟨rfl, rfl⟩
        · rw [if_neg h1, List.getElem?_replicate, if_pos (by omega)] at h
          cases h
          rw [if_neg h1]
          exact ⟨rfl, rfl⟩
      have at0 : ∀ (i : Nat) (c : Pt), (List.replicate 8192 ((0, 0) : Pt))[i]? = some c → c = (0, 0) := by
        intro i c h
        have := List.mem_of_getElem? h
        exact (List.mem_replicate.1 this).2
      rintro (⟨d, h⟩ | h | ⟨_, i, d, c, pd, pc, nd, nc, e1, e2, e3, e4, e5, e6, h⟩)
      · have h1 := h (1, 0) (List.mem_append_left _ (List.mem_replicate.2 ⟨by omega, rfl⟩))
        have h2 := h (0, 0) (List.mem_append_right _ (List.mem_replicate.2 ⟨by omega, rfl⟩))
        rw [← h2] at h1
        exact absurd h1 (by decide)
      · rw [hlen] at h
        omega
      · rw [hlen] at e3 e5
        obtain ⟨hi, k1, k2⟩ := at_ _ _ e1
        obtain ⟨_, k3, k4⟩ := at_ _ _ e3
        obtain ⟨_, k5, k6⟩ := at_ _ _ e5
        rw [at0 _ _ e2, at0 _ _ e4, at0 _ _ e6] at h
        simp only [ForcedAxis, StandsOut, show (0 : Int16).toInt = 0 from rfl, k1, k3, k5, k2, k4, k6] at h
        simp only [le_refl, and_self, if_true, min_self, max_self, lt_irrefl, or_self, or_false] at h
        split at h <;> split at h <;> split at h <;> omega
  · refine (C42_returns_exactly _ _ ?_ ?_ fc).1 ?_
    · rw [List.length_cons, List.length_replicate, List.length_replicate]
    · intro p hp
      rcases List.mem_cons.1 hp with rfl | hp
      · exact f1
      · rw [(List.mem_replicate.1 hp).2]; exact f0
    · have hlen : (((1, 0) : Pt) :: List.replicate 8191 (0, 0)).length = 8192 := by
        rw [List.length_cons, List.length_replicate]
      refine .inr (.inr ⟨by rw [hlen]; omega, 0, (1, 0), (0, 0), (0, 0), (0, 0), (0, 0), (0, 0), rfl, ?_, ?_, ?_, ?_, ?_, .inl ?_⟩)
      · rw [List.getElem?_replicate, if_pos (by omega)]
      · rw [hlen, show (0 + 8192 - 1) % 8192 = 8190 + 1 from rfl, List.getElem?_cons_succ, List.getElem?_replicate, if_pos (by omega)]
      · rw [List.length_replicate, List.getElem?_replicate, if_pos (by omega)]
      · rw [hlen, show (0 + 1) % 8192 = 0 + 1 from rfl, List.getElem?_cons_succ, List.getElem?_replicate, if_pos (by omega)]
      · rw [List.length_replicate, List.getElem?_replicate, if_pos (by omega)]
      · unfold ForcedAxis StandsOut
        decide

end FT.Props
