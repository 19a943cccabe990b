import Verif.Lemmas.VarSort
import Verif.Props.IupOptimize

/-!
The regions of masters and how earlier masters cut them (used for C44), in exact arithmetic.
-/

namespace FT.Props
open FT FT.F32 FT.Var

section maps
variable {κ α β : Type} [Key κ]

theorem get?_mapVal (f : κ × α → β) : ∀ (m : List (κ × α)) (k : κ),
    BMap.get? (m.map fun x => (x.1, f x)) k = (BMap.get? m k).map fun v => f (k, v)
  | [], _ => rfl
  | (k', v') :: m, k => by
    simp only [List.map_cons, BMap.get?]
    by_cases h1 : Key.lt k k' = true
    · simp [h1]
    · by_cases h2 : Key.lt k' k = true
      · simp only [h1, h2, if_true, if_false, Bool.false_eq_true]
        exact get?_mapVal f m k
      · have e := Key.tri k k' (by simpa using h1) (by simpa using h2)
        subst e
        simp only [h1, if_false, Bool.false_eq_true, Option.map_some]

theorem sorted_mapVal (f : κ × α → β) {m : List (κ × α)} (h : BMap.Sorted m) : BMap.Sorted (m.map fun x => (x.1, f x)) := by
  unfold BMap.Sorted at *
  rw [List.pairwise_map]
  exact h

theorem sorted_filter (p : κ × α → Bool) {m : List (κ × α)} (h : BMap.Sorted m) : BMap.Sorted (m.filter p) :=
  List.Pairwise.filter p h

/-- Inserting a list of entries: the value at a key comes from the list if the key is in it. -/
theorem get?_insertAll [DecidableEq κ] : ∀ (l : List (κ × α)) (m : List (κ × α)) (k : κ),
    (∃ v, (k, v) ∈ l ∧ BMap.get? (l.foldl (fun m x => BMap.insert m x.1 x.2) m) k = some v) ∨
    ((∀ x ∈ l, x.1 ≠ k) ∧ BMap.get? (l.foldl (fun m x => BMap.insert m x.1 x.2) m) k = BMap.get? m k)
  | [], m, k => Or.inr ⟨by simp, rfl⟩
  | x :: l, m, k => by
    simp only [List.foldl_cons]
    rcases get?_insertAll l (BMap.insert m x.1 x.2) k with ⟨v, hv, e⟩ | ⟨hn, e⟩
    · exact Or.inl ⟨v, List.mem_cons_of_mem _ hv, e⟩
    · rw [BMap.get?_insert] at e
      by_cases hk : k = x.1
      · rw [if_pos hk] at e
        exact Or.inl ⟨x.2, by rw [hk]; exact List.mem_cons_self, e⟩
      · rw [if_neg hk] at e
        refine Or.inr ⟨?_, e⟩
        intro y hy
        rcases List.mem_cons.1 hy with rfl | hy
        · exact fun h => hk h.symm
        · exact hn y hy

end maps

/-! ### Outermost coordinates -/

theorem extreme_some {f : ℚ → ℚ → ℚ} (t : Tag) : ∀ (L : List Loc) (a : ℚ), ∃ m, extreme f t L (some a) = some m
  | [], a => ⟨a, rfl⟩
  | l :: L, a => by
    simp only [extreme]
    cases BMap.get? l t with
    | none => exact extreme_some t L a
    | some v => exact extreme_some t L (f a v)

theorem extreme_max_spec (t : Tag) : ∀ (L : List Loc) (acc : Option ℚ) (m : ℚ), extreme max t L acc = some m →
    (∀ a, acc = some a → a ≤ m) ∧ (∀ l ∈ L, ∀ v, BMap.get? l t = some v → v ≤ m) ∧
    (acc = some m ∨ ∃ l ∈ L, BMap.get? l t = some m)
  | [], acc, m, h => by
    simp only [extreme] at h
    exact ⟨fun a ha => by rw [h] at ha; cases ha; exact le_refl _, by simp, Or.inl h⟩
  | l :: L, acc, m, h => by
    simp only [extreme] at h
    cases hl : BMap.get? l t with
    | none =>
      rw [hl] at h
      obtain ⟨h1, h2, h3⟩ := extreme_max_spec t L acc m h
      refine ⟨h1, ?_, ?_⟩
      · intro k hk v hv
        rcases List.mem_cons.1 hk with rfl | hk
        · rw [hl] at hv; cases hv
        · exact h2 k hk v hv
      · rcases h3 with h3 | ⟨k, hk, e⟩
        · exact Or.inl h3
        · exact Or.inr ⟨k, List.mem_cons_of_mem _ hk, e⟩
    | some v =>
      rw [hl] at h
      cases acc with
      | none =>
        obtain ⟨h1, h2, h3⟩ := extreme_max_spec t L (some v) m h
        refine ⟨by simp, ?_, ?_⟩
        · intro k hk w hw
          rcases List.mem_cons.1 hk with rfl | hk
          · rw [hl] at hw; cases hw; exact h1 _ rfl
          · exact h2 k hk w hw
        · right
          rcases h3 with h3 | ⟨k, hk, e⟩
          · exact ⟨l, List.mem_cons_self, by rw [hl, h3]⟩
          · exact ⟨k, List.mem_cons_of_mem _ hk, e⟩
      | some a =>
        obtain ⟨h1, h2, h3⟩ := extreme_max_spec t L (some (max a v)) m h
        have hm := h1 _ rfl
        refine ⟨fun b hb => by cases hb; exact le_trans (le_max_left _ _) hm, ?_, ?_⟩
        · intro k hk w hw
          rcases List.mem_cons.1 hk with rfl | hk
          · rw [hl] at hw; cases hw; exact le_trans (le_max_right _ _) hm
          · exact h2 k hk w hw
        · rcases h3 with h3 | ⟨k, hk, e⟩
          · simp only [Option.some.injEq] at h3
            rcases max_choice a v with h4 | h4
            · rw [h4] at h3; exact Or.inl (by rw [h3])
            · rw [h4] at h3; exact Or.inr ⟨l, List.mem_cons_self, by rw [hl, h3]⟩
          · exact Or.inr ⟨k, List.mem_cons_of_mem _ hk, e⟩

theorem extreme_min_spec (t : Tag) : ∀ (L : List Loc) (acc : Option ℚ) (m : ℚ), extreme min t L acc = some m →
    (∀ a, acc = some a → m ≤ a) ∧ (∀ l ∈ L, ∀ v, BMap.get? l t = some v → m ≤ v) ∧
    (acc = some m ∨ ∃ l ∈ L, BMap.get? l t = some m)
  | [], acc, m, h => by
    simp only [extreme] at h
    exact ⟨fun a ha => by rw [h] at ha; cases ha; exact le_refl _, by simp, Or.inl h⟩
  | l :: L, acc, m, h => by
    simp only [extreme] at h
    cases hl : BMap.get? l t with
    | none =>
      rw [hl] at h
      obtain ⟨h1, h2, h3⟩ := extreme_min_spec t L acc m h
      refine ⟨h1, ?_, ?_⟩
      · intro k hk v hv
        rcases List.mem_cons.1 hk with rfl | hk
        · rw [hl] at hv; cases hv
        · exact h2 k hk v hv
      · rcases h3 with h3 | ⟨k, hk, e⟩
        · exact Or.inl h3
        · exact Or.inr ⟨k, List.mem_cons_of_mem _ hk, e⟩
    | some v =>
      rw [hl] at h
      cases acc with
      | none =>
        obtain ⟨h1, h2, h3⟩ := extreme_min_spec t L (some v) m h
        refine ⟨by simp, ?_, ?_⟩
        · intro k hk w hw
          rcases List.mem_cons.1 hk with rfl | hk
          · rw [hl] at hw; cases hw; exact h1 _ rfl
          · exact h2 k hk w hw
        · right
          rcases h3 with h3 | ⟨k, hk, e⟩
          · exact ⟨l, List.mem_cons_self, by rw [hl, h3]⟩
          · exact ⟨k, List.mem_cons_of_mem _ hk, e⟩
      | some a =>
        obtain ⟨h1, h2, h3⟩ := extreme_min_spec t L (some (min a v)) m h
        have hm := h1 _ rfl
        refine ⟨fun b hb => by cases hb; exact le_trans hm (min_le_left _ _), ?_, ?_⟩
        · intro k hk w hw
          rcases List.mem_cons.1 hk with rfl | hk
          · rw [hl] at hw; cases hw; exact le_trans hm (min_le_right _ _)
          · exact h2 k hk w hw
        · rcases h3 with h3 | ⟨k, hk, e⟩
          · simp only [Option.some.injEq] at h3
            rcases min_choice a v with h4 | h4
            · rw [h4] at h3; exact Or.inl (by rw [h3])
            · rw [h4] at h3; exact Or.inr ⟨l, List.mem_cons_self, by rw [hl, h3]⟩
          · exact Or.inr ⟨k, List.mem_cons_of_mem _ hk, e⟩

theorem extreme_exists {f : ℚ → ℚ → ℚ} (t : Tag) : ∀ (L : List Loc) (acc : Option ℚ) (l : Loc) (v : ℚ), l ∈ L →
    BMap.get? l t = some v → ∃ m, extreme f t L acc = some m
  | k :: L, acc, l, v, hl, hv => by
    simp only [extreme]
    cases hk : BMap.get? k t with
    | none =>
      rcases List.mem_cons.1 hl with rfl | hl
      · rw [hk] at hv; cases hv
      · exact extreme_exists t L acc l v hl hv
    | some w =>
      cases acc with
      | none => exact extreme_some t L w
      | some a => exact extreme_some t L (f a w)

/-! ### Boxes -/

/-- Masters without zero coordinates, in increasing order of axes. -/
structure Clean (L : List Loc) : Prop where
  sorted : ∀ l ∈ L, BMap.Sorted l
  nonzero : ∀ l ∈ L, ∀ x ∈ l, x.2 ≠ 0

def outer (f : ℚ → ℚ → ℚ) (L : List Loc) (t : Tag) : ℚ := match extreme f t L none with
  | some m => m
  | none => 0

/-- The region of a master before any cut. -/
def box (L : List Loc) (t : Tag) (v : ℚ) : ℚ × ℚ × ℚ :=
  if v > 0 then (0, v, outer max L t) else (outer min L t, v, 0)

def boxes (L : List Loc) (l : Loc) : Region := l.map fun x => (x.1, box L x.1 x.2)

theorem regions_eq {L : List Loc} (hc : Clean L) : regions L = .ok (L.map (boxes L)) := by
  have inner : ∀ l ∈ L, Res.mapL (axisRegion L) l = .ok (boxes L l) := by
    intro l hl
    have hs := hc.sorted l hl
    have : ∀ x ∈ l, axisRegion L x = .ok (x.1, box L x.1 x.2) := by
      intro x hx
      have hg : BMap.get? l x.1 = some x.2 := (BMap.get?_eq_some hs).2 hx
      unfold axisRegion box outer
      by_cases h : x.2 > 0
      · obtain ⟨m, hm⟩ := extreme_exists (f := max) x.1 L none l x.2 hl hg
        rw [if_pos h, if_pos h, hm]
      · obtain ⟨m, hm⟩ := extreme_exists (f := min) x.1 L none l x.2 hl hg
        rw [if_neg h, if_neg h, hm]
    rw [mapL_congr' l this, mapL_ok_map]; rfl
  unfold regions
  rw [mapL_congr' L inner, mapL_ok_map]

theorem box_peak (L : List Loc) (t : Tag) (v : ℚ) : (box L t v).2.1 = v := by unfold box; split <;> rfl

theorem box_bounds {L : List Loc} {l : Loc} (hl : l ∈ L) {t : Tag} {v : ℚ} (hv : BMap.get? l t = some v) (h0 : v ≠ 0) :
    (box L t v).1 ≤ v ∧ v ≤ (box L t v).2.2 ∧ (0 < v → 0 ≤ (box L t v).1) ∧ (v < 0 → (box L t v).2.2 ≤ 0) := by
  unfold box
  by_cases h : v > 0
  · rw [if_pos h]
    obtain ⟨m, hm⟩ := extreme_exists (f := max) t L none l v hl hv
    have := (extreme_max_spec t L none m hm).2.1 l hl v hv
    simp only [outer, hm]
    exact ⟨h.le, this, fun _ => le_refl _, fun h' => by linarith⟩
  · rw [if_neg h]
    obtain ⟨m, hm⟩ := extreme_exists (f := min) t L none l v hl hv
    have := (extreme_min_spec t L none m hm).2.1 l hl v hv
    simp only [outer, hm]
    exact ⟨this, not_lt.1 h, fun h' => absurd h' h, fun _ => le_refl _⟩

theorem get?_boxes (L : List Loc) (l : Loc) (t : Tag) : BMap.get? (boxes L l) t = (BMap.get? l t).map (box L t) :=
  get?_mapVal (fun x => box L x.1 x.2) l t

/-! ### One cut -/

/-- What cutting the region of `c` by `a` puts on axis `t`. -/
def CutTriple (L : List Loc) (c a : Loc) (t : Tag) (tri : ℚ × ℚ × ℚ) : Prop :=
  ∃ v w, BMap.get? c t = some v ∧ BMap.get? a t = some w ∧
    ((w < v ∧ tri = (w, v, (box L t v).2.2)) ∨ (v < w ∧ tri = ((box L t v).1, v, w)))

/-- `a` has an axis of `c`'s region with coordinate equal to the peak or strictly inside, for every axis of `c`. -/
def Inside (L : List Loc) (c a : Loc) : Prop := ∀ t v, BMap.get? c t = some v →
  ∃ w, BMap.get? a t = some w ∧ (w = v ∨ ((box L t v).1 < w ∧ w < (box L t v).2.2))

theorem relevant_iff (L : List Loc) {c a : Loc} (hs : BMap.Sorted c)
    (hap : ∀ t v w, BMap.get? c t = some v → BMap.get? a t = some w → EpsApart w v) :
    relevant id (boxes L a) (boxes L c) = true ↔ Inside L c a := by
  have gen : ∀ (l : Loc), (∀ x ∈ l, BMap.get? c x.1 = some x.2) →
      (relevant id (boxes L a) (boxes L l) = true ↔
        ∀ x ∈ l, ∃ w, BMap.get? a x.1 = some w ∧ (w = x.2 ∨ ((box L x.1 x.2).1 < w ∧ w < (box L x.1 x.2).2.2))) := by
    intro l
    induction l with
    | nil => intro _; simp [boxes, relevant]
    | cons x l ih =>
      intro hl
      have ih := ih fun y hy => hl y (List.mem_cons_of_mem _ hy)
      have e : boxes L (x :: l) = (x.1, (box L x.1 x.2).1, (box L x.1 x.2).2.1, (box L x.1 x.2).2.2) :: boxes L l := rfl
      rw [e]
      unfold relevant
      rw [get?_boxes]
      cases ha : BMap.get? a x.1 with
      | none => simp [ha]
      | some w =>
        simp only [Option.map_some]
        have hp : (box L x.1 w) = ((box L x.1 w).1, w, (box L x.1 w).2.2) := by
          conv_lhs => rw [show box L x.1 w = ((box L x.1 w).1, (box L x.1 w).2.1, (box L x.1 w).2.2) from rfl, box_peak]
        rw [hp, box_peak]
        simp only [List.forall_mem_cons, ha, Option.some.injEq, exists_eq_left', ← ih]
        have hap' := hap x.1 x.2 w (hl x List.mem_cons_self) ha
        have hc : (|id (w - x.2)| < eps ∨ ((box L x.1 x.2).1 < w ∧ w < (box L x.1 x.2).2.2)) ↔
            (w = x.2 ∨ ((box L x.1 x.2).1 < w ∧ w < (box L x.1 x.2).2.2)) := by
          apply or_congr_left
          constructor
          · intro h
            rcases hap' with h' | h'
            · exact h'
            · simp only [id] at h; exact absurd h (not_lt.2 h'.le)
          · intro h; rw [h]; simp [eps]
        by_cases hh : (|id (w - x.2)| < eps ∨ ((box L x.1 x.2).1 < w ∧ w < (box L x.1 x.2).2.2))
        · rw [if_pos hh]; simp [hc.1 hh]
        · rw [if_neg hh]; simp only [Bool.false_eq_true, false_iff, not_and]; intro h'; exact absurd (hc.2 h') hh
  rw [gen c fun x hx => (BMap.get?_eq_some hs).2 hx]
  constructor
  · intro h t v hv; exact h (t, v) ((BMap.get?_eq_some hs).1 hv)
  · intro h x hx; exact h x.1 x.2 ((BMap.get?_eq_some hs).2 hx)

theorem subsetKeys_iff (L : List Loc) {c a : Loc} (hs : BMap.Sorted a) :
    subsetKeys (boxes L a) (boxes L c) = true ↔ ∀ t, BMap.get? a t ≠ none → BMap.get? c t ≠ none := by
  unfold subsetKeys
  rw [List.all_eq_true]
  constructor
  · intro h t ht
    cases ha : BMap.get? a t with
    | none => exact absurd ha ht
    | some v =>
      have hm : (t, v) ∈ a := (BMap.get?_eq_some hs).1 ha
      have := h (t, box L t v) (List.mem_map.2 ⟨(t, v), hm, rfl⟩)
      rw [get?_boxes] at this
      intro hn
      rw [hn] at this
      simp at this
  · intro h y hy
    obtain ⟨x, hx, rfl⟩ := List.mem_map.1 hy
    have ha : BMap.get? a x.1 = some x.2 := (BMap.get?_eq_some hs).2 hx
    have := h x.1 (by rw [ha]; simp)
    simp only
    rw [get?_boxes]
    cases hc : BMap.get? c x.1 with
    | none => exact absurd hc this
    | some v => rfl

theorem bestStep_spec (t : Tag) (tri : ℚ × ℚ × ℚ) (ratio : ℚ) (best : Region × ℚ) :
    (∀ x ∈ (bestStep id t tri ratio best).1, x ∈ best.1 ∨ x = (t, tri)) ∧
    ((best.1 ≠ [] ∨ best.2 < ratio) → (bestStep id t tri ratio best).1 ≠ []) := by
  have hins : ∀ m : Region, BMap.insert m t tri ≠ [] := by
    intro m h
    have := BMap.get?_insert_self (m := m) t tri
    rw [h] at this
    simp [BMap.get?] at this
  unfold bestStep
  by_cases hr : ratio > best.2
  · simp only [hr, if_true, id, sub_self, abs_zero]
    have h0 : (0 : ℚ) < eps := by simp [eps]
    rw [if_pos h0]
    exact ⟨fun x hx => by
      rcases BMap.mem_insert hx with h | h
      · exact Or.inr h
      · simp at h, fun _ => hins _⟩
  · rw [if_neg hr]
    simp only [id]
    split
    · exact ⟨fun x hx => by
        rcases BMap.mem_insert hx with h | h
        · exact Or.inr h
        · exact Or.inl h, fun _ => hins _⟩
    · refine ⟨fun x hx => Or.inl hx, fun h => ?_⟩
      rcases h with h | h
      · exact h
      · exact absurd h hr

theorem bestLoop_spec (L : List Loc) {c a : Loc} (hin : Inside L c a) : ∀ (l : Loc) (best : Region × ℚ),
    (∀ x ∈ l, BMap.get? a x.1 = some x.2) → (∀ x ∈ l, BMap.get? c x.1 ≠ none) → -1 ≤ best.2 →
    (best.2 = -1 ∨ best.1 ≠ []) →
    ∃ b, bestLoop id (boxes L c) (boxes L l) best = .ok b ∧
      (∀ x ∈ b, x ∈ best.1 ∨ CutTriple L c a x.1 x.2) ∧
      ((best.1 ≠ [] ∨ ∃ x ∈ l, BMap.get? c x.1 ≠ some x.2) → b ≠ [])
  | [], best, _, _, _, _ => ⟨best.1, rfl, fun x hx => Or.inl hx, fun h => by
      rcases h with h | ⟨x, hx, _⟩
      · exact h
      · simp at hx⟩
  | x :: l, best, hl, hk, hb, hb' => by
    have hl' : ∀ y ∈ l, BMap.get? a y.1 = some y.2 := fun y hy => hl y (List.mem_cons_of_mem _ hy)
    have hk' : ∀ y ∈ l, BMap.get? c y.1 ≠ none := fun y hy => hk y (List.mem_cons_of_mem _ hy)
    have hax := hl x List.mem_cons_self
    cases hc : BMap.get? c x.1 with
    | none => exact absurd hc (hk x List.mem_cons_self)
    | some v =>
      obtain ⟨w, hw, hbox⟩ := hin x.1 v hc
      rw [hax] at hw
      cases hw
      have e : boxes L (x :: l) = (x.1, (box L x.1 x.2).1, (box L x.1 x.2).2.1, (box L x.1 x.2).2.2) :: boxes L l := rfl
      have hp : (box L x.1 v) = ((box L x.1 v).1, v, (box L x.1 v).2.2) := by
        conv_lhs => rw [show box L x.1 v = ((box L x.1 v).1, (box L x.1 v).2.1, (box L x.1 v).2.2) from rfl, box_peak]
      have unfoldIt : bestLoop id (boxes L c) (boxes L (x :: l)) best =
          if x.2 < v then bestLoop id (boxes L c) (boxes L l)
            (bestStep id x.1 (x.2, v, (box L x.1 v).2.2) ((x.2 - v) / ((box L x.1 v).1 - v)) best)
          else if v < x.2 then bestLoop id (boxes L c) (boxes L l)
            (bestStep id x.1 ((box L x.1 v).1, v, x.2) ((x.2 - v) / ((box L x.1 v).2.2 - v)) best)
          else bestLoop id (boxes L c) (boxes L l) best := by
        rw [e]
        conv_lhs => unfold bestLoop
        rw [get?_boxes, hc, Option.map_some, hp, box_peak]
        rfl
      -- a candidate with positive ratio
      have cand : ∀ (tri : ℚ × ℚ × ℚ) (ratio : ℚ), 0 < ratio → CutTriple L c a x.1 tri →
          ∃ b, bestLoop id (boxes L c) (boxes L l) (bestStep id x.1 tri ratio best) = .ok b ∧
            (∀ x ∈ b, x ∈ best.1 ∨ CutTriple L c a x.1 x.2) ∧ b ≠ [] := by
        intro tri ratio hr ht
        obtain ⟨s1, s2⟩ := bestStep_spec x.1 tri ratio best
        have ne : (bestStep id x.1 tri ratio best).1 ≠ [] := by
          apply s2
          rcases hb' with h | h
          · right; rw [h]; linarith
          · left; exact h
        have hge : -1 ≤ (bestStep id x.1 tri ratio best).2 := by
          unfold bestStep
          by_cases h : ratio > best.2
          · rw [if_pos h]; simp only; split <;> simp only <;> linarith
          · rw [if_neg h]; simp only; split <;> linarith
        obtain ⟨b, e1, e2, e3⟩ := bestLoop_spec L hin l _ hl' hk' hge (Or.inr ne)
        refine ⟨b, e1, ?_, e3 (Or.inl ne)⟩
        intro y hy
        rcases e2 y hy with h | h
        · rcases s1 y h with h | h
          · exact Or.inl h
          · subst h; exact Or.inr ht
        · exact Or.inr h
      by_cases h1 : x.2 < v
      · obtain ⟨b, e1, e2, e3⟩ := cand (x.2, v, (box L x.1 v).2.2) ((x.2 - v) / ((box L x.1 v).1 - v)) (by
          rcases hbox with h | ⟨h, _⟩
          · linarith
          · rw [← neg_div_neg_eq]; apply div_pos <;> linarith) ⟨v, x.2, hc, hax, Or.inl ⟨h1, rfl⟩⟩
        exact ⟨b, by rw [unfoldIt, if_pos h1]; exact e1, e2, fun _ => e3⟩
      · by_cases h2 : v < x.2
        · obtain ⟨b, e1, e2, e3⟩ := cand ((box L x.1 v).1, v, x.2) ((x.2 - v) / ((box L x.1 v).2.2 - v)) (by
            rcases hbox with h | ⟨_, h⟩
            · linarith
            · apply div_pos <;> linarith) ⟨v, x.2, hc, hax, Or.inr ⟨h2, rfl⟩⟩
          exact ⟨b, by rw [unfoldIt, if_neg h1, if_pos h2]; exact e1, e2, fun _ => e3⟩
        · have hxv : x.2 = v := le_antisymm (not_lt.1 h2) (not_lt.1 h1)
          obtain ⟨b, e1, e2, e3⟩ := bestLoop_spec L hin l best hl' hk' hb hb'
          refine ⟨b, by rw [unfoldIt, if_neg h1, if_neg h2]; exact e1, e2, ?_⟩
          intro h
          apply e3
          rcases h with h | ⟨y, hy, hne⟩
          · exact Or.inl h
          · rcases List.mem_cons.1 hy with rfl | hy
            · rw [hc, hxv] at hne; exact absurd rfl hne
            · exact Or.inr ⟨y, hy, hne⟩

/-- A region of `c` after some cuts. -/
structure Cutting (L : List Loc) (c : Loc) (copy : Region) : Prop where
  sorted : BMap.Sorted copy
  here : ∀ t v, BMap.get? c t = some v → ∃ lo up, BMap.get? copy t = some (lo, v, up) ∧ (box L t v).1 ≤ lo ∧ lo ≤ v ∧
    v ≤ up ∧ up ≤ (box L t v).2.2
  away : ∀ t, BMap.get? c t = none → BMap.get? copy t = none

theorem cutting_start {L : List Loc} (hc : Clean L) {c : Loc} (hcL : c ∈ L) : Cutting L c (boxes L c) := by
  refine ⟨sorted_mapVal _ (hc.sorted c hcL), ?_, ?_⟩
  · intro t v hv
    have h0 := hc.nonzero c hcL (t, v) ((BMap.get?_eq_some (hc.sorted c hcL)).1 hv)
    obtain ⟨b1, b2, _, _⟩ := box_bounds hcL hv h0
    refine ⟨(box L t v).1, (box L t v).2.2, ?_, le_refl _, b1, b2, le_refl _⟩
    rw [get?_boxes, hv, Option.map_some]
    congr 1
    conv_lhs => rw [show box L t v = ((box L t v).1, (box L t v).2.1, (box L t v).2.2) from rfl, box_peak]
  · intro t ht
    rw [get?_boxes, ht]; rfl

/-- `a` has the same axes as `c` and lies in its box. -/
def InBoxOf (L : List Loc) (c a : Loc) : Prop := (∀ t, BMap.get? a t ≠ none → BMap.get? c t ≠ none) ∧ Inside L c a

theorem cutBy_spec {L : List Loc} (hcl : Clean L) {c a : Loc} (hc : c ∈ L) (ha : a ∈ L)
    (hap : ∀ t v w, BMap.get? c t = some v → BMap.get? a t = some w → EpsApart w v) {copy : Region}
    (hcut : Cutting L c copy) :
    ∃ copy', cutBy id (boxes L c) copy (boxes L a) = .ok copy' ∧ Cutting L c copy' ∧
      (∀ t, BMap.get? copy' t = BMap.get? copy t ∨
        (InBoxOf L c a ∧ ∃ tri, BMap.get? copy' t = some tri ∧ CutTriple L c a t tri)) ∧
      (InBoxOf L c a → (∃ t, BMap.get? a t ≠ BMap.get? c t) → ∃ t tri, BMap.get? copy' t = some tri ∧ CutTriple L c a t tri) := by
  have sa := hcl.sorted a ha
  have sc := hcl.sorted c hc
  by_cases hsub : subsetKeys (boxes L a) (boxes L c) = true
  · by_cases hrel : relevant id (boxes L a) (boxes L c) = true
    · have hin : Inside L c a := (relevant_iff L sc hap).1 hrel
      have hk := (subsetKeys_iff L (c := c) sa).1 hsub
      have hla : ∀ x ∈ a, BMap.get? a x.1 = some x.2 := fun x hx => (BMap.get?_eq_some sa).2 hx
      obtain ⟨b, e1, e2, e3⟩ := bestLoop_spec L hin a ([], -1) hla
        (fun x hx => hk x.1 (by rw [hla x hx]; simp)) (le_refl _) (Or.inl rfl)
      have ebox : InBoxOf L c a := ⟨hk, hin⟩
      have e2' : ∀ x ∈ b, CutTriple L c a x.1 x.2 := fun x hx => by
        rcases e2 x hx with h | h
        · simp at h
        · exact h
      have trip : ∀ t tri, CutTriple L c a t tri → ∀ v, BMap.get? c t = some v →
          ∃ lo up, tri = (lo, v, up) ∧ (box L t v).1 ≤ lo ∧ lo ≤ v ∧ v ≤ up ∧ up ≤ (box L t v).2.2 := by
        intro t tri ⟨v, w, hv, hw, hh⟩ v' hv'
        rw [hv] at hv'; cases hv'
        have h0 := hcl.nonzero c hc (t, v) ((BMap.get?_eq_some sc).1 hv)
        obtain ⟨b1, b2, _, _⟩ := box_bounds hc hv h0
        obtain ⟨w', hw', hb⟩ := hin t v hv
        rw [hw] at hw'; cases hw'
        rcases hh with ⟨h, rfl⟩ | ⟨h, rfl⟩
        · refine ⟨w, _, rfl, ?_, h.le, b2, le_refl _⟩
          rcases hb with hb | hb
          · linarith
          · exact hb.1.le
        · refine ⟨_, w, rfl, le_refl _, b1, h.le, ?_⟩
          rcases hb with hb | hb
          · linarith
          · exact hb.2.le
      refine ⟨insertAll copy b, ?_, ⟨BMap.foldl_insert_sorted hcut.sorted, ?_, ?_⟩, ?_, ?_⟩
      · unfold cutBy; rw [if_pos hsub, if_pos hrel, e1]
      · intro t v hv
        rcases get?_insertAll b copy t with ⟨tri, hm, e⟩ | ⟨_, e⟩
        · obtain ⟨lo, up, rfl, h⟩ := trip t tri (e2' _ hm) v hv
          exact ⟨lo, up, e, h⟩
        · obtain ⟨lo, up, h, h'⟩ := hcut.here t v hv
          exact ⟨lo, up, by unfold insertAll; rw [e, h], h'⟩
      · intro t ht
        rcases get?_insertAll b copy t with ⟨tri, hm, e⟩ | ⟨_, e⟩
        · obtain ⟨v, w, hv, _⟩ := e2' _ hm
          simp only at hv
          rw [ht] at hv; cases hv
        · unfold insertAll; rw [e]; exact hcut.away t ht
      · intro t
        rcases get?_insertAll b copy t with ⟨tri, hm, e⟩ | ⟨_, e⟩
        · exact Or.inr ⟨ebox, tri, e, e2' _ hm⟩
        · exact Or.inl e
      · intro _ ⟨t, ht⟩
        have hb : b ≠ [] := by
          apply e3
          right
          cases hat : BMap.get? a t with
          | none =>
            rw [hat] at ht
            cases hct : BMap.get? c t with
            | none => exact absurd hct.symm ht
            | some v =>
              obtain ⟨w, hw, _⟩ := hin t v hct
              rw [hat] at hw; cases hw
          | some w => exact ⟨(t, w), (BMap.get?_eq_some sa).1 hat, by rw [hat] at ht; exact fun h => ht h.symm⟩
        obtain ⟨x, b', rfl⟩ := List.exists_cons_of_ne_nil hb
        rcases get?_insertAll (x :: b') copy x.1 with ⟨tri, hm, e⟩ | ⟨hn, _⟩
        · exact ⟨x.1, tri, e, e2' _ hm⟩
        · exact absurd rfl (hn x List.mem_cons_self)
    · refine ⟨copy, by unfold cutBy; rw [if_pos hsub, if_neg hrel], hcut, fun t => Or.inl rfl, ?_⟩
      intro h; exact absurd ((relevant_iff L sc hap).2 h.2) hrel
  · refine ⟨copy, by unfold cutBy; rw [if_neg hsub], hcut, fun t => Or.inl rfl, ?_⟩
    intro h; exact absurd ((subsetKeys_iff L sa).2 h.1) hsub

/-- The cut region excludes `a`. -/
def Excludes (c a : Loc) (copy : Region) : Prop := ∃ t v w lo up, BMap.get? c t = some v ∧ BMap.get? a t = some w ∧ w ≠ v ∧
  BMap.get? copy t = some (lo, v, up) ∧ (w ≤ lo ∨ up ≤ w)

/-- `b` lies between `a` and `c` on every axis they share. -/
def Between (a b c : Loc) : Prop := ∀ t x y z, BMap.get? a t = some x → BMap.get? b t = some y → BMap.get? c t = some z →
  (x ≤ y ∧ y ≤ z) ∨ (z ≤ y ∧ y ≤ x)

/-- After cutting by `prevs` in order, each of them that was in the box is excluded, provided (`P`) each later one that is
in the box lies between an earlier one and `c`. -/
theorem cutAll_spec (P : Prop) {L : List Loc} (hcl : Clean L) {c : Loc} (hc : c ∈ L) : ∀ (prevs done : List Loc) (copy : Region),
    (∀ a ∈ prevs, a ∈ L) →
    (∀ a ∈ prevs, ∀ t v w, BMap.get? c t = some v → BMap.get? a t = some w → EpsApart w v) →
    (∀ a ∈ prevs, ∃ t, BMap.get? a t ≠ BMap.get? c t) →
    (P → ∀ (i j : Nat) a b, i < j → (done ++ prevs)[i]? = some a → (done ++ prevs)[j]? = some b → InBoxOf L c a →
      InBoxOf L c b → Between a b c) →
    Cutting L c copy → (P → ∀ a ∈ done, InBoxOf L c a → Excludes c a copy) →
    ∃ s, cutAll id (boxes L c) (prevs.map (boxes L)) copy = .ok s ∧ Cutting L c s ∧
      (P → ∀ a ∈ done ++ prevs, InBoxOf L c a → Excludes c a s)
  | [], done, copy, _, _, _, _, hcut, hex => ⟨copy, rfl, hcut, by simpa using hex⟩
  | p :: prevs, done, copy, hL, hap, hne, hst, hcut, hex => by
    obtain ⟨copy', e, hcut', hch, hnew⟩ := cutBy_spec hcl hc (hL p List.mem_cons_self) (hap p List.mem_cons_self) hcut
    -- a triple put in by `b` excludes everything `b` is nearer than
    have excl : ∀ a b t tri, Between a b c → BMap.get? a t ≠ none → CutTriple L c b t tri → BMap.get? copy' t = some tri →
        Excludes c a copy' := by
      intro a b t tri hbt hat ⟨v, w, hv, hw, hh⟩ hg
      cases ha : BMap.get? a t with
      | none => exact absurd ha hat
      | some x =>
        have := hbt t x w v ha hw hv
        rcases hh with ⟨h, rfl⟩ | ⟨h, rfl⟩
        · refine ⟨t, v, x, _, _, hv, ha, ?_, hg, Or.inl ?_⟩
          · rcases this with ⟨h1, h2⟩ | ⟨h1, h2⟩
            · exact ne_of_lt (lt_of_le_of_lt h1 h)
            · linarith
          · rcases this with ⟨h1, h2⟩ | ⟨h1, h2⟩
            · exact h1
            · linarith
        · refine ⟨t, v, x, _, _, hv, ha, ?_, hg, Or.inr ?_⟩
          · rcases this with ⟨h1, h2⟩ | ⟨h1, h2⟩
            · linarith
            · exact ne_of_gt (lt_of_lt_of_le h h2)
          · rcases this with ⟨h1, h2⟩ | ⟨h1, h2⟩
            · linarith
            · exact h2
    have key : P → ∀ a ∈ done ++ [p], InBoxOf L c a → Excludes c a copy' := by
      intro hP a ha hin
      rcases List.mem_append.1 ha with ha | ha
      · obtain ⟨t, v, w, lo, up, h1, h2, h3, h4, h5⟩ := hex hP a ha hin
        rcases hch t with h | ⟨hpin, tri, htri, hct⟩
        · exact ⟨t, v, w, lo, up, h1, h2, h3, by rw [h]; exact h4, h5⟩
        · obtain ⟨i, hi, hai⟩ := List.mem_iff_getElem.1 ha
          have hb : Between a p c := by
            refine hst hP i done.length a p hi ?_ ?_ hin hpin
            · rw [List.getElem?_append_left hi, List.getElem?_eq_getElem hi, hai]
            · rw [List.getElem?_append_right (le_refl _)]; simp
          exact excl a p t tri hb (by rw [h2]; simp) hct htri
      · simp only [List.mem_singleton] at ha
        subst ha
        obtain ⟨t, tri, htri, hct⟩ := hnew hin (hne a List.mem_cons_self)
        refine excl a a t tri ?_ ?_ hct htri
        · intro t x y z hx hy hz
          rw [hx] at hy; cases hy
          rcases le_total x z with h | h
          · exact Or.inl ⟨le_refl _, h⟩
          · exact Or.inr ⟨h, le_refl _⟩
        · obtain ⟨v, w, _, hw, _⟩ := hct
          rw [hw]; simp
    obtain ⟨s, es, hs, hs'⟩ := cutAll_spec P hcl hc prevs (done ++ [p]) copy' (fun a ha => hL a (List.mem_cons_of_mem _ ha))
      (fun a ha => hap a (List.mem_cons_of_mem _ ha)) (fun a ha => hne a (List.mem_cons_of_mem _ ha))
      (by simpa using hst) hcut' key
    refine ⟨s, ?_, hs, by simpa using hs'⟩
    simp only [List.map_cons, cutAll, e]
    exact es

end FT.Props
