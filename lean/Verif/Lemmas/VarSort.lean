import Verif.Props.Support
import Mathlib.Order.Compare

/-!
The comparison of masters is a total preorder on masters whose coordinates are equal or more than `f32::EPSILON`
apart, so sorting with it gives a sorted list.
-/

namespace FT.Props
open FT FT.F32 FT.Var

/-- `c` is a total preorder among elements related by `R`. -/
structure Good {α : Type} (R : α → α → Prop) (c : α → α → Ordering) : Prop where
  swap : ∀ a b, R a b → c b a = (c a b).swap
  trans : ∀ a b d, R a b → R b d → c a b ≠ .gt → c b d ≠ .gt → c a d ≠ .gt

/-- First comparison, then the second on ties. -/
def thenCmp {α : Type} (c d : α → α → Ordering) (a b : α) : Ordering := match c a b with
  | .eq => d a b
  | o => o

theorem Good.tie {α : Type} {R : α → α → Prop} {c : α → α → Ordering} (g : Good R c) (hs : ∀ a b, R a b → R b a)
    (ht : ∀ a b d, R a b → R b d → R a d) {a b d : α} (hab : R a b) (hbd : R b d) (h1 : c a b ≠ .gt) (h2 : c b d ≠ .gt)
    (h3 : c a d = .eq) : c a b = .eq ∧ c b d = .eq := by
  have had := ht _ _ _ hab hbd
  have hda : c d a = .eq := by rw [g.swap _ _ had, h3]; rfl
  have hdb : c d b ≠ .gt := g.trans d a b (hs _ _ had) hab (by rw [hda]; decide) h1
  have hba : c b a ≠ .gt := g.trans b d a hbd (hs _ _ had) h2 (by rw [hda]; decide)
  constructor
  · rw [g.swap _ _ hab] at hba
    cases h : c a b <;> simp_all
  · rw [g.swap _ _ hbd] at hdb
    cases h : c b d <;> simp_all

theorem Good.lex {α : Type} {R : α → α → Prop} {c d : α → α → Ordering} (hs : ∀ a b, R a b → R b a)
    (ht : ∀ a b d, R a b → R b d → R a d) (g : Good R c) (g' : Good (fun a b => R a b ∧ c a b = .eq) d) :
    Good R (thenCmp c d) := by
  constructor
  · intro a b hab
    unfold thenCmp
    rw [g.swap a b hab]
    cases h : c a b with
    | eq => simp only [Ordering.swap]; exact g'.swap a b ⟨hab, h⟩
    | lt => rfl
    | gt => rfl
  · intro a b e hab hbe h1 h2
    have k1 : c a b ≠ .gt := by
      intro h; unfold thenCmp at h1; rw [h] at h1; exact h1 rfl
    have k2 : c b e ≠ .gt := by
      intro h; unfold thenCmp at h2; rw [h] at h2; exact h2 rfl
    have k3 := g.trans a b e hab hbe k1 k2
    cases h : c a e with
    | gt => exact absurd h k3
    | lt => unfold thenCmp; rw [h]; simp
    | eq =>
      obtain ⟨t1, t2⟩ := g.tie hs ht hab hbe k1 k2 h
      unfold thenCmp at h1 h2 ⊢
      rw [t1] at h1
      rw [t2] at h2
      rw [h]
      exact g'.trans a b e ⟨hab, t1⟩ ⟨hbe, t2⟩ h1 h2

theorem Good.mono {α : Type} {R R' : α → α → Prop} {c : α → α → Ordering} (g : Good R c) (h : ∀ a b, R' a b → R a b) :
    Good R' c := ⟨fun a b k => g.swap a b (h a b k), fun a b d k l => g.trans a b d (h _ _ k) (h _ _ l)⟩

theorem Good.of_eq {α : Type} {R : α → α → Prop} {c c' : α → α → Ordering} (g : Good R c)
    (hs : ∀ a b, R a b → R b a) (ht : ∀ a b d, R a b → R b d → R a d) (h : ∀ a b, R a b → c' a b = c a b) : Good R c' := by
  constructor
  · intro a b k; rw [h _ _ k, h _ _ (hs _ _ k)]; exact g.swap a b k
  · intro a b d k l h1 h2
    rw [h _ _ k] at h1
    rw [h _ _ l] at h2
    rw [h _ _ (ht _ _ _ k l)]
    exact g.trans a b d k l h1 h2

theorem good_compare {κ : Type} [LinearOrder κ] : Good (fun _ _ => True) (fun a b : κ => compare a b) := by
  constructor
  · intro a b _
    rcases lt_trichotomy a b with h | h | h
    · rw [compare_gt_iff_gt.2 h, compare_lt_iff_lt.2 h]; rfl
    · subst h; rw [compare_eq_iff_eq.2 rfl]; rfl
    · rw [compare_lt_iff_lt.2 h, compare_gt_iff_gt.2 h]; rfl
  · intro a b d _ _ h1 h2 h3
    have h3 := compare_gt_iff_gt.1 h3
    have h1 : ¬ a > b := fun h => h1 (compare_gt_iff_gt.2 h)
    have h2 : ¬ b > d := fun h => h2 (compare_gt_iff_gt.2 h)
    exact absurd (lt_of_lt_of_le h3 (not_lt.1 h1)) h2

theorem Good.comap {α β : Type} {c : β → β → Ordering} (g : Good (fun _ _ => True) c) (f : α → β) (R : α → α → Prop) :
    Good R (fun a b => c (f a) (f b)) :=
  ⟨fun a b _ => g.swap _ _ trivial, fun a b d _ _ => g.trans _ _ _ trivial trivial⟩

theorem Good.flip {α : Type} {c : α → α → Ordering} (g : Good (fun _ _ => True) c) :
    Good (fun _ _ => True) (fun a b => c b a) :=
  ⟨fun a b _ => g.swap _ _ trivial, fun a b d _ _ h1 h2 => g.trans d b a trivial trivial h2 h1⟩

theorem good_zip {α : Type} {c : α → α → Ordering} (g : Good (fun _ _ => True) c) :
    Good (fun a b : List α => a.length = b.length) (cmpZip c) := by
  constructor
  · intro a
    induction a with
    | nil => intro b h; cases b <;> simp [cmpZip] at h ⊢
    | cons x a ih =>
      intro b h
      cases b with
      | nil => simp at h
      | cons y b =>
        simp only [List.length_cons, Nat.add_right_cancel_iff] at h
        simp only [cmpZip]
        rw [g.swap x y trivial]
        cases c x y with
        | eq => simp only [Ordering.swap]; exact ih b h
        | lt => rfl
        | gt => rfl
  · intro a
    induction a with
    | nil => intro b d h h' _ _; cases b <;> cases d <;> simp [cmpZip] at h h' ⊢
    | cons x a ih =>
      intro b d h h' h1 h2
      cases b with
      | nil => simp at h
      | cons y b =>
        cases d with
        | nil => simp at h'
        | cons z d =>
          simp only [List.length_cons, Nat.add_right_cancel_iff] at h h'
          simp only [cmpZip] at h1 h2 ⊢
          have k1 : c x y ≠ .gt := by intro k; rw [k] at h1; exact h1 rfl
          have k2 : c y z ≠ .gt := by intro k; rw [k] at h2; exact h2 rfl
          have k3 := g.trans x y z trivial trivial k1 k2
          cases hxz : c x z with
          | gt => exact absurd hxz k3
          | lt => simp
          | eq =>
            obtain ⟨t1, t2⟩ := g.tie (fun _ _ _ => trivial) (fun _ _ _ _ _ => trivial) trivial trivial k1 k2 hxz
            rw [t1] at h1
            rw [t2] at h2
            exact ih b d h h' h1 h2

theorem good_cmpPos (ao : List Tag) : Good (fun _ _ => True) (cmpPos ao) := by
  have g := good_compare (κ := ℕ)
  constructor
  · intro a b _
    unfold cmpPos
    cases ao.idxOf? a <;> cases ao.idxOf? b <;> try rfl
    exact g.swap _ _ trivial
  · intro a b d _ _
    unfold cmpPos
    cases ao.idxOf? a <;> cases ao.idxOf? b <;> cases ao.idxOf? d <;> try simp
    exact g.trans _ _ _ trivial trivial

theorem cmpLex_zip {α : Type} (c : α → α → Ordering) : ∀ (a b : List α), a.length = b.length → cmpLex c a b = cmpZip c a b
  | [], [], _ => rfl
  | _ :: _, [], h => by simp at h
  | [], _ :: _, h => by simp at h
  | x :: a, y :: b, h => by
    simp only [List.length_cons, Nat.add_right_cancel_iff] at h
    simp only [cmpLex, cmpZip, cmpLex_zip c a b h]

theorem tag_num_inj {a b : Tag} (h : a.num = b.num) : a = b :=
  Key.tri a b (decide_eq_false (by omega)) (decide_eq_false (by omega))

theorem cmpTag_eq (a b : Tag) (h : cmpTag a b = .eq) : a = b := tag_num_inj (compare_eq_iff_eq.1 h)

theorem good_cmpTag : Good (fun _ _ => True) cmpTag := (good_compare (κ := ℕ)).comap Tag.num _

theorem cmpLex_eq {α : Type} {c : α → α → Ordering} (hc : ∀ x y, c x y = .eq → x = y) : ∀ (a b : List α),
    cmpLex c a b = .eq → a = b
  | [], [], _ => rfl
  | _ :: _, [], h => by simp [cmpLex] at h
  | [], _ :: _, h => by simp [cmpLex] at h
  | x :: a, y :: b, h => by
    simp only [cmpLex] at h
    cases hxy : c x y with
    | eq =>
      rw [hxy] at h
      rw [cmpLex_eq hc a b h, hc x y hxy]
    | lt => rw [hxy] at h; cases h
    | gt => rw [hxy] at h; cases h

theorem cmpVals_zip (c : ℚ → ℚ → Ordering) (a b : Loc) : ∀ ts : List Tag,
    cmpVals c a b ts = cmpZip c (ts.map (coord a)) (ts.map (coord b))
  | [] => rfl
  | t :: ts => by simp only [cmpVals, List.map_cons, cmpZip, cmpVals_zip c a b ts]

theorem cmpZip_congr {α : Type} {c d : α → α → Ordering} : ∀ (a b : List α),
    (∀ (i : Nat) x y, a[i]? = some x → b[i]? = some y → c x y = d x y) → cmpZip c a b = cmpZip d a b
  | [], _, _ => by cases ‹List α› <;> rfl
  | _ :: _, [], _ => rfl
  | x :: a, y :: b, h => by
    simp only [cmpZip]
    rw [h 0 x y rfl rfl, cmpZip_congr a b fun i x y hx hy => h (i + 1) x y hx hy]

theorem cmpZip_eq {α : Type} {c : α → α → Ordering} : ∀ (a b : List α), cmpZip c a b = .eq →
    ∀ (i : Nat) x y, a[i]? = some x → b[i]? = some y → c x y = .eq
  | [], _, _, i, x, y, h, _ => by simp at h
  | _ :: _, [], _, i, x, y, _, h => by simp at h
  | x :: a, y :: b, h, i, u, v, hu, hv => by
    simp only [cmpZip] at h
    cases hc : c x y with
    | eq =>
      rw [hc] at h
      cases i with
      | zero => simp at hu hv; subst hu; subst hv; exact hc
      | succ i => exact cmpZip_eq a b h i u v (by simpa using hu) (by simpa using hv)
    | lt => rw [hc] at h; cases h
    | gt => rw [hc] at h; cases h

theorem cmpSign_eq (x y : ℚ) : cmpSign id x y = compare (signum x) (signum y) := by
  unfold cmpSign signum
  by_cases hx : x < 0 <;> by_cases hy : y < 0 <;> simp [hx, hy, eps] <;> norm_num

theorem signum_eq {x y : ℚ} (h : signum x = signum y) : (x < 0 ↔ y < 0) := by
  unfold signum at h
  by_cases hx : x < 0 <;> by_cases hy : y < 0 <;> simp [hx, hy] at h ⊢ <;> norm_num at h

/-- Equal, or more than `f32::EPSILON` apart. -/
def EpsApart (x y : ℚ) : Prop := x = y ∨ eps < |x - y|

instance (x y : ℚ) : Decidable (EpsApart x y) := by unfold EpsApart; infer_instance

theorem cmpAbs_eq {x y : ℚ} (ha : EpsApart x y) (hs : x < 0 ↔ y < 0) : cmpAbs id x y = compare |x| |y| := by
  unfold cmpAbs
  rcases ha with rfl | ha
  · simp [eps]
  · have e : |(|x| - |y|)| = |x - y| := by
      by_cases hx : x < 0
      · have hy := hs.1 hx
        rw [abs_of_neg hx, abs_of_neg hy, show -x - -y = -(x - y) by ring, abs_neg]
      · have hy : ¬ y < 0 := fun h => hx (hs.2 h)
        rw [abs_of_nonneg (not_lt.1 hx), abs_of_nonneg (not_lt.1 hy)]
    have e' : |id (|x| - |y|)| > eps := by simp only [id]; rw [e]; exact ha
    rw [if_pos e']

/-- The masters compared have pairwise apart coordinates. -/
def Comparable (a b : Loc) : Prop := ∀ t, EpsApart (coord a t) (coord b t)

theorem orderedAxes_length (ao : List Tag) (a : Loc) : (orderedAxes ao a).length = a.length := by
  unfold orderedAxes
  rw [List.length_append]
  have : ∀ l : List Tag, (l.filter fun t => ao.contains t).length + (l.filter fun t => !ao.contains t).length = l.length := by
    intro l
    induction l with
    | nil => rfl
    | cons x l ih =>
      simp only [List.filter_cons]
      by_cases hx : x ∈ ao <;> simp [hx] at ih ⊢ <;> omega
  rw [this, List.length_map]

theorem cmpLoc_then (ao : List Tag) (ps : List (Tag × Option ℤ)) :
    cmpLoc id ao ps = thenCmp (fun a b => compare a.length b.length)
      (thenCmp (fun a b => compare (onPointCount ps b) (onPointCount ps a))
      (thenCmp (fun a b => cmpZip (cmpPos ao) (orderedAxes ao a) (orderedAxes ao b))
      (thenCmp (fun a b => cmpLex cmpTag (orderedAxes ao a) (orderedAxes ao b))
      (thenCmp (fun a b => cmpVals (cmpSign id) a b (orderedAxes ao a))
        (fun a b => cmpVals (cmpAbs id) a b (orderedAxes ao a)))))) := by
  funext a b
  unfold cmpLoc thenCmp
  rfl

/-- Within any class of pairwise comparable masters the comparison is a total preorder. -/
theorem good_cmpLoc (ao : List Tag) (ps : List (Tag × Option ℤ)) (S : Loc → Prop)
    (hS : ∀ a b, S a → S b → Comparable a b) : Good (fun a b => S a ∧ S b) (cmpLoc id ao ps) := by
  rw [cmpLoc_then]
  refine Good.lex (fun a b h => ⟨h.2, h.1⟩) (fun a b d h h' => ⟨h.1, h'.2⟩) (good_compare.comap List.length _) ?_
  have e1 : ∀ a b : Loc, compare a.length b.length = .eq ↔ a.length = b.length := fun _ _ => compare_eq_iff_eq
  refine Good.lex ?_ ?_ ((good_compare (κ := ℕ)).flip.comap (onPointCount ps) _) ?_
  · rintro a b ⟨⟨h1, h2⟩, h3⟩; exact ⟨⟨h2, h1⟩, (e1 _ _).2 ((e1 _ _).1 h3).symm⟩
  · rintro a b d ⟨⟨h1, h2⟩, h3⟩ ⟨⟨h4, h5⟩, h6⟩
    exact ⟨⟨h1, h5⟩, (e1 _ _).2 (((e1 _ _).1 h3).trans ((e1 _ _).1 h6))⟩
  -- from here on only `S`, equal lengths and the last ties matter
  have len : ∀ a b : Loc, a.length = b.length → (orderedAxes ao a).length = (orderedAxes ao b).length := by
    intro a b h; rw [orderedAxes_length, orderedAxes_length]; exact h
  have gz : Good (fun a b : Loc => a.length = b.length) (fun a b => cmpZip (cmpPos ao) (orderedAxes ao a) (orderedAxes ao b)) :=
    ⟨fun a b h => (good_zip (good_cmpPos ao)).swap _ _ (len _ _ h),
     fun a b d h h' => (good_zip (good_cmpPos ao)).trans _ _ _ (len _ _ h) (len _ _ h')⟩
  have gt : Good (fun a b : Loc => a.length = b.length) (fun a b => cmpLex cmpTag (orderedAxes ao a) (orderedAxes ao b)) := by
    have g := good_zip good_cmpTag
    refine Good.of_eq (c := fun a b => cmpZip cmpTag (orderedAxes ao a) (orderedAxes ao b))
      ⟨fun a b h => g.swap _ _ (len _ _ h), fun a b d h h' => g.trans _ _ _ (len _ _ h) (len _ _ h')⟩
      (fun a b h => h.symm) (fun a b d h h' => h.trans h') (fun a b h => cmpLex_zip _ _ _ (len _ _ h))
  suffices H : Good (fun a b => (S a ∧ S b) ∧ a.length = b.length)
      (thenCmp (fun a b => cmpZip (cmpPos ao) (orderedAxes ao a) (orderedAxes ao b))
      (thenCmp (fun a b => cmpLex cmpTag (orderedAxes ao a) (orderedAxes ao b))
      (thenCmp (fun a b => cmpVals (cmpSign id) a b (orderedAxes ao a))
        (fun a b => cmpVals (cmpAbs id) a b (orderedAxes ao a))))) from
    H.mono fun a b h => ⟨h.1.1, (e1 _ _).1 h.1.2⟩
  refine Good.lex (fun a b h => ⟨⟨h.1.2, h.1.1⟩, h.2.symm⟩) (fun a b d h h' => ⟨⟨h.1.1, h'.1.2⟩, h.2.trans h'.2⟩)
    (gz.mono fun a b h => h.2) ?_
  suffices H : Good (fun a b => (S a ∧ S b) ∧ a.length = b.length)
      (thenCmp (fun a b => cmpLex cmpTag (orderedAxes ao a) (orderedAxes ao b))
      (thenCmp (fun a b => cmpVals (cmpSign id) a b (orderedAxes ao a))
        (fun a b => cmpVals (cmpAbs id) a b (orderedAxes ao a)))) from H.mono fun a b h => h.1
  refine Good.lex (fun a b h => ⟨⟨h.1.2, h.1.1⟩, h.2.symm⟩) (fun a b d h h' => ⟨⟨h.1.1, h'.1.2⟩, h.2.trans h'.2⟩)
    (gt.mono fun a b h => h.2) ?_
  suffices H : Good (fun a b => (S a ∧ S b) ∧ orderedAxes ao a = orderedAxes ao b)
      (thenCmp (fun a b => cmpVals (cmpSign id) a b (orderedAxes ao a))
        (fun a b => cmpVals (cmpAbs id) a b (orderedAxes ao a))) from
    H.mono fun a b h => ⟨h.1.1, cmpLex_eq cmpTag_eq _ _ h.2⟩
  have gs : Good (fun a b => (S a ∧ S b) ∧ orderedAxes ao a = orderedAxes ao b)
      (fun a b => cmpVals (cmpSign id) a b (orderedAxes ao a)) := by
    have g := good_zip ((good_compare (κ := ℚ)).comap signum fun _ _ => True)
    refine Good.of_eq (c := fun a b => cmpZip (fun x y : ℚ => compare (signum x) (signum y))
        ((orderedAxes ao a).map (coord a)) ((orderedAxes ao b).map (coord b)))
      ⟨fun a b h => g.swap _ _ (by rw [h.2]; simp), fun a b d h h' => g.trans _ _ _ (by rw [h.2]; simp) (by rw [h'.2]; simp)⟩
      (fun a b h => ⟨⟨h.1.2, h.1.1⟩, h.2.symm⟩) (fun a b d h h' => ⟨⟨h.1.1, h'.1.2⟩, h.2.trans h'.2⟩) ?_
    intro a b h
    rw [cmpVals_zip, ← h.2]
    exact cmpZip_congr _ _ fun i x y _ _ => cmpSign_eq x y
  refine Good.lex (fun a b h => ⟨⟨h.1.2, h.1.1⟩, h.2.symm⟩) (fun a b d h h' => ⟨⟨h.1.1, h'.1.2⟩, h.2.trans h'.2⟩) gs ?_
  have g := good_zip ((good_compare (κ := ℚ)).comap abs fun _ _ => True)
  have zs : ∀ a b, ((S a ∧ S b) ∧ orderedAxes ao a = orderedAxes ao b) ∧ cmpVals (cmpSign id) a b (orderedAxes ao a) = .eq →
      ((S b ∧ S a) ∧ orderedAxes ao b = orderedAxes ao a) ∧ cmpVals (cmpSign id) b a (orderedAxes ao b) = .eq := by
    intro a b h
    refine ⟨⟨⟨h.1.1.2, h.1.1.1⟩, h.1.2.symm⟩, ?_⟩
    have := gs.swap a b h.1
    rw [h.2] at this
    exact this
  refine Good.of_eq (c := fun a b => cmpZip (fun x y : ℚ => compare |x| |y|)
      ((orderedAxes ao a).map (coord a)) ((orderedAxes ao b).map (coord b)))
    ⟨fun a b h => g.swap _ _ (by rw [h.1.2]; simp),
     fun a b d h h' => g.trans _ _ _ (by rw [h.1.2]; simp) (by rw [h'.1.2]; simp)⟩ zs ?_ ?_
  · intro a b d h h'
    refine ⟨⟨⟨h.1.1.1, h'.1.1.2⟩, h.1.2.trans h'.1.2⟩, ?_⟩
    have h1 := gs.trans a b d h.1 h'.1 (by rw [h.2]; decide) (by rw [h'.2]; decide)
    have h2 := gs.trans d b a (zs _ _ h').1 (zs _ _ h).1 (by rw [(zs _ _ h').2]; decide)
      (by rw [(zs _ _ h).2]; decide)
    have h3 := gs.swap a d ⟨⟨h.1.1.1, h'.1.1.2⟩, h.1.2.trans h'.1.2⟩
    rw [h3] at h2
    cases hc : cmpVals (cmpSign id) a d (orderedAxes ao a) with
    | eq => rfl
    | gt => exact absurd hc h1
    | lt => rw [hc] at h2; exact absurd rfl h2
  · intro a b h
    rw [cmpVals_zip, ← h.1.2]
    have hz := h.2
    rw [cmpVals_zip] at hz
    refine cmpZip_congr _ _ fun i x y hx hy => ?_
    have hsg := cmpZip_eq _ _ hz i x y hx hy
    rw [cmpSign_eq] at hsg
    have hsg := signum_eq (compare_eq_iff_eq.1 hsg)
    rw [List.getElem?_map, Option.map_eq_some_iff] at hx hy
    obtain ⟨t, ht, rfl⟩ := hx
    obtain ⟨t', ht', rfl⟩ := hy
    rw [ht] at ht'
    cases ht'
    exact cmpAbs_eq (hS a b h.1.1.1 h.1.1.2 t) hsg

/-! ### Sorting -/

theorem insertBy_perm {α : Type} (c : α → α → Ordering) (x : α) : ∀ l : List α, (insertBy c x l).Perm (x :: l)
  | [] => List.Perm.refl _
  | y :: l => by
    unfold insertBy
    split
    · exact ((insertBy_perm c x l).cons y).trans (List.Perm.swap x y l)
    · exact List.Perm.refl _

theorem sortBy_perm {α : Type} (c : α → α → Ordering) : ∀ l : List α, (sortBy c l).Perm l
  | [] => List.Perm.refl _
  | x :: l => (insertBy_perm c x _).trans ((sortBy_perm c l).cons x)

theorem insertBy_sorted {α : Type} {c : α → α → Ordering} {S : α → Prop} (g : Good (fun a b => S a ∧ S b) c) (x : α) (hx : S x) :
    ∀ l : List α, (∀ y ∈ l, S y) → l.Pairwise (fun a b => c a b ≠ .gt) → (insertBy c x l).Pairwise (fun a b => c a b ≠ .gt)
  | [], _, _ => by simp [insertBy]
  | y :: l, hl, hp => by
    have hy := hl y List.mem_cons_self
    have hl' : ∀ z ∈ l, S z := fun z hz => hl z (List.mem_cons_of_mem _ hz)
    obtain ⟨hp1, hp2⟩ := List.pairwise_cons.1 hp
    unfold insertBy
    split
    · rename_i hc
      refine List.pairwise_cons.2 ⟨?_, insertBy_sorted g x hx l hl' hp2⟩
      intro z hz
      rcases List.mem_cons.1 ((insertBy_perm c x l).mem_iff.1 hz) with rfl | hz
      · rw [g.swap z y ⟨hx, hy⟩, hc]; decide
      · exact hp1 z hz
    · rename_i hc
      refine List.pairwise_cons.2 ⟨?_, hp⟩
      intro z hz
      rcases List.mem_cons.1 hz with rfl | hz
      · exact hc
      · exact g.trans x y z ⟨hx, hy⟩ ⟨hy, hl' z hz⟩ hc (hp1 z hz)

theorem sortBy_sorted {α : Type} {c : α → α → Ordering} {S : α → Prop} (g : Good (fun a b => S a ∧ S b) c) :
    ∀ l : List α, (∀ y ∈ l, S y) → (sortBy c l).Pairwise (fun a b => c a b ≠ .gt)
  | [], _ => List.Pairwise.nil
  | x :: l, hl => by
    have hl' : ∀ z ∈ l, S z := fun z hz => hl z (List.mem_cons_of_mem _ hz)
    exact insertBy_sorted g x (hl x List.mem_cons_self) _ (fun y hy => hl' y ((sortBy_perm c l).mem_iff.1 hy))
      (sortBy_sorted g l hl')

end FT.Props
