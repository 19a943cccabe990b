import Verif.Model.Outline
import Verif.Props.GlyphSimple

/-!
C30: implied on-curve points of contours.
-/

namespace FT.Props
open FT FT.Glyf

/-! ### Specification -/

/-- `m` is the on-curve point halfway between `p` and `q`, halves going towards zero. -/
def Halfway (p q m : Point) : Prop :=
  m.onCurve = true ∧ m.x.toInt = (p.x.toInt + q.x.toInt).tdiv 2 ∧ m.y.toInt = (p.y.toInt + q.y.toInt).tdiv 2

/-- The sums of the coordinates of the two points fit 16 bits. -/
def SumsFit (p q : Point) : Prop :=
  (-32768 ≤ p.x.toInt + q.x.toInt ∧ p.x.toInt + q.x.toInt ≤ 32767) ∧ (-32768 ≤ p.y.toInt + q.y.toInt ∧ p.y.toInt + q.y.toInt ≤ 32767)

/-- The second list is the first one with an on-curve point halfway between each two neighbouring off-curve points. -/
inductive MadeExplicit : List Point → List Point → Prop
  | single (p : Point) : MadeExplicit [p] [p]
  | next (p q : Point) (r r' : List Point) : p.onCurve = true ∨ q.onCurve = true → MadeExplicit (q :: r) r' →
      MadeExplicit (p :: q :: r) (p :: r')
  | halfway (p q m : Point) (r r' : List Point) : p.onCurve = false → q.onCurve = false → Halfway p q m →
      MadeExplicit (q :: r) r' → MadeExplicit (p :: q :: r) (p :: m :: r')

/-- The point at position `k` of the closed contour is an on-curve point halfway between two off-curve neighbours. -/
def Implied (c : List Point) (k : Nat) : Prop :=
  ∃ p a b : Point, c[k]? = some p ∧ c[(k + c.length - 1) % c.length]? = some a ∧ c[(k + 1) % c.length]? = some b ∧
    a.onCurve = false ∧ b.onCurve = false ∧ Halfway a b p

/-! ### Making points explicit -/

theorem halfI16_toInt (a : Int16) : (halfI16 a).toInt = a.toInt.tdiv 2 := by
  have h1 := a.le_toInt
  have h2 := a.toInt_lt
  have hb : -32768 ≤ a.toInt.tdiv 2 ∧ a.toInt.tdiv 2 ≤ 32767 := by
    by_cases h : 0 ≤ a.toInt
    · rw [Int.tdiv_eq_ediv_of_nonneg h]; omega
    · have e : a.toInt.tdiv 2 = -((-a.toInt).tdiv 2) := by rw [Int.neg_tdiv]; omega
      rw [e, Int.tdiv_eq_ediv_of_nonneg (by omega)]; omega
  unfold halfI16
  exact int16_ofInt hb.1 hb.2

theorem addI16_inv {a b s : Int16} (h : addI16 a b = .ok s) : s.toInt = a.toInt + b.toInt := by
  unfold addI16 at h
  simp only at h
  by_cases hr : -32768 ≤ a.toInt + b.toInt ∧ a.toInt + b.toInt ≤ 32767
  · rw [if_pos hr] at h
    cases h
    exact int16_ofInt hr.1 hr.2
  · rw [if_neg hr] at h
    cases h

theorem addI16_cases (a b : Int16) : (∃ s, addI16 a b = .ok s ∧ s.toInt = a.toInt + b.toInt) ∨ (addI16 a b = .panic ∧
    ¬ (-32768 ≤ a.toInt + b.toInt ∧ a.toInt + b.toInt ≤ 32767)) := by
  by_cases hr : -32768 ≤ a.toInt + b.toInt ∧ a.toInt + b.toInt ≤ 32767
  · left
    refine ⟨Int16.ofInt (a.toInt + b.toInt), ?_, int16_ofInt hr.1 hr.2⟩
    unfold addI16; simp only; rw [if_pos hr]
  · right
    refine ⟨?_, hr⟩
    unfold addI16; simp only; rw [if_neg hr]

theorem midPoint_cases (p q : Point) : (∃ m, midPoint p q = .ok m ∧ Halfway p q m ∧ SumsFit p q) ∨ (midPoint p q = .panic ∧ ¬ SumsFit p q) := by
  unfold midPoint
  rcases addI16_cases p.x q.x with ⟨s, e, h⟩ | ⟨e, h⟩
  · rcases addI16_cases p.y q.y with ⟨t, e', h'⟩ | ⟨e', h'⟩
    · left
      have a1 := s.le_toInt
      have a2 := s.toInt_lt
      have b1 := t.le_toInt
      have b2 := t.toInt_lt
      refine ⟨⟨halfI16 s, halfI16 t, true⟩, by simp only [e, e', Res.ok_bind, Res.pure_eq], ⟨rfl, ?_, ?_⟩, ⟨by omega, by omega⟩, by omega, by omega⟩
      · rw [halfI16_toInt, h]
      · rw [halfI16_toInt, h']
    · right
      exact ⟨by simp only [e, e', Res.ok_bind]; rfl, fun hs => h' hs.2⟩
  · right
    exact ⟨by rw [e]; rfl, fun hs => h hs.1⟩

/-- Making points explicit, from the end of the contour. -/
def explicitRec : List Point → Res (List Point)
  | [] => .ok []
  | [p] => .ok [p]
  | p :: q :: r => do
    let r' ← explicitRec (q :: r)
    if !p.onCurve && !q.onCurve then do
      let m ← midPoint p q
      return p :: m :: r'
    else return p :: r'

theorem explicitRec_head (q : Point) (r l : List Point) (h : explicitRec (q :: r) = .ok l) : ∃ t, l = q :: t := by
  cases r with
  | nil => cases h; exact ⟨[], rfl⟩
  | cons q2 r =>
    unfold explicitRec at h
    obtain ⟨r', _, h⟩ := Res.bind_inv h
    split at h
    · obtain ⟨m, _, h⟩ := Res.bind_inv h
      cases h
      exact ⟨_, rfl⟩
    · cases h
      exact ⟨_, rfl⟩

/-- The loop works through the prefix `pre ++ [q]`, where the part after it is done. -/
theorem insertLoop_eq : ∀ (n : Nat) (pre : List Point) (q : Point) (t : List Point), pre.length = n →
    insertLoop n (pre ++ q :: t) = (explicitRec (pre ++ [q]) >>= fun l => Res.ok (l ++ t))
  | 0, pre, q, t, h => by
    have : pre = [] := List.length_eq_zero_iff.mp h
    subst this
    rfl
  | n + 1, pre, q, t, h => by
    obtain ⟨pre, p, rfl⟩ : ∃ pre' p, pre = pre' ++ [p] := by
      refine ⟨pre.dropLast, pre.getLast (by intro e; rw [e] at h; simp at h), ?_⟩
      exact (List.dropLast_append_getLast _).symm
    have hl : pre.length = n := by simpa using h
    have key : ∀ (pre : List Point) (p q : Point), explicitRec (pre ++ [p] ++ [q]) =
        ((if !p.onCurve && !q.onCurve then (midPoint p q >>= fun m => Res.ok [m, q]) else Res.ok [q]) >>= fun tl =>
          explicitRec (pre ++ [p]) >>= fun l => Res.ok (l ++ tl)) := by
      intro pre
      induction pre with
      | nil =>
        intro p q
        simp only [List.nil_append, List.singleton_append, explicitRec, Res.ok_bind]
        split
        · rcases midPoint_cases p q with ⟨m, e, _⟩ | ⟨e, _⟩
          · simp [e, Res.ok_bind]
          · rw [e]; rfl
        · simp [Res.ok_bind]
      | cons a pre ih =>
        intro p q
        have hcons : ∀ (l : List Point) (x : Point), ∃ y ys, l ++ [x] = y :: ys := by
          intro l x
          cases l with
          | nil => exact ⟨x, [], rfl⟩
          | cons y ys => exact ⟨y, ys ++ [x], rfl⟩
        obtain ⟨y, ys, hy⟩ := hcons pre p
        have e1 : a :: pre ++ [p] ++ [q] = a :: y :: (ys ++ [q]) := by
          rw [List.cons_append, hy]; rfl
        have e2 : a :: pre ++ [p] = a :: y :: ys := by rw [List.cons_append, hy]
        have ihh := ih p q
        rw [hy] at ihh
        rw [e1, e2]
        simp only [explicitRec]
        rw [show y :: (ys ++ [q]) = y :: ys ++ [q] from rfl, ihh]
        generalize (if !p.onCurve && !q.onCurve then (midPoint p q >>= fun m => Res.ok [m, q]) else Res.ok [q]) = T
        generalize explicitRec (y :: ys) = L
        cases T with
        | err => rfl
        | panic => rfl
        | ok tl =>
          cases L with
          | err => rfl
          | panic => rfl
          | ok l =>
            simp only [Res.ok_bind]
            split
            · rcases midPoint_cases a y with ⟨m, e, _⟩ | ⟨e, _⟩
              · simp [e, Res.ok_bind]
              · rw [e]; rfl
            · simp [Res.ok_bind]
    have g1 : (pre ++ [p] ++ q :: t)[n]? = some p := by
      rw [List.append_assoc, List.getElem?_append_right (by omega)]; simp [hl]
    have g2 : (pre ++ [p] ++ q :: t)[n + 1]? = some q := by
      rw [List.getElem?_append_right (by simp [hl])]; simp [hl]
    unfold insertLoop
    rw [g1, g2]
    simp only
    rw [key]
    by_cases hb : (!p.onCurve && !q.onCurve) = true
    · rw [if_pos hb, if_pos hb]
      rcases midPoint_cases p q with ⟨m, e, _⟩ | ⟨e, _⟩
      · rw [e]
        simp only [Res.ok_bind]
        have hlen : (pre ++ [p]).length = n + 1 := by simp [hl]
        have e3 : (pre ++ [p] ++ q :: t).take (n + 1) ++ m :: (pre ++ [p] ++ q :: t).drop (n + 1) = pre ++ p :: (m :: q :: t) := by
          rw [← hlen, List.take_left, List.drop_left]; simp
        rw [e3, insertLoop_eq n pre p (m :: q :: t) hl]
        cases explicitRec (pre ++ [p]) with
        | ok l => simp [Res.ok_bind]
        | err => rfl
        | panic => rfl
      · rw [e]; rfl
    · rw [if_neg hb, if_neg hb]
      have e3 : pre ++ [p] ++ q :: t = pre ++ p :: (q :: t) := by simp
      rw [e3, insertLoop_eq n pre p (q :: t) hl]
      cases explicitRec (pre ++ [p]) with
      | ok l => simp [Res.ok_bind]
      | err => rfl
      | panic => rfl

theorem insertExplicit_eq (p : Point) (c : List Point) : insertExplicit (p :: c) = explicitRec (p :: c) := by
  obtain ⟨pre, q, e⟩ : ∃ pre q, p :: c = pre ++ [q] :=
    ⟨_, _, (List.dropLast_append_getLast (l := p :: c) (by simp)).symm⟩
  unfold insertExplicit
  rw [if_neg (by simp), e]
  rw [insertLoop_eq _ pre q [] (by simp)]
  cases explicitRec (pre ++ [q]) with
  | ok l => simp [Res.ok_bind]
  | err => rfl
  | panic => rfl

theorem explicitRec_ok : ∀ (c : List Point) (p : Point),
    (∀ (i : Nat) (a b : Point), (p :: c)[i]? = some a → (p :: c)[i + 1]? = some b → a.onCurve = false → b.onCurve = false → SumsFit a b) →
    ∃ c', explicitRec (p :: c) = .ok c' ∧ MadeExplicit (p :: c) c'
  | [], p, _ => ⟨[p], rfl, .single p⟩
  | q :: r, p, h => by
    obtain ⟨r', e, hm⟩ := explicitRec_ok r q (fun i a b h1 h2 => h (i + 1) a b (by simpa using h1) (by simpa using h2))
    unfold explicitRec
    rw [e]
    simp only [Res.ok_bind]
    by_cases hb : (!p.onCurve && !q.onCurve) = true
    · rw [if_pos hb]
      simp only [Bool.and_eq_true, Bool.not_eq_true'] at hb
      rcases midPoint_cases p q with ⟨m, em, hh, _⟩ | ⟨_, hf⟩
      · rw [em]
        exact ⟨_, rfl, .halfway p q m r r' hb.1 hb.2 hh hm⟩
      · exact absurd (h 0 p q rfl rfl hb.1 hb.2) hf
    · rw [if_neg hb]
      refine ⟨_, rfl, .next p q r r' ?_ hm⟩
      cases hp : p.onCurve <;> cases hq : q.onCurve <;> simp_all

theorem explicitRec_inv : ∀ (c : List Point) (p : Point) (c' : List Point), explicitRec (p :: c) = .ok c' → MadeExplicit (p :: c) c'
  | [], p, c', h => by cases h; exact .single p
  | q :: r, p, c', h => by
    unfold explicitRec at h
    obtain ⟨r', e, h⟩ := Res.bind_inv h
    have ih := explicitRec_inv r q r' e
    by_cases hb : (!p.onCurve && !q.onCurve) = true
    · rw [if_pos hb] at h
      simp only [Bool.and_eq_true, Bool.not_eq_true'] at hb
      obtain ⟨m, em, h⟩ := Res.bind_inv h
      rcases midPoint_cases p q with ⟨m', em', hh, _⟩ | ⟨ep, _⟩
      · rw [em] at em'
        cases em'
        cases h
        exact .halfway p q m r r' hb.1 hb.2 hh ih
      · rw [ep] at em; cases em
    · rw [if_neg hb] at h
      cases h
      refine .next p q r r' ?_ ih
      cases hp : p.onCurve <;> cases hq : q.onCurve <;> simp_all

/-- **C30** (making explicit). For a contour with at least one point, making on-curve points explicit succeeds exactly if for
neighbouring off-curve points the sums of coordinates fit 16 bits, and then puts a point halfway between each two
neighbouring off-curve points and changes nothing else. (The last and the first point are not taken as neighbours.)
Otherwise it panics. -/
theorem C30_explicit (c : List Point) (hne : c ≠ []) :
    ((∀ (i : Nat) (a b : Point), c[i]? = some a → c[i + 1]? = some b → a.onCurve = false → b.onCurve = false → SumsFit a b) →
      ∃ c', insertExplicit c = .ok c' ∧ MadeExplicit c c') ∧
    (¬ (∀ (i : Nat) (a b : Point), c[i]? = some a → c[i + 1]? = some b → a.onCurve = false → b.onCurve = false → SumsFit a b) →
      insertExplicit c = .panic) := by
  cases c with
  | nil => exact absurd rfl hne
  | cons p c =>
    rw [insertExplicit_eq]
    refine ⟨explicitRec_ok c p, ?_⟩
    clear hne
    induction c generalizing p with
    | nil =>
      intro h
      exfalso
      apply h
      intro i a b h1 h2
      simp at h2
    | cons q r ih =>
      intro h
      unfold explicitRec
      by_cases hq : ∀ (i : Nat) (a b : Point), (q :: r)[i]? = some a → (q :: r)[i + 1]? = some b → a.onCurve = false →
          b.onCurve = false → SumsFit a b
      · obtain ⟨r', e, _⟩ := explicitRec_ok r q hq
        rw [e]
        simp only [Res.ok_bind]
        have hpq : p.onCurve = false ∧ q.onCurve = false ∧ ¬ SumsFit p q := by
          apply Classical.byContradiction
          intro hn
          apply h
          intro i a b h1 h2 ha hb
          cases i with
          | zero =>
            simp only [List.getElem?_cons_zero, Option.some.injEq, Nat.zero_add, List.getElem?_cons_succ] at h1 h2
            subst h1 h2
            apply Classical.byContradiction
            intro hs
            exact hn ⟨ha, hb, hs⟩
          | succ i =>
            exact hq i a b (by simpa using h1) (by simpa using h2) ha hb
        rw [if_pos (by simp [hpq.1, hpq.2.1])]
        rcases midPoint_cases p q with ⟨m, em, _, hf⟩ | ⟨em, _⟩
        · exact absurd hf hpq.2.2
        · rw [em]; rfl
      · rw [ih q hq]
        rfl

example : insertExplicit [⟨0, 0, false⟩, ⟨10, 4, false⟩, ⟨3, 3, true⟩] =
    .ok [⟨0, 0, false⟩, ⟨5, 2, true⟩, ⟨10, 4, false⟩, ⟨3, 3, true⟩] := by decide

example : insertExplicit [⟨20000, 0, false⟩, ⟨20000, 4, false⟩] = .panic := by decide

/-- **C30** (empty contour). Making points of an empty contour explicit panics. -/
theorem C30_empty_panics : insertExplicit [] = .panic := rfl

theorem madeExplicit_head {c c' : List Point} (h : MadeExplicit c c') : ∃ p t t', c = p :: t ∧ c' = p :: t' := by
  cases h with
  | single p => exact ⟨p, [], [], rfl, rfl⟩
  | next p q r r' => exact ⟨p, _, _, rfl, rfl⟩
  | halfway p q m r r' => exact ⟨p, _, _, rfl, rfl⟩

/-- **C30** (nothing is lost, nothing is left). All points are kept in order; all added points are on the curve; afterwards no
two neighbouring points are off the curve. -/
theorem C30_explicit_keeps (c c' : List Point) (h : insertExplicit c = .ok c') :
    c.Sublist c' ∧ c'.filter (fun p => !p.onCurve) = c.filter (fun p => !p.onCurve) ∧
    ∀ (i : Nat) (a b : Point), c'[i]? = some a → c'[i + 1]? = some b → a.onCurve = true ∨ b.onCurve = true := by
  cases c with
  | nil => cases h
  | cons p c =>
    rw [insertExplicit_eq] at h
    have hm := explicitRec_inv c p c' h
    clear h
    generalize p :: c = cc at hm
    induction hm with
    | single p => exact ⟨List.Sublist.refl _, rfl, by intro i a b h1 h2; simp at h2⟩
    | next p q r r' ho hm ih =>
      obtain ⟨h1, h2, h3⟩ := ih
      refine ⟨h1.cons_cons p, by simp only [List.filter_cons (x := p), h2], ?_⟩
      intro i a b ha hb
      cases i with
      | zero =>
        obtain ⟨q', t, t', e1, e2⟩ := madeExplicit_head hm
        cases e1
        subst e2
        simp at ha hb
        subst ha hb
        exact ho
      | succ i => exact h3 i a b (by simpa using ha) (by simpa using hb)
    | halfway p q m r r' hp hq hw hm ih =>
      obtain ⟨h1, h2, h3⟩ := ih
      refine ⟨(h1.cons m).cons_cons p, by simp [List.filter_cons (x := p), List.filter_cons (x := m), hw.1, h2], ?_⟩
      intro i a b ha hb
      match i, ha, hb with
      | 0, ha, hb => simp at ha hb; subst ha hb; exact Or.inr hw.1
      | 1, ha, hb =>
        simp at ha; subst ha; exact Or.inl hw.1
      | i + 2, ha, hb => exact h3 i a b (by simpa using ha) (by simpa using hb)

example : ∃ c', insertExplicit [⟨0, 0, false⟩, ⟨10, 4, false⟩] = .ok c' := ⟨_, rfl⟩

/-- **C30** (closing). The last and the first point can still both be off the curve. -/
theorem C30_closing_pair_left : ∃ c c' : List Point, ∃ p q : Point, insertExplicit c = .ok c' ∧ c'.head? = some p ∧
    c'.getLast? = some q ∧ p.onCurve = false ∧ q.onCurve = false :=
  ⟨[⟨0, 0, false⟩, ⟨10, 0, true⟩, ⟨10, 10, false⟩], [⟨0, 0, false⟩, ⟨10, 0, true⟩, ⟨10, 10, false⟩], ⟨0, 0, false⟩, ⟨10, 10, false⟩,
    rfl, rfl, rfl, rfl, rfl⟩

/-! ### Removing implied points -/

/-- What the removal test answers. -/
theorem staysTest_off (a p b : Point) (h : p.onCurve = false ∨ a.onCurve = true ∨ b.onCurve = true) :
    staysTest a p b = .ok true := by
  unfold staysTest
  rw [if_pos (by rcases h with h | h | h <;> simp [h])]

theorem staysTest_fits (a p b : Point) (h : SumsFit a b) (hp : p.onCurve = true) (ha : a.onCurve = false) (hb : b.onCurve = false) :
    (Halfway a b p ∧ staysTest a p b = .ok false) ∨ (¬ Halfway a b p ∧ staysTest a p b = .ok true) := by
  unfold staysTest
  rw [if_neg (by simp [hp, ha, hb])]
  rcases addI16_cases a.x b.x with ⟨s, e, hs⟩ | ⟨_, hs⟩
  · rcases addI16_cases a.y b.y with ⟨t, e', ht⟩ | ⟨_, ht⟩
    · simp only [e, e', Res.ok_bind, Res.pure_eq]
      have ex : p.x = halfI16 s ↔ p.x.toInt = (a.x.toInt + b.x.toInt).tdiv 2 := by
        rw [← Int16.toInt_inj, halfI16_toInt, hs]
      have ey : p.y = halfI16 t ↔ p.y.toInt = (a.y.toInt + b.y.toInt).tdiv 2 := by
        rw [← Int16.toInt_inj, halfI16_toInt, ht]
      unfold Halfway
      rw [← ex, ← ey]
      by_cases h1 : p.x = halfI16 s
      · by_cases h2 : p.y = halfI16 t
        · left; simp [h1, h2, hp]
        · right; simp [h1, h2]
      · right; simp [h1]
    · exact absurd h.2 ht
  · exact absurd h.1 hs

theorem staysTest_cases (a p b : Point) : staysTest a p b = .ok true ∨ staysTest a p b = .panic ∨
    (staysTest a p b = .ok false ∧ p.onCurve = true ∧ a.onCurve = false ∧ b.onCurve = false) := by
  by_cases h : p.onCurve = false ∨ a.onCurve = true ∨ b.onCurve = true
  · exact Or.inl (staysTest_off a p b h)
  · have hp : p.onCurve = true := by cases hp : p.onCurve <;> simp_all
    have ha : a.onCurve = false := by cases ha : a.onCurve <;> simp_all
    have hb : b.onCurve = false := by cases hb : b.onCurve <;> simp_all
    by_cases hf : SumsFit a b
    · rcases staysTest_fits a p b hf hp ha hb with ⟨_, e⟩ | ⟨_, e⟩
      · exact Or.inr (Or.inr ⟨e, hp, ha, hb⟩)
      · exact Or.inl e
    · unfold staysTest
      rw [if_neg (by simp [hp, ha, hb])]
      rcases addI16_cases a.x b.x with ⟨s, e, hs⟩ | ⟨e, hs⟩
      · rcases addI16_cases a.y b.y with ⟨t, e', ht⟩ | ⟨e', ht⟩
        · have := s.le_toInt
          have := s.toInt_lt
          have := t.le_toInt
          have := t.toInt_lt
          exact absurd ⟨⟨by omega, by omega⟩, by omega, by omega⟩ hf
        · simp only [e, e', Res.ok_bind]
          split
          · exact Or.inl rfl
          · exact Or.inr (Or.inl rfl)
      · rw [e]
        exact Or.inr (Or.inl rfl)

/-- Keep the point or not. -/
def keepIf (p : Point) (b : Bool) (l : List Point) : List Point := if b then p :: l else l

/-- Removal with the neighbours of the original contour. -/
def removeRec (prev first : Point) : List Point → Res (List Point)
  | [] => .ok []
  | p :: r => do
    let b ← staysTest prev p (r.head?.getD first)
    let l ← removeRec p first r
    return keepIf p b l

theorem removeRec_cons (prev first p : Point) (r : List Point) : removeRec prev first (p :: r) = (do
    let b ← staysTest prev p (r.head?.getD first)
    let l ← removeRec p first r
    return keepIf p b l) := rfl

theorem removeLoop_eq (first : Point) : ∀ (todo : List Point) (k : Nat) (done : List Point) (prev : Point), todo.length ≤ k →
    (∀ p, todo.head? = some p → p.onCurve = true → (if done = [] then todo.getLast? else done.getLast?) = some prev) →
    (∀ l, todo.getLast? = some l → l.onCurve = true → (done ++ todo).head? = some first) →
    removeLoop k done.length (done ++ todo) = (removeRec prev first todo >>= fun l => Res.ok (done ++ l))
  | [], k, done, prev, _, _, _ => by
    simp only [removeRec, List.append_nil, Res.ok_bind]
    cases k with
    | zero => rfl
    | succ k => unfold removeLoop; rw [if_pos (Nat.le_refl _)]
  | p :: r, k, done, prev, hk, h1, h2 => by
    cases k with
    | zero => simp at hk
    | succ k =>
      have hr : r.length ≤ k := by simpa using hk
      have hlen : (done ++ p :: r).length = done.length + r.length + 1 := by simp; omega
      have g0 : (done ++ p :: r)[done.length]? = some p := by simp
      obtain ⟨nx, hnx, hnx'⟩ : ∃ nx, (done ++ p :: r)[(done.length + 1) % (done ++ p :: r).length]? = some nx ∧
          (p.onCurve = true → nx = r.head?.getD first) := by
        cases r with
        | nil =>
          have e : (done.length + 1) % (done ++ [p]).length = 0 := by simp
          rw [e]
          obtain ⟨x, hx⟩ : ∃ x, (done ++ [p])[0]? = some x := by
            cases done with
            | nil => exact ⟨_, rfl⟩
            | cons x d => exact ⟨x, rfl⟩
          refine ⟨x, hx, ?_⟩
          intro hp
          have := h2 p rfl hp
          rw [List.head?_eq_getElem?, hx] at this
          cases this
          rfl
        | cons q r =>
          refine ⟨q, ?_, fun _ => rfl⟩
          rw [Nat.mod_eq_of_lt (by simp), List.getElem?_append_right (by omega)]
          simp
      obtain ⟨pv, hpv, hpv'⟩ : ∃ pv, (done ++ p :: r)[if done.length = 0 then (done ++ p :: r).length - 1 else done.length - 1]? = some pv ∧
          (p.onCurve = true → pv = prev) := by
        cases hd : done with
        | nil =>
          rw [hd] at h1
          simp only [if_true, List.head?_cons, Option.some.injEq] at h1
          simp only [List.length_nil, if_true, List.nil_append]
          rw [← List.getLast?_eq_getElem?]
          have hne : (p :: r).getLast? = some ((p :: r).getLast (by simp)) := List.getLast?_eq_getLast_of_ne_nil _
          refine ⟨_, hne, ?_⟩
          intro hp
          have := h1 p rfl hp
          rw [hne] at this
          exact Option.some.inj this
        | cons x d =>
          rw [hd] at h1
          rw [if_neg (by simp)]
          rw [List.getElem?_append_left (by simp), ← List.getLast?_eq_getElem?]
          have hne : (x :: d).getLast? = some ((x :: d).getLast (by simp)) := List.getLast?_eq_getLast_of_ne_nil _
          refine ⟨_, hne, ?_⟩
          intro hp
          have := h1 p rfl hp
          rw [if_neg (by simp), hne] at this
          exact Option.some.inj this
      have htest : staysTest pv p nx = staysTest prev p (r.head?.getD first) := by
        cases hp : p.onCurve with
        | false => rw [staysTest_off _ _ _ (Or.inl hp), staysTest_off _ _ _ (Or.inl hp)]
        | true => rw [hpv' hp, hnx' hp]
      unfold removeLoop removeRec
      rw [if_neg (by rw [hlen]; omega), g0, hnx, hpv]
      simp only [htest]
      rcases staysTest_cases prev p (r.head?.getD first) with e | e | ⟨e, hpo, hpr, hnxo⟩
      · rw [e]
        simp only [Res.ok_bind, keepIf, if_true]
        have ih := removeLoop_eq first r k (done ++ [p]) p hr (by intro q _ _; simp) (by
          intro l hl ho
          have := h2 l (by
            cases r with
            | nil => simp at hl
            | cons q r => rw [List.getLast?_cons_cons]; exact hl) ho
          rw [List.append_assoc]
          exact this)
        rw [List.length_append, List.append_assoc] at ih
        simp only [List.length_singleton, List.singleton_append] at ih
        rw [ih]
        cases removeRec p first r with
        | ok l => simp [Res.ok_bind]
        | err => rfl
        | panic => rfl
      · rw [e]; rfl
      · rw [e]
        simp only [Res.ok_bind, keepIf, Bool.false_eq_true, if_false]
        have ee : (done ++ p :: r).eraseIdx done.length = done ++ r := by
          rw [List.eraseIdx_append_of_length_le (Nat.le_refl _)]
          simp
        rw [ee]
        have ih := removeLoop_eq first r k done p hr (by
          intro q hq hqo
          exfalso
          rw [hq] at hnxo
          simp only [Option.getD_some] at hnxo
          rw [hqo] at hnxo
          cases hnxo) (by
          intro l hl ho
          have hl' : (p :: r).getLast? = some l := by
            cases r with
            | nil => simp at hl
            | cons q r => rw [List.getLast?_cons_cons]; exact hl
          cases hd : done with
          | nil =>
            exfalso
            have := h1 p rfl hpo
            rw [if_pos hd, hl'] at this
            cases this
            rw [ho] at hpr
            cases hpr
          | cons x d =>
            have := h2 l hl' ho
            rw [hd] at this
            exact this)
        rw [ih]
        cases removeRec p first r with
        | ok l => simp [Res.ok_bind]
        | err => rfl
        | panic => rfl

theorem removeImplied_eq (p : Point) (c : List Point) (l : Point) (hl : (p :: c).getLast? = some l) :
    removeImplied (p :: c) = removeRec l p (p :: c) := by
  have := removeLoop_eq p (p :: c) (p :: c).length [] l (Nat.le_refl _) (by intro q _ _; rw [if_pos rfl, hl]) (by intro _ _ _; rfl)
  unfold removeImplied
  rw [show (0 : Nat) = ([] : List Point).length from rfl]
  simp only [List.nil_append] at this
  rw [this]
  cases removeRec l p (p :: c) with
  | ok l => rfl
  | err => rfl
  | panic => rfl

theorem removeRec_prev (a b first q : Point) (r : List Point) (h : q.onCurve = false) :
    removeRec a first (q :: r) = removeRec b first (q :: r) := by
  unfold removeRec
  rw [staysTest_off _ _ _ (Or.inl h), staysTest_off _ _ _ (Or.inl h)]

theorem removeRec_explicit (first : Point) : ∀ (c : List Point) (p : Point) (c' : List Point), explicitRec (p :: c) = .ok c' →
    c'.getLast? = (p :: c).getLast? ∧ ∀ prev, removeRec prev first c' = removeRec prev first (p :: c)
  | [], p, c', h => by cases h; exact ⟨rfl, fun _ => rfl⟩
  | q :: r, p, c', h => by
    unfold explicitRec at h
    obtain ⟨r', e, h⟩ := Res.bind_inv h
    obtain ⟨hl, ih⟩ := removeRec_explicit first r q r' e
    obtain ⟨t, rfl⟩ := explicitRec_head q r r' e
    by_cases hb : (!p.onCurve && !q.onCurve) = true
    · rw [if_pos hb] at h
      simp only [Bool.and_eq_true, Bool.not_eq_true'] at hb
      obtain ⟨m, em, h⟩ := Res.bind_inv h
      cases h
      rcases midPoint_cases p q with ⟨m', em', hh, hs⟩ | ⟨ep, _⟩
      · rw [em] at em'
        cases em'
        refine ⟨by rw [List.getLast?_cons_cons, List.getLast?_cons_cons, hl, List.getLast?_cons_cons], ?_⟩
        intro prev
        rcases staysTest_fits p m q hs hh.1 hb.1 hb.2 with ⟨_, et⟩ | ⟨hn, _⟩
        · rw [removeRec_cons prev first p (m :: q :: t), removeRec_cons prev first p (q :: r)]
          rw [staysTest_off _ _ _ (Or.inl hb.1), staysTest_off _ _ _ (Or.inl hb.1)]
          simp only [Res.ok_bind]
          have : removeRec p first (m :: q :: t) = removeRec p first (q :: r) := by
            rw [removeRec_cons p first m (q :: t)]
            simp only [List.head?_cons, Option.getD_some, et, Res.ok_bind]
            rw [removeRec_prev m p first q t hb.2, ih p]
            cases removeRec p first (q :: r) with
            | ok l => rfl
            | err => rfl
            | panic => rfl
          rw [this]
        · exact absurd hh hn
      · rw [ep] at em; cases em
    · rw [if_neg hb] at h
      cases h
      refine ⟨by rw [List.getLast?_cons_cons, List.getLast?_cons_cons, hl], ?_⟩
      intro prev
      rw [removeRec_cons prev first p (q :: t), removeRec_cons prev first p (q :: r), ih p]
      rfl

/-- **C30** (no information). Removing implied points after making points explicit has the same outcome as removing implied
points right away. -/
theorem C30_remove_after_explicit (c c' : List Point) (h : insertExplicit c = .ok c') : removeImplied c' = removeImplied c := by
  cases c with
  | nil => cases h
  | cons p c =>
    rw [insertExplicit_eq] at h
    obtain ⟨t, rfl⟩ := explicitRec_head p c c' h
    obtain ⟨hl, hr⟩ := removeRec_explicit p c p (p :: t) h
    obtain ⟨l, hlast⟩ : ∃ l, (p :: c).getLast? = some l := ⟨_, List.getLast?_eq_getLast_of_ne_nil (by simp)⟩
    rw [removeImplied_eq p c l hlast, removeImplied_eq p t l (by rw [hl, hlast]), hr l]

example : insertExplicit [⟨0, 0, false⟩, ⟨10, 4, false⟩, ⟨5, 4, true⟩] =
    .ok [⟨0, 0, false⟩, ⟨5, 2, true⟩, ⟨10, 4, false⟩, ⟨5, 4, true⟩] := by decide

/-- IndexAscending lists of numbers. -/
def IndexAscending (l : List Nat) : Prop := l.Pairwise (· < ·)

theorem removeRec_spec (c : List Point) (first : Point) (hf : c.head? = some first)
    (hfit : ∀ (k : Nat) (a p b : Point), c[k]? = some p → c[(k + c.length - 1) % c.length]? = some a →
      c[(k + 1) % c.length]? = some b → p.onCurve = true → a.onCurve = false → b.onCurve = false → SumsFit a b) :
    ∀ (todo : List Point) (k : Nat) (prev : Point), c.drop k = todo → k ≤ c.length →
      c[(k + c.length - 1) % c.length]? = some prev →
      ∃ ks : List Nat, removeRec prev first todo = .ok (ks.filterMap (fun k => c[k]?)) ∧ IndexAscending ks ∧
        ∀ j, j ∈ ks ↔ k ≤ j ∧ j < c.length ∧ ¬ Implied c j
  | [], k, prev, hd, hk, _ => by
    refine ⟨[], rfl, List.Pairwise.nil, ?_⟩
    have : c.length ≤ k := List.drop_eq_nil_iff.mp hd
    intro j
    simp only [List.not_mem_nil, false_iff]
    omega
  | p :: r, k, prev, hd, hk, hp => by
    have hk' : k < c.length := by
      apply Decidable.byContradiction
      intro hn
      rw [List.drop_eq_nil_of_le (by omega)] at hd
      cases hd
    have gk : c[k]? = some p := by
      have := congrArg List.head? hd
      rwa [List.head?_drop, List.head?_cons] at this
    have hd' : c.drop (k + 1) = r := by
      have := congrArg (List.drop 1) hd
      rwa [List.drop_drop, List.drop_one, List.tail_cons] at this
    have hnx : c[(k + 1) % c.length]? = some (r.head?.getD first) := by
      cases r with
      | nil =>
        have : c.length ≤ k + 1 := List.drop_eq_nil_iff.mp hd'
        have e : (k + 1) % c.length = 0 := by
          rw [show k + 1 = c.length by omega, Nat.mod_self]
        rw [e, ← List.head?_eq_getElem?, hf]
        rfl
      | cons q r =>
        have : k + 1 < c.length := by
          apply Decidable.byContradiction
          intro hn
          rw [List.drop_eq_nil_of_le (by omega)] at hd'
          cases hd'
        rw [Nat.mod_eq_of_lt this]
        have := congrArg List.head? hd'
        rwa [List.head?_drop] at this
    have hpk : c[(k + 1 + c.length - 1) % c.length]? = some p := by
      rw [show k + 1 + c.length - 1 = k + c.length by omega, Nat.add_mod_right, Nat.mod_eq_of_lt hk']
      exact gk
    obtain ⟨ks, e, ha, hm⟩ := removeRec_spec c first hf hfit r (k + 1) p hd' hk' hpk
    have test : (Implied c k ∧ staysTest prev p (r.head?.getD first) = .ok false) ∨
        (¬ Implied c k ∧ staysTest prev p (r.head?.getD first) = .ok true) := by
      generalize r.head?.getD first = b at hnx
      have himp : Implied c k ↔ prev.onCurve = false ∧ b.onCurve = false ∧ Halfway prev b p := by
        constructor
        · rintro ⟨p', a', b', e1, e2, e3, rest⟩
          rw [gk] at e1; rw [hp] at e2; rw [hnx] at e3
          cases e1; cases e2; cases e3
          exact rest
        · intro h
          exact ⟨p, prev, b, gk, hp, hnx, h⟩
      rw [himp]
      by_cases ho : p.onCurve = true
      · by_cases hpo : prev.onCurve = false
        · by_cases hbo : b.onCurve = false
          · rcases staysTest_fits prev p b (hfit k prev p b gk hp hnx ho hpo hbo) ho hpo hbo with ⟨h1, h2⟩ | ⟨h1, h2⟩
            · exact Or.inl ⟨⟨hpo, hbo, h1⟩, h2⟩
            · exact Or.inr ⟨fun h => h1 h.2.2, h2⟩
          · refine Or.inr ⟨fun h => hbo h.2.1, staysTest_off _ _ _ (Or.inr (Or.inr ?_))⟩
            cases hh : b.onCurve <;> simp_all
        · refine Or.inr ⟨fun h => hpo h.1, staysTest_off _ _ _ (Or.inr (Or.inl ?_))⟩
          cases hh : prev.onCurve <;> simp_all
      · refine Or.inr ⟨fun h => ho h.2.2.1, staysTest_off _ _ _ (Or.inl ?_)⟩
        cases hh : p.onCurve <;> simp_all
    unfold removeRec
    rcases test with ⟨hi, et⟩ | ⟨hi, et⟩
    · refine ⟨ks, by rw [et, e]; rfl, ha, ?_⟩
      intro j
      rw [hm]
      constructor
      · rintro ⟨h1, h2⟩; exact ⟨by omega, h2⟩
      · rintro ⟨h1, h2, h3⟩
        refine ⟨?_, h2, h3⟩
        have : j ≠ k := by rintro rfl; exact h3 hi
        omega
    · refine ⟨k :: ks, by rw [et, e]; simp [Res.ok_bind, keepIf, gk], List.pairwise_cons.mpr ⟨?_, ha⟩, ?_⟩
      · intro j hj
        have := (hm j).mp hj
        omega
      · intro j
        rw [List.mem_cons, hm]
        constructor
        · rintro (rfl | ⟨h1, h2⟩)
          · exact ⟨Nat.le_refl _, hk', hi⟩
          · exact ⟨by omega, h2⟩
        · rintro ⟨h1, h2, h3⟩
          by_cases hj : j = k
          · exact Or.inl hj
          · exact Or.inr ⟨by omega, h2, h3⟩

/-- **C30** (removing). Unless a sum of coordinates overflows, removing implied points keeps, in order, exactly the points
which are not on-curve points halfway between two off-curve neighbours in the closed contour. -/
theorem C30_remove (c : List Point)
    (hfit : ∀ (k : Nat) (a p b : Point), c[k]? = some p → c[(k + c.length - 1) % c.length]? = some a →
      c[(k + 1) % c.length]? = some b → p.onCurve = true → a.onCurve = false → b.onCurve = false → SumsFit a b) :
    ∃ ks : List Nat, removeImplied c = .ok (ks.filterMap (fun k => c[k]?)) ∧ IndexAscending ks ∧
      ∀ j, j ∈ ks ↔ j < c.length ∧ ¬ Implied c j := by
  cases c with
  | nil => exact ⟨[], rfl, List.Pairwise.nil, by simp⟩
  | cons p c =>
    obtain ⟨l, hlast⟩ : ∃ l, (p :: c).getLast? = some l := ⟨_, List.getLast?_eq_getLast_of_ne_nil (by simp)⟩
    have hl2 : (p :: c)[(0 + (p :: c).length - 1) % (p :: c).length]? = some l := by
      rw [List.getLast?_eq_getElem?] at hlast
      rw [Nat.zero_add, Nat.mod_eq_of_lt (by simp)]
      exact hlast
    obtain ⟨ks, e, ha, hm⟩ := removeRec_spec (p :: c) p rfl hfit (p :: c) 0 l rfl (by simp) hl2
    refine ⟨ks, by rw [removeImplied_eq p c l hlast, e], ha, ?_⟩
    intro j
    rw [hm]
    simp

example : removeImplied [⟨5, 2, true⟩, ⟨10, 4, false⟩, ⟨10, 0, true⟩, ⟨0, 0, false⟩] =
    .ok [⟨10, 4, false⟩, ⟨10, 0, true⟩, ⟨0, 0, false⟩] := by decide

end FT.Props
