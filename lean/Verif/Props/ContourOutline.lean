import Verif.Props.KurboPath

/-!
C30: removing implied on-curve points leaves the outline as it is.
-/

namespace FT.Props
open FT FT.Glyf

theorem staysTest_false {a p b : Point} (h : staysTest a p b = .ok false) : p.onCurve = true ∧ a.onCurve = false ∧ b.onCurve = false ∧ Halfway a b p := by
  rcases staysTest_cases a p b with e | e | ⟨_, hp, ha, hb⟩
  · rw [e] at h; cases h
  · rw [e] at h; cases h
  · refine ⟨hp, ha, hb, ?_⟩
    by_cases hf : SumsFit a b
    · rcases staysTest_fits a p b hf hp ha hb with ⟨hh, _⟩ | ⟨_, e⟩
      · exact hh
      · rw [e] at h; cases h
    · exfalso
      unfold staysTest at h
      rw [if_neg (by simp [hp, ha, hb])] at h
      rcases addI16_cases a.x b.x with ⟨s, e, hs⟩ | ⟨e, hs⟩
      · rcases addI16_cases a.y b.y with ⟨t, e', ht⟩ | ⟨e', ht⟩
        · have := s.le_toInt
          have := s.toInt_lt
          have := t.le_toInt
          have := t.toInt_lt
          exact absurd ⟨⟨by omega, by omega⟩, by omega, by omega⟩ hf
        · simp only [e, e', Res.ok_bind] at h
          split at h <;> cases h
      · rw [e] at h
        cases h

/-- A piece looks at the point before it only if it is a curve, and then only at where it starts. -/
theorem piece_before (a p b x : Point) (h : b.onCurve = false → (if a.onCurve then place a else wholeMiddle a b) = (if p.onCurve then place p else wholeMiddle p b)) :
    piece wholeMiddle a b x = piece wholeMiddle p b x := by
  unfold piece
  by_cases hb : b.onCurve = true
  · rw [if_pos hb, if_pos hb]
  · rw [if_neg hb, if_neg hb, h (by simpa using hb)]

theorem pieces_before (a p b : Point) (r : List Point) (x : Point)
    (h : b.onCurve = false → (if a.onCurve then place a else wholeMiddle a b) = (if p.onCurve then place p else wholeMiddle p b)) :
    pieces wholeMiddle a (b :: r) x = pieces wholeMiddle p (b :: r) x := by
  cases r with
  | nil => exact piece_before a p b x h
  | cons c r =>
    show piece wholeMiddle a b c ++ _ = piece wholeMiddle p b c ++ _
    rw [piece_before a p b c h]

theorem removeRec_inv {prev first p : Point} {r k : List Point} (h : removeRec prev first (p :: r) = .ok k) :
    ∃ b l, staysTest prev p (r.head?.getD first) = .ok b ∧ removeRec p first r = .ok l ∧ k = keepIf p b l := by
  rw [removeRec_cons] at h
  obtain ⟨b, hb, h⟩ := Res.bind_inv h
  obtain ⟨l, hl, h⟩ := Res.bind_inv h
  cases h
  exact ⟨b, l, hb, hl, rfl⟩

/-- Where the point before matters, both are the same. -/
def SameStart (a p b : Point) : Prop :=
  b.onCurve = false → (if a.onCurve then place a else wholeMiddle a b) = (if p.onCurve then place p else wholeMiddle p b)

/-- Removing points from a stretch changes neither the outline nor what its end is for the point after it. -/
theorem pieces_removed (first : Point) : ∀ (todo : List Point) (x : Point) (k : List Point), removeRec x first todo = .ok k →
    (∀ prev, pieces wholeMiddle prev (x :: todo) first = pieces wholeMiddle prev (x :: k) first) ∧
    SameStart ((x :: todo).getLast (by simp)) ((x :: k).getLast (by simp)) first
  | [], x, k, h => by
    cases h
    exact ⟨fun _ => rfl, fun _ => rfl⟩
  | p :: r, x, k, h => by
    obtain ⟨b, l, hb, hl, rfl⟩ := removeRec_inv h
    obtain ⟨ih1, ih2⟩ := pieces_removed first r p l hl
    cases b with
    | true =>
      refine ⟨fun prev => ?_, by simpa [keepIf] using ih2⟩
      show piece wholeMiddle prev x p ++ pieces wholeMiddle x (p :: r) first = piece wholeMiddle prev x p ++ pieces wholeMiddle x (p :: l) first
      rw [ih1]
    | false =>
      obtain ⟨hp, hx, hn, hh⟩ := staysTest_false hb
      have hplace := halfway_place hh
      cases r with
      | nil =>
        cases hl
        simp only [List.head?_nil, Option.getD_none] at hn hplace
        refine ⟨fun prev => ?_, fun _ => ?_⟩
        · show piece wholeMiddle prev x p ++ piece wholeMiddle x p first = piece wholeMiddle prev x first
          simp [piece, hp, hx, hn, hplace]
        · simp [keepIf, hp, hx, hplace]
      | cons q r =>
        simp only [List.head?_cons, Option.getD_some] at hn hplace
        have hl' : removeRec x first (q :: r) = .ok l := by rw [removeRec_prev x p first q r hn]; exact hl
        obtain ⟨jh1, jh2⟩ := pieces_removed first (q :: r) x l hl'
        refine ⟨fun prev => ?_, by simpa [keepIf] using jh2⟩
        show _ = pieces wholeMiddle prev (x :: l) first
        rw [← jh1 prev]
        show piece wholeMiddle prev x p ++ (piece wholeMiddle x p q ++ pieces wholeMiddle p (q :: r) first) =
          piece wholeMiddle prev x q ++ pieces wholeMiddle x (q :: r) first
        rw [pieces_before p x q r first (fun _ => by simp [hp, hx, hplace])]
        simp [piece, hp, hx, hn, hplace]
termination_by todo => todo.length

/-- The last piece looks at the point after the stretch only for where it ends. -/
theorem pieces_after (p b : Point) (hp : p.onCurve = true) (hb : b.onCurve = false) : ∀ (l : List Point) (a : Point) (x : Point),
    l.getLast? = some x → x.onCurve = false → place p = wholeMiddle x b → pieces wholeMiddle a l p = pieces wholeMiddle a l b
  | [], _, _, h, _, _ => by cases h
  | [y], a, x, h, hx, hm => by
    have e : y = x := by simpa using h
    subst e
    simp [pieces, piece, hp, hb, hx, hm]
  | y :: z :: r, a, x, h, hx, hm => by
    show piece wholeMiddle a y z ++ _ = piece wholeMiddle a y z ++ _
    rw [pieces_after p b hp hb (z :: r) y x (by simpa using h) hx hm]

/-- **C30** (the outline stays). Removing implied on-curve points, where it does not panic, does not change the outline, the middles
between off-curve points being taken in whole units, as the tool takes them. -/
theorem C30_outline (c c' : List Point) (h : removeImplied c = .ok c') : outline wholeMiddle c' = outline wholeMiddle c := by
  cases c with
  | nil => cases h; rfl
  | cons p c =>
    obtain ⟨l, hlast⟩ : ∃ l, (p :: c).getLast? = some l := ⟨_, List.getLast?_eq_getLast_of_ne_nil (by simp)⟩
    have hl : (p :: c).getLast (by simp) = l := by
      rw [List.getLast?_eq_getLast_of_ne_nil (by simp)] at hlast
      exact Option.some.inj hlast
    rw [removeImplied_eq p c l hlast] at h
    obtain ⟨b, k, hb, hk, rfl⟩ := removeRec_inv h
    obtain ⟨h1, h2⟩ := pieces_removed p c p k hk
    show _ = pieces wholeMiddle ((p :: c).getLast (by simp)) (p :: c) p
    cases b with
    | true =>
      show pieces wholeMiddle ((p :: k).getLast (by simp)) (p :: k) p = _
      rw [h1, pieces_before _ _ p k p h2]
    | false =>
      obtain ⟨hp, hx, hn, hh⟩ := staysTest_false hb
      have hplace := halfway_place hh
      show outline wholeMiddle k = _
      cases c with
      | nil => simp only [List.head?_nil, Option.getD_none] at hn; rw [hp] at hn; cases hn
      | cons q r =>
        simp only [List.head?_cons, Option.getD_some] at hn hplace
        obtain ⟨b', k', hb', hk', rfl⟩ := removeRec_inv hk
        rw [staysTest_off _ _ _ (Or.inl hn)] at hb'
        cases hb'
        show pieces wholeMiddle ((q :: k').getLast (by simp)) (q :: k') q = pieces wholeMiddle ((p :: q :: r).getLast (by simp)) (p :: q :: r) p
        rw [hl]
        have e1 : pieces wholeMiddle l (p :: q :: r) p = pieces wholeMiddle p (q :: r) p := by
          show piece wholeMiddle l p q ++ _ = _
          simp [piece, hp, hn]
        obtain ⟨i1, i2⟩ := pieces_removed p r q k' hk'
        have hlast' : (q :: r).getLast (by simp) = l := by rw [← hl]; simp
        -- the last point is off the curve, so it stays
        have hstay : ∀ (r : List Point) (q l : Point) (k' : List Point), removeRec q p r = .ok k' → (q :: r).getLast (by simp) = l → l.onCurve = false →
            (q :: k').getLast (by simp) = l := by
          intro r
          induction r with
          | nil => intro q l k' h e _; cases h; exact e
          | cons z r ih =>
            intro q l k' h e hl
            obtain ⟨b, k2, hb, hk2, rfl⟩ := removeRec_inv h
            have := ih z l k2 hk2 (by rw [← e]; simp) hl
            cases b with
            | true => simpa [keepIf] using this
            | false =>
              obtain ⟨hz, _, hn, _⟩ := staysTest_false hb
              show (q :: k2).getLast _ = l
              cases k2 with
              | nil =>
                simp at this
                subst this
                rw [hz] at hl; cases hl
              | cons y k2 => simpa using this
        have hk'l := hstay r q l k' hk' hlast' hx
        rw [hk'l, e1, i1, pieces_before p l q k' p (fun _ => by simp [hp, hx, hplace])]
        exact (pieces_after p q hp hn (q :: k') l l (by rw [List.getLast?_eq_getLast_of_ne_nil (by simp), hk'l]) hx hplace).symm

example : removeImplied [⟨0, 0, true⟩, ⟨10, 0, false⟩, ⟨10, 5, true⟩, ⟨10, 10, false⟩] = .ok [⟨0, 0, true⟩, ⟨10, 0, false⟩, ⟨10, 10, false⟩] ∧
    outline wholeMiddle [⟨0, 0, true⟩, ⟨10, 0, false⟩, ⟨10, 10, false⟩] =
      [.quad ⟨0, 0⟩ ⟨10, 0⟩ ⟨10, 5⟩, .quad ⟨10, 5⟩ ⟨10, 10⟩ ⟨0, 0⟩] := by decide +kernel

end FT.Props
