import Verif.Model.KurboPath
import Verif.Props.Contour
import Verif.Props.Decompose
import Verif.Props.GlyfBounds

/-!
C98: contours as paths and paths as contours.
-/

namespace FT.Props
open FT FT.Glyf

/-! ### Specification -/

/-- The place of a point. -/
def place (p : Point) : Pt := ⟨p.x.toInt, p.y.toInt⟩

/-- The place exactly halfway between two points. -/
def middle (p q : Point) : Pt := ⟨((p.x.toInt : ℚ) + q.x.toInt) / 2, ((p.y.toInt : ℚ) + q.y.toInt) / 2⟩

/-- The place halfway between two points, in whole units, halves going towards zero. -/
def wholeMiddle (p q : Point) : Pt := ⟨((p.x.toInt + q.x.toInt).tdiv 2 : ℤ), ((p.y.toInt + q.y.toInt).tdiv 2 : ℤ)⟩

/-- What a point of a TrueType contour adds to the outline, given the points before and after it. An off-curve point is the control
point of a quadratic curve. The curve runs from the point before it to the point after it; where that point is off the
curve as well, to the place halfway (`half`) between the two. Two on-curve points in sequence are joined by a line. -/
def piece (half : Point → Point → Pt) (before this after : Point) : List PathSeg :=
  if this.onCurve then
    if after.onCurve then [.line (place this) (place after)] else []
  else [.quad (if before.onCurve then place before else half before this) (place this)
    (if after.onCurve then place after else half this after)]

/-- The pieces of a stretch of a contour, between the point before it and the point after it. -/
def pieces (half : Point → Point → Pt) (before : Point) : List Point → Point → List PathSeg
  | [], _ => []
  | [p], after => piece half before p after
  | p :: q :: r, after => piece half before p q ++ pieces half p (q :: r) after

/-- The outline of a closed contour: the first point comes after the last one. -/
def outline (half : Point → Point → Pt) : List Point → List PathSeg
  | [] => []
  | p :: r => pieces half ((p :: r).getLast (by simp)) (p :: r) p

/-- Neighbouring off-curve points have coordinates whose sums fit 16 bits. -/
def MiddlesFit (c : List Point) : Prop := ∀ (i : Nat) (a b : Point), c[i]? = some a → c[i + 1]? = some b → a.onCurve = false →
  b.onCurve = false → SumsFit a b

/-- Neighbouring off-curve points have a middle in whole units. -/
def MiddlesWhole (c : List Point) : Prop := ∀ (i : Nat) (a b : Point), c[i]? = some a → c[i + 1]? = some b → a.onCurve = false →
  b.onCurve = false → (a.x.toInt + b.x.toInt) % 2 = 0 ∧ (a.y.toInt + b.y.toInt) % 2 = 0

/-- A segment from its end to its start. -/
def backwards : PathSeg → PathSeg
  | .line p q => .line q p
  | .quad p c q => .quad q c p
  | .cubic p c d q => .cubic q d c p

/-- A segment with its points moved. -/
def movePoints (f : Pt → Pt) : PathSeg → PathSeg
  | .line p q => .line (f p) (f q)
  | .quad p c q => .quad (f p) (f c) (f q)
  | .cubic p c d q => .cubic (f p) (f c) (f d) (f q)

/-- The quadratic curves through the given control and end points, one after the other. -/
def quadChain (p : Pt) : List (Pt × Pt) → List PathSeg
  | [] => []
  | (c, q) :: l => .quad p c q :: quadChain q l

/-- Cubic curves replaced by quadratic ones. -/
def quadratic (quads : Pt → Pt → Pt → Pt → List (Pt × Pt)) : PathSeg → List PathSeg
  | .cubic p c d q => quadChain p (quads p c d q)
  | s => [s]

/-- The quadratic curves replacing a cubic one end where it ends. -/
def KeepsEnds (quads : Pt → Pt → Pt → Pt → List (Pt × Pt)) : Prop :=
  ∀ p c d q, ∃ s, (quads p c d q).getLast? = some s ∧ s.2 = q

/-- Where a segment ends. -/
def segEnd : PathSeg → Pt
  | .line _ q => q
  | .quad _ _ q => q
  | .cubic _ _ _ q => q

/-- Where a path from `p` ends. -/
def pathEnd (p : Pt) (segs : List PathSeg) : Pt := match segs.getLast? with
  | none => p
  | some s => segEnd s

/-- Coordinates cut to 16 bits. -/
def CutPt (p q : Pt) : Prop := ∃ a : Point, q = place a ∧ CutTo p.x a.x ∧ CutTo p.y a.y

/-- A path element which does not start another subpath. -/
def isMove : PathEl → Bool
  | .moveTo _ => true
  | _ => false

/-! ### Stretches -/

/-- The points of a stretch from an on-curve point to an on-curve point without neighbouring off-curve points, and its
segments. -/
inductive Trace : List Point → List PathSeg → Prop
  | one (p : Point) : p.onCurve = true → Trace [p] []
  | line (p q : Point) (r : List Point) (s : List PathSeg) : p.onCurve = true → q.onCurve = true → Trace (q :: r) s →
      Trace (p :: q :: r) (.line (place p) (place q) :: s)
  | quad (p c q : Point) (r : List Point) (s : List PathSeg) : p.onCurve = true → c.onCurve = false → q.onCurve = true → Trace (q :: r) s →
      Trace (p :: c :: q :: r) (.quad (place p) (place c) (place q) :: s)

theorem trace_head {l : List Point} {s : List PathSeg} (h : Trace l s) : ∃ p r, l = p :: r ∧ p.onCurve = true := by
  cases h with
  | one p hp => exact ⟨p, _, rfl, hp⟩
  | line p q r s hp => exact ⟨p, _, rfl, hp⟩
  | quad p c q r s hp => exact ⟨p, _, rfl, hp⟩

theorem trace_snoc_line {l : List Point} {s : List PathSeg} (h : Trace l s) (q : Point) (hq : q.onCurve = true) :
    ∀ p, l.getLast? = some p → Trace (l ++ [q]) (s ++ [.line (place p) (place q)]) := by
  induction h with
  | one p hp =>
    intro p' e
    simp only [List.getLast?_singleton, Option.some.injEq] at e
    subst e
    exact .line p q [] [] hp hq (.one q hq)
  | line p p2 r s hp hp2 h ih =>
    intro p' e
    exact .line p p2 (r ++ [q]) _ hp hp2 (ih p' (by rw [← e]; simp [List.getLast?_cons]))
  | quad p c p2 r s hp hc hp2 h ih =>
    intro p' e
    exact .quad p c p2 (r ++ [q]) _ hp hc hp2 (ih p' (by rw [← e]; simp [List.getLast?_cons]))

theorem trace_snoc_quad {l : List Point} {s : List PathSeg} (h : Trace l s) (c q : Point) (hc : c.onCurve = false) (hq : q.onCurve = true) :
    ∀ p, l.getLast? = some p → Trace (l ++ [c, q]) (s ++ [.quad (place p) (place c) (place q)]) := by
  induction h with
  | one p hp =>
    intro p' e
    simp only [List.getLast?_singleton, Option.some.injEq] at e
    subst e
    exact .quad p c q [] [] hp hc hq (.one q hq)
  | line p p2 r s hp hp2 h ih =>
    intro p' e
    exact .line p p2 (r ++ [c, q]) _ hp hp2 (ih p' (by rw [← e]; simp [List.getLast?_cons]))
  | quad p c' p2 r s hp hc' hp2 h ih =>
    intro p' e
    exact .quad p c' p2 (r ++ [c, q]) _ hp hc' hp2 (ih p' (by rw [← e]; simp [List.getLast?_cons]))

theorem trace_reverse {l : List Point} {s : List PathSeg} (h : Trace l s) : Trace l.reverse (s.reverse.map backwards) := by
  induction h with
  | one p hp => exact .one p hp
  | line p q r s hp hq h ih =>
    have := trace_snoc_line ih p hp q (by simp)
    simpa [backwards] using this
  | quad p c q r s hp hc hq h ih =>
    have := trace_snoc_quad ih c p hc hp q (by simp)
    simpa [backwards] using this

theorem pieces_trace (half : Point → Point → Pt) (f : Point) (hf : f.onCurve = true) : ∀ (n : Nat) (l : List Point) (s : List PathSeg) (b : Point),
    l.length ≤ n → l ≠ [] → Trace (l ++ [f]) s → pieces half b l f = s
  | 0, l, s, b, hn, hne, _ => absurd (List.length_eq_zero_iff.mp (by omega)) hne
  | n + 1, l, s, b, hn, hne, h => by
    cases l with
    | nil => exact absurd rfl hne
    | cons p l =>
      cases l with
      | nil =>
        simp only [List.singleton_append] at h
        cases h with
        | line _ _ _ s hp hq h =>
          cases h
          simp [pieces, piece, hp, hf]
      | cons q l =>
        simp only [List.cons_append] at h
        generalize e : l ++ [f] = l' at h
        cases h with
        | line _ _ _ s hp hq h =>
          subst e
          rw [pieces, pieces_trace half f hf n (q :: l) s p (by simp at hn ⊢; omega) (by simp) h]
          simp [piece, hp, hq]
        | quad _ _ q2 r s hp hc hq h =>
          cases l with
          | nil =>
            simp only [List.nil_append, List.cons.injEq] at e
            obtain ⟨rfl, rfl⟩ := e
            cases h
            simp [pieces, piece, hp, hc, hf]
          | cons q3 l =>
            simp only [List.cons_append, List.cons.injEq] at e
            obtain ⟨rfl, rfl⟩ := e
            rw [pieces, pieces, pieces_trace half f hf n (q3 :: l) s q (by simp at hn ⊢; omega) (by simp) h]
            simp [piece, hp, hc, hq]

/-- Without neighbouring off-curve points, from an on-curve point to one, there is a stretch. -/
theorem trace_exists : ∀ (n : Nat) (l : List Point) (f : Point), l.length ≤ n → f.onCurve = true →
    (∀ p, (l ++ [f])[0]? = some p → p.onCurve = true) →
    (∀ (i : Nat) (a b : Point), l[i]? = some a → l[i + 1]? = some b → a.onCurve = true ∨ b.onCurve = true) →
    ∃ s, Trace (l ++ [f]) s
  | 0, l, f, hn, hf, h0, _ => by
    have : l = [] := List.length_eq_zero_iff.mp (by omega)
    subst this
    exact ⟨[], .one f hf⟩
  | n + 1, l, f, hn, hf, h0, h => by
    cases l with
    | nil => exact ⟨[], .one f hf⟩
    | cons p l =>
      have hp : p.onCurve = true := h0 p rfl
      cases l with
      | nil => exact ⟨_, .line p f [] [] hp hf (.one f hf)⟩
      | cons q l =>
        by_cases hq : q.onCurve = true
        · obtain ⟨s, hs⟩ := trace_exists n (q :: l) f (by simp at hn ⊢; omega) hf (by intro p' e; cases e; exact hq)
            (fun i a b h1 h2 => h (i + 1) a b (by simpa using h1) (by simpa using h2))
          exact ⟨_, .line p q _ s hp hq hs⟩
        · have hq : q.onCurve = false := by simpa using hq
          cases l with
          | nil => exact ⟨_, .quad p q f [] [] hp hq hf (.one f hf)⟩
          | cons q2 l =>
            have hq2 : q2.onCurve = true := by
              rcases h 1 q q2 rfl rfl with h | h
              · rw [hq] at h; cases h
              · exact h
            obtain ⟨s, hs⟩ := trace_exists n (q2 :: l) f (by simp at hn ⊢; omega) hf (by intro p' e; cases e; exact hq2)
              (fun i a b h1 h2 => h (i + 2) a b (by simpa using h1) (by simpa using h2))
            exact ⟨_, .quad p q q2 _ s hp hq hq2 hs⟩

/-! ### Explicit points do not change the outline -/

theorem place_pt (p : Point) : p.pt = place p := rfl

theorem halfway_place {p q m : Point} (h : Halfway p q m) : place m = wholeMiddle p q := by
  obtain ⟨_, hx, hy⟩ := h
  unfold place wholeMiddle
  rw [hx, hy]

theorem pieces_explicit {l l' : List Point} (h : MadeExplicit l l') : ∀ (b b' f : Point), f.onCurve = true →
    (∀ q, l.head? = some q → q.onCurve = false → (if b.onCurve then place b else wholeMiddle b q) =
      (if b'.onCurve then place b' else wholeMiddle b' q)) →
    pieces wholeMiddle b l f = pieces wholeMiddle b' l' f := by
  have same : ∀ (b b' p a : Point), (p.onCurve = false → (if b.onCurve then place b else wholeMiddle b p) =
      (if b'.onCurve then place b' else wholeMiddle b' p)) → piece wholeMiddle b p a = piece wholeMiddle b' p a := by
    intro b b' p a e
    unfold piece
    by_cases hp : p.onCurve = true
    · simp [hp]
    · have hp : p.onCurve = false := by simpa using hp
      simp only [hp, Bool.false_eq_true, if_false]
      rw [e hp]
  induction h with
  | single p =>
    intro b b' f hf e
    exact same b b' p f (e p rfl)
  | next p q r r' ho hm ih =>
    intro b b' f hf e
    obtain ⟨q', t, t', e1, e2⟩ := madeExplicit_head hm
    cases e1
    subst e2
    rw [pieces, pieces, same b b' p q (e p rfl), ih p p f hf (fun _ _ _ => rfl)]
  | halfway p q m r r' hp hq hw hm ih =>
    intro b b' f hf e
    obtain ⟨q', t, t', e1, e2⟩ := madeExplicit_head hm
    cases e1
    subst e2
    rw [pieces, pieces, pieces, ih p m f hf (by
      intro q2 e2 _
      cases e2
      rw [hp, hw.1, halfway_place hw]
      simp)]
    rw [same b b' p q (e p rfl)]
    unfold piece
    simp [hp, hq, hw.1, halfway_place hw]

theorem outline_explicit {p : Point} {c e : List Point} (hp : p.onCurve = true) (h : MadeExplicit (p :: c) (p :: e)) :
    outline wholeMiddle (p :: c) = outline wholeMiddle (p :: e) := by
  unfold outline
  apply pieces_explicit h _ _ _ hp
  intro q eq hq
  cases eq
  rw [hp] at hq
  cases hq

/-- Both ways of halving agree if the middles are whole. -/
theorem pieces_whole (f : Point) (hf : f.onCurve = true) : ∀ (l : List Point) (b : Point),
    (∀ (i : Nat) (a b' : Point), (b :: l)[i]? = some a → (b :: l)[i + 1]? = some b' → a.onCurve = false → b'.onCurve = false →
      (a.x.toInt + b'.x.toInt) % 2 = 0 ∧ (a.y.toInt + b'.y.toInt) % 2 = 0) →
    pieces middle b l f = pieces wholeMiddle b l f := by
  have ev : ∀ z : ℤ, z % 2 = 0 → ((z.tdiv 2 : ℤ) : ℚ) = (z : ℚ) / 2 := by
    intro z hz
    obtain ⟨k, rfl⟩ : ∃ k, z = 2 * k := ⟨z / 2, by omega⟩
    rw [Int.mul_tdiv_cancel_left k (by omega)]
    push_cast
    ring
  have mid : ∀ p q : Point, (p.x.toInt + q.x.toInt) % 2 = 0 ∧ (p.y.toInt + q.y.toInt) % 2 = 0 → middle p q = wholeMiddle p q := by
    intro p q h
    unfold middle wholeMiddle
    rw [ev _ h.1, ev _ h.2]
    push_cast
    rfl
  have one : ∀ b p a : Point, (b.onCurve = false → p.onCurve = false → middle b p = wholeMiddle b p) →
      (p.onCurve = false → a.onCurve = false → middle p a = wholeMiddle p a) → piece middle b p a = piece wholeMiddle b p a := by
    intro b p a h1 h2
    unfold piece
    cases hp : p.onCurve
    · simp only [Bool.false_eq_true, if_false]
      cases hb : b.onCurve <;> cases ha : a.onCurve <;> simp_all
    · simp
  intro l
  induction l with
  | nil => intro b _; rfl
  | cons p l ih =>
    intro b h
    cases l with
    | nil =>
      exact one b p f (fun h1 h2 => mid b p (h 0 b p rfl rfl h1 h2)) (fun _ h2 => by rw [hf] at h2; cases h2)
    | cons q l =>
      rw [pieces, pieces, ih p (fun i a b' h1 h2 => h (i + 1) a b' (by simpa using h1) (by simpa using h2)),
        one b p q (fun h1 h2 => mid b p (h 0 b p rfl rfl h1 h2)) (fun h1 h2 => mid p q (h 1 p q rfl rfl h1 h2))]

theorem outline_whole {p : Point} {c : List Point} (hp : p.onCurve = true) (h : MiddlesWhole (p :: c)) :
    outline middle (p :: c) = outline wholeMiddle (p :: c) := by
  show pieces middle _ (p :: c) p = pieces wholeMiddle _ (p :: c) p
  have first : ∀ (half : Point → Point → Pt) (b b' : Point), pieces half b (p :: c) p = pieces half b' (p :: c) p := by
    intro half b b'
    cases c with
    | nil => simp [pieces, piece, hp]
    | cons q c => simp [pieces, piece, hp]
  rw [first middle _ p, first wholeMiddle _ p]
  apply pieces_whole p hp
  intro i a b' h1 h2 h3 h4
  cases i with
  | zero => cases h1; rw [hp] at h3; cases h3
  | succ i => exact h i a b' (by simpa using h1) (by simpa using h2) h3 h4

/-! ### Drawing -/

/-- The path element for a segment. -/
def elem : PathSeg → PathEl
  | .line _ q => .lineTo q
  | .quad _ c q => .quadTo c q
  | .cubic _ c d q => .curveTo c d q

theorem draw_trace (f : Point) (hf : f.onCurve = true) : ∀ (n : Nat) (l : List Point) (p last : Point) (s : List PathSeg), l.length ≤ n →
    Trace (p :: l ++ [f]) s → (p :: l).getLast? = some last →
    (drawLoop [] l).1 ++ drawEnd f last (drawLoop [] l).2 = s.map elem ++ [.closePath]
  | n, [], p, last, s, _, h, hl => by
    simp only [List.getLast?_singleton, Option.some.injEq] at hl
    subst hl
    cases h with
    | line _ _ _ s hp hq h =>
      cases h
      simp [drawLoop, drawEnd, hp, hf, elem, place_pt]
  | 0, _ :: _, p, last, s, hn, h, hl => by simp at hn
  | n + 1, q :: l, p, last, s, hn, h, hl => by
    simp only [List.cons_append] at h
    generalize e : l ++ [f] = l' at h
    cases h with
    | line _ _ _ s hp hq h =>
      subst e
      have ih := draw_trace f hf n l q last s (by simp at hn; omega) h (by rw [← hl]; simp [List.getLast?_cons])
      simp only [drawLoop, hq, if_true, List.nil_append, drawSegment, List.map_cons, List.cons_append, elem, ← place_pt]
      rw [ih]
    | quad _ _ q2 r s hp hc hq h =>
      cases l with
      | nil =>
        simp only [List.nil_append, List.cons.injEq] at e
        obtain ⟨rfl, rfl⟩ := e
        cases h
        simp [drawLoop, drawEnd, hc, elem, place_pt]
      | cons q3 l =>
        simp only [List.cons_append, List.cons.injEq] at e
        obtain ⟨rfl, rfl⟩ := e
        have ih := draw_trace f hf n l q3 last s (by simp at hn; omega) h (by rw [← hl]; simp [List.getLast?_cons])
        simp only [drawLoop, hc, hq, if_true, Bool.false_eq_true, if_false, List.nil_append, drawSegment, List.singleton_append, List.map_cons,
          List.cons_append, elem, ← place_pt]
        rw [ih]

/-- Drawing the elements of a stretch gives its segments. -/
theorem segments_trace (start : Pt) (tail : List PathEl) : ∀ (l : List Point) (s : List PathSeg), Trace l s → ∀ p f, l.head? = some p →
    l.getLast? = some f → segmentsFrom start (place p) (s.map elem ++ tail) = s ++ segmentsFrom start (place f) tail := by
  intro l s h
  induction h with
  | one p hp =>
    intro p' f e1 e2
    cases e1
    cases e2
    rfl
  | line p q r s hp hq h ih =>
    intro p' f e1 e2
    cases e1
    simp only [List.map_cons, elem, List.cons_append, segmentsFrom]
    rw [ih q f rfl (by rw [← e2]; simp [List.getLast?_cons])]
  | quad p c q r s hp hc hq h ih =>
    intro p' f e1 e2
    cases e1
    simp only [List.map_cons, elem, List.cons_append, segmentsFrom]
    rw [ih q f rfl (by rw [← e2]; simp [List.getLast?_cons])]

/-- The path of a contour, by its explicit points. -/
theorem toPath_trace (c : List Point) (p : Point) (e : List Point) (hi : insertExplicit c = .ok (p :: e)) (hp : p.onCurve = true) :
    ∃ s, Trace (p :: e ++ [p]) s ∧ toPath c = .ok (.moveTo (place p) :: s.map elem ++ [.closePath]) := by
  obtain ⟨_, _, hadj⟩ := C30_explicit_keeps c _ hi
  obtain ⟨s, hs⟩ := trace_exists _ (p :: e) p (Nat.le_refl _) hp (by intro q eq; cases eq; exact hp) hadj
  refine ⟨s, hs, ?_⟩
  obtain ⟨last, hl⟩ : ∃ last, (p :: e).getLast? = some last := ⟨_, List.getLast?_eq_some_getLast (by simp)⟩
  unfold toPath
  rw [hi]
  simp only [Res.ok_bind, hl]
  rw [List.cons_append, draw_trace p hp _ e p last s (Nat.le_refl _) hs hl]
  rfl

theorem segments_closed (p : Point) (e : List Point) (s : List PathSeg) (h : Trace (p :: e ++ [p]) s) :
    segments (.moveTo (place p) :: s.map elem ++ [.closePath]) = .ok s := by
  rw [List.cons_append]
  unfold segments
  simp only [segmentsFrom]
  rw [segments_trace _ _ _ s h p p rfl (by rw [List.getLast?_append]; rfl)]
  simp [segmentsFrom]

theorem insertExplicit_head {p : Point} {c e : List Point} (h : insertExplicit (p :: c) = .ok e) : ∃ t, e = p :: t := by
  rw [insertExplicit_eq] at h
  exact explicitRec_head p c e h

/-- **C98** (a contour as a path). A contour whose first point is on the curve becomes a path whose segments are the outline of the
contour, each piece once, in the order of the points, with the middles between off-curve points in whole units. If these
middles are whole, they are exactly the outline. -/
theorem C98_to_path (p : Point) (c : List Point) (hp : p.onCurve = true) (hfit : MiddlesFit (p :: c)) :
    ∃ path, toPath (p :: c) = .ok path ∧ segments path = .ok (outline wholeMiddle (p :: c)) ∧
      (MiddlesWhole (p :: c) → segments path = .ok (outline middle (p :: c))) := by
  obtain ⟨e, he, hm⟩ := (C30_explicit (p :: c) (by simp)).1 hfit
  obtain ⟨t, rfl⟩ := insertExplicit_head he
  obtain ⟨s, hs, hpath⟩ := toPath_trace _ p t he hp
  have hseg := segments_closed p t s hs
  have ho : outline wholeMiddle (p :: c) = s := by
    rw [outline_explicit hp hm]
    exact pieces_trace wholeMiddle p hp _ (p :: t) s _ (Nat.le_refl _) (by simp) hs
  refine ⟨_, hpath, by rw [hseg, ho], fun hw => by rw [hseg, outline_whole hp hw, ho]⟩

/-- **C98** (middles). The middles in whole units are at most half a unit away from the exact ones in each coordinate. -/
theorem C98_middle_near (p q : Point) : |(wholeMiddle p q).x - (middle p q).x| ≤ 1 / 2 ∧ |(wholeMiddle p q).y - (middle p q).y| ≤ 1 / 2 := by
  have key : ∀ z : ℤ, |((z.tdiv 2 : ℤ) : ℚ) - (z : ℚ) / 2| ≤ 1 / 2 := by
    intro z
    have h : 2 * z.tdiv 2 - z = 0 ∨ 2 * z.tdiv 2 - z = 1 ∨ 2 * z.tdiv 2 - z = -1 := by
      by_cases h : 0 ≤ z
      · rw [Int.tdiv_eq_ediv_of_nonneg h]; omega
      · have e : z.tdiv 2 = -((-z).tdiv 2) := by rw [Int.neg_tdiv]; omega
        rw [e, Int.tdiv_eq_ediv_of_nonneg (by omega)]; omega
    have e : ((z.tdiv 2 : ℤ) : ℚ) - (z : ℚ) / 2 = ((2 * z.tdiv 2 - z : ℤ) : ℚ) / 2 := by push_cast; ring
    rw [e]
    rcases h with h | h | h <;> rw [h] <;> norm_num [abs_le]
  have hx := key (p.x.toInt + q.x.toInt)
  have hy := key (p.y.toInt + q.y.toInt)
  push_cast at hx hy
  exact ⟨hx, hy⟩

/-- **C98** (panics). Converting an empty contour panics, and so does one where the middle of two off-curve points in sequence needs a sum
which does not fit. -/
theorem C98_to_path_panics (c : List Point) (h : c = [] ∨ ¬ MiddlesFit c) : toPath c = .panic := by
  by_cases hc : c = []
  · subst hc
    rfl
  · rcases h with h | h
    · exact absurd h hc
    · unfold toPath
      rw [(C30_explicit c hc).2 h]
      rfl

example : ∃ path, toPath [⟨0, 0, true⟩, ⟨0, 10, false⟩, ⟨10, 20, false⟩, ⟨20, 10, true⟩, ⟨5, 5, true⟩] = .ok path ∧
    segments path = .ok [.quad ⟨0, 0⟩ ⟨0, 10⟩ ⟨5, 15⟩, .quad ⟨5, 15⟩ ⟨10, 20⟩ ⟨20, 10⟩, .line ⟨20, 10⟩ ⟨5, 5⟩, .line ⟨5, 5⟩ ⟨0, 0⟩] :=
  ⟨[.moveTo ⟨0, 0⟩, .quadTo ⟨0, 10⟩ ⟨5, 15⟩, .quadTo ⟨10, 20⟩ ⟨20, 10⟩, .lineTo ⟨5, 5⟩, .lineTo ⟨0, 0⟩, .closePath],
    by decide +kernel, by decide +kernel⟩

/-! ### Contours beginning off the curve -/

theorem drawEnd_off (f g last : Point) (hf : f.onCurve = false) (hg : place g = place f) (h : g.onCurve = true) (left : List Point) :
    (drawEnd g last left = drawEnd f last left) ∨
    (left = [] ∧ last.onCurve = true ∧ drawEnd g last left = [.lineTo (place f), .closePath] ∧ drawEnd f last left = [.closePath]) := by
  cases left with
  | cons s l => left; simp [drawEnd, place_pt, hg]
  | nil =>
    cases hl : last.onCurve
    · left; simp [drawEnd, hl]
    · right; simp [drawEnd, hl, hf, h, place_pt, hg]

theorem segmentsFrom_ends (start : Pt) (b : List PathEl) : ∀ (a : List PathEl) (last : Pt), (∀ x ∈ a, isMove x = false ∧ x ≠ .closePath) →
    ∃ pen, ∀ b, segmentsFrom start last (a ++ b) = segmentsFrom start last a ++ segmentsFrom start pen b
  | [], last, _ => ⟨last, fun b => rfl⟩
  | x :: a, last, h => by
    have hr := fun l => segmentsFrom_ends start b a l (fun y hy => h y (List.mem_cons_of_mem _ hy))
    have hx := h x List.mem_cons_self
    cases x with
    | moveTo p => simp [isMove] at hx
    | closePath => simp at hx
    | lineTo p =>
      obtain ⟨pen, hp⟩ := hr p
      exact ⟨pen, fun b => by simp only [List.cons_append, segmentsFrom, hp b]⟩
    | quadTo c p =>
      obtain ⟨pen, hp⟩ := hr p
      exact ⟨pen, fun b => by simp only [List.cons_append, segmentsFrom, hp b]⟩
    | curveTo c d p =>
      obtain ⟨pen, hp⟩ := hr p
      exact ⟨pen, fun b => by simp only [List.cons_append, segmentsFrom, hp b]⟩

theorem drawLoop_plain : ∀ (l seg : List Point), ∀ x ∈ (drawLoop seg l).1, isMove x = false ∧ x ≠ .closePath
  | [], seg, x, hx => by simp [drawLoop] at hx
  | p :: l, seg, x, hx => by
    unfold drawLoop at hx
    by_cases hp : p.onCurve = true
    · rw [if_pos hp] at hx
      simp only [List.mem_append] at hx
      rcases hx with hx | hx
      · unfold drawSegment at hx
        split at hx
        · simp at hx; subst hx; simp [isMove]
        · simp at hx; subst hx; simp [isMove]
        · cases hx
      · exact drawLoop_plain l [] x hx
    · rw [if_neg hp] at hx
      exact drawLoop_plain l _ x hx

/-- **C98** (a contour beginning off the curve). If the first point is off the curve, the path is that of another contour: the
first point is taken as if it were on the curve (and a middle is still put between it and a second off-curve point). Its segments
are the outline of that contour, except that a line of no length at the end is left out. -/
theorem C98_off_first (p : Point) (c : List Point) (hp : p.onCurve = false) (hfit : MiddlesFit (p :: c)) :
    ∃ path e segs, toPath (p :: c) = .ok path ∧ MadeExplicit (p :: c) (p :: e) ∧ segments path = .ok segs ∧
      ∀ half, outline half ({ p with onCurve := true } :: e) = segs ∨
        outline half ({ p with onCurve := true } :: e) = segs ++ [.line (place p) (place p)] := by
  obtain ⟨e', he, hm⟩ := (C30_explicit (p :: c) (by simp)).1 hfit
  obtain ⟨e, rfl⟩ := insertExplicit_head he
  obtain ⟨_, _, hadj⟩ := C30_explicit_keeps _ _ he
  have hadj' : ∀ (i : Nat) (a b : Point), ({ p with onCurve := true } :: e)[i]? = some a → ({ p with onCurve := true } :: e)[i + 1]? = some b →
      a.onCurve = true ∨ b.onCurve = true := by
    intro i a b h1 h2
    cases i with
    | zero => cases h1; exact Or.inl rfl
    | succ i => exact hadj (i + 1) a b (by simpa using h1) (by simpa using h2)
  obtain ⟨s, hs⟩ := trace_exists _ ({ p with onCurve := true } :: e) { p with onCurve := true } (Nat.le_refl _) rfl
    (by intro q eq; cases eq; rfl) hadj'
  have ho : ∀ half, outline half ({ p with onCurve := true } :: e) = s := fun half =>
    pieces_trace half _ rfl _ ({ p with onCurve := true } :: e) s _ (Nat.le_refl _) (by simp) hs
  have hpl : place { p with onCurve := true } = place p := rfl
  obtain ⟨last, hl⟩ : ∃ last, (p :: e).getLast? = some last := ⟨_, List.getLast?_eq_some_getLast (by simp)⟩
  have hpath : toPath (p :: c) = .ok (.moveTo (place p) :: ((drawLoop [] e).1 ++ drawEnd p last (drawLoop [] e).2)) := by
    unfold toPath
    rw [he]
    simp only [Res.ok_bind, hl]
    rfl
  -- the last point of the contour with its first point on the curve
  obtain ⟨last', hl'⟩ : ∃ last', ({ p with onCurve := true } :: e : List Point).getLast? = some last' :=
    ⟨_, List.getLast?_eq_some_getLast (by simp)⟩
  have hlast : e ≠ [] → last' = last := by
    intro hne
    obtain ⟨a, l, rfl⟩ := List.exists_cons_of_ne_nil hne
    rw [List.getLast?_cons_cons] at hl hl'
    rw [hl] at hl'
    cases hl'
    rfl
  have hd := draw_trace { p with onCurve := true } rfl _ e { p with onCurve := true } last' s (Nat.le_refl _) hs hl'
  have hseg : segments (.moveTo (place p) :: s.map elem ++ [.closePath]) = .ok s := segments_closed { p with onCurve := true } e s hs
  obtain ⟨pen, hpen⟩ := segmentsFrom_ends (place p) [] (drawLoop [] e).1 (place p) (drawLoop_plain e [])
  refine ⟨_, e, segmentsFrom (place p) (place p) ((drawLoop [] e).1 ++ drawEnd p last (drawLoop [] e).2), hpath, hm, rfl, fun half => ?_⟩
  rw [ho half]
  have hs2 : segmentsFrom (place p) (place p) ((drawLoop [] e).1 ++ drawEnd { p with onCurve := true } last' (drawLoop [] e).2) = s := by
    rw [hd]
    rw [List.cons_append] at hseg
    unfold segments at hseg
    simp only [segmentsFrom] at hseg
    cases hseg2 : segmentsFrom (place p) (place p) (s.map elem ++ [.closePath]) with
    | nil => rw [hseg2] at hseg; injection hseg
    | cons a l => rw [hseg2] at hseg; injection hseg
  by_cases hne : e = []
  · subst hne
    right
    simp only [drawLoop, List.nil_append] at hs2 ⊢
    have h1 : last = p := by simpa using hl.symm
    have h2 : last' = { p with onCurve := true } := by simpa using hl'.symm
    subst h1 h2
    rw [← hs2]
    simp [drawEnd, hp, segmentsFrom, place_pt]
    rfl
  · rw [hlast hne] at hs2
    rcases drawEnd_off p { p with onCurve := true } last hp rfl rfl (drawLoop [] e).2 with h | ⟨_, hlo, h1, h2⟩
    · left
      rw [← h, hs2]
    · rw [h1, hpen] at hs2
      rw [h2, hpen]
      by_cases hpe : pen = place p
      · right
        rw [← hs2, hpe]
        simp [segmentsFrom]
      · left
        rw [← hs2]
        simp [segmentsFrom, hpe]

/-- **C98** (which is wrong). For such a contour the path is not the outline: here a curve is lost. -/
theorem C98_off_first_wrong : ∃ (c : List Point) (path : List PathEl) (segs : List PathSeg), MiddlesFit c ∧ MiddlesWhole c ∧ toPath c = .ok path ∧
    segments path = .ok segs ∧ outline middle c = [.quad ⟨10, 10⟩ ⟨0, 0⟩ ⟨10, 0⟩, .line ⟨10, 0⟩ ⟨10, 10⟩] ∧
    segs = [.line ⟨0, 0⟩ ⟨10, 0⟩, .line ⟨10, 0⟩ ⟨10, 10⟩, .line ⟨10, 10⟩ ⟨0, 0⟩] := by
  refine ⟨[⟨0, 0, false⟩, ⟨10, 0, true⟩, ⟨10, 10, true⟩], _, _, ?_, ?_, rfl, rfl, by decide +kernel, by decide +kernel⟩
  all_goals
    intro i a b h1 h2 ha hb
    match i, h1, h2 with
    | 0, h1, h2 => cases h2; cases hb
    | 1, h1, h2 => cases h2; cases hb
    | i + 2, h1, h2 => simp at h2

/-! ### Paths as contours -/

theorem toPoint_place (p : Pt) (on : Bool) : CutPt p (place (p.toPoint on)) := ⟨p.toPoint on, rfl, cutTo_q _, cutTo_q _⟩

/-- The segments follow each other, from `p`. -/
def Joined : Pt → List PathSeg → Prop
  | _, [] => True
  | p, .line a q :: l => a = p ∧ Joined q l
  | p, .quad a _ q :: l => a = p ∧ Joined q l
  | p, .cubic a _ _ q :: l => a = p ∧ Joined q l

theorem segmentsFrom_joined (start : Pt) : ∀ (l : List PathEl) (last : Pt), (∀ x ∈ l, isMove x = false) → Joined last (segmentsFrom start last l)
  | [], _, _ => trivial
  | x :: l, last, h => by
    have hr := fun q => segmentsFrom_joined start l q (fun y hy => h y (List.mem_cons_of_mem _ hy))
    have hx := h x List.mem_cons_self
    cases x with
    | moveTo p => cases hx
    | lineTo p => exact ⟨rfl, hr p⟩
    | quadTo c p => exact ⟨rfl, hr p⟩
    | curveTo c d p => exact ⟨rfl, hr p⟩
    | closePath =>
      unfold segmentsFrom
      split
      · exact ⟨rfl, hr start⟩
      · exact hr last

/-- The place of a cut point. -/
def cutPlace (p : Pt) : Pt := place (p.toPoint true)

theorem place_toPoint (p : Pt) (on : Bool) : place (p.toPoint on) = cutPlace p := rfl

theorem trace_chain (p : Point) (hp : p.onCurve = true) : ∀ (qs : List (Pt × Pt)) (a : Pt), place p = cutPlace a → ∀ (e : Pt × Pt), qs.getLast? = some e →
    ∀ (l : List Point) (s : List PathSeg), Trace (e.2.toPoint true :: l) s →
    Trace (p :: qs.flatMap (fun s => [s.1.toPoint false, s.2.toPoint true]) ++ l) ((quadChain a qs).map (movePoints cutPlace) ++ s) := by
  intro qs
  induction qs generalizing p with
  | nil => intro a _ e he; cases he
  | cons x qs ih =>
    intro a ha e he l s h
    obtain ⟨c, q⟩ := x
    have hrest : Trace (q.toPoint true :: (qs.flatMap (fun s => [s.1.toPoint false, s.2.toPoint true]) ++ l))
        ((quadChain q qs).map (movePoints cutPlace) ++ s) := by
      cases qs with
      | nil =>
        cases he
        exact h
      | cons y qs => exact ih (q.toPoint true) rfl q rfl e (by rw [← he]; simp [List.getLast?_cons]) l s h
    have := Trace.quad p (c.toPoint false) (q.toPoint true) _ _ hp rfl rfl hrest
    simp only [quadChain, List.map_cons, movePoints, List.flatMap_cons, List.cons_append, List.nil_append, ← ha]
    exact this

theorem trace_pushes (quads : Pt → Pt → Pt → Pt → List (Pt × Pt)) (hk : KeepsEnds quads) : ∀ (segs : List PathSeg) (p : Pt), Joined p segs →
    Trace (p.toPoint true :: segs.flatMap (pushSegment quads)) ((segs.flatMap (quadratic quads)).map (movePoints cutPlace))
  | [], p, _ => .one _ rfl
  | .line a q :: l, p, h => by
    obtain ⟨rfl, h⟩ := h
    exact .line (a.toPoint true) (q.toPoint true) _ _ rfl rfl (trace_pushes quads hk l q h)
  | .quad a c q :: l, p, h => by
    obtain ⟨rfl, h⟩ := h
    exact .quad (a.toPoint true) (c.toPoint false) (q.toPoint true) _ _ rfl rfl rfl (trace_pushes quads hk l q h)
  | .cubic a c d q :: l, p, h => by
    obtain ⟨rfl, h⟩ := h
    obtain ⟨e, he, rfl⟩ := hk a c d q
    have := trace_chain (a.toPoint true) rfl (quads a c d e.2) a rfl e he _ _ (trace_pushes quads hk l e.2 h)
    simpa [List.flatMap_cons, pushSegment, quadratic] using this

theorem joined_end : ∀ (segs : List PathSeg) (p : Pt) (quads : Pt → Pt → Pt → Pt → List (Pt × Pt)), KeepsEnds quads → Joined p segs →
    ((p.toPoint true :: segs.flatMap (pushSegment quads)).getLast?) = some ((pathEnd p segs).toPoint true)
  | [], p, _, _, _ => rfl
  | s :: l, p, quads, hk, h => by
    have key : ∀ q, Joined q l → segEnd s = q → (∃ t, pushSegment quads s = t ++ [q.toPoint true]) →
        ((p.toPoint true :: (s :: l).flatMap (pushSegment quads)).getLast?) = some ((pathEnd p (s :: l)).toPoint true) := by
      intro q hj hq ⟨t, ht⟩
      have ih := joined_end l q quads hk hj
      have e1 : p.toPoint true :: (s :: l).flatMap (pushSegment quads) =
          (p.toPoint true :: t) ++ (q.toPoint true :: l.flatMap (pushSegment quads)) := by
        rw [List.flatMap_cons, ht]; simp
      rw [e1, List.getLast?_append, ih]
      have e2 : pathEnd p (s :: l) = pathEnd q l := by
        unfold pathEnd
        cases l with
        | nil => simpa using hq
        | cons s2 l => rw [List.getLast?_cons_cons, List.getLast?_eq_some_getLast (by simp)]
      rw [e2]
      rfl
    cases s with
    | line a q => exact key q h.2 rfl ⟨[], rfl⟩
    | quad a c q => exact key q h.2 rfl ⟨[c.toPoint false], rfl⟩
    | cubic a c d q =>
      refine key q h.2 rfl ?_
      obtain ⟨e, he, rfl⟩ := hk a c d q
      obtain ⟨ys, hys⟩ := List.getLast?_eq_some_iff.mp he
      refine ⟨ys.flatMap (fun s => [s.1.toPoint false, s.2.toPoint true]) ++ [e.1.toPoint false], ?_⟩
      simp only [pushSegment]
      rw [hys]
      simp

/-- **C98** (a path as a contour). A path of one subpath becomes a contour with all points on it. The outline of the contour
is the path backwards, with coordinates cut to 16 bits and cubic curves replaced by the quadratic curves kurbo gives for
them, followed by a line from the start of the path to its end. (If the path is closed, this line has no length.) -/
theorem C98_from_path (quads : Pt → Pt → Pt → Pt → List (Pt × Pt)) (hk : KeepsEnds quads) (p : Pt) (body : List PathEl)
    (hb : ∀ x ∈ body, isMove x = false) :
    ∃ (cut : Pt → Pt) (segs : List PathSeg) (c : List Point), (∀ q, CutPt q (cut q)) ∧ segments (.moveTo p :: body) = .ok segs ∧
      fromPath quads (.moveTo p :: body) = .ok c ∧
      ∀ half, outline half c = (((segs.flatMap (quadratic quads)).map (movePoints cut)).map backwards).reverse ++
        [.line (cut p) (cut (pathEnd p segs))] := by
  have hj : Joined p (segmentsFrom p p body) := segmentsFrom_joined p body p hb
  have hseg : segments (.moveTo p :: body) = .ok (segmentsFrom p p body) := rfl
  have hc : fromPath quads (.moveTo p :: body) = .ok (p.toPoint true :: (segmentsFrom p p body).flatMap (pushSegment quads)).reverse := by
    unfold fromPath
    rw [hseg]
    simp [Res.ok_bind]
  refine ⟨cutPlace, segmentsFrom p p body, _, fun q => toPoint_place q true, hseg, hc, fun half => ?_⟩
  have ht := trace_reverse (trace_pushes quads hk _ p hj)
  have hl := joined_end _ p quads hk hj
  generalize segmentsFrom p p body = segs at *
  generalize hL : p.toPoint true :: segs.flatMap (pushSegment quads) = L at *
  have hrev : ∃ t, L.reverse = (pathEnd p segs).toPoint true :: t := by
    cases hr : L.reverse with
    | nil => rw [List.reverse_eq_nil_iff] at hr; subst hr; cases hl
    | cons a t =>
      have : L.getLast? = some a := by rw [← List.head?_reverse, hr]; rfl
      rw [hl] at this
      cases this
      exact ⟨t, rfl⟩
  have hlast : L.reverse.getLast? = some (p.toPoint true) := by
    rw [List.getLast?_reverse, ← hL]; rfl
  obtain ⟨t, hr⟩ := hrev
  have hsn := trace_snoc_line ht ((pathEnd p segs).toPoint true) rfl (p.toPoint true) hlast
  rw [hr] at hsn ⊢
  have := pieces_trace half ((pathEnd p segs).toPoint true) rfl _ _ _
    (((pathEnd p segs).toPoint true :: t).getLast (by simp)) (Nat.le_refl _) (by simp) hsn
  show pieces half _ (_ :: t) _ = _
  rw [this, List.map_reverse]
  rfl

example : ∃ c, fromPath (fun _ c _ q => [(c, q)]) [.moveTo ⟨0, 0⟩, .lineTo ⟨10, 0⟩, .quadTo ⟨15, 5⟩ ⟨3 / 2, 20⟩, .closePath] = .ok c ∧
    c = [⟨0, 0, true⟩, ⟨1, 20, true⟩, ⟨15, 5, false⟩, ⟨10, 0, true⟩, ⟨0, 0, true⟩] :=
  ⟨_, rfl, by decide +kernel⟩

/-- **C98** (whole coordinates). Coordinates which are whole and fit are not changed by the cut. -/
theorem C98_cut_whole (a : Point) (q : Pt) (h : CutPt (place a) q) : q = place a := by
  obtain ⟨b, rfl, hx, hy⟩ := h
  have key : ∀ (m n : Int16), CutTo (m.toInt : ℚ) n → n = m := by
    intro m n h
    have h1 := m.le_toInt
    have h2 := m.toInt_lt
    have q2 : (m.toInt : ℚ) ≤ 32767 := by exact_mod_cast (by omega : m.toInt ≤ 32767)
    have q1 : (-32768 : ℚ) ≤ m.toInt := by exact_mod_cast h1
    apply Int16.toInt_inj.mp
    by_cases h0 : 0 ≤ m.toInt
    · obtain ⟨a1, a2⟩ := h.pos (by exact_mod_cast h0) q2
      have b1 : n.toInt ≤ m.toInt := by exact_mod_cast a1
      have b2 : m.toInt < n.toInt + 1 := by exact_mod_cast a2
      omega
    · obtain ⟨a1, a2⟩ := h.neg (by exact_mod_cast (by omega : m.toInt ≤ 0)) q1
      have b1 : m.toInt ≤ n.toInt := by exact_mod_cast a1
      have b2 : n.toInt < m.toInt + 1 := by exact_mod_cast (by linarith : (n.toInt : ℚ) < m.toInt + 1)
      omega
  unfold place at hx hy ⊢
  rw [key a.x b.x hx, key a.y b.y hy]

/-- **C98** (further subpaths). The start of a second subpath is lost: its first line begins at the end of the first subpath. -/
theorem C98_subpaths_merge : ∃ (quads : Pt → Pt → Pt → Pt → List (Pt × Pt)) (path : List PathEl) (c : List Point), fromPath quads path = .ok c ∧
    (∃ a b : Pt, .line a b ∈ outline middle c.reverse ∧ a = ⟨5, 0⟩ ∧ b = ⟨30, 30⟩) ∧
    path = [.moveTo ⟨0, 0⟩, .lineTo ⟨5, 0⟩, .moveTo ⟨20, 20⟩, .lineTo ⟨30, 30⟩] ∧ ∀ x ∈ c, place x ≠ ⟨20, 20⟩ :=
  ⟨fun _ c _ q => [(c, q)], _, _, rfl, ⟨⟨5, 0⟩, ⟨30, 30⟩, by decide +kernel, rfl, rfl⟩, rfl, by decide +kernel⟩

/-- **C98** (panics). An empty path panics, and so does one beginning with closing the path. -/
theorem C98_from_path_panics (quads : Pt → Pt → Pt → Pt → List (Pt × Pt)) (path : List PathEl) (h : path.head? = none ∨ path.head? = some .closePath) :
    fromPath quads path = .panic := by
  cases path with
  | nil => rfl
  | cons x l =>
    rcases h with h | h
    · cases h
    · cases h; rfl

/-! ### There and back -/

theorem pushes_trace (quads : Pt → Pt → Pt → Pt → List (Pt × Pt)) {l : List Point} {s : List PathSeg} (h : Trace l s) :
    s.flatMap (pushSegment quads) = l.tail := by
  have key : ∀ p : Point, (place p).toPoint p.onCurve = p := by
    intro p
    unfold Pt.toPoint place
    simp only [qToI16_int]
  induction h with
  | one p hp => rfl
  | line p q r s hp hq h ih =>
    have := key q
    rw [hq] at this
    simp only [List.flatMap_cons, pushSegment, ih, List.tail_cons, this]
    rfl
  | quad p c q r s hp hc hq h ih =>
    have h1 := key q
    have h2 := key c
    rw [hq] at h1
    rw [hc] at h2
    simp only [List.flatMap_cons, pushSegment, ih, List.tail_cons, h1, h2]
    rfl

/-- **C98** (there and back). A contour whose first point is on the curve, as a path and back as a contour, runs the other way:
it has the same points and the middles of the off-curve points, in reverse order, and the first point once more. -/
theorem C98_there_and_back (quads : Pt → Pt → Pt → Pt → List (Pt × Pt)) (p : Point) (c : List Point) (hp : p.onCurve = true)
    (hfit : MiddlesFit (p :: c)) :
    ∃ path e, toPath (p :: c) = .ok path ∧ MadeExplicit (p :: c) (p :: e) ∧ fromPath quads path = .ok (p :: e.reverse ++ [p]) := by
  obtain ⟨e', he, hm⟩ := (C30_explicit (p :: c) (by simp)).1 hfit
  obtain ⟨e, rfl⟩ := insertExplicit_head he
  obtain ⟨s, hs, hpath⟩ := toPath_trace _ p e he hp
  refine ⟨_, e, hpath, hm, ?_⟩
  have h1 := segments_closed p e s hs
  have h2 := pushes_trace quads hs
  have h3 : (place p).toPoint true = p := by
    unfold Pt.toPoint place
    simp only [qToI16_int]
    rw [← hp]
  unfold fromPath
  rw [h1]
  simp only [Res.ok_bind, List.cons_append, h2, h3]
  simp

example : fromPath (fun _ c _ q => [(c, q)]) [.moveTo ⟨0, 0⟩, .quadTo ⟨0, 10⟩ ⟨5, 15⟩, .quadTo ⟨10, 20⟩ ⟨20, 10⟩, .lineTo ⟨0, 0⟩, .closePath] =
    .ok [⟨0, 0, true⟩, ⟨20, 10, true⟩, ⟨10, 20, false⟩, ⟨5, 15, true⟩, ⟨0, 10, false⟩, ⟨0, 0, true⟩] := by decide +kernel

end FT.Props
