import Verif.Model.Crunch
import Verif.Props.ContourOutline
import Verif.Props.Overlap

/-!
C100: what `fontcrunch` makes of a contour, apart from what the optimiser makes of a stretch.
-/

namespace FT.Props
open FT FT.Glyf FT.Crunch

/-! ### Specification -/

/-- A segment without cubic curves. -/
def notCubic : PathSeg → Prop
  | .cubic _ _ _ _ => False
  | _ => True

/-- A segment as a quadratic curve: a line has its control point halfway. -/
def curveOf : PathSeg → Quad
  | .line p q => ⟨p, ⟨(p.x + q.x) / 2, (p.y + q.y) / 2⟩, q⟩
  | .quad p c q => ⟨p, c, q⟩
  | .cubic p _ _ q => ⟨p, p, q⟩

/-- The control point of a curve lies within `1/10^8` of the point halfway between its ends. -/
def Straight (q : Quad) : Prop := |q.p1.x - (q.p0.x + q.p2.x) / 2| < 1 / 100000000 ∧ |q.p1.y - (q.p0.y + q.p2.y) / 2| < 1 / 100000000

instance (q : Quad) : Decidable (Straight q) := by unfold Straight; infer_instance

/-- How a curve is drawn: a straight one as a line. -/
def drawn (q : Quad) : PathEl := if Straight q then .lineTo q.p2 else .quadTo q.p1 q.p2

/-- The stretch from segment `a` on, up to segment `b`, without the latter. -/
def segsBetween (segs : List PathSeg) (a b : Nat) : List PathSeg := (segs.take b).drop a

/-- What is drawn for the stretches between neighbouring breaks: a single line stays, and anything else is what the optimiser says. -/
inductive Crunched (opt : Optimiser) (segs : List PathSeg) : List Nat → List PathEl → Prop
  | none : Crunched opt segs [] []
  | last (b : Nat) : Crunched opt segs [b] []
  | line (a b : Nat) (l : List Nat) (p q : Pt) (els : List PathEl) : segsBetween segs a b = [.line p q] → Crunched opt segs (b :: l) els →
      Crunched opt segs (a :: b :: l) (.lineTo q :: els)
  | other (a b : Nat) (l : List Nat) (new : List Quad) (els : List PathEl) : (∀ p q, segsBetween segs a b ≠ [.line p q]) →
      opt ((segsBetween segs a b).map curveOf) = .ok (some new) → Crunched opt segs (b :: l) els →
      Crunched opt segs (a :: b :: l) (new.map drawn ++ els)

/-- A corner of a polygon: the sine of the angle between its sides is above `0.02`, or one of them has no length. -/
def Corner (a b c : Point) : Prop :=
  place a = place b ∨ place b = place c ∨
    (((place b).x - (place a).x) * ((place c).y - (place b).y) - ((place b).y - (place a).y) * ((place c).x - (place b).x)) ^ 2 >
      (2 / 100) ^ 2 * (((place b).x - (place a).x) ^ 2 + ((place b).y - (place a).y) ^ 2) *
        (((place c).x - (place b).x) ^ 2 + ((place c).y - (place b).y) ^ 2)

/-- A closed contour of lines, each two of which meet in a corner. -/
def Polygon (c : List Point) : Prop :=
  c ≠ [] ∧ (∀ p ∈ c, p.onCurve = true) ∧
  ∀ (i : Nat) (a b d : Point), c[i]? = some a → c[(i + 1) % c.length]? = some b → c[(i + 2) % c.length]? = some d → Corner a b d

/-- An optimiser which leaves everything as it is. -/
def leaveAll : Optimiser := fun qs => .ok (some qs)

/-! ### Breaks -/

theorem chord_ok {s : PathSeg} (h : notCubic s) : ∃ d, chord s = .ok d := by cases s <;> first | exact ⟨_, rfl⟩ | exact h.elim
theorem arrives_ok {s : PathSeg} (h : notCubic s) : ∃ d, arrives s = .ok d := by cases s <;> first | exact ⟨_, rfl⟩ | exact h.elim
theorem leaves_ok {s : PathSeg} (h : notCubic s) : ∃ d, leaves s = .ok d := by cases s <;> first | exact ⟨_, rfl⟩ | exact h.elim

theorem segAt_ok {segs : List PathSeg} (h : ∀ s ∈ segs, notCubic s) {i : Nat} (hi : i < segs.length) : ∃ s, segAt segs i = .ok s ∧ segs[i]? = some s ∧ notCubic s := by
  refine ⟨segs[i], ?_, List.getElem?_eq_getElem hi, h _ (List.getElem_mem hi)⟩
  unfold segAt
  rw [List.getElem?_eq_getElem hi]

theorem signLoop_ok {segs : List PathSeg} (h : ∀ s ∈ segs, notCubic s) (hne : segs ≠ []) : ∀ (k : Nat) (x y : ℚ) (res : List Nat),
    ∃ r, signLoop segs k x y res = .ok r
  | 0, _, _, res => ⟨res, rfl⟩
  | k + 1, x, y, res => by
    have hpos : 0 < segs.length := List.length_pos_iff.mpr hne
    obtain ⟨s, e, _, hs⟩ := segAt_ok h (Nat.mod_lt (2 * segs.length - (k + 1)) hpos)
    obtain ⟨d, hd⟩ := chord_ok hs
    unfold signLoop
    simp only [e, hd, Res.ok_bind]
    split
    · exact signLoop_ok h hne k _ _ _
    · exact signLoop_ok h hne k _ _ _

theorem cornerLoop_ok {segs : List PathSeg} (h : ∀ s ∈ segs, notCubic s) : ∀ (k : Nat) (res : List Nat), k ≤ segs.length →
    ∃ r, cornerLoop segs k res = .ok r ∧ (∀ i ∈ res, i ∈ r) ∧
      ∀ i s0 s1 d0 d1, segs.length - k ≤ i → i < segs.length → segs[if i = 0 then segs.length - 1 else i - 1]? = some s0 → segs[i]? = some s1 →
        arrives s0 = .ok d0 → leaves s1 = .ok d1 → isCorner d0 d1 = true → i ∈ r
  | 0, res, _ => ⟨res, rfl, fun _ h => h, fun i _ _ _ _ h1 h2 => by omega⟩
  | k + 1, res, hk => by
    obtain ⟨s0, e0, g0, hs0⟩ := segAt_ok h (i := if segs.length - (k + 1) = 0 then segs.length - 1 else segs.length - (k + 1) - 1) (by split <;> omega)
    obtain ⟨s1, e1, g1, hs1⟩ := segAt_ok h (i := segs.length - (k + 1)) (by omega)
    obtain ⟨d0, hd0⟩ := arrives_ok hs0
    obtain ⟨d1, hd1⟩ := leaves_ok hs1
    obtain ⟨r, er, hsub, hall⟩ := cornerLoop_ok h k (if isCorner d0 d1 then (segs.length - (k + 1)) :: res else res) (by omega)
    refine ⟨r, ?_, ?_, ?_⟩
    · unfold cornerLoop
      simp only [e0, e1, hd0, hd1, Res.ok_bind]
      exact er
    · intro i hi
      apply hsub
      split
      · exact List.mem_cons_of_mem _ hi
      · exact hi
    · intro i t0 t1 f0 f1 h1 h2 a0 a1 b0 b1 hc
      by_cases he : i = segs.length - (k + 1)
      · subst he
        rw [g0] at a0; cases a0
        rw [g1] at a1; cases a1
        rw [hd0] at b0; cases b0
        rw [hd1] at b1; cases b1
        apply hsub
        rw [if_pos hc]
        exact List.mem_cons_self
      · exact hall i t0 t1 f0 f1 (by omega) h2 a0 a1 b0 b1 hc

theorem breaks_ok {segs : List PathSeg} (h : ∀ s ∈ segs, notCubic s) : ∃ bks, breaks segs = .ok bks ∧ bks.Pairwise (· < ·) ∧
    (∀ i ∈ bks, i < segs.length) ∧ (∃ f, bks = (List.range segs.length).filter f) ∧
      ∀ i s0 s1 d0 d1, i < segs.length → segs[if i = 0 then segs.length - 1 else i - 1]? = some s0 → segs[i]? = some s1 →
        arrives s0 = .ok d0 → leaves s1 = .ok d1 → isCorner d0 d1 = true → i ∈ bks := by
  by_cases hne : segs = []
  · subst hne
    exact ⟨[], rfl, List.Pairwise.nil, by simp, ⟨fun _ => true, rfl⟩, by intro i _ _ _ _ hi; simp at hi⟩
  · obtain ⟨r1, e1⟩ := signLoop_ok h hne (2 * segs.length) 0 0 []
    obtain ⟨r2, e2, _, hall⟩ := cornerLoop_ok h segs.length r1 (Nat.le_refl _)
    refine ⟨(List.range segs.length).filter (fun i => r2.contains i), ?_, ?_, ?_, ⟨_, rfl⟩, ?_⟩
    · unfold breaks
      rw [e1, Res.ok_bind, e2]
      rfl
    · exact List.Pairwise.filter _ List.pairwise_lt_range
    · intro i hi
      rw [List.mem_filter] at hi
      exact List.mem_range.mp hi.1
    · intro i s0 s1 d0 d1 hi g0 g1 a0 a1 hc
      rw [List.mem_filter]
      refine ⟨List.mem_range.mpr hi, ?_⟩
      simp [hall i s0 s1 d0 d1 (by omega) hi g0 g1 a0 a1 hc]

/-! ### Stretches -/

theorem midPt_eq (p q : Pt) : midPt p q = ⟨(p.x + q.x) / 2, (p.y + q.y) / 2⟩ := by
  unfold midPt
  congr 1 <;> ring

theorem isLine_iff (q : Quad) : q.isLine = true ↔ Straight q := by
  unfold Quad.isLine isClose Straight
  rw [midPt_eq]
  simp

theorem quadEl_eq (q : Quad) : quadEl q = drawn q := by
  unfold quadEl drawn
  by_cases h : Straight q
  · rw [if_pos h, if_pos ((isLine_iff q).mpr h)]
  · rw [if_neg h, if_neg (fun e => h ((isLine_iff q).mp e))]

theorem asQuad_eq {s : PathSeg} (h : notCubic s) : asQuad s = .ok (curveOf s) := by
  cases s with
  | line p q => show Res.ok (Quad.mk p (midPt p q) q) = _; rw [midPt_eq]; rfl
  | quad p c q => rfl
  | cubic => exact h.elim

theorem asQuads_eq : ∀ {l : List PathSeg}, (∀ s ∈ l, notCubic s) → Res.mapL asQuad l = .ok (l.map curveOf)
  | [], _ => rfl
  | s :: l, h => by
    unfold Res.mapL
    rw [asQuad_eq (h s List.mem_cons_self), asQuads_eq (fun t ht => h t (List.mem_cons_of_mem _ ht))]
    rfl

theorem stretch_mem {segs : List PathSeg} {a b : Nat} {s : PathSeg} (h : s ∈ segsBetween segs a b) : s ∈ segs :=
  List.mem_of_mem_take (List.mem_of_mem_drop h)

theorem stretch_one {segs : List PathSeg} {a : Nat} {s : PathSeg} (h : segs[a]? = some s) : segsBetween segs a (a + 1) = [s] := by
  unfold segsBetween
  have hl : a < segs.length := (List.getElem?_eq_some_iff.mp h).1
  rw [List.take_succ, List.drop_append_of_le_length (by simp; omega), h]
  simp [List.drop_take]

theorem stretch_length {segs : List PathSeg} {a b : Nat} (h : b ≤ segs.length) : (segsBetween segs a b).length = b - a := by
  unfold segsBetween
  rw [List.length_drop, List.length_take]
  omega

theorem stretch_append {segs : List PathSeg} {a b c : Nat} (h1 : a ≤ b) (h2 : b ≤ c) : segsBetween segs a b ++ segsBetween segs b c = segsBetween segs a c := by
  unfold segsBetween
  have : segs.take c = segs.take b ++ (segs.take c).drop b := by
    have := (List.take_append_drop b (segs.take c)).symm
    rwa [List.take_take, Nat.min_eq_left h2] at this
  by_cases hb : b ≤ segs.length
  · conv_rhs => rw [this]
    rw [List.drop_append_of_le_length (by rw [List.length_take]; omega)]
  · rw [List.take_of_length_le (i := b) (by omega), List.take_of_length_le (i := c) (by omega), List.drop_of_length_le (i := b) (by omega), List.append_nil]

/-- Which case the code takes. -/
theorem alone_iff {segs : List PathSeg} {a b : Nat} {s : PathSeg} (hc : ∀ s ∈ segs, notCubic s) (hab : a < b) (hb : b < segs.length) (hs : segs[a]? = some s) :
    (b ≠ (a + 1) % segs.length ∨ isQuad s = true) ↔ ∀ p q, segsBetween segs a b ≠ [.line p q] := by
  rw [Nat.mod_eq_of_lt (by omega)]
  constructor
  · intro h p q e
    have hl := stretch_length (segs := segs) (a := a) (b := b) (by omega)
    rw [e] at hl
    simp at hl
    have hba : b = a + 1 := by omega
    subst hba
    rw [stretch_one hs] at e
    cases e
    rcases h with h | h
    · exact h rfl
    · cases h
  · intro h
    by_cases hba : b = a + 1
    · subst hba
      right
      rw [stretch_one hs] at h
      cases s with
      | line p q => exact (h p q rfl).elim
      | quad p c q => rfl
      | cubic => exact (hc _ (List.mem_of_getElem? hs)).elim
    · exact Or.inl hba

theorem crunchLoop_spec (opt : Optimiser) {segs : List PathSeg} (hc : ∀ s ∈ segs, notCubic s) : ∀ (bks : List Nat), bks.Pairwise (· < ·) →
    (∀ i ∈ bks, i < segs.length) → ∀ els, crunchLoop opt segs bks = .ok (some els) ↔ Crunched opt segs bks els
  | [], _, _, els => by
    constructor
    · intro h; cases h; exact .none
    · intro h; cases h; rfl
  | [b], _, _, els => by
    constructor
    · intro h; cases h; exact .last b
    · intro h; cases h; rfl
  | a :: b :: l, hp, hl, els => by
    have hab : a < b := (List.pairwise_cons.mp hp).1 b (by simp)
    have hb : b < segs.length := hl b (by simp)
    obtain ⟨s, es, gs, hs⟩ := segAt_ok hc (i := a) (by omega)
    have ih := crunchLoop_spec opt hc (b :: l) (List.pairwise_cons.mp hp).2 (fun i hi => hl i (List.mem_cons_of_mem _ hi))
    have hiff := alone_iff hc hab hb gs
    have hmap := asQuads_eq (l := segsBetween segs a b) (fun s h => hc s (stretch_mem h))
    unfold crunchLoop
    rw [es]
    simp only [Res.ok_bind]
    have hq : (fun q => quadEl q) = drawn := funext quadEl_eq
    by_cases hcase : b ≠ (a + 1) % segs.length ∨ isQuad s = true
    · rw [if_pos hcase]
      rw [show List.drop a (List.take b segs) = segsBetween segs a b from rfl, hmap, Res.ok_bind]
      constructor
      · intro h
        obtain ⟨new, hnew, h⟩ := Res.bind_inv h
        cases new with
        | none => cases h
        | some new =>
          obtain ⟨rest, hrest, h⟩ := Res.bind_inv h
          cases rest with
          | none => cases h
          | some rest =>
            simp only [Option.map_some, Res.pure_eq, Res.ok.injEq, Option.some.injEq] at h
            rw [← h, show quadEl = drawn from hq]
            exact .other a b l new rest (hiff.mp hcase) hnew ((ih rest).mp hrest)
      · intro h
        cases h with
        | line _ _ _ p q els he hr => exact (hiff.mp hcase p q he).elim
        | other _ _ _ new els hno hopt hr =>
          rw [hopt]
          simp only [Res.ok_bind, (ih els).mpr hr]
          rw [show quadEl = drawn from hq]
          rfl
    · rw [if_neg hcase]
      have hex : ∃ p q, segsBetween segs a b = [.line p q] := by
        by_contra hno
        apply hcase
        rw [hiff]
        intro p q e
        exact hno ⟨p, q, e⟩
      obtain ⟨p, q, he⟩ := hex
      have hel : s = .line p q := by
        have hba : b = a + 1 := by
          have hl := stretch_length (segs := segs) (a := a) (b := b) (by omega)
          rw [he] at hl
          simp at hl
          omega
        subst hba
        rw [stretch_one gs] at he
        cases he; rfl
      subst hel
      constructor
      · intro h
        obtain ⟨rest, hrest, h⟩ := Res.bind_inv h
        cases rest with
        | none => cases h
        | some rest =>
          simp only [Option.map_some, Res.pure_eq, Res.ok.injEq, Option.some.injEq] at h
          rw [← h]
          exact .line a b l p q rest he ((ih rest).mp hrest)
      · intro h
        cases h with
        | line _ _ _ p' q' els he' hr =>
          rw [he] at he'
          cases he'
          rw [(ih els).mpr hr]
          rfl
        | other _ _ _ new els hno hopt hr => exact (hno p q he).elim

theorem crunchLoop_none (opt : Optimiser) {segs : List PathSeg} (hc : ∀ s ∈ segs, notCubic s) : ∀ (bks : List Nat), bks.Pairwise (· < ·) →
    (∀ i ∈ bks, i < segs.length) → crunchLoop opt segs bks = .ok none →
    ∃ i a b, bks[i]? = some a ∧ bks[i + 1]? = some b ∧ opt ((segsBetween segs a b).map curveOf) = .ok none
  | [], _, _, h => by cases h
  | [b], _, _, h => by cases h
  | a :: b :: l, hp, hl, h => by
    have hab : a < b := (List.pairwise_cons.mp hp).1 b (by simp)
    have hb : b < segs.length := hl b (by simp)
    obtain ⟨s, es, gs, hs⟩ := segAt_ok hc (i := a) (by omega)
    have ih := crunchLoop_none opt hc (b :: l) (List.pairwise_cons.mp hp).2 (fun i hi => hl i (List.mem_cons_of_mem _ hi))
    have hmap := asQuads_eq (l := segsBetween segs a b) (fun s h => hc s (stretch_mem h))
    have later : crunchLoop opt segs (b :: l) = .ok none →
        ∃ i a' b', (a :: b :: l)[i]? = some a' ∧ (a :: b :: l)[i + 1]? = some b' ∧ opt ((segsBetween segs a' b').map curveOf) = .ok none := by
      intro e
      obtain ⟨i, a', b', h1, h2, h3⟩ := ih e
      exact ⟨i + 1, a', b', by simpa using h1, by simpa using h2, h3⟩
    unfold crunchLoop at h
    rw [es] at h
    simp only [Res.ok_bind] at h
    split at h
    · rw [show List.drop a (List.take b segs) = segsBetween segs a b from rfl, hmap, Res.ok_bind] at h
      obtain ⟨new, hnew, h⟩ := Res.bind_inv h
      cases new with
      | none => exact ⟨0, a, b, rfl, rfl, hnew⟩
      | some new =>
        obtain ⟨rest, hrest, h⟩ := Res.bind_inv h
        cases rest with
        | none => exact later hrest
        | some rest => cases h
    · obtain ⟨rest, hrest, h⟩ := Res.bind_inv h
      cases rest with
      | none => exact later hrest
      | some rest => cases h

theorem piece_notCubic (half : Point → Point → Pt) (a b c : Point) : ∀ s ∈ piece half a b c, notCubic s := by
  intro s h
  unfold piece at h
  split at h
  · split at h
    · simp only [List.mem_singleton] at h; subst h; trivial
    · simp at h
  · simp only [List.mem_singleton] at h; subst h; trivial

theorem pieces_notCubic (half : Point → Point → Pt) (x : Point) : ∀ (l : List Point) (a : Point), ∀ s ∈ pieces half a l x, notCubic s
  | [], _ => by simp [pieces]
  | [p], a => piece_notCubic half a p x
  | p :: q :: r, a => by
    intro s h
    rcases List.mem_append.mp h with h | h
    · exact piece_notCubic half a p q s h
    · exact pieces_notCubic half x (q :: r) p s h

theorem outline_notCubic (half : Point → Point → Pt) (c : List Point) : ∀ s ∈ outline half c, notCubic s := by
  cases c with
  | nil => simp [outline]
  | cons p r => exact pieces_notCubic half p (p :: r) _

/-- The path of a contour, its segments, and what is done with them. -/
theorem path_of (p : Point) (c : List Point) (hp : p.onCurve = true) (hfit : MiddlesFit (p :: c)) :
    ∃ e path, insertExplicit (p :: c) = .ok (p :: e) ∧ toPath (p :: c) = .ok path ∧ path.head? = some (.moveTo (place p)) ∧
      segments path = .ok (outline wholeMiddle (p :: c)) ∧ Trace (p :: e ++ [p]) (outline wholeMiddle (p :: c)) := by
  obtain ⟨e, he, hm⟩ := (C30_explicit (p :: c) (by simp)).1 hfit
  obtain ⟨t, rfl⟩ := insertExplicit_head he
  obtain ⟨s, hs, hpath⟩ := toPath_trace _ p t he hp
  have hseg := segments_closed p t s hs
  have ho : outline wholeMiddle (p :: c) = s := by
    rw [outline_explicit hp hm]
    exact pieces_trace wholeMiddle p hp _ (p :: t) s _ (Nat.le_refl _) (by simp) hs
  exact ⟨t, _, he, hpath, rfl, by rw [hseg, ho], by rw [ho]; exact hs⟩

theorem crunchPath_eq (opt : Optimiser) (path : List PathEl) (q : PathEl) (segs : List PathSeg) (bks : List Nat) (h0 : path.head? = some q)
    (h1 : segments path = .ok segs) (h2 : breaks segs = .ok bks) : crunchPath opt path = (do
      let new ← crunchLoop opt segs bks
      match new with
      | none => return path
      | some els => return q :: els) := by
  cases path with
  | nil => cases h0
  | cons x l =>
    cases h0
    unfold crunchPath
    rw [h1, Res.ok_bind, h2, Res.ok_bind]
    rfl

/-- **C100** (stretches). The outline of a contour whose first point is on the curve is cut at certain segments, in ascending order. For
each two neighbouring ones, and only for these, the stretch between them is drawn: a line stays a line, and any other
stretch becomes what the optimiser makes of it. The path starts where it started. If the optimiser declines for a stretch,
the path stays as it was. -/
theorem C100_stretches (opt : Optimiser) (p : Point) (c : List Point) (hp : p.onCurve = true) (hfit : MiddlesFit (p :: c)) :
    ∃ path bks, toPath (p :: c) = .ok path ∧ breaks (outline wholeMiddle (p :: c)) = .ok bks ∧ bks.Pairwise (· < ·) ∧
      (∀ i ∈ bks, i < (outline wholeMiddle (p :: c)).length) ∧
      (∀ els, Crunched opt (outline wholeMiddle (p :: c)) bks els → crunchPath opt path = .ok (.moveTo (place p) :: els)) ∧
      ∀ new, crunchPath opt path = .ok new →
        (∃ els, new = .moveTo (place p) :: els ∧ Crunched opt (outline wholeMiddle (p :: c)) bks els) ∨
        (new = path ∧ ∃ i a b, bks[i]? = some a ∧ bks[i + 1]? = some b ∧
          opt ((segsBetween (outline wholeMiddle (p :: c)) a b).map curveOf) = .ok none) := by
  obtain ⟨e, path, _, hpath, hhead, hseg, _⟩ := path_of p c hp hfit
  have hc := outline_notCubic wholeMiddle (p :: c)
  obtain ⟨bks, hb, hpw, hlt, _, _⟩ := breaks_ok hc
  have heq := crunchPath_eq opt path _ _ bks hhead hseg hb
  refine ⟨path, bks, hpath, hb, hpw, hlt, ?_, ?_⟩
  · intro els h
    rw [heq, (crunchLoop_spec opt hc bks hpw hlt els).mpr h]
    rfl
  · intro new h
    rw [heq] at h
    obtain ⟨r, hr, h⟩ := Res.bind_inv h
    cases r with
    | none =>
      cases h
      exact Or.inr ⟨rfl, crunchLoop_none opt hc bks hpw hlt hr⟩
    | some els =>
      cases h
      exact Or.inl ⟨els, rfl, (crunchLoop_spec opt hc bks hpw hlt els).mp hr⟩

/-- A line as a curve is straight. -/
theorem drawn_line (p q : Pt) : drawn (curveOf (.line p q)) = .lineTo q := by
  unfold drawn curveOf Straight
  simp

theorem crunched_left {segs : List PathSeg} : ∀ (bks : List Nat), bks.Pairwise (· < ·) → ∀ a b, bks.head? = some a → bks.getLast? = some b →
    Crunched leaveAll segs bks ((segsBetween segs a b).map (fun s => drawn (curveOf s)))
  | [], _, _, _, h, _ => by cases h
  | [x], _, a, b, h1, h2 => by
    cases h1
    have e : x = b := by simpa using h2
    subst e
    rw [show segsBetween segs x x = [] by unfold segsBetween; exact List.drop_of_length_le (by simp)]
    exact .last x
  | x :: y :: l, hp, a, b, h1, h2 => by
    cases h1
    have hxy : x < y := (List.pairwise_cons.mp hp).1 y (by simp)
    have hyb : y ≤ b := by
      have hmem : b ∈ y :: l := List.mem_of_getLast? (by simpa using h2)
      rcases List.mem_cons.mp hmem with e | hm
      · omega
      · exact Nat.le_of_lt ((List.pairwise_cons.mp (List.pairwise_cons.mp hp).2).1 b hm)
    have ih := crunched_left (segs := segs) (y :: l) (List.pairwise_cons.mp hp).2 y b rfl (by simpa using h2)
    rw [← stretch_append (b := y) (by omega) hyb, List.map_append]
    by_cases hl : ∃ p q, segsBetween segs x y = [.line p q]
    · obtain ⟨p, q, e⟩ := hl
      rw [e]
      show Crunched leaveAll segs (x :: y :: l) (drawn (curveOf (.line p q)) :: _)
      rw [drawn_line]
      exact .line x y l p q _ e ih
    · have : (segsBetween segs x y).map (fun s => drawn (curveOf s)) = ((segsBetween segs x y).map curveOf).map drawn := by simp
      rw [this]
      exact .other x y l _ _ (fun p q e => hl ⟨p, q, e⟩) rfl ih

/-- **C100** (what is lost). Even if the optimiser leaves everything as it is, only the segments from the first break up to the last
one are drawn again, the last one not included: what lies between the last break and the first is lost. The very last segment is always among it. -/
theorem C100_lost (p : Point) (c : List Point) (hp : p.onCurve = true) (hfit : MiddlesFit (p :: c)) :
    ∃ path bks, toPath (p :: c) = .ok path ∧ breaks (outline wholeMiddle (p :: c)) = .ok bks ∧
      ∀ a b, bks.head? = some a → bks.getLast? = some b → b < (outline wholeMiddle (p :: c)).length ∧
        crunchPath leaveAll path = .ok (.moveTo (place p) :: (segsBetween (outline wholeMiddle (p :: c)) a b).map (fun s => drawn (curveOf s))) := by
  obtain ⟨path, bks, h1, h2, hpw, hlt, h3, _⟩ := C100_stretches leaveAll p c hp hfit
  refine ⟨path, bks, h1, h2, fun a b ha hb => ⟨hlt b (List.mem_of_getLast? hb), h3 _ (crunched_left bks hpw a b ha hb)⟩⟩

theorem trace_init {l : List Point} {z q : Point} {s : List PathSeg} (h : Trace (l ++ [q]) s) (hz : l.getLast? = some z) (hon : z.onCurve = true) :
    ∃ s', s = s' ++ [.line (place z) (place q)] ∧ Trace l s' := by
  have hb : ∀ x, backwards (backwards x) = x := fun x => by cases x <;> rfl
  have hr := trace_reverse h
  obtain ⟨l0, rfl⟩ : ∃ l0, l = l0 ++ [z] := by
    rw [List.getLast?_eq_some_iff] at hz
    exact hz
  rw [List.reverse_append, List.reverse_append] at hr
  simp only [List.reverse_cons, List.reverse_nil, List.nil_append, List.singleton_append] at hr
  generalize e : s.reverse.map backwards = s2 at hr
  generalize el : l0.reverse = l1 at hr
  cases hr with
  | line _ _ _ s3 _ _ hr =>
    have h3 := trace_reverse hr
    subst el
    refine ⟨s3.reverse.map backwards, ?_, by simpa using h3⟩
    have := congrArg (fun t => (t.map backwards).reverse) e
    simp only [List.map_map, List.map_cons, List.reverse_cons] at this
    rw [show backwards ∘ backwards = id from funext hb, List.map_id, List.reverse_reverse] at this
    rw [this]
    simp [backwards]
  | quad _ _ _ _ _ _ hc => rw [hon] at hc; cases hc

theorem explicit_last {l l' : List Point} (h : MadeExplicit l l') : l'.getLast? = l.getLast? := by
  induction h with
  | single p => rfl
  | next p q r r' _ h ih =>
    obtain ⟨a, t, t', e1, e2⟩ := madeExplicit_head h
    cases e1
    subst e2
    rw [List.getLast?_cons_cons, List.getLast?_cons_cons, ih]
  | halfway p q m r r' _ _ _ h ih =>
    obtain ⟨a, t, t', e1, e2⟩ := madeExplicit_head h
    cases e1
    subst e2
    rw [List.getLast?_cons_cons, List.getLast?_cons_cons, List.getLast?_cons_cons, ih]

/-- A path of such a stretch, as a contour, is its points in reverse order. -/
theorem fromPath_trace (quads : Pt → Pt → Pt → Pt → List (Pt × Pt)) {p : Point} {e : List Point} {s : List PathSeg} (hp : p.onCurve = true)
    (h : Trace (p :: e) s) : fromPath quads (.moveTo (place p) :: s.map elem) = .ok (p :: e).reverse := by
  obtain ⟨z, hz⟩ : ∃ z, (p :: e).getLast? = some z := ⟨_, List.getLast?_eq_getLast_of_ne_nil (by simp)⟩
  have h1 := segments_trace (place p) [] (p :: e) s h p z rfl hz
  rw [List.append_nil] at h1
  have h2 := pushes_trace quads h
  have h3 : (place p).toPoint true = p := by
    unfold Pt.toPoint place
    simp only [qToI16_int]
    rw [← hp]
  unfold fromPath segments
  simp only [segmentsFrom, Res.ok_bind]
  rw [h1]
  simp only [segmentsFrom, List.append_nil, h2, h3]
  rfl

/-- The outline of a stretch run the other way and closed with a line. -/
theorem outline_back {p z : Point} {e : List Point} {s : List PathSeg} (h : Trace (p :: e) s) (hz : (p :: e).getLast? = some z)
    (hon : z.onCurve = true) (hp : p.onCurve = true) :
    outline wholeMiddle (p :: e).reverse = (s.reverse.map backwards) ++ [.line (place p) (place z)] := by
  have hr := trace_snoc_line (trace_reverse h) z hon
  have hhead : (p :: e).reverse.head? = some z := by rw [List.head?_reverse]; exact hz
  obtain ⟨t, ht⟩ : ∃ t, (p :: e).reverse = z :: t := by
    cases hh : (p :: e).reverse with
    | nil => rw [hh] at hhead; cases hhead
    | cons y t => rw [hh] at hhead; cases hhead; exact ⟨t, rfl⟩
  have hl : (p :: e).reverse.getLast? = some p := by simp
  have h5 := hr p hl
  rw [ht] at h5 ⊢
  exact pieces_trace wholeMiddle z hon _ (z :: t) _ _ (Nat.le_refl _) (by simp) h5

/-- **C100** (what is kept). If the first segment and the last one are breaks, the last segment is a line, no curve is straight, and
the optimiser leaves everything as it is, then the new contour has the same outline, run the other way. -/
theorem C100_kept (quads : Pt → Pt → Pt → Pt → List (Pt × Pt)) (p z : Point) (c : List Point) (hp : p.onCurve = true) (hfit : MiddlesFit (p :: c))
    (hz : (p :: c).getLast? = some z) (hon : z.onCurve = true) (bks : List Nat) (hb : breaks (outline wholeMiddle (p :: c)) = .ok bks)
    (h0 : bks.head? = some 0) (h1 : bks.getLast? = some ((outline wholeMiddle (p :: c)).length - 1))
    (hs : ∀ a q b, .quad a q b ∈ outline wholeMiddle (p :: c) → ¬ Straight ⟨a, q, b⟩) (c' : List Point)
    (h : crunchContour leaveAll quads (p :: c) = .ok c') :
    outline wholeMiddle c' ~r (outline wholeMiddle (p :: c)).reverse.map backwards := by
  obtain ⟨e, path, he, hpath, hhead, hseg, htr⟩ := path_of p c hp hfit
  have hc := outline_notCubic wholeMiddle (p :: c)
  obtain ⟨path2, bks2, k1, k2, k3⟩ := C100_lost p c hp hfit
  rw [hpath] at k1
  cases k1
  rw [hb] at k2
  cases k2
  obtain ⟨_, k4⟩ := k3 0 _ h0 h1
  have hlast : (p :: e).getLast? = some z := by
    rw [insertExplicit_eq] at he
    rw [explicit_last (explicitRec_inv c p _ he), hz]
  obtain ⟨s', es, ts⟩ := trace_init htr hlast hon
  have hstr : segsBetween (outline wholeMiddle (p :: c)) 0 ((outline wholeMiddle (p :: c)).length - 1) = s' := by
    unfold segsBetween
    rw [es]
    simp
  have hels : s'.map (fun s => drawn (curveOf s)) = s'.map elem := by
    apply List.map_congr_left
    intro s hm
    have hm' : s ∈ outline wholeMiddle (p :: c) := by rw [es]; exact List.mem_append_left _ hm
    cases s with
    | line a b => exact drawn_line a b
    | quad a q b =>
      show drawn ⟨a, q, b⟩ = _
      unfold drawn
      rw [if_neg (hs a q b hm')]
      rfl
    | cubic => exact (hc _ hm').elim
  rw [hstr, hels] at k4
  unfold crunchContour at h
  rw [hpath, Res.ok_bind, k4, Res.ok_bind, fromPath_trace quads hp ts, Res.ok_bind] at h
  rw [C30_outline _ _ h, outline_back ts hlast hon hp, es, List.reverse_append, List.map_append]
  exact List.isRotated_append.symm.trans (List.IsRotated.refl _)

theorem removeRec_on (first : Point) : ∀ (l : List Point) (a : Point), (∀ p ∈ l, p.onCurve = true) → a.onCurve = true → removeRec a first l = .ok l
  | [], _, _, _ => rfl
  | p :: r, a, h, ha => by
    rw [removeRec_cons, staysTest_off _ _ _ (Or.inr (Or.inl ha)), Res.ok_bind, removeRec_on first r p (fun q hq => h q (List.mem_cons_of_mem _ hq)) (h p List.mem_cons_self)]
    rfl

theorem removeImplied_on (c : List Point) (h : ∀ p ∈ c, p.onCurve = true) : removeImplied c = .ok c := by
  cases c with
  | nil => rfl
  | cons p c =>
    obtain ⟨l, hl⟩ : ∃ l, (p :: c).getLast? = some l := ⟨_, List.getLast?_eq_getLast_of_ne_nil (by simp)⟩
    rw [removeImplied_eq p c l hl]
    exact removeRec_on p _ l h (h l (List.mem_of_getLast? hl))

theorem explicit_on {l l' : List Point} (h : MadeExplicit l l') (hon : ∀ p ∈ l, p.onCurve = true) : l' = l := by
  induction h with
  | single p => rfl
  | next p q r r' _ h ih => rw [ih (fun x hx => hon x (List.mem_cons_of_mem _ hx))]
  | halfway p q m r r' hp => rw [hon p List.mem_cons_self] at hp; cases hp

theorem trace_on {l : List Point} {s : List PathSeg} (h : Trace l s) (hon : ∀ p ∈ l, p.onCurve = true) :
    s.length + 1 = l.length ∧ ∀ i a b, l[i]? = some a → l[i + 1]? = some b → s[i]? = some (.line (place a) (place b)) := by
  induction h with
  | one p hp => exact ⟨rfl, fun i a b _ h => by simp at h⟩
  | line p q r s hp hq h ih =>
    obtain ⟨i1, i2⟩ := ih (fun x hx => hon x (List.mem_cons_of_mem _ hx))
    refine ⟨by simp only [List.length_cons] at i1 ⊢; omega, ?_⟩
    intro i a b h1 h2
    cases i with
    | zero => cases h1; cases h2; rfl
    | succ i => exact i2 i a b (by simpa using h1) (by simpa using h2)
  | quad p c q r s hp hc =>
    rw [hon c (by simp)] at hc; cases hc

theorem crunched_lines (opt : Optimiser) {segs : List PathSeg} (hl : ∀ s ∈ segs, ∃ p q, s = .line p q) : ∀ (m a : Nat), a + m < segs.length →
    Crunched opt segs (List.range' a (m + 1)) ((segsBetween segs a (a + m)).map elem)
  | 0, a, _ => by
    rw [show segsBetween segs a (a + 0) = [] by unfold segsBetween; exact List.drop_of_length_le (by simp)]
    exact .last a
  | m + 1, a, h => by
    have ih := crunched_lines opt hl m (a + 1) (by omega)
    obtain ⟨p, q, e⟩ := hl _ (List.getElem_mem (show a < segs.length by omega))
    have hs := stretch_one (List.getElem?_eq_getElem (show a < segs.length by omega))
    rw [e] at hs
    rw [← stretch_append (b := a + 1) (by omega) (by omega), hs, List.range'_succ, List.range'_succ]
    rw [show a + (m + 1) = a + 1 + m by omega]
    rw [List.range'_succ] at ih
    exact .line a (a + 1) _ p q _ hs ih

theorem isCorner_of {a b d : Point} (h : Corner a b d) :
    isCorner ((place b).x - (place a).x, (place b).y - (place a).y) ((place d).x - (place b).x, (place d).y - (place b).y) = true := by
  unfold isCorner
  rcases h with h | h | h
  · rw [h]; simp [isClose]
  · rw [h]; simp [isClose]
  · simp only [Bool.or_eq_true, decide_eq_true_eq]
    right
    have e : ∀ x y u v : ℚ, (u * y - x * v) * (u * y - x * v) = (x * v - y * u) ^ 2 := by intros; ring
    have e2 : ∀ x y : ℚ, x * x + y * y = x ^ 2 + y ^ 2 := by intros; ring
    rw [e, e2, e2]
    norm_num at h ⊢
    exact h

/-- **C100** (polygons). A contour of lines, each two of which meet in a corner, comes back with the same points in reverse
order, whatever the optimiser does. -/
theorem C100_polygon (opt : Optimiser) (quads : Pt → Pt → Pt → Pt → List (Pt × Pt)) (c : List Point) (h : Polygon c) :
    crunchContour opt quads c = .ok c.reverse := by
  obtain ⟨hne, hon, hcor⟩ := h
  cases c with
  | nil => exact absurd rfl hne
  | cons p c =>
    have hp := hon p List.mem_cons_self
    have hfit : MiddlesFit (p :: c) := by
      intro i a b ha _ hoff
      rw [hon a (List.mem_of_getElem? ha)] at hoff
      cases hoff
    obtain ⟨e, path, he, hpath, hhead, hseg, htr⟩ := path_of p c hp hfit
    have hc := outline_notCubic wholeMiddle (p :: c)
    rw [insertExplicit_eq] at he
    have hee := explicit_on (explicitRec_inv c p _ he) hon
    cases hee
    generalize hsegs : outline wholeMiddle (p :: c) = segs at *
    have hon' : ∀ x ∈ p :: c ++ [p], x.onCurve = true := by
      intro x hx
      rcases List.mem_append.mp hx with hx | hx
      · exact hon x hx
      · rw [List.mem_singleton.mp hx]; exact hp
    obtain ⟨hlen, hidx⟩ := trace_on htr hon'
    have hn : segs.length = (p :: c).length := by simp at hlen ⊢; omega
    obtain ⟨bks, hb, hpw, hlt, ⟨f, hf⟩, hall⟩ := breaks_ok hc
    -- the point after a point of the closed contour
    have hnext : ∀ i, i < (p :: c).length → (p :: c ++ [p])[i + 1]? = (p :: c)[(i + 1) % (p :: c).length]? := by
      intro i hi
      by_cases hlast : i + 1 = (p :: c).length
      · rw [hlast, Nat.mod_self, List.getElem?_append_right (Nat.le_refl _)]
        simp
      · rw [Nat.mod_eq_of_lt (by omega), List.getElem?_append_left (by omega)]
    have hthis : ∀ i, i < (p :: c).length → (p :: c ++ [p])[i]? = (p :: c)[i]? := fun i hi => List.getElem?_append_left hi
    have hmem : ∀ i, i < segs.length → i ∈ bks := by
      intro i hi
      have hpos : 0 < (p :: c).length := by simp
      rw [hn] at hi
      have hjl : (if i = 0 then segs.length - 1 else i - 1) < (p :: c).length := by split <;> omega
      have hji : ((if i = 0 then segs.length - 1 else i - 1) + 1) % (p :: c).length = i := by
        split
        · rename_i h0; rw [hn, Nat.sub_add_cancel hpos, Nat.mod_self, h0]
        · rw [Nat.sub_add_cancel (by omega), Nat.mod_eq_of_lt hi]
      generalize hj : (if i = 0 then segs.length - 1 else i - 1) = j at hjl hji
      obtain ⟨a, ha⟩ : ∃ a, (p :: c)[j]? = some a := ⟨_, List.getElem?_eq_getElem hjl⟩
      obtain ⟨b, hbb⟩ : ∃ b, (p :: c)[i]? = some b := ⟨_, List.getElem?_eq_getElem hi⟩
      obtain ⟨d, hd⟩ : ∃ d, (p :: c)[(i + 1) % (p :: c).length]? = some d := ⟨_, List.getElem?_eq_getElem (Nat.mod_lt _ hpos)⟩
      have hd' : (p :: c)[(j + 2) % (p :: c).length]? = some d := by
        rw [← hd, ← hji]
        congr 1
        rw [Nat.add_mod ((j + 1) % _) 1, Nat.mod_mod, ← Nat.add_mod]
      have hcorner := hcor j a b d ha (by rw [hji]; exact hbb) hd'
      have g0 := hidx j a b (by rw [hthis j hjl]; exact ha) (by rw [hnext j hjl, hji]; exact hbb)
      have g1 := hidx i b d (by rw [hthis i hi]; exact hbb) (by rw [hnext i hi]; exact hd)
      exact hall i _ _ _ _ (by omega) (by rw [hj]; exact g0) g1 rfl rfl (isCorner_of hcorner)
    have hbks : bks = List.range' 0 (c.length + 1) := by
      rw [hf, List.filter_eq_self.mpr, hn, List.range_eq_range']
      · rfl
      · intro i hi
        have := hmem i (List.mem_range.mp hi)
        rw [hf, List.mem_filter] at this
        exact this.2
    have hlines : ∀ s ∈ segs, ∃ p q, s = .line p q := by
      intro s hs
      obtain ⟨i, hi, rfl⟩ := List.getElem_of_mem hs
      have hi' : i < (p :: c).length := by omega
      obtain ⟨a, ha⟩ : ∃ a, (p :: c ++ [p])[i]? = some a := ⟨_, List.getElem?_eq_getElem (by simp at hi' ⊢; omega)⟩
      obtain ⟨b, hbb⟩ : ∃ b, (p :: c ++ [p])[i + 1]? = some b := ⟨_, List.getElem?_eq_getElem (by simp at hi' ⊢; omega)⟩
      have := hidx i a b ha hbb
      rw [List.getElem?_eq_getElem hi] at this
      exact ⟨_, _, Option.some.inj this⟩
    have hcr := crunched_lines opt hlines c.length 0 (by simp at hn; omega)
    rw [Nat.zero_add] at hcr
    have hloop := (crunchLoop_spec opt hc bks hpw hlt _).mpr (by rw [hbks]; exact hcr)
    have heq := crunchPath_eq opt path _ _ bks hhead hseg hb
    rw [hloop, Res.ok_bind] at heq
    obtain ⟨z, hz⟩ : ∃ z, (p :: c).getLast? = some z := ⟨_, List.getLast?_eq_getLast_of_ne_nil (by simp)⟩
    obtain ⟨s', es, ts⟩ := trace_init htr hz (hon z (List.mem_of_getLast? hz))
    have hstr : segsBetween segs 0 c.length = s' := by
      unfold segsBetween
      rw [es] at hn ⊢
      have : c.length = s'.length := by simp at hn; omega
      rw [this]
      simp
    rw [hstr] at heq
    unfold crunchContour
    rw [hpath, Res.ok_bind, heq]
    show (do
      let c ← fromPath quads (.moveTo (place p) :: s'.map elem)
      removeImplied c) = _
    rw [fromPath_trace quads hp ts, Res.ok_bind, removeImplied_on _ (fun x hx => hon x (List.mem_reverse.mp hx))]

/-- **C100** (panics). An empty contour, and one with neighbouring off-curve points whose coordinates have a sum beyond 16 bits, panic. -/
theorem C100_panics (opt : Optimiser) (quads : Pt → Pt → Pt → Pt → List (Pt × Pt)) (c : List Point) (h : c = [] ∨ ¬ MiddlesFit c) :
    crunchContour opt quads c = .panic := by
  unfold crunchContour
  rw [C98_to_path_panics c h]
  rfl

/-- A circle of four curves. -/
def circle : List Point :=
  [⟨10, 0, true⟩, ⟨10, 10, false⟩, ⟨0, 10, true⟩, ⟨-10, 10, false⟩, ⟨-10, 0, true⟩, ⟨-10, -10, false⟩, ⟨0, -10, true⟩, ⟨10, -10, false⟩]

/-- **C100** (a circle is cut). A circle of four curves, starting at its rightmost point, comes back with three of them and a straight
line in place of the fourth, although the optimiser leaves everything as it is. -/
theorem C100_circle_cut (quads : Pt → Pt → Pt → Pt → List (Pt × Pt)) :
    ∃ c', crunchContour leaveAll quads circle = .ok c' ∧
      .quad ⟨0, -10⟩ ⟨10, -10⟩ ⟨10, 0⟩ ∈ outline middle circle ∧
      .quad ⟨0, -10⟩ ⟨10, -10⟩ ⟨10, 0⟩ ∉ outline middle c' ∧ .quad ⟨10, 0⟩ ⟨10, -10⟩ ⟨0, -10⟩ ∉ outline middle c' ∧
      .line ⟨10, 0⟩ ⟨0, -10⟩ ∈ outline middle c' := by
  refine ⟨[⟨0, -10, true⟩, ⟨-10, -10, false⟩, ⟨-10, 10, false⟩, ⟨10, 10, false⟩, ⟨10, 0, true⟩], ?_, by decide +kernel, by decide +kernel, by decide +kernel, by decide +kernel⟩
  have h1 : toPath circle = .ok [.moveTo ⟨10, 0⟩, .quadTo ⟨10, 10⟩ ⟨0, 10⟩, .quadTo ⟨-10, 10⟩ ⟨-10, 0⟩, .quadTo ⟨-10, -10⟩ ⟨0, -10⟩,
      .quadTo ⟨10, -10⟩ ⟨10, 0⟩, .closePath] := by decide +kernel
  have h2 : crunchPath leaveAll [.moveTo ⟨10, 0⟩, .quadTo ⟨10, 10⟩ ⟨0, 10⟩, .quadTo ⟨-10, 10⟩ ⟨-10, 0⟩, .quadTo ⟨-10, -10⟩ ⟨0, -10⟩,
      .quadTo ⟨10, -10⟩ ⟨10, 0⟩, .closePath] =
      .ok [.moveTo ⟨10, 0⟩, .quadTo ⟨10, 10⟩ ⟨0, 10⟩, .quadTo ⟨-10, 10⟩ ⟨-10, 0⟩, .quadTo ⟨-10, -10⟩ ⟨0, -10⟩] := by decide +kernel
  have h3 : fromPath quads [.moveTo ⟨10, 0⟩, .quadTo ⟨10, 10⟩ ⟨0, 10⟩, .quadTo ⟨-10, 10⟩ ⟨-10, 0⟩, .quadTo ⟨-10, -10⟩ ⟨0, -10⟩] =
      .ok [⟨0, -10, true⟩, ⟨-10, -10, false⟩, ⟨-10, 0, true⟩, ⟨-10, 10, false⟩, ⟨0, 10, true⟩, ⟨10, 10, false⟩, ⟨10, 0, true⟩] :=
    fromPath_trace quads (p := ⟨10, 0, true⟩) (e := [⟨10, 10, false⟩, ⟨0, 10, true⟩, ⟨-10, 10, false⟩, ⟨-10, 0, true⟩, ⟨-10, -10, false⟩, ⟨0, -10, true⟩]) rfl
      (.quad _ _ _ _ _ rfl rfl rfl (.quad _ _ _ _ _ rfl rfl rfl (.quad _ _ _ _ _ rfl rfl rfl (.one _ rfl))))
  unfold crunchContour
  rw [h1, Res.ok_bind, h2, Res.ok_bind, h3, Res.ok_bind]
  decide +kernel

/-- A contour meeting the guard of `C100_kept`. -/
def loaf : List Point := [⟨0, 0, true⟩, ⟨10, 0, true⟩, ⟨20, 5, false⟩, ⟨10, 10, true⟩, ⟨0, 10, true⟩]

example : breaks (outline wholeMiddle loaf) = .ok [0, 1, 2, 3] ∧ outline wholeMiddle loaf =
    [.line ⟨0, 0⟩ ⟨10, 0⟩, .quad ⟨10, 0⟩ ⟨20, 5⟩ ⟨10, 10⟩, .line ⟨10, 10⟩ ⟨0, 10⟩, .line ⟨0, 10⟩ ⟨0, 0⟩] ∧
    ¬ Straight ⟨⟨10, 0⟩, ⟨20, 5⟩, ⟨10, 10⟩⟩ ∧
    crunchContour leaveAll (fun _ c _ q => [(c, q)]) loaf = .ok [⟨0, 10, true⟩, ⟨10, 10, true⟩, ⟨20, 5, false⟩, ⟨10, 0, true⟩, ⟨0, 0, true⟩] := by
  decide +kernel

example : Polygon [⟨0, 0, true⟩, ⟨10, 0, true⟩, ⟨10, 10, true⟩, ⟨0, 10, true⟩] := by
  refine ⟨by simp, by simp, ?_⟩
  intro i a b d h1 h2 h3
  have hi : i < 4 := (List.getElem?_eq_some_iff.mp h1).1
  have : i = 0 ∨ i = 1 ∨ i = 2 ∨ i = 3 := by omega
  rcases this with rfl | rfl | rfl | rfl <;> (cases h1; cases h2; cases h3; right; right; decide +kernel)

example : MiddlesFit (⟨10, 0, true⟩ :: circle.tail) ∧
    breaks (outline wholeMiddle circle) = .ok [0, 1, 2, 3] ∧ (outline wholeMiddle circle).length = 4 := by
  refine ⟨?_, by decide +kernel, by decide +kernel⟩
  intro i a b h1 h2 ha hb
  have hi : i < 7 := by
    have := (List.getElem?_eq_some_iff.mp h2).1
    simp [circle] at this
    omega
  have : i = 0 ∨ i = 1 ∨ i = 2 ∨ i = 3 ∨ i = 4 ∨ i = 5 ∨ i = 6 := by omega
  rcases this with rfl | rfl | rfl | rfl | rfl | rfl | rfl <;> (cases h1; cases h2; first | exact absurd ha (by decide) | exact absurd hb (by decide))

end FT.Props
