import Verif.Model.Overlap
import Verif.Props.KurboPath
import Mathlib.Data.List.Rotate

/-!
C99: `ttf-remove-overlap` on a glyph. What Skia makes of the path is not known: `simplify` is any function.
-/

namespace FT.Props
open FT FT.Glyf

/-! ### Specification -/

/-- A closed subpath of lines and quadratic curves: where it starts, and for each piece its control point, if it has one, and its
end. -/
structure Sub where
  start : Pt
  draws : List (Option Pt × Pt)
deriving DecidableEq

/-- The piece as Skia has it. -/
def drawEl : Option Pt × Pt → SkEl
  | (none, q) => .line q
  | (some c, q) => .quad c q

/-- The subpath as Skia has it. -/
def Sub.els (s : Sub) : List SkEl := .move s.start :: s.draws.map drawEl ++ [.close]

/-- The pieces as segments. -/
def drawsFrom (p : Pt) : List (Option Pt × Pt) → List PathSeg
  | [] => []
  | (none, q) :: l => .line p q :: drawsFrom q l
  | (some c, q) :: l => .quad p c q :: drawsFrom q l

/-- The segments of the subpath, without the closing line. -/
def Sub.segs (s : Sub) : List PathSeg := drawsFrom s.start s.draws

/-- Where the last piece ends. -/
def Sub.stop (s : Sub) : Pt := pathEnd s.start s.segs

/-- The subpath is the outline of the contour: all pieces of the outline in order, where a last line may be left to closing. -/
def DrawnAs (c : List Point) (s : Sub) : Prop :=
  (∃ p, c.head? = some p ∧ s.start = place p) ∧
  (outline wholeMiddle c = s.segs ∧ s.stop = s.start ∨ outline wholeMiddle c = s.segs ++ [.line s.stop s.start])

/-- The outline of the contour is the subpath backwards, with coordinates cut to 16 bits. -/
def ReadAs (s : Sub) (c : List Point) : Prop := ∃ cut : Pt → Pt, (∀ q, CutPt q (cut q)) ∧
  ∀ half, outline half c = ((s.segs.map (movePoints cut)).map backwards).reverse ++ [.line (cut s.start) (cut s.stop)]

/-! ### Reading a path -/

/-- The points of an element, as the tool takes them. -/
def elPoints : SkEl → List Point
  | .move p => [p.toPoint true]
  | .line p => [p.toPoint true]
  | .quad c p => [c.toPoint false, p.toPoint true]
  | .conic c p => [c.toPoint false, p.toPoint true]
  | .cubic c d _ => [c.toPoint false, d.toPoint true]
  | .close => []

/-- The contours, as the tool collects them. -/
def collectSub : List SkEl → List Point → List (List Point) → List (List Point)
  | [], _, g => g
  | .close :: l, c, g => collectSub l [] (g ++ [c.reverse])
  | x :: l, c, g => collectSub l (c ++ elPoints x) g

/-- No cubics. -/
def NoCubic (l : List SkEl) : Prop := ∀ x ∈ l, ∀ c d p, x ≠ .cubic c d p

theorem verbPoints_one (pre : List Pt) (p : Pt) (post : List Pt) : verbPoints (pre ++ p :: post) pre.length 1 = .ok [p.toPoint true] := by
  simp [verbPoints, Res.ok_bind]

theorem verbPoints_two (pre : List Pt) (c p : Pt) (post : List Pt) :
    verbPoints (pre ++ c :: p :: post) pre.length 2 = .ok [c.toPoint false, p.toPoint true] := by
  have := verbPoints_one (pre ++ [c]) p post
  simp only [List.append_assoc, List.singleton_append, List.length_append, List.length_singleton] at this
  unfold verbPoints
  rw [this]
  simp [Res.ok_bind]

theorem verbLoop_collect : ∀ (l : List SkEl) (pre : List Pt) (c : List Point) (g : List (List Point)), NoCubic l →
    verbLoop (pre ++ l.flatMap SkEl.points) (l.map SkEl.verb) pre.length c g = .ok (collectSub l c g)
  | [], pre, c, g, _ => rfl
  | x :: l, pre, c, g, h => by
    have hl : NoCubic l := fun y hy => h y (List.mem_cons_of_mem _ hy)
    have ih := fun pre c g => verbLoop_collect l pre c g hl
    simp only [List.map_cons, List.flatMap_cons]
    have one : ∀ p, verbLoop (pre ++ ([p] ++ l.flatMap SkEl.points)) (l.map SkEl.verb) (pre.length + 1) (c ++ [p.toPoint true]) g =
        .ok (collectSub l (c ++ [p.toPoint true]) g) := by
      intro p
      have := ih (pre ++ [p]) (c ++ [p.toPoint true]) g
      rw [List.length_append, List.length_singleton, List.append_assoc] at this
      exact this
    have two : ∀ d p, verbLoop (pre ++ ([d, p] ++ l.flatMap SkEl.points)) (l.map SkEl.verb) (pre.length + 2)
        (c ++ [d.toPoint false, p.toPoint true]) g = .ok (collectSub l (c ++ [d.toPoint false, p.toPoint true]) g) := by
      intro d p
      have := ih (pre ++ [d, p]) (c ++ [d.toPoint false, p.toPoint true]) g
      rw [List.length_append, List.append_assoc] at this
      exact this
    cases x with
    | move p =>
      show (verbPoints (pre ++ p :: l.flatMap SkEl.points) pre.length 1 >>= fun ps =>
        verbLoop (pre ++ p :: l.flatMap SkEl.points) (l.map SkEl.verb) (pre.length + 1) (c ++ ps) g) = _
      rw [verbPoints_one, Res.ok_bind]
      exact one p
    | line p =>
      show (verbPoints (pre ++ p :: l.flatMap SkEl.points) pre.length 1 >>= fun ps =>
        verbLoop (pre ++ p :: l.flatMap SkEl.points) (l.map SkEl.verb) (pre.length + 1) (c ++ ps) g) = _
      rw [verbPoints_one, Res.ok_bind]
      exact one p
    | quad d p =>
      show (verbPoints (pre ++ d :: p :: l.flatMap SkEl.points) pre.length 2 >>= fun ps =>
        verbLoop (pre ++ d :: p :: l.flatMap SkEl.points) (l.map SkEl.verb) (pre.length + 2) (c ++ ps) g) = _
      rw [verbPoints_two, Res.ok_bind]
      exact two d p
    | conic d p =>
      show (verbPoints (pre ++ d :: p :: l.flatMap SkEl.points) pre.length 2 >>= fun ps =>
        verbLoop (pre ++ d :: p :: l.flatMap SkEl.points) (l.map SkEl.verb) (pre.length + 2) (c ++ ps) g) = _
      rw [verbPoints_two, Res.ok_bind]
      exact two d p
    | cubic a b q => exact absurd rfl (h _ List.mem_cons_self a b q)
    | close => exact ih pre [] _

theorem skia_collect (l : List SkEl) (h : NoCubic l) : skiaToGlyf l = .ok (collectSub l [] []) := verbLoop_collect l [] [] [] h

theorem collect_plain : ∀ (d l : List SkEl) (c : List Point) (g : List (List Point)), .close ∉ d →
    collectSub (d ++ l) c g = collectSub l (c ++ d.flatMap elPoints) g
  | [], l, c, g, _ => by simp
  | x :: d, l, c, g, h => by
    have hd : SkEl.close ∉ d := fun e => h (List.mem_cons_of_mem _ e)
    have hx : collectSub (x :: d ++ l) c g = collectSub (d ++ l) (c ++ elPoints x) g := by
      cases x with
      | close => exact absurd List.mem_cons_self h
      | _ => rfl
    rw [hx, collect_plain d l _ g hd]
    simp

/-- The contour of a subpath. -/
def subContour (s : Sub) : List Point := (s.start.toPoint true :: (s.draws.map drawEl).flatMap elPoints).reverse

theorem drawEl_plain (draws : List (Option Pt × Pt)) : SkEl.close ∉ draws.map drawEl := by
  intro h
  obtain ⟨⟨c, q⟩, _, e⟩ := List.mem_map.mp h
  cases c <;> cases e

theorem collect_subs : ∀ (subs : List Sub) (l : List SkEl) (g : List (List Point)),
    collectSub (subs.flatMap Sub.els ++ l) [] g = collectSub l [] (g ++ subs.map subContour)
  | [], l, g => by simp
  | s :: subs, l, g => by
    have e : (s :: subs).flatMap Sub.els ++ l = (.move s.start :: s.draws.map drawEl) ++ (.close :: (subs.flatMap Sub.els ++ l)) := by
      simp [Sub.els, List.flatMap_cons]
    rw [e, collect_plain _ _ _ _ (by
      intro h
      rcases List.mem_cons.mp h with h | h
      · cases h
      · exact drawEl_plain _ h)]
    have e2 : [] ++ (SkEl.move s.start :: s.draws.map drawEl).flatMap elPoints = (subContour s).reverse := by
      simp [subContour, elPoints]
    rw [e2]
    show collectSub (subs.flatMap Sub.els ++ l) [] (g ++ [(subContour s).reverse.reverse]) = _
    rw [collect_subs subs l]
    simp

theorem subs_noCubic (subs : List Sub) : NoCubic (subs.flatMap Sub.els) := by
  intro x hx c d p e
  obtain ⟨s, _, hs⟩ := List.mem_flatMap.mp hx
  subst e
  simp only [Sub.els, List.cons_append, List.mem_cons, List.mem_append, List.mem_map, List.mem_nil_iff, or_false] at hs
  rcases hs with hs | ⟨⟨o, q⟩, _, hs⟩ | hs
  · cases hs
  · cases o <;> cases hs
  · cases hs

theorem drawsFrom_joined : ∀ (d : List (Option Pt × Pt)) (p : Pt), Joined p (drawsFrom p d)
  | [], _ => trivial
  | (none, q) :: d, p => ⟨rfl, drawsFrom_joined d q⟩
  | (some c, q) :: d, p => ⟨rfl, drawsFrom_joined d q⟩

theorem drawsFrom_points (quads : Pt → Pt → Pt → Pt → List (Pt × Pt)) : ∀ (d : List (Option Pt × Pt)) (p : Pt),
    (drawsFrom p d).flatMap (pushSegment quads) = (d.map drawEl).flatMap elPoints
  | [], _ => rfl
  | (none, q) :: d, p => by
    simp only [drawsFrom, List.flatMap_cons, pushSegment, List.map_cons, drawEl, elPoints, drawsFrom_points quads d q]
  | (some c, q) :: d, p => by
    simp only [drawsFrom, List.flatMap_cons, pushSegment, List.map_cons, drawEl, elPoints, drawsFrom_points quads d q]

theorem drawsFrom_quadratic (quads : Pt → Pt → Pt → Pt → List (Pt × Pt)) : ∀ (d : List (Option Pt × Pt)) (p : Pt),
    (drawsFrom p d).flatMap (quadratic quads) = drawsFrom p d
  | [], _ => rfl
  | (none, q) :: d, p => by
    simp only [drawsFrom, List.flatMap_cons, quadratic, drawsFrom_quadratic quads d q]; rfl
  | (some c, q) :: d, p => by
    simp only [drawsFrom, List.flatMap_cons, quadratic, drawsFrom_quadratic quads d q]; rfl

/-- A stretch of points, backwards and closed by a line. -/
theorem outline_reversed (half : Point → Point → Pt) {L : List Point} {s : List PathSeg} (h : Trace L s) {a b : Point} (ha : L.head? = some a)
    (hb : L.getLast? = some b) : outline half L.reverse = (s.map backwards).reverse ++ [.line (place a) (place b)] := by
  have ht := trace_reverse h
  obtain ⟨a', r, e, ha'⟩ := trace_head h
  subst e
  cases ha
  obtain ⟨b', t, hr, hb'⟩ := trace_head ht
  have : b' = b := by
    have h1 : (a :: r).reverse.head? = some b' := by rw [hr]; rfl
    rw [List.head?_reverse, hb] at h1
    exact (Option.some.inj h1).symm
  subst this
  have hlast : (a :: r).reverse.getLast? = some a := by rw [List.getLast?_reverse]; rfl
  have hsn := trace_snoc_line ht b' hb' a hlast
  rw [hr] at hsn ⊢
  have := pieces_trace half b' hb' _ _ _ ((b' :: t).getLast (by simp)) (Nat.le_refl _) (by simp) hsn
  show pieces half _ (b' :: t) b' = _
  rw [this, List.map_reverse]

def anyQuads : Pt → Pt → Pt → Pt → List (Pt × Pt) := fun _ c _ q => [(c, q)]

theorem anyQuads_keeps : KeepsEnds anyQuads := fun _ c _ q => ⟨(c, q), rfl, rfl⟩

theorem readAs_contour (s : Sub) : ReadAs s (subContour s) := by
  refine ⟨cutPlace, fun q => toPoint_place q true, fun half => ?_⟩
  have hj := drawsFrom_joined s.draws s.start
  have ht := trace_pushes anyQuads anyQuads_keeps _ _ hj
  have hl := joined_end _ _ anyQuads anyQuads_keeps hj
  rw [drawsFrom_points] at ht hl
  rw [drawsFrom_quadratic] at ht
  exact outline_reversed half ht rfl hl

/-- **C99** (what Skia returns). A path of closed subpaths of lines and quadratic curves becomes one contour for each subpath, in order,
whose outline is the subpath backwards, with coordinates cut to 16 bits, and closed by a line. -/
theorem C99_read (subs : List Sub) : ∃ cs, skiaToGlyf (subs.flatMap Sub.els) = .ok cs ∧ List.Forall₂ ReadAs subs cs := by
  refine ⟨subs.map subContour, ?_, ?_⟩
  · rw [skia_collect _ (subs_noCubic subs)]
    have := collect_subs subs [] []
    simp only [List.append_nil, List.nil_append, collectSub] at this
    rw [this]
  · rw [List.forall₂_map_right_iff]
    exact List.forall₂_same.mpr fun s _ => readAs_contour s

example : skiaToGlyf (Sub.els ⟨⟨0, 0⟩, [(none, ⟨10, 0⟩), (some ⟨15, 5⟩, ⟨10, 10⟩)]⟩) =
    .ok [[⟨10, 10, true⟩, ⟨15, 5, false⟩, ⟨10, 0, true⟩, ⟨0, 0, true⟩]] := by decide +kernel

/-- **C99** (an open path). What is drawn after the last closing is lost. -/
theorem C99_open_lost (subs : List Sub) (p : Pt) (draws : List (Option Pt × Pt)) :
    skiaToGlyf (subs.flatMap Sub.els ++ .move p :: draws.map drawEl) = skiaToGlyf (subs.flatMap Sub.els) := by
  have h1 : NoCubic (subs.flatMap Sub.els ++ .move p :: draws.map drawEl) := by
    intro x hx c d q e
    rcases List.mem_append.mp hx with hx | hx
    · exact subs_noCubic subs x hx c d q e
    · have := subs_noCubic [⟨p, draws⟩] x (by simp only [Sub.els, List.flatMap_cons, List.flatMap_nil, List.append_nil]; exact List.mem_append_left _ hx) c d q
      exact this e
  rw [skia_collect _ h1, skia_collect _ (subs_noCubic subs), collect_subs]
  have h2 := collect_subs subs [] []
  simp only [List.append_nil] at h2
  rw [h2]
  have := collect_plain (.move p :: draws.map drawEl) [] [] ([] ++ subs.map subContour) (by
    intro h
    rcases List.mem_cons.mp h with h | h
    · cases h
    · exact drawEl_plain _ h)
  rw [List.append_nil] at this
  rw [this]
  rfl

/-- **C99** (cubics). Of a cubic curve two points are taken instead of three, and all points after it are off by one. -/
theorem C99_cubic_wrong : skiaToGlyf [.move ⟨0, 0⟩, .cubic ⟨1, 1⟩ ⟨2, 2⟩ ⟨3, 3⟩, .line ⟨4, 4⟩, .close] =
    .ok [[⟨3, 3, true⟩, ⟨2, 2, true⟩, ⟨1, 1, false⟩, ⟨0, 0, true⟩]] := by decide +kernel

/-! ### Drawing a contour -/

/-- A segment as a piece. -/
def segDraw : PathSeg → Option Pt × Pt
  | .line _ q => (none, q)
  | .quad _ c q => (some c, q)
  | .cubic _ _ _ q => (none, q)

theorem sk_trace (f : Point) (hf : f.onCurve = true) : ∀ (n : Nat) (l : List Point) (p last : Point) (s : List PathSeg), l.length ≤ n →
    Trace (p :: l ++ [f]) s → (p :: l).getLast? = some last →
    ∃ s0, (skLoop [] l).1 ++ skEnd f (skLoop [] l).2 = (s0.map segDraw).map drawEl ++ [.close] ∧
      ((s0 = s ∧ last.onCurve = false) ∨ (s = s0 ++ [.line (place last) (place f)] ∧ Trace (p :: l) s0))
  | n, [], p, last, s, _, h, hl => by
    simp only [List.getLast?_singleton, Option.some.injEq] at hl
    subst hl
    cases h with
    | line _ _ _ s hp hq h =>
      cases h
      exact ⟨[], rfl, .inr ⟨rfl, .one p hp⟩⟩
  | 0, _ :: _, p, last, s, hn, h, hl => by simp at hn
  | n + 1, q :: l, p, last, s, hn, h, hl => by
    simp only [List.cons_append] at h
    generalize e : l ++ [f] = l' at h
    cases h with
    | line _ _ _ s hp hq h =>
      subst e
      obtain ⟨s0, h1, h2⟩ := sk_trace f hf n l q last s (by simp at hn; omega) h (by rw [← hl]; simp [List.getLast?_cons])
      refine ⟨.line (place p) (place q) :: s0, ?_, ?_⟩
      · simp only [skLoop, hq, if_true, List.nil_append, skSegment, List.map_cons, List.cons_append, segDraw, drawEl, ← place_pt]
        rw [h1]
      · rcases h2 with ⟨rfl, h2⟩ | ⟨rfl, h2⟩
        · exact .inl ⟨rfl, h2⟩
        · exact .inr ⟨rfl, .line p q l s0 hp hq h2⟩
    | quad _ _ q2 r s hp hc hq h =>
      cases l with
      | nil =>
        simp only [List.nil_append, List.cons.injEq] at e
        obtain ⟨rfl, rfl⟩ := e
        cases h
        refine ⟨[.quad (place p) (place q) (place f)], ?_, .inl ⟨rfl, ?_⟩⟩
        · simp [skLoop, skEnd, hc, segDraw, drawEl, place_pt]
        · simp only [List.getLast?_cons_cons, List.getLast?_singleton, Option.some.injEq] at hl
          rw [← hl, hc]
      | cons q3 l =>
        simp only [List.cons_append, List.cons.injEq] at e
        obtain ⟨rfl, rfl⟩ := e
        obtain ⟨s0, h1, h2⟩ := sk_trace f hf n l q3 last s (by simp at hn; omega) h (by rw [← hl]; simp [List.getLast?_cons])
        refine ⟨.quad (place p) (place q) (place q3) :: s0, ?_, ?_⟩
        · simp only [skLoop, hc, hq, if_true, Bool.false_eq_true, if_false, List.nil_append, skSegment, List.map_cons,
            List.cons_append, segDraw, drawEl, ← place_pt]
          rw [h1]
        · rcases h2 with ⟨rfl, h2⟩ | ⟨rfl, h2⟩
          · exact .inl ⟨rfl, h2⟩
          · exact .inr ⟨rfl, .quad p q q3 l s0 hp hc hq h2⟩

theorem trace_draws {l : List Point} {s : List PathSeg} (h : Trace l s) : ∀ p, l.head? = some p → drawsFrom (place p) (s.map segDraw) = s := by
  induction h with
  | one p hp => intro _ _; rfl
  | line p q r s hp hq h ih =>
    intro p' e
    cases e
    simp only [List.map_cons, segDraw, drawsFrom, ih q rfl]
  | quad p c q r s hp hc hq h ih =>
    intro p' e
    cases e
    simp only [List.map_cons, segDraw, drawsFrom, ih q rfl]

theorem trace_end {l : List Point} {s : List PathSeg} (h : Trace l s) : ∀ p f, l.head? = some p → l.getLast? = some f →
    pathEnd (place p) s = place f := by
  have ends : ∀ (s : List PathSeg) (x : PathSeg) (a : Pt), pathEnd a (x :: s) = pathEnd (segEnd x) s := by
    intro s x a
    unfold pathEnd
    cases s with
    | nil => rfl
    | cons y s => rw [List.getLast?_cons_cons, List.getLast?_eq_some_getLast (by simp)]
  induction h with
  | one p hp => intro p' f e1 e2; cases e1; cases e2; rfl
  | line p q r s hp hq h ih =>
    intro p' f e1 e2
    rw [ends]
    exact ih q f rfl (by rw [← e2]; simp [List.getLast?_cons])
  | quad p c q r s hp hc hq h ih =>
    intro p' f e1 e2
    rw [ends]
    exact ih q f rfl (by rw [← e2]; simp [List.getLast?_cons])

/-- A contour whose first point is on the curve, drawn: the subpath, and its stretch of points. -/
theorem contour_drawn (p : Point) (c : List Point) (hp : p.onCurve = true) (hfit : MiddlesFit (p :: c)) :
    ∃ e sub, insertExplicit (p :: c) = .ok (p :: e) ∧ MadeExplicit (p :: c) (p :: e) ∧ skContour (p :: e) = .ok (Sub.els sub) ∧
      DrawnAs (p :: c) sub ∧ sub.start = place p ∧
      ((Trace (p :: e) sub.segs ∧ outline wholeMiddle (p :: c) = sub.segs ++ [.line sub.stop sub.start]) ∨
        (Trace (p :: e ++ [p]) sub.segs ∧ outline wholeMiddle (p :: c) = sub.segs ∧ sub.stop = sub.start)) := by
  obtain ⟨e', he, hm⟩ := (C30_explicit (p :: c) (by simp)).1 hfit
  obtain ⟨e, rfl⟩ := insertExplicit_head he
  obtain ⟨_, _, hadj⟩ := C30_explicit_keeps _ _ he
  obtain ⟨s, hs⟩ := trace_exists _ (p :: e) p (Nat.le_refl _) hp (by intro q eq; cases eq; exact hp) hadj
  obtain ⟨last, hl⟩ : ∃ last, (p :: e).getLast? = some last := ⟨_, List.getLast?_eq_some_getLast (by simp)⟩
  obtain ⟨s0, h1, h2⟩ := sk_trace p hp _ e p last s (Nat.le_refl _) hs hl
  have ho : outline wholeMiddle (p :: c) = s := by
    rw [outline_explicit hp hm]
    exact pieces_trace wholeMiddle p hp _ (p :: e) s _ (Nat.le_refl _) (by simp) hs
  have hc : skContour (p :: e) = .ok (Sub.els ⟨place p, s0.map segDraw⟩) := by
    unfold skContour Sub.els
    simp only
    rw [List.cons_append, h1]
    rfl
  have key : ((Trace (p :: e) (Sub.segs ⟨place p, s0.map segDraw⟩) ∧ outline wholeMiddle (p :: c) =
        (Sub.segs ⟨place p, s0.map segDraw⟩) ++ [.line (Sub.stop ⟨place p, s0.map segDraw⟩) (place p)]) ∨
      (Trace (p :: e ++ [p]) (Sub.segs ⟨place p, s0.map segDraw⟩) ∧ outline wholeMiddle (p :: c) = (Sub.segs ⟨place p, s0.map segDraw⟩) ∧
        (Sub.stop ⟨place p, s0.map segDraw⟩) = place p)) := by
    rcases h2 with ⟨rfl, _⟩ | ⟨rfl, ht⟩
    · right
      have e1 : Sub.segs ⟨place p, s0.map segDraw⟩ = s0 := trace_draws hs p rfl
      refine ⟨by rw [e1]; exact hs, by rw [e1]; exact ho, ?_⟩
      unfold Sub.stop
      rw [e1]
      exact trace_end hs p p rfl (by rw [List.getLast?_append]; rfl)
    · left
      have e1 : Sub.segs ⟨place p, s0.map segDraw⟩ = s0 := trace_draws ht p rfl
      have e2 : Sub.stop ⟨place p, s0.map segDraw⟩ = place last := by
        unfold Sub.stop
        rw [e1]
        exact trace_end ht p last rfl hl
      exact ⟨by rw [e1]; exact ht, by rw [e1, e2]; exact ho⟩
  refine ⟨e, _, he, hm, hc, ⟨⟨p, rfl, rfl⟩, ?_⟩, rfl, key⟩
  rcases key with ⟨_, k⟩ | ⟨_, k, k2⟩
  · exact .inr k
  · exact .inl ⟨k, k2⟩

/-- Every contour begins on the curve, and the middles of off-curve points can be computed. -/
def Drawable (g : Glyph) : Prop := ∀ c ∈ g.contours, (∃ p, c.head? = some p ∧ p.onCurve = true) ∧ MiddlesFit c

theorem glyph_drawn : ∀ (cts : List (List Point)), (∀ c ∈ cts, (∃ p, c.head? = some p ∧ p.onCurve = true) ∧ MiddlesFit c) →
    ∃ es subs, Res.mapL insertExplicit cts = .ok es ∧ List.Forall₂ MadeExplicit cts es ∧
      Res.mapL skContour es = .ok (subs.map Sub.els) ∧ List.Forall₂ DrawnAs cts subs
  | [], _ => ⟨[], [], rfl, .nil, rfl, .nil⟩
  | c :: cts, h => by
    obtain ⟨⟨p, hp, ho⟩, hf⟩ := h c List.mem_cons_self
    cases c with
    | nil => cases hp
    | cons q c =>
      cases hp
      obtain ⟨e, sub, h1, h2, h3, h4, _⟩ := contour_drawn p c ho hf
      obtain ⟨es, subs, k1, k2, k3, k4⟩ := glyph_drawn cts (fun c hc => h c (List.mem_cons_of_mem _ hc))
      refine ⟨(p :: e) :: es, sub :: subs, ?_, .cons h2 k2, ?_, .cons h4 k4⟩
      · unfold Res.mapL
        rw [h1, k1]
      · unfold Res.mapL
        rw [h3, k3]
        rfl

/-- **C99.** For a glyph with contours beginning on the curve, Skia gets a path with one closed subpath for each contour, which is its
outline (with the middles of off-curve points in whole units). If Skia returns closed subpaths of lines and quadratic curves, these
are the new contours, backwards and with coordinates cut to 16 bits. If Skia returns nothing, the contours get their middles
as points. Nothing else changes. -/
theorem C99_glyph (simplify : List SkEl → Option (List SkEl)) (g : Glyph) (hc : g.components = []) (hd : Drawable g) :
    ∃ subs, List.Forall₂ DrawnAs g.contours subs ∧
      (∀ subs', simplify (subs.flatMap Sub.els) = some (subs'.flatMap Sub.els) → g.contours ≠ [] →
        ∃ cs, removeOverlap simplify g = .ok { g with contours := cs } ∧ List.Forall₂ ReadAs subs' cs) ∧
      (simplify (subs.flatMap Sub.els) = none →
        ∃ cs, removeOverlap simplify g = .ok { g with contours := cs } ∧ List.Forall₂ MadeExplicit g.contours cs) := by
  obtain ⟨es, subs, h1, h2, h3, h4⟩ := glyph_drawn g.contours hd
  have hcond : g.contours ≠ [] → (g.hasComponents || g.isEmpty) = false := by
    intro hne
    have : g.contours.isEmpty = false := by cases hg : g.contours <;> simp_all
    simp [Glyph.hasComponents, Glyph.isEmpty, hc, this]
  refine ⟨subs, h4, fun subs' hs hne => ?_, fun hs => ?_⟩
  · obtain ⟨cs, k1, k2⟩ := C99_read subs'
    refine ⟨cs, ?_, k2⟩
    unfold removeOverlap
    rw [hcond hne]
    simp only [Bool.false_eq_true, if_false, h1, h3, Res.ok_bind]
    rw [show (subs.map Sub.els).flatten = subs.flatMap Sub.els from List.flatMap_def.symm, hs]
    simp only [k1, Res.ok_bind, Res.pure_eq]
  · by_cases hne : g.contours = []
    · rw [hne] at h2
      cases h2
      refine ⟨[], ?_, by rw [hne]; exact .nil⟩
      unfold removeOverlap
      rw [if_pos (by simp [Glyph.isEmpty, hc, hne])]
      rw [← hne]
    · refine ⟨es, ?_, h2⟩
      unfold removeOverlap
      rw [hcond hne]
      simp only [Bool.false_eq_true, if_false, h1, h3, Res.ok_bind]
      rw [show (subs.map Sub.els).flatten = subs.flatMap Sub.els from List.flatMap_def.symm, hs]
      rfl

/-- **C99** (other glyphs). Composite and empty glyphs stay as they are. -/
theorem C99_unchanged (simplify : List SkEl → Option (List SkEl)) (g : Glyph) (h : g.components ≠ [] ∨ g.contours = []) :
    removeOverlap simplify g = .ok g := by
  unfold removeOverlap
  rw [if_pos]
  by_cases hc : g.components = []
  · rcases h with h | h
    · exact absurd hc h
    · simp [Glyph.isEmpty, hc, h]
  · have : g.components.isEmpty = false := by cases hg : g.components <;> simp_all
    simp [Glyph.hasComponents, this]

/-- The same outline in the other direction, up to where it begins and up to a line of no length. -/
def SameBackwards (c c' : List Point) : Prop := ∀ half, ∃ p,
  outline half c' ~r ((outline wholeMiddle c).map backwards).reverse ∨
  outline half c' = ((outline wholeMiddle c).map backwards).reverse ++ [.line p p]

theorem move_whole {l : List Point} {s : List PathSeg} (h : Trace l s) {cut : Pt → Pt} (hc : ∀ q, CutPt q (cut q)) :
    s.map (movePoints cut) = s := by
  have k : ∀ p : Point, cut (place p) = place p := fun p => C98_cut_whole p _ (hc _)
  induction h with
  | one p hp => rfl
  | line p q r s hp hq h ih => simp only [List.map_cons, movePoints, k, ih]
  | quad p c q r s hp hq hc' h ih => simp only [List.map_cons, movePoints, k, ih]

theorem drawn_back : ∀ (cts : List (List Point)), (∀ c ∈ cts, (∃ p, c.head? = some p ∧ p.onCurve = true) ∧ MiddlesFit c) →
    ∃ es subs, Res.mapL insertExplicit cts = .ok es ∧ Res.mapL skContour es = .ok (subs.map Sub.els) ∧
      List.Forall₂ (fun c s => ∀ c', ReadAs s c' → SameBackwards c c') cts subs
  | [], _ => ⟨[], [], rfl, rfl, .nil⟩
  | c :: cts, h => by
    obtain ⟨⟨p, hp, ho⟩, hf⟩ := h c List.mem_cons_self
    cases c with
    | nil => cases hp
    | cons q c =>
      cases hp
      obtain ⟨e, sub, h1, h2, h3, h4, hst, h5⟩ := contour_drawn p c ho hf
      obtain ⟨es, subs, k1, k3, k4⟩ := drawn_back cts (fun c hc => h c (List.mem_cons_of_mem _ hc))
      refine ⟨(p :: e) :: es, sub :: subs, ?_, ?_, .cons ?_ k4⟩
      · unfold Res.mapL
        rw [h1, k1]
      · unfold Res.mapL
        rw [h3, k3]
        rfl
      · rintro c' ⟨cut, hcut, hout⟩ half
        refine ⟨place p, ?_⟩
        have kc : cut (place p) = place p := C98_cut_whole p _ (hcut _)
        rw [hout half]
        rcases h5 with ⟨ht, e1⟩ | ⟨ht, e1, e2⟩
        · left
          have hstop : ∃ f : Point, sub.stop = place f := by
            obtain ⟨f, hl⟩ : ∃ f, (p :: e).getLast? = some f := ⟨_, List.getLast?_eq_some_getLast (by simp)⟩
            refine ⟨f, ?_⟩
            unfold Sub.stop
            rw [hst]
            exact trace_end ht p f rfl hl
          obtain ⟨f, hf2⟩ := hstop
          have kf : cut (place f) = place f := C98_cut_whole f _ (hcut _)
          rw [move_whole ht hcut, e1, hst, hf2, kc, kf]
          simp only [List.map_append, List.map_cons, List.map_nil, backwards, List.reverse_append, List.reverse_cons, List.reverse_nil,
            List.nil_append, List.singleton_append]
          exact List.IsRotated.cons_append_singleton.symm
        · right
          rw [move_whole ht hcut, e1, e2, hst, kc]

/-- **C99** (if Skia changes nothing). If Skia returns the path it was given, every contour keeps its outline, but in the other
direction. -/
theorem C99_kept (g : Glyph) (hc : g.components = []) (hd : Drawable g) :
    ∃ cs, removeOverlap some g = .ok { g with contours := cs } ∧ List.Forall₂ SameBackwards g.contours cs := by
  obtain ⟨es, subs, h1, h3, h4⟩ := drawn_back g.contours hd
  obtain ⟨cs, k1, k2⟩ := C99_read subs
  have hall : List.Forall₂ SameBackwards g.contours cs := by
    clear h1 h3 k1 hd
    generalize g.contours = cts at h4
    induction h4 generalizing cs with
    | nil => cases k2; exact .nil
    | cons a b ih =>
      cases k2 with
      | cons x y => exact .cons (a _ x) (ih _ y)
  refine ⟨cs, ?_, hall⟩
  by_cases hne : g.contours = []
  · rw [hne] at hall
    cases hall
    rw [C99_unchanged _ _ (.inr hne), ← hne]
  · have : g.contours.isEmpty = false := by cases hg : g.contours <;> simp_all
    unfold removeOverlap
    rw [if_neg (by simp [Glyph.hasComponents, Glyph.isEmpty, hc, this])]
    simp only [h1, h3, Res.ok_bind]
    rw [show (subs.map Sub.els).flatten = subs.flatMap Sub.els from List.flatMap_def.symm, k1]
    rfl

/-- A glyph with a curve and a corner. -/
def overlapGlyph : Glyph := ⟨0, 20, 0, 20, [[⟨0, 0, true⟩, ⟨0, 10, false⟩, ⟨10, 20, false⟩, ⟨20, 10, true⟩, ⟨5, 5, true⟩]], [], [], false⟩

example : overlapGlyph.components = [] ∧ Drawable overlapGlyph ∧ removeOverlap some overlapGlyph = .ok { overlapGlyph with
    contours := [[⟨5, 5, true⟩, ⟨20, 10, true⟩, ⟨10, 20, false⟩, ⟨5, 15, true⟩, ⟨0, 10, false⟩, ⟨0, 0, true⟩]] } := by
  refine ⟨rfl, ?_, by decide +kernel⟩
  intro c hc
  simp only [overlapGlyph, List.mem_singleton] at hc
  subst hc
  refine ⟨⟨_, rfl, rfl⟩, ?_⟩
  intro i a b h1 h2 ha hb
  match i, h1, h2 with
  | 0, h1, h2 => cases h1; cases ha
  | 1, h1, h2 => cases h1; cases h2; exact ⟨by decide, by decide⟩
  | 2, h1, h2 => cases h2; cases hb
  | 3, h1, h2 => cases h2; cases hb
  | i + 4, h1, h2 => simp at h2

/-- **C99** (contours beginning off the curve). Their outline is changed even if Skia changes nothing: here a curve is lost. -/
theorem C99_off_first : ∃ (g g' : Glyph) (c : List Point), removeOverlap some g = .ok g' ∧ g.contours = [c] ∧
    outline middle c = [.quad ⟨10, 10⟩ ⟨0, 0⟩ ⟨10, 0⟩, .line ⟨10, 0⟩ ⟨10, 10⟩] ∧
    g'.contours = [[⟨10, 10, true⟩, ⟨10, 0, true⟩, ⟨0, 0, true⟩]] :=
  ⟨⟨0, 10, 0, 10, [[⟨0, 0, false⟩, ⟨10, 0, true⟩, ⟨10, 10, true⟩]], [], [], false⟩, _, _, rfl, rfl, by decide +kernel, by decide +kernel⟩

/-- **C99** (panics). A glyph with an empty contour panics, and so does one where the middle of two off-curve points needs a sum which
does not fit. -/
theorem C99_panics (simplify : List SkEl → Option (List SkEl)) (g : Glyph) (hc : g.components = [])
    (h : ∃ c ∈ g.contours, c = [] ∨ ¬ MiddlesFit c) : removeOverlap simplify g = .panic := by
  have key : ∀ (cts : List (List Point)), (∃ c ∈ cts, c = [] ∨ ¬ MiddlesFit c) → Res.mapL insertExplicit cts = .panic := by
    intro cts
    induction cts with
    | nil => rintro ⟨c, hc, _⟩; cases hc
    | cons c cts ih =>
      rintro ⟨c', hc', h⟩
      unfold Res.mapL
      by_cases hbad : c = [] ∨ ¬ MiddlesFit c
      · have : insertExplicit c = .panic := by
          by_cases hn : c = []
          · subst hn; rfl
          · rcases hbad with hbad | hbad
            · exact absurd hbad hn
            · exact (C30_explicit c hn).2 hbad
        rw [this]
      · have hin : c' ∈ cts := by
          rcases List.mem_cons.mp hc' with rfl | hin
          · exact absurd h hbad
          · exact hin
        push Not at hbad
        obtain ⟨e, he, _⟩ := (C30_explicit c hbad.1).1 hbad.2
        rw [he, ih ⟨c', hin, h⟩]
  obtain ⟨c, hcm, hb⟩ := h
  have hne : g.contours ≠ [] := by intro e; rw [e] at hcm; cases hcm
  have : g.contours.isEmpty = false := by cases hg : g.contours <;> simp_all
  unfold removeOverlap
  rw [if_neg (by simp [Glyph.hasComponents, Glyph.isEmpty, hc, this]), key _ ⟨c, hcm, hb⟩]
  rfl

end FT.Props
