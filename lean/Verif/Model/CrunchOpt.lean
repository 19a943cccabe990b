import Verif.Model.Crunch
import Verif.Model.Glyf

/-!
The optimiser of `fontcrunch` (crates/fonttools-cli/src/bin/fontcrunch.rs:28-507). Coordinates and lengths (`f64`) are exact rational
numbers here. Scores are of any type with any comparison, so that rounding and NaN in them make no difference.
-/

namespace FT.Crunch
open FT FT.Glyf

/-! ### Numbers -/

/-- `Point::lerp` of kurbo. -/
def lerp (p q : Pt) (t : ℚ) : Pt := ⟨p.x + t * (q.x - p.x), p.y + t * (q.y - p.y)⟩

/-- `is_close` (fontcrunch.rs:78-80). -/
def closePt (p q : Pt) : Bool := isClose p.x q.x && isClose p.y q.y

/-- `square_distance` (fontcrunch.rs:81-85). -/
def sqDist (p q : Pt) : ℚ := (p.x - q.x) * (p.x - q.x) + (p.y - q.y) * (p.y - q.y)

/-- `is_int` (fontcrunch.rs:418-420). -/
def isInt (x : ℚ) : Bool := isClose (x - ⌊x⌋) 0

/-- Goes with `isInt` (fontcrunch.rs:418-420). -/
def intPt (p : Pt) : Bool := isInt p.x && isInt p.y

/-- `intersect` (fontcrunch.rs:59-70). -/
def intersect (p0 d0 p1 d1 : Pt) : Option Pt :=
  let det := d0.x * d1.y - d0.y * d1.x
  if |det| < 1 / 2 ^ 52 then none
  else
    let a := p0.y * d0.x - p0.x * d0.y
    let b := p1.y * d1.x - p1.x * d1.y
    some ⟨(a * d1.x - b * d0.x) / det, (a * d1.y - b * d0.y) / det⟩

/-- `Point::round`: halves away from zero. -/
def roundPt (p : Pt) : Pt := ⟨roundAway p.x, roundAway p.y⟩

/-- Rounding to halves (fontcrunch.rs:294-297). -/
def roundHalf (p : Pt) : Pt := ⟨1 / 2 * roundAway (2 * p.x), 1 / 2 * roundAway (2 * p.y)⟩

/-- `point_at_t` (fontcrunch.rs:101-105). -/
def Quad.at (q : Quad) (t : ℚ) : Pt := lerp (lerp q.p0 q.p1 t) (lerp q.p1 q.p2 t) t

/-- `ArclenFunctor::deriv` (fontcrunch.rs:128-142). -/
def Quad.deriv (q : Quad) (t : ℚ) : Pt :=
  let dx0 := 2 * (q.p1.x - q.p0.x)
  let dy0 := 2 * (q.p1.y - q.p0.y)
  let dx1 := 2 * (q.p2.x - q.p1.x)
  let dy1 := 2 * (q.p2.y - q.p1.y)
  ⟨dx0 + t * (dx1 - dx0), dy0 + t * (dy1 - dy0)⟩

/-! ### Tabulating the curve -/

/-- The curve by arc length, one entry for each unit (fontcrunch.rs:188-193). -/
structure Thetas where
  xys : List Pt
  dirs : List Pt
  arclen : ℚ

/-- The local variables of `Thetas::new` (fontcrunch.rs:196-202). `ix` counts the entries. -/
structure Filling where
  ix : Nat
  xys : List Pt
  dirs : List Pt
  lastxy : Pt
  lastd : Pt
  lasts : ℚ

/-- The loops `while ix <= ..` (fontcrunch.rs:212-217, 229-234): one entry for each `ix` up to the limit. `unit` is `unitize`. -/
def fill (unit : Pt → Pt) (limit s : ℚ) (xy d : Pt) (f : Filling) : Filling :=
  let us := (List.range' f.ix (⌊limit⌋ + 1 - f.ix).toNat).map fun (i : Nat) => ((i : ℚ) - f.lasts) / (s - f.lasts)
  { f with ix := f.ix + us.length, xys := f.xys ++ us.map (lerp f.lastxy xy), dirs := f.dirs ++ us.map fun u => unit (lerp f.lastd d u) }

/-- One of the 100 steps along a curve (fontcrunch.rs:209-222). `step q i` is what `rk4` adds to the arc length, and `y` the arc length
before. -/
def fillStep (unit : Pt → Pt) (step : Quad → Nat → ℚ) (q : Quad) (x : Filling × ℚ) (i : Nat) : Filling × ℚ :=
  let xy := q.at (i / 100)
  let d := q.deriv (i / 100)
  let f := fill unit x.2 x.2 xy d x.1
  ({ f with lasts := x.2, lastxy := xy, lastd := d }, x.2 + step q i)

/-- The body of the loop over the curves (fontcrunch.rs:203-224). -/
def fillQuad (unit : Pt → Pt) (step : Quad → Nat → ℚ) (x : Filling × ℚ) (q : Quad) : Filling × ℚ :=
  (List.range 100).foldl (fillStep unit step q) x

/-- `Thetas::new` (fontcrunch.rs:195-236). -/
def Thetas.new (unit : Pt → Pt) (step : Quad → Nat → ℚ) (qs : List Quad) : Res Thetas :=
  let (f, arclen) := qs.foldl (fillQuad unit step) (⟨0, [], [], ⟨0, 0⟩, ⟨0, 0⟩, -1⟩, 0)
  match qs.getLast? with
  | none => .panic
  | some q =>
    let f := fill unit (arclen + 2) arclen q.p2 (q.deriv 1) f
    .ok ⟨f.xys, f.dirs, arclen⟩

/-- `xy` and `dir` (fontcrunch.rs:237-253), for `s` not below 0: the entry after the last one is not there. -/
def entryAt (l : List Pt) (s : ℚ) : Res Pt :=
  let bucket := ⌊s⌋.toNat
  if l.length ≤ bucket then .ok ⟨0, 0⟩
  else match l[bucket]?, l[bucket + 1]? with
    | some p, some q => .ok (lerp p q (s - ⌊s⌋))
    | _, _ => .panic

/-! ### Candidates for the ends of curves -/

/-- `Break` (fontcrunch.rs:367-372). -/
structure Break where
  s : ℚ
  xy : Pt
  dir : Pt

/-- The loop of `find_breaks` (fontcrunch.rs:287-320), for `i` from `n + 1 - k` on; the last break comes first, `lastd` is squared. -/
def breakLoop (t : Thetas) (n : Nat) : (k : Nat) → (lastd : ℚ) → (breaks : List Break) → Res (Option (List Break))
  | 0, _, breaks => .ok (some breaks)
  | k + 1, lastd, breaks =>
    let s := t.arclen * (n + 1 - (k + 1) : Nat) / n
    if t.xys.length < ⌊s⌋.toNat + 1 then .ok none
    else do
      let o ← entryAt t.xys s
      let p := roundHalf o
      let dist := sqDist p o
      match breaks with
      | [] => do
        let dir ← entryAt t.dirs s
        breakLoop t n k dist [⟨s, p, dir⟩]
      | b :: rest =>
        if !closePt p b.xy then do
          let dir ← entryAt t.dirs s
          breakLoop t n k dist (⟨s, p, dir⟩ :: b :: rest)
        else if dist < lastd then do
          let dir ← entryAt t.dirs s
          breakLoop t n k lastd (⟨s, p, dir⟩ :: rest)
        else breakLoop t n k lastd (b :: rest)

/-- `find_breaks` (fontcrunch.rs:283-322). For `n = 0` the only `s` is NaN; the optimiser then finds nothing. -/
def findBreaks (t : Thetas) : Res (Option (List Break)) := do
  let n := (roundAway (10 * t.arclen)).toNat
  if n = 0 then .ok none
  else do
    let r ← breakLoop t n (n + 1) 0 []
    return r.map List.reverse

/-! ### The search -/

/-- Scores: `combine` is line 407 (the flag is for a penalty of 1 instead of 2), `less` line 478, `over3` and `over4` lines 331 and
338. -/
structure Scores (F : Type) where
  combine : Option F → Bool → F → F
  less : F → F → Bool
  over3 : F → Bool
  over4 : F → Bool

/-- `Statelet` (fontcrunch.rs:374-379) with those before it: the last curve comes first. -/
structure Chain (F : Type) where
  quad : Quad
  before : List Quad
  score : F

variable {F : Type}

/-- Whether the curve goes on smoothly, with the point between implied (fontcrunch.rs:391-400, 437-449). -/
def smooth (last : Quad) (q : Quad) : Bool := !last.isLine && closePt (midPt last.p1 q.p1) q.p0

/-- `combine` (fontcrunch.rs:382-409). -/
def Chain.extend (S : Scores F) (prev : Option (Chain F)) (score : F) (q : Quad) : Chain F := match prev with
  | none => ⟨q, [], S.combine none q.isLine score⟩
  | some c => ⟨q, c.quad :: c.before, S.combine (some c.score) (q.isLine || smooth c.quad q) score⟩

/-- `ok_for_half` (fontcrunch.rs:430-452). -/
def okForHalf (state : Option (Chain F)) (q : Quad) : Bool :=
  if intPt q.p0 then true
  else if q.isLine then false
  else match state with
    | none => false
    | some c => smooth c.quad q

/-- `states[i]`. -/
def stateAt (states : List (Option (Chain F))) (i : Nat) : Res (Option (Chain F)) := match states[i]? with
  | some s => .ok s
  | none => .panic

/-- `try_quad` (fontcrunch.rs:456-485); `score` is what `measure_quad` returned. Only the first state has `init` set (line 328). -/
def tryQuad (S : Scores F) (score : F) (states : List (Option (Chain F))) (prev this : Nat) (q : Quad) : Res (List (Option (Chain F))) := do
  let p ← stateAt states prev
  if prev ≠ 0 ∧ p.isNone then .ok states
  else do
    let new := Chain.extend S p score q
    let old ← stateAt states this
    match old with
    | none => return states.set this (some new)
    | some c => return if S.less new.score c.score then states.set this (some new) else states

/-- `&breaks[i]`. -/
def breakAt (breaks : List Break) (i : Nat) : Res Break := match breaks[i]? with
  | some b => .ok b
  | none => .panic

/-- The line of `try_line_quad` (fontcrunch.rs:496-500). -/
def tryLine (S : Scores F) (measure : ℚ → ℚ → Quad → Res F) (prev this : Nat) (b0 b1 : Break) (states : List (Option (Chain F))) :
    Res (List (Option (Chain F))) :=
  if intPt b0.xy then do
    let line : Quad := ⟨b0.xy, midPt b0.xy b1.xy, b1.xy⟩
    let score ← measure b0.s b1.s line
    tryQuad S score states prev this line
  else .ok states

/-- The curve of `try_line_quad` (fontcrunch.rs:501-506). -/
def tryCurve (S : Scores F) (measure : ℚ → ℚ → Quad → Res F) (prev this : Nat) (b0 b1 : Break) (states : List (Option (Chain F))) :
    Res (List (Option (Chain F))) :=
  match intersect b0.xy b0.dir b1.xy b1.dir with
  | none => .ok states
  | some mid => do
    let q : Quad := ⟨b0.xy, roundPt mid, b1.xy⟩
    let p ← stateAt states prev
    if okForHalf p q then do
      let score ← measure b0.s b1.s q
      tryQuad S score states prev this q
    else .ok states

/-- `try_line_quad` (fontcrunch.rs:487-507). -/
def tryLineQuad (S : Scores F) (measure : ℚ → ℚ → Quad → Res F) (breaks : List Break) (states : List (Option (Chain F))) (prev this : Nat) :
    Res (List (Option (Chain F))) := do
  let b0 ← breakAt breaks prev
  let b1 ← breakAt breaks this
  let states ← tryLine S measure prev this b0 b1 states
  tryCurve S measure prev this b0 b1 states

/-- A loop of calls of `try_line_quad`. -/
def tryAll (S : Scores F) (measure : ℚ → ℚ → Quad → Res F) (breaks : List Break) : List (Nat × Nat) → List (Option (Chain F)) →
    Res (List (Option (Chain F)))
  | [], states => .ok states
  | (prev, this) :: l, states => do
    let states ← tryLineQuad S measure breaks states prev this
    tryAll S measure breaks l states

/-- One curve before and one after each break (fontcrunch.rs:332-337). -/
def splitPairs (n : Nat) : List (Nat × Nat) := (List.range' 1 (n - 1)).flatMap fun i => [(0, i), (i, n)]

/-- All pairs (fontcrunch.rs:339-349). -/
def allPairs (n : Nat) : List (Nat × Nat) := (List.range' 1 n).flatMap fun i => (List.range i).reverse.map fun j => (j, i)

/-- The end of `optimize` (fontcrunch.rs:352-363). -/
def Chain.quads (c : Chain F) : List Quad := (c.quad :: c.before).reverse

/-- `optimize` (fontcrunch.rs:324-364) after `find_breaks`. -/
def search (S : Scores F) (measure : ℚ → ℚ → Quad → Res F) (breaks : List Break) : Res (Option (List Quad)) :=
  if breaks.isEmpty then .panic
  else do
    let n := breaks.length - 1
    let states ← tryLineQuad S measure breaks (List.replicate breaks.length none) 0 n
    match ← stateAt states n with
    | none => return none
    | some c =>
      if S.over3 c.score then do
        let states ← tryAll S measure breaks (splitPairs n) states
        match ← stateAt states n with
        | none => return none
        | some c =>
          if S.over4 c.score then do
            let states ← tryAll S measure breaks (allPairs n) states
            match ← stateAt states n with
            | none => .panic
            | some c => return some c.quads
          else return some c.quads
      else return some c.quads

/-- `optimize` (fontcrunch.rs:324-364). -/
def optimize (S : Scores F) (measure : Thetas → ℚ → ℚ → Quad → Res F) (t : Thetas) : Res (Option (List Quad)) := do
  match ← findBreaks t with
  | none => return none
  | some breaks => search S (measure t) breaks

/-- What `crunch_contour` does with a stretch (fontcrunch.rs:608-609). -/
def optimiser (S : Scores F) (measure : Thetas → ℚ → ℚ → Quad → Res F) (unit : Pt → Pt) (step : Quad → Nat → ℚ) : Optimiser := fun qs => do
  let t ← Thetas.new unit step qs
  optimize S measure t

end FT.Crunch
