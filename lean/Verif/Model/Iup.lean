import Verif.Model.Outline
import Verif.Model.TupleVar

/-!
Interpolation of unreferenced points and the delta optimiser: `src/otvar/iup.rs`, and `TupleVariation::iup_delta` of
`src/otvar/tuplevariationstore.rs`.

`f32` values are the rationals they denote. Positions within a contour, which the code keeps in `i16`, are unbounded
integers here; for longer contours, where they would leave `i16`, the code panics, and so does the model (see
`optimizeFree` and `optimizeContour`). The hash maps `costs` and `chain`, whose keys are consecutive, are lists.
-/

namespace FT.Iup
open FT FT.F32 FT.Glyf FT.TupleVar

/-- A point or a delta: pair of `i16` (iup.rs). -/
abbrev Pt := Int16 × Int16

/-- `Delta::get_2d` (otvar.rs:38-46). -/
def get2d : Delta → Res Pt
  | .d2 x y => .ok (x, y)
  | .d1 _ => .panic

/-- One coordinate of one point, the references sorted (iup.rs:37-43). -/
def segPoint (x1 x2 d1 d2 : Int16) (scale : ℚ) (x : Int16) : Res Int16 :=
  if x ≤ x1 then .ok d1
  else if x2 ≤ x then .ok d2
  else do
    let t ← subI16 x x1
    addI16 d1 (qToI16 (rne ((t.toInt : ℚ) * scale)))

/-- One coordinate, the references sorted (iup.rs:33-45): both subtractions are checked, the quotient is rounded. -/
def segSorted (x1 x2 d1 d2 : Int16) (xs : List Int16) : Res (List Int16) := do
  let dd ← subI16 d2 d1
  let dx ← subI16 x2 x1
  Res.mapL (segPoint x1 x2 d1 d2 (rne ((dd.toInt : ℚ) / dx.toInt))) xs

/-- One coordinate (iup.rs:18-45). -/
def segAxis (x1 d1 x2 d2 : Int16) (xs : List Int16) : Res (List Int16) :=
  if x1 = x2 then .ok (List.replicate xs.length (if d1 = d2 then d1 else 0))
  else if x2 < x1 then segSorted x2 x1 d2 d1 xs
  else segSorted x1 x2 d1 d2 xs

/-- `iup_segment` (iup.rs:6-53); the deltas it appends. -/
def iupSegment (coords : List Pt) (rc1 : Pt) (rd1 : Option Delta) (rc2 : Pt) (rd2 : Option Delta) : Res (List Pt) := do
  let e1 ← Res.unwrap rd1
  let d1 ← get2d e1
  let e2 ← Res.unwrap rd2
  let d2 ← get2d e2
  let xs ← segAxis rc1.1 d1.1 rc2.1 d2.1 (coords.map Prod.fst)
  let ys ← segAxis rc1.2 d1.2 rc2.2 d2.2 (coords.map Prod.snd)
  return xs.zip ys

/-- `&l[a..b]`. -/
def slice {α : Type} (l : List α) (a b : Nat) : Res (List α) :=
  if a ≤ b ∧ b ≤ l.length then .ok ((l.drop a).take (b - a)) else .panic

/-- The call of `iup_segment` for the points from `i1` up to `i2` with references `r1` and `r2` (iup.rs:84-92, 97-105,
111-119). -/
def segAt (ds : List (Option Delta)) (cs : List Pt) (i1 i2 r1 r2 : Nat) : Res (List Pt) := do
  let part ← slice cs i1 i2
  let c1 ← Res.unwrap cs[r1]?
  let d1 ← Res.unwrap ds[r1]?
  let c2 ← Res.unwrap cs[r2]?
  let d2 ← Res.unwrap ds[r2]?
  iupSegment part c1 d1 c2 d2

/-- `deltas[i].as_ref().unwrap().get_2d()`. -/
def givenAt (ds : List (Option Delta)) (i : Nat) : Res Pt := do
  let o ← Res.unwrap ds[i]?
  let d ← Res.unwrap o
  get2d d

/-- The positions of the given deltas (iup.rs:71-76). -/
def indices (ds : List (Option Delta)) : List Nat :=
  (List.range ds.length).filter (fun i => (ds[i]?.bind id).isSome)

/-- The loop over the later references (iup.rs:95-109): what it appends and the last reference. -/
def iupLoop (ds : List (Option Delta)) (cs : List Pt) : Nat → List Nat → Res (List Pt × Nat)
  | start, [] => .ok ([], start)
  | start, e :: es => do
    let seg ← (if 1 < e - start then segAt ds cs (start + 1) e start e else .ok [])
    let d ← givenAt ds e
    let r ← iupLoop ds cs e es
    return (seg ++ d :: r.1, r.2)

/-- `iup_contour` (iup.rs:56-121); the deltas it appends. -/
def iupContour (ds : List (Option Delta)) (cs : List Pt) : Res (List Pt) :=
  if ds.all (·.isSome) then Res.mapL (givenAt ds) (List.range ds.length)
  else match indices ds with
    | [] => .ok (List.replicate ds.length (0, 0))
    | start :: rest => do
      let first ← (if start ≠ 0 then segAt ds cs 0 start start ((start :: rest).getLast (by simp)) else .ok [])
      let d ← givenAt ds start
      let r ← iupLoop ds cs start rest
      let last ← (if r.2 ≠ ds.length - 1 then segAt ds cs (r.2 + 1) ds.length r.2 start else .ok [])
      return first ++ d :: (r.1 ++ last)

/-- The contour loop of `iup_delta` (tuplevariationstore.rs:37-45) and of `optimize_deltas` (iup.rs:131-138). -/
def iupContours (ds : List (Option Delta)) (cs : List Pt) : Nat → List Nat → Res (List Pt)
  | _, [] => .ok []
  | start, e :: es => do
    let d ← slice ds start (e + 1)
    let c ← slice cs start (e + 1)
    let l ← iupContour d c
    let r ← iupContours ds cs (e + 1) es
    return l ++ r

/-- `TupleVariation::iup_delta` (tuplevariationstore.rs:27-47). -/
def iupDelta (ds : List (Option Delta)) (cs : List Pt) (ends : List Nat) : Res (List Pt) :=
  if ds.all (·.isSome) then Res.mapL (givenAt ds) (List.range ds.length)
  else iupContours ds cs 0 ends

/-! ### The optimiser -/

/-- The comparison at the end of `can_iup_between` (iup.rs:451-456), which stops at the first point out of tolerance. The
tolerance is 0.5, the only value in use; a sum of two squares of integers is at most a half iff both are zero, however it is
rounded. The subtractions are checked. -/
def allClose : List (Pt × Pt) → Res Bool
  | [] => .ok true
  | (d, p) :: l => do
    let x ← subI16 d.1 p.1
    let y ← subI16 d.2 p.2
    if ((x.toInt * x.toInt + y.toInt * y.toInt : ℤ) : ℚ) ≤ 1 / 2 then allClose l else .ok false

/-- The part of a list strictly between positions `i` and `j`, going round the end if need be (iup.rs:431-439). -/
def portion {α : Type} (l : List α) (i j : Nat) : List α :=
  if j < i + 1 then l.drop (i + 1) ++ l.take j else (l.drop (i + 1)).take (j - (i + 1))

/-- `can_iup_between` (iup.rs:419-458); the lists have the same length. -/
def canIup (ds cs : List Pt) (i j : Int) : Res Bool :=
  if j - i < 2 then .panic
  else do
    let a := (i % ds.length).toNat
    let b := (j % ds.length).toNat
    let ca ← Res.unwrap cs[a]?
    let da ← Res.unwrap ds[a]?
    let cb ← Res.unwrap cs[b]?
    let db ← Res.unwrap ds[b]?
    let interp ← iupSegment (portion cs a b) ca (some (.d2 da.1 da.2)) cb (some (.d2 db.1 db.2))
    if interp.length = (portion ds a b).length then allClose ((portion ds a b).zip interp) else .panic

/-- The inner loop of the dynamic program (iup.rs:402-413), with the number of steps left: the best cost and the
predecessor. `costs` starts with the cost of position -1. -/
def dpInner (ds cs : List Pt) (forced : List Int) (costs : List Int) (i lim : Int) :
    Nat → Int → Int → Int → Res (Int × Int)
  | 0, _, best, prev => .ok (best, prev)
  | k + 1, j, best, prev =>
    if lim < j then do
      let c ← Res.unwrap costs[(j + 1).toNat]?
      let r ← (if c + 1 < best then do
          let b ← canIup ds cs j i
          return (if b then (c + 1, j) else (best, prev))
        else .ok (best, prev))
      if j ∈ forced then .ok r else dpInner ds cs forced costs i lim k (j - 1) r.1 r.2
    else .ok (best, prev)

/-- One step of the outer loop (iup.rs:389-414) for the position `chain.length`. -/
def dpStep (ds cs : List Pt) (forced : List Int) (lookback : Int) (costs chain : List Int) : Res (Int × Int) := do
  let i : Int := chain.length
  let c ← Res.unwrap costs[i.toNat]?
  if i - 1 ∈ forced then return (c + 1, i - 1)
  else dpInner ds cs forced costs i (max (i - lookback) (-2)) (chain.length + 2) (i - 2) (c + 1) (i - 1)

/-- Goes with `dpStep` (iup.rs:389-414). -/
def dpLoop (ds cs : List Pt) (forced : List Int) (lookback : Int) : Nat → List Int → List Int → Res (List Int × List Int)
  | 0, costs, chain => .ok (chain, costs)
  | k + 1, costs, chain => do
    let r ← dpStep ds cs forced lookback costs chain
    dpLoop ds cs forced lookback k (costs ++ [r.1]) (chain ++ [r.2])

/-- `_iup_contour_optimize_dp` (iup.rs:376-417): the chain for positions from 0 and the costs for positions from -1. -/
def dp (ds cs : List Pt) (forced : List Int) (lookback : Int) : Res (List Int × List Int) :=
  dpLoop ds cs forced lookback ds.length [0] []

/-- The test of one coordinate of the forced set (iup.rs:317-363); `f32` is exact on these small multiples of a half, and a
difference of integers is below `f32::EPSILON` iff it is zero. -/
def forcedAxis (cj dj lcj ldj ncj ndj : Int16) : Bool :=
  let c := (cj.toInt : ℚ)
  let d := (dj.toInt : ℚ)
  let c1 : ℚ := if lcj ≤ ncj then lcj.toInt else ncj.toInt
  let c2 : ℚ := if lcj ≤ ncj then ncj.toInt else lcj.toInt
  let d1 : ℚ := if lcj ≤ ncj then ldj.toInt else ndj.toInt
  let d2 : ℚ := if lcj ≤ ncj then ndj.toInt else ldj.toInt
  if c1 ≤ c ∧ c ≤ c2 then ! decide (min d1 d2 - 1 / 2 ≤ d ∧ d ≤ max d1 d2 + 1 / 2)
  else if c1 = c2 then
    if d1 = d2 then decide (1 / 2 < |d - d1|) else false
  else if d1 ≠ d2 then
    if c < c1 then decide (d ≠ d1) && (decide (d - 1 / 2 < d1) != decide (d1 < d2))
    else decide (d2 ≠ d) && (decide (d2 < d + 1 / 2) != decide (d1 < d2))
  else false

/-- Whether position `i` is forced, from its neighbours on both sides going round (iup.rs:304-372: `l` is the previous
point, `n` the next one). -/
def forcedAt (ds cs : List Pt) (i : Nat) : Res Bool := do
  let d ← Res.unwrap ds[i]?
  let c ← Res.unwrap cs[i]?
  let ld ← Res.unwrap ds[(((i : Int) - 1) % ds.length).toNat]?
  let lc ← Res.unwrap cs[(((i : Int) - 1) % cs.length).toNat]?
  let nd ← Res.unwrap ds[(i + 1) % ds.length]?
  let nc ← Res.unwrap cs[(i + 1) % cs.length]?
  return forcedAxis c.1 d.1 lc.1 ld.1 nc.1 nd.1 || forcedAxis c.2 d.2 lc.2 ld.2 nc.2 nd.2

/-- `_iup_contour_bound_forced_set` (iup.rs:298-374), from the last position down. -/
def forcedSet (ds cs : List Pt) : Res (List Int) :=
  if ds.length ≠ cs.length then .panic
  else do
    let l ← Res.mapL (fun i => do
      let b ← forcedAt ds cs i
      return (i, b)) (List.range ds.length).reverse
    return (l.filter (·.2)).map (fun x => (x.1 : Int))

/-- `rotate_list` (iup.rs:283-296). -/
def rotateList {α : Type} (l : List α) (k : Int) : List α :=
  let m := (k % l.length).toNat
  if m = 0 then l else l.drop (l.length - m) ++ l.take (l.length - m)

/-- `rotate_set` (iup.rs:275-281), for a rotation which is not negative. -/
def rotateSet (s : List Int) (k : Int) (n : Nat) : List Int :=
  if k % n = 0 then s else s.map (fun v => (v + k % n) % n)

/-- Following the chain to its end (iup.rs:211-220), with the number of steps left. -/
def walk (chain : List Int) : Nat → Int → List Int
  | 0, _ => []
  | k + 1, i => i :: (if 0 ≤ i then
      match chain[i.toNat]? with
      | some j => walk chain k j
      | none => []
    else [])

/-- Following the chain until `stop` (iup.rs:240-249): the positions visited, and the position reached. -/
def walkTo (chain : List Int) (stop : Int) : Nat → Int → List Int × Int
  | 0, i => ([], i)
  | k + 1, i =>
    if stop < i then
      match (if 0 ≤ i then chain[i.toNat]? else none) with
      | some j => (i :: (walkTo chain stop k j).1, (walkTo chain stop k j).2)
      | none => ([i], i)
    else ([], i)

/-- `a * b` in `i16` (iup.rs:251, 254), evaluated whether or not the entry is there. -/
def mulI16 (a b : Int) : Res Int := if a * b ≤ 32767 then .ok (a * b) else .panic

/-- The loop over the starting points (iup.rs:238-260): best cost and solution so far. -/
def bestLoop (chain costs : List Int) (n : Nat) : List Nat → Int → List Int → Res (List Int)
  | [], _, sol => .ok sol
  | start :: rest, best, sol =>
    let w := walkTo chain ((start : Int) - n) (2 * n + 2) start
    if w.2 = (start : Int) - n then do
      let four ← mulI16 n 4
      let three ← mulI16 n 3
      let cost := (costs[start + 1]?.getD four) - (costs[((start : Int) - n + 1).toNat]?.getD three)
      if cost ≤ best then bestLoop chain costs n rest cost (w.1.map (· % (n : Int)))
      else bestLoop chain costs n rest best sol
    else bestLoop chain costs n rest best sol

/-- The deltas at the positions kept (iup.rs:221-229, 261-269). -/
def keepAt (ds : List Pt) (sol : List Int) : List (Option Delta) :=
  ds.zipIdx.map (fun x => if (x.2 : Int) ∈ sol then some (.d2 x.1.1 x.1.2) else none)

/-- `x.abs()`: overflows for the least value. -/
def absI16 (x : Int16) : Res Int := if x.toInt = -32768 then .panic else .ok |x.toInt|

/-- The first test (iup.rs:178-181), which stops at the first delta out of tolerance. -/
def allSmall : List Pt → Res Bool
  | [] => .ok true
  | (x, y) :: l => do
    let ax ← absI16 x
    if (ax : ℚ) ≤ 1 / 2 then do
      let ay ← absI16 y
      if (ay : ℚ) ≤ 1 / 2 then allSmall l else .ok false
    else .ok false

/-- The search when some positions are forced (iup.rs:203-230). -/
def optimizeForced (ds cs : List Pt) (forced : List Int) (top : Int) : Res (List (Option Delta)) := do
  let n := ds.length
  let k : Int := (n : Int) - 1 - top
  let ds' := rotateList ds k
  let r ← dp ds' (rotateList cs k) (rotateSet forced k n) n
  let sol := walk r.1 (n + 1) ((n : Int) - 1)
  return rotateList (keepAt ds' sol) (-k)

/-- The search when no position is forced (iup.rs:231-270). From 16384 points on, positions of the doubled contour leave `i16`:
with 16384, `start as i16 - n as i16` (iup.rs:241) overflows for the last start, 32768; with more, `i_i16 - 1` (iup.rs:392)
does for `i` = 32768. -/
def optimizeFree (ds cs : List Pt) : Res (List (Option Delta)) := do
  let n := ds.length
  if 16384 ≤ n then .panic
  let r ← dp (ds ++ ds) (cs ++ cs) [] n
  let sol ← bestLoop r.1 r.2 n (List.range' (n - 1) (n + 2)) ((n : Int) + 1) []
  return keepAt ds sol

/-- `iup_contour_optimize` (iup.rs:169-273) with tolerance 0.5. From 32768 points on it panics: with 32768, `n as i16` is the
least value and `i_i16 - lookback` (iup.rs:402) overflows for `i` = 0, if `n as i16 - k` (iup.rs:290) did not before; with
more, `i_i16 - 1` (iup.rs:392) overflows for `i` = 32768, if nothing did before. -/
def optimizeContour (ds cs : List Pt) : Res (List (Option Delta)) := do
  let small ← allSmall ds
  if small then return List.replicate ds.length none
  else match ds with
    | [] => return []
    | [d] => return [some (.d2 d.1 d.2)]
    | d :: rest =>
      if rest.all (· = d) then return some (.d2 d.1 d.2) :: List.replicate rest.length none
      else if 32768 ≤ ds.length then .panic
      else do
        let forced ← forcedSet ds cs
        match forced with
        | [] => optimizeFree ds cs
        | f :: fs => optimizeForced ds cs (f :: fs) (fs.foldl max f)

/-- The contour loop of `optimize_deltas` (iup.rs:153-165). -/
def optimizeContours (ds cs : List Pt) : Nat → List Nat → Res (List (Option Delta))
  | _, [] => .ok []
  | start, e :: es => do
    let d ← slice ds start (e + 1)
    let c ← slice cs start (e + 1)
    let l ← optimizeContour d c
    if l.length = e - start + 1 then do
      let r ← optimizeContours ds cs (e + 1) es
      return l ++ r
    else .panic

/-- `optimize_deltas` (iup.rs:124-167): omitted deltas are interpolated first. -/
def optimizeDeltas (ds : List (Option Delta)) (g : Glyph) : Res (List (Option Delta)) := do
  let ce ← gvarCoordsAndEnds g
  let xy ← iupDelta ds ce.1 ce.2
  optimizeContours xy ce.1 0 ce.2

end FT.Iup
