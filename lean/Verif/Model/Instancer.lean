import Verif.Model.Gvar
import Verif.Model.Fvar
import Verif.Model.Stat

/-!
The instancer: src/otvar/instancer.rs, with `combine` and `scale_deltas` of src/tables/gvar.rs.

Every `f32` operation is followed by `rd`; the code is `rd = F32.rne`. Not modelled: fonts with a `CFF2` table.
-/

namespace FT.Instancer
open FT FT.F32 FT.Var FT.AxisMaps FT.Gvar FT.Glyf FT.Iup

/-- `UserAxisLimit` (instancer.rs:63-68). -/
inductive UserLimit where
  | full (v : ℚ)
  | range (lo hi : ℚ)
  | drop
  deriving DecidableEq

/-- `NormalizedAxisLimit` (lines 34-38). -/
inductive Limit where
  | full (v : ℚ)
  | range (lo hi : ℚ)
  deriving DecidableEq

/-- `UserAxisLimits` (lines 70-71) and `NormalizedAxisLimits` (lines 40-41): `BTreeMap`s. -/
abbrev UserLimits := List (Tag × UserLimit)
/-- Goes with `UserLimits` (lines 70-71; lines 40-41). -/
abbrev Limits := List (Tag × Limit)

/-- `UserAxisLimits::split_up` (lines 83-98): pinned axes. -/
def UserLimits.full (l : UserLimits) : Loc := l.filterMap fun x => match x.2 with
  | .full v => some (x.1, v)
  | _ => none
/-- The same: limited axes. -/
def UserLimits.ranges (l : UserLimits) : List (Tag × (ℚ × ℚ)) := l.filterMap fun x => match x.2 with
  | .range lo hi => some (x.1, lo, hi)
  | _ => none
/-- `NormalizedAxisLimits::split_up` (lines 45-59): pinned axes. -/
def Limits.full (l : Limits) : Loc := l.filterMap fun x => match x.2 with
  | .full v => some (x.1, v)
  | _ => none
/-- The same: limited axes. -/
def Limits.ranges (l : Limits) : List (Tag × (ℚ × ℚ)) := l.filterMap fun x => match x.2 with
  | .range lo hi => some (x.1, lo, hi)
  | _ => none

/-! ### Deltas -/

/-- `f32 as i16`: towards zero, saturating. -/
def toI16 (x : ℚ) : Int16 := Int16.ofInt (max (-32768) (min (truncQ x) 32767))

/-- One number of `scale_deltas` (gvar.rs:140-143). -/
def scaleNum (rd : ℚ → ℚ) (factor : ℚ) (x : Int16) : Int16 := toI16 (rd (x.toInt * factor))

/-- `DeltaSet::scale_deltas` (gvar.rs:139-144). -/
def scaleDeltas (rd : ℚ → ℚ) (factor : ℚ) (d : DeltaSet) : DeltaSet :=
  { d with deltas := d.deltas.map fun p => (scaleNum rd factor p.1, scaleNum rd factor p.2) }

/-- The loop of `combine` (gvar.rs:132-135): checked additions. -/
def addDeltas : List Pt → List Pt → Res (List Pt)
  | [], [] => .ok []
  | p :: l, q :: m => do
    let x ← addI16 p.1 q.1
    let y ← addI16 p.2 q.2
    let r ← addDeltas l m
    return (x, y) :: r
  | _, _ => .panic

/-- `DeltaSet::combine` (gvar.rs:127-137). -/
def combine (a b : DeltaSet) : Res DeltaSet := do
  let ds ← addDeltas a.deltas b.deltas
  return { a with deltas := ds }

/-- The region of a deltaset on the pinned axes (instancer.rs:175-184). The keys come in order, so inserting them one by one
gives this list. -/
def supportOf (tags : List Tag) (d : DeltaSet) : Loc → Res Region
  | [] => .ok []
  | (t, _) :: rest => do
    let i ← Res.unwrap (tags.idxOf? t)
    let s ← Res.unwrap d.start[i]?
    let p ← Res.unwrap d.peak[i]?
    let e ← Res.unwrap d.stop[i]?
    let r ← supportOf tags d rest
    return (t, s, p, e) :: r

/-- `pin_tuple_variation_axes` (lines 165-197). -/
def pinAxes (rd : ℚ → ℚ) (tags : List Tag) (loc : Loc) : List DeltaSet → Res (List DeltaSet)
  | [] => .ok []
  | d :: ds => do
    let sup ← supportOf tags d loc
    let r ← pinAxes rd tags loc ds
    return if supportScalar rd loc sup = 0 then r else scaleDeltas rd (supportScalar rd loc sup) d :: r

/-- `F2DOT14` as part of a key: compared by `as_packed` (types.rs:131-148). The model panics for every number which does not
fit, the code only once it compares it. -/
def packedKey (x : ℚ) : Res ℤ := match f2dot14AsPacked x with
  | .ok p => .ok p
  | _ => .panic

/-- The region of a deltaset on the other axes (lines 128-137): the loop from axis `ix` on. -/
def tentFrom (pinned : Loc) (d : DeltaSet) : Nat → List Tag → Res (List (Tag × ℤ × ℤ × ℤ))
  | _, [] => .ok []
  | ix, t :: ts => do
    let peak ← Res.unwrap d.peak[ix]?
    if (BMap.get? pinned t).isSome then tentFrom pinned d (ix + 1) ts
    else do
      let start ← Res.unwrap d.start[ix]?
      let stop ← Res.unwrap d.stop[ix]?
      let a ← packedKey start
      let b ← packedKey peak
      let c ← packedKey stop
      let r ← tentFrom pinned d (ix + 1) ts
      return (t, a, b, c) :: r

/-- One turn of the merging loop (lines 139-143). -/
def mergeOne (m : List (List (Tag × ℤ × ℤ × ℤ) × DeltaSet)) (tent : List (Tag × ℤ × ℤ × ℤ)) (d : DeltaSet) :
    Res (List (List (Tag × ℤ × ℤ × ℤ) × DeltaSet)) := match BMap.get? m tent with
  | some v => do
    let n ← combine v d
    return BMap.insert m tent n
  | none => .ok (BMap.insert m tent d)

/-- The merging loop (lines 126-144). -/
def mergeAll (tags : List Tag) (pinned : Loc) : List DeltaSet → List (List (Tag × ℤ × ℤ × ℤ) × DeltaSet) →
    Res (List (List (Tag × ℤ × ℤ × ℤ) × DeltaSet))
  | [], m => .ok m
  | d :: ds, m => do
    let tent ← tentFrom pinned d 0 tags
    let m' ← mergeOne m tent d
    mergeAll tags pinned ds m'

/-- Lines 118-120. -/
def pinSome (rd : ℚ → ℚ) (tags : List Tag) (loc : Loc) (ds : List DeltaSet) : Res (List DeltaSet) :=
  if loc.isEmpty then .ok ds else pinAxes rd tags loc ds

/-- `instantiate_gvar_data` (lines 109-163): the deltas of the default and the deltasets which remain. Limited ranges are
`unimplemented!()` (lines 199-204). -/
def instantiateData (rd : ℚ → ℚ) (tags : List Tag) (limits : Limits) (ds : List DeltaSet) : Res (List Pt × List DeltaSet) := do
  let new ← pinSome rd tags limits.full ds
  if limits.ranges.isEmpty then do
    let m ← mergeAll tags limits.full new []
    let rest := m.filter (fun x => !x.1.isEmpty)
    return ((BMap.get? m []).elim [] DeltaSet.deltas, rest.map Prod.snd)
  else .panic

/-- The loop over the points of one contour (lines 229-233). -/
def movePoints : List Point → List Pt → Res (List Point × List Pt)
  | [], ds => .ok ([], ds)
  | _ :: _, [] => .panic
  | p :: ps, d :: ds => do
    let x ← addI16 p.x d.1
    let y ← addI16 p.y d.2
    let r ← movePoints ps ds
    return ({ p with x, y } :: r.1, r.2)

/-- The loop over the contours (lines 228-234). -/
def moveContours : List (List Point) → List Pt → Res (List (List Point))
  | [], _ => .ok []
  | c :: cs, ds => do
    let r ← movePoints c ds
    let r' ← moveContours cs r.2
    return r.1 :: r'

/-- `instantiate_gvar_glyph` (lines 215-241). -/
def instantiateGlyph (rd : ℚ → ℚ) (tags : List Tag) (limits : Limits) (g : Glyph) : Option (List DeltaSet) →
    Res (Glyph × Option (List DeltaSet))
  | none => .ok (g, none)
  | some ds => do
    let r ← instantiateData rd tags limits ds
    let cs ← moveContours g.contours r.1
    return ({ g with contours := cs }, if r.2.isEmpty then none else some r.2)

/-- The loop of `instantiate_gvar` (lines 258-260). Further entries of the gvar table are left as they are. -/
def instantiateGlyphs (rd : ℚ → ℚ) (tags : List Tag) (limits : Limits) : List Glyph → Gvar → Res (List Glyph × Gvar)
  | [], v => .ok ([], v)
  | _ :: _, [] => .panic
  | g :: gs, v :: vs => do
    let x ← instantiateGlyph rd tags limits g v
    let r ← instantiateGlyphs rd tags limits gs vs
    return (x.1 :: r.1, x.2 :: r.2)

/-- `instantiate_gvar` (lines 243-268): the gvar table is removed if no glyph varies any more. -/
def instantiateGvar (rd : ℚ → ℚ) (tags : List Tag) (limits : Limits) (glyf : List Glyph) (gvar : Gvar) :
    Res (List Glyph × Option Gvar) := do
  let r ← instantiateGlyphs rd tags limits glyf gvar
  return (r.1, if r.2.any Option.isSome then some r.2 else none)

/-! ### Limits -/

/-- `populate_axis_defaults` (lines 508-523). -/
def populate (axes : List AxisRecord) (l : UserLimits) : Res UserLimits := Res.mapL one l
where
  one (x : Tag × UserLimit) : Res (Tag × UserLimit) := match x.2 with
    | .drop => do
      let v ← Res.unwrap (BMap.get? (BMap.collect (axes.map fun a => (a.axisTag, a.defaultValue))) x.1)
      return (x.1, .full v)
    | _ => .ok x

/-- A limited range must contain the default (lines 560-569). -/
def rangeOk (a : Tag × (ℚ × ℚ × ℚ)) (l : Option UserLimit) : Bool := match l with
  | some (.range lo hi) => !(decide (lo > a.2.2.1) || decide (hi < a.2.2.1))
  | _ => true

/-- `normalize_axis_limits` (lines 534-601) for one axis. -/
def normOne (rd : ℚ → ℚ) (segs : List (Tag × List (ℚ × ℚ))) (limits : UserLimits) (a : Tag × (ℚ × ℚ × ℚ)) :
    Res (Tag × Limit) := do
  let seg := BMap.get? segs a.1
  let l ← Res.unwrap (BMap.get? limits a.1)
  match l with
  | .range lo hi => do
    let x ← normLimit rd lo a.2.1 a.2.2.1 a.2.2.2 seg
    let y ← normLimit rd hi a.2.1 a.2.2.1 a.2.2.2 seg
    return (a.1, .range x y)
  | .full v => do
    let x ← normLimit rd v a.2.1 a.2.2.1 a.2.2.2 seg
    return (a.1, .full x)
  | .drop => .panic

/-- `normalize_axis_limits` (lines 534-601); `segs` are the maps of the avar table, if they are to be used. -/
def normLimits (rd : ℚ → ℚ) (axes : List AxisRecord) (avar : Option (List (List (ℚ × ℚ)))) (limits : UserLimits) : Res Limits :=
  if limits.all fun x => axes.any fun a => a.axisTag == x.1 then
    let sel := BMap.collect ((axes.filter fun a => (BMap.get? limits a.axisTag).isSome).map fun a =>
      (a.axisTag, a.minValue, a.defaultValue, a.maxValue))
    let segs := match avar with
      | some maps => BMap.collect ((axes.map AxisRecord.axisTag).zip maps)
      | none => []
    if sel.all fun a => rangeOk a (BMap.get? limits a.1) then Res.mapL (normOne rd segs limits) sel
    else .panic
  else .panic

/-! ### avar -/

/-- Lines 313-340 for one point of a segment map: `none` if it is left out. -/
def narrowPoint (rd : ℚ → ℚ) (lo hi mlo mhi : ℚ) (x : ℚ × ℚ) : Res (Option (ℚ × ℚ)) :=
  if (x.1 < 0 ∧ (lo = 0 ∨ x.1 < lo)) ∨ (x.1 > 0 ∧ (hi = 0 ∨ x.1 > hi)) then .ok none
  else if (x.2 < 0 ∧ ¬ (mlo ≠ 0 ∧ x.2 ≥ mlo)) ∨ (x.2 > 0 ∧ ¬ (mhi ≠ 0 ∧ x.2 ≤ mhi)) then .panic
  else do
    let a ← roundF2dot14 (if x.1 < 0 then rd (x.1 / |lo|) else if x.1 > 0 then rd (x.1 / hi) else x.1)
    let b ← roundF2dot14 (if x.2 < 0 then rd (x.2 / |mlo|) else if x.2 > 0 then rd (x.2 / |mhi|) else x.2)
    return some (a, b)

/-- A segment map for a limited range (lines 309-342). -/
def narrow (rd : ℚ → ℚ) (m : List (ℚ × ℚ)) (lo hi : ℚ) : Res (List (ℚ × ℚ)) := do
  let a ← segMap rd m lo
  let mlo ← roundF2dot14 a
  let b ← segMap rd m hi
  let mhi ← roundF2dot14 b
  let l ← Res.mapL (narrowPoint rd lo hi mlo mhi) m
  segNew rd (l.filterMap id)

/-- The new maps of one axis (lines 305-345): nothing for an invalid map. -/
def newSegment (rd : ℚ → ℚ) (ranges : List (Tag × (ℚ × ℚ))) (x : Tag × List (ℚ × ℚ)) : Res (Option (Tag × List (ℚ × ℚ))) :=
  if segValid rd x.2 then match BMap.get? ranges x.1 with
    | some r => do
      let m ← narrow rd x.2 r.1 r.2
      return some (x.1, m)
    | none => .ok (some x)
  else .ok none

/-- `instantiate_avar` (lines 270-352) on a font with an avar table; `none` if it is removed. Lines 299-302 take the pinned axes
out of `segments_map` and `axis_tags`. -/
def instantiateAvar (rd : ℚ → ℚ) (axes : List AxisRecord) (limits : UserLimits) (maps : List (List (ℚ × ℚ))) :
    Res (Option (List (List (ℚ × ℚ)))) := do
  let norm ← normLimits rd axes none limits
  let pinned := fun t => (BMap.get? limits.full t).isSome
  if axes.all fun a => pinned a.axisTag then return none
  else do
    let segs := (BMap.collect ((axes.map AxisRecord.axisTag).zip maps)).filter fun x => !pinned x.1
    let new ← Res.mapL (newSegment rd norm.ranges) segs
    let l ← Res.mapL (fun t => Res.unwrap (BMap.get? (new.filterMap id) t)) ((axes.map AxisRecord.axisTag).filter fun t => !pinned t)
    return some l

/-! ### fvar -/

/-- `is_instance_within_axis_ranges` (lines 354-363). -/
def withinRanges (loc : Loc) (ranges : List (Tag × (ℚ × ℚ))) : Bool := loc.all fun x => match BMap.get? ranges x.1 with
  | some r => !(decide (x.2 < r.1) || decide (x.2 > r.2))
  | none => true

/-- The loop over the pinned axes (lines 408-421): `none` if the instance is elsewhere. -/
def matchPins (rd : ℚ → ℚ) : Loc → Loc → Res (Option Loc)
  | [], l => .ok (some l)
  | (t, v) :: rest, l => do
    let x ← Res.unwrap (BMap.get? l t)
    if |rd (x - v)| > eps then return none
    else matchPins rd rest (l.filter fun y => y.1 ≠ t)

/-- One named instance (lines 397-439). -/
def newInstance (rd : ℚ → ℚ) (axes newAxes : List AxisRecord) (loc : Loc) (ranges : List (Tag × (ℚ × ℚ))) (i : Instance) :
    Res (Option Instance) := do
  let m ← matchPins rd loc (BMap.collect ((axes.map AxisRecord.axisTag).zip i.coordinates))
  match m with
  | none => return none
  | some l =>
    if withinRanges l ranges then do
      let cs ← Res.mapL (fun a : AxisRecord => Res.unwrap (BMap.get? l a.axisTag)) newAxes
      return some { i with coordinates := cs }
    else return none

/-- The axes which remain (lines 382-394). -/
def newAxes (loc : Loc) (ranges : List (Tag × (ℚ × ℚ))) (axes : List AxisRecord) : List AxisRecord :=
  (axes.filter fun a => !(BMap.get? loc a.axisTag).isSome).map fun a => match BMap.get? ranges a.axisTag with
    | some r => { a with minValue := r.1, maxValue := r.2 }
    | none => a

/-- `instantiate_fvar` (lines 365-444); `none` if the table is removed. -/
def instantiateFvar (rd : ℚ → ℚ) (limits : UserLimits) (f : Fvar) : Res (Option Fvar) :=
  if f.axes.all fun a => (BMap.get? limits.full a.axisTag).isSome then .ok none
  else do
    let axes := newAxes limits.full limits.ranges f.axes
    let is ← Res.mapL (newInstance rd f.axes axes limits.full limits.ranges) f.instances
    return some { axes, instances := is.filterMap id }

/-! ### STAT -/

/-- `is_axis_value_outside_limits` (lines 456-468). -/
def outside (rd : ℚ → ℚ) (limits : UserLimits) (t : Tag) (v : ℚ) : Bool :=
  (match BMap.get? limits.full t with
    | some f => decide (|rd (v - f)| > eps)
    | none => false) ||
  match BMap.get? limits.ranges t with
    | some r => decide (v < r.1) || decide (v > r.2)
    | none => false

/-- `stat.design_axes.get(i).unwrap().axisTag` and the test (lines 474-481, 486-487). -/
def outsideAt (rd : ℚ → ℚ) (limits : UserLimits) (axes : List Stat.Axis) (i : UInt16) (v : ℚ) : Res Bool := do
  let a ← Res.unwrap axes[i.toNat]?
  return outside rd limits a.tag v

/-- The loop over the locations, which ends at the first one outside (lines 485-491). -/
def anyOutside (rd : ℚ → ℚ) (limits : UserLimits) (axes : List Stat.Axis) : List (UInt16 × ℚ) → Res Bool
  | [] => .ok false
  | (i, v) :: rest => do
    let b ← outsideAt rd limits axes i v
    if b then return true else anyOutside rd limits axes rest

/-- Lines 473-482: whether the nominal value is outside. -/
def nominalOutside (rd : ℚ → ℚ) (limits : UserLimits) (axes : List Stat.Axis) (v : Stat.AxisValue) : Res Bool :=
  match v.nominal with
  | some x => do
    let i ← Res.unwrap v.axisIndex
    outsideAt rd limits axes i x
  | none => .ok false

/-- Lines 483-495. -/
def locationsOutside (rd : ℚ → ℚ) (limits : UserLimits) (axes : List Stat.Axis) (v : Stat.AxisValue) : Res Bool :=
  match v.locations with
  | some m => anyOutside rd limits axes m
  | none => .ok false

/-- The loop over the axis values (lines 472-497). -/
def keepValues (rd : ℚ → ℚ) (limits : UserLimits) (axes : List Stat.Axis) : List Stat.AxisValue → Res (List Stat.AxisValue)
  | [] => .ok []
  | v :: rest => do
    let a ← nominalOutside rd limits axes v
    if a then keepValues rd limits axes rest
    else do
      let b ← locationsOutside rd limits axes v
      let r ← keepValues rd limits axes rest
      return if b then r else v :: r

/-- `instantiate_STAT` (lines 446-500). -/
def instantiateStat (rd : ℚ → ℚ) (limits : UserLimits) (t : Stat.Table) : Res Stat.Table :=
  if t.axes.isEmpty || t.values.isEmpty then .ok t
  else do
    let vs ← keepValues rd limits t.axes t.values
    return { t with values := vs }

/-! ### The whole font -/

/-- The tables of a font the instancer works on. -/
structure VarFont where
  fvar : Option Fvar
  avar : Option (List (List (ℚ × ℚ)))
  gvar : Option Gvar
  glyf : Option (List Glyph)
  stat : Option Stat.Table

/-- Lines 613-616. -/
def gvarStep (rd : ℚ → ℚ) (tags : List Tag) (limits : Limits) (f : VarFont) : Res VarFont := match f.gvar with
  | none => .ok f
  | some v => do
    let g ← Res.unwrap f.glyf
    let r ← instantiateGvar rd tags limits g v
    return { f with glyf := some r.1, gvar := r.2 }

/-- Lines 631-634. -/
def avarStep (rd : ℚ → ℚ) (axes : List AxisRecord) (limits : UserLimits) (f : VarFont) : Res VarFont := match f.avar with
  | none => .ok f
  | some m => do
    let r ← instantiateAvar rd axes limits m
    return { f with avar := r }

/-- Lines 635-637. -/
def statStep (rd : ℚ → ℚ) (limits : UserLimits) (f : VarFont) : Res VarFont := match f.stat with
  | none => .ok f
  | some t => do
    let r ← instantiateStat rd limits t
    return { f with stat := some r }

/-- `instantiate_variable_font` (lines 603-648). The last step wants a glyf table just when there is none (lines 639-643). -/
def instantiate (rd : ℚ → ℚ) (limits : UserLimits) (f : VarFont) : Res VarFont := do
  let fv ← Res.unwrap f.fvar
  let limits ← populate fv.axes limits
  let norm ← normLimits rd fv.axes f.avar limits
  let f1 ← gvarStep rd (fv.axes.map AxisRecord.axisTag) norm f
  let f2 ← avarStep rd fv.axes limits f1
  let f3 ← statStep rd limits f2
  let fv' ← instantiateFvar rd limits fv
  if fv'.isNone && f3.glyf.isNone then .panic
  else return { f3 with fvar := fv' }

end FT.Instancer
