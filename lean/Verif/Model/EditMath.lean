import Verif.Model.AllTables

/-!
`ttf-edit-math` (crates/fonttools-cli/src/bin/ttf-edit-math.rs): what `dump` prints, as the tree that serde hands to `serde_json`. Printing
the tree as text is left to `serde_json`.
-/

namespace FT.EditMath
open FT FT.Math FT.Store FT.Save FT.Cli FT.Whole

/-- The order of `String`, by bytes of UTF-8, which is that of the code points. -/
instance : Key String where
  lt a b := Key.lt (a.toList.map Char.toNat) (b.toList.map Char.toNat)
  irrefl a := Key.irrefl _
  trans a b c := Key.trans _ _ _
  tri a b h1 h2 := by
    have h := Key.tri _ _ h1 h2
    have inj : Function.Injective Char.toNat := fun x y e => Char.ext (UInt32.toNat_inj.mp e)
    exact String.toList_inj.mp (List.map_injective_iff.mpr inj h)

/-- The values of `serde_json`. -/
inductive Json where
  | null
  | num (n : Int)
  | str (s : String)
  | arr (l : List Json)
  | obj (l : List (String × Json))

/-- `MathConstantsDef` (lines 17-129): of the values only the number (lines 10-15). -/
def constants (c : Constants) : Json := .obj [
    ("scriptPercentScaleDown", .num c.scriptPercentScaleDown.toInt),
    ("scriptScriptPercentScaleDown", .num c.scriptScriptPercentScaleDown.toInt),
    ("delimitedSubFormulaMinHeight", .num c.delimitedSubFormulaMinHeight.toNat),
    ("displayOperatorMinHeight", .num c.displayOperatorMinHeight.toNat), ("mathLeading", .num c.mathLeading.value.toInt),
    ("axisHeight", .num c.axisHeight.value.toInt), ("accentBaseHeight", .num c.accentBaseHeight.value.toInt),
    ("flattenedAccentBaseHeight", .num c.flattenedAccentBaseHeight.value.toInt),
    ("subscriptShiftDown", .num c.subscriptShiftDown.value.toInt),
    ("subscriptTopMax", .num c.subscriptTopMax.value.toInt),
    ("subscriptBaselineDropMin", .num c.subscriptBaselineDropMin.value.toInt),
    ("superscriptShiftUp", .num c.superscriptShiftUp.value.toInt),
    ("superscriptShiftUpCramped", .num c.superscriptShiftUpCramped.value.toInt),
    ("superscriptBottomMin", .num c.superscriptBottomMin.value.toInt),
    ("superscriptBaselineDropMax", .num c.superscriptBaselineDropMax.value.toInt),
    ("subSuperscriptGapMin", .num c.subSuperscriptGapMin.value.toInt),
    ("superscriptBottomMaxWithSubscript", .num c.superscriptBottomMaxWithSubscript.value.toInt),
    ("spaceAfterScript", .num c.spaceAfterScript.value.toInt), ("upperLimitGapMin", .num c.upperLimitGapMin.value.toInt),
    ("upperLimitBaselineRiseMin", .num c.upperLimitBaselineRiseMin.value.toInt),
    ("lowerLimitGapMin", .num c.lowerLimitGapMin.value.toInt),
    ("lowerLimitBaselineDropMin", .num c.lowerLimitBaselineDropMin.value.toInt),
    ("stackTopShiftUp", .num c.stackTopShiftUp.value.toInt),
    ("stackTopDisplayStyleShiftUp", .num c.stackTopDisplayStyleShiftUp.value.toInt),
    ("stackBottomShiftDown", .num c.stackBottomShiftDown.value.toInt),
    ("stackBottomDisplayStyleShiftDown", .num c.stackBottomDisplayStyleShiftDown.value.toInt),
    ("stackGapMin", .num c.stackGapMin.value.toInt),
    ("stackDisplayStyleGapMin", .num c.stackDisplayStyleGapMin.value.toInt),
    ("stretchStackTopShiftUp", .num c.stretchStackTopShiftUp.value.toInt),
    ("stretchStackBottomShiftDown", .num c.stretchStackBottomShiftDown.value.toInt),
    ("stretchStackGapAboveMin", .num c.stretchStackGapAboveMin.value.toInt),
    ("stretchStackGapBelowMin", .num c.stretchStackGapBelowMin.value.toInt),
    ("fractionNumeratorShiftUp", .num c.fractionNumeratorShiftUp.value.toInt),
    ("fractionNumeratorDisplayStyleShiftUp", .num c.fractionNumeratorDisplayStyleShiftUp.value.toInt),
    ("fractionDenominatorShiftDown", .num c.fractionDenominatorShiftDown.value.toInt),
    ("fractionDenominatorDisplayStyleShiftDown", .num c.fractionDenominatorDisplayStyleShiftDown.value.toInt),
    ("fractionNumeratorGapMin", .num c.fractionNumeratorGapMin.value.toInt),
    ("fractionNumDisplayStyleGapMin", .num c.fractionNumDisplayStyleGapMin.value.toInt),
    ("fractionRuleThickness", .num c.fractionRuleThickness.value.toInt),
    ("fractionDenominatorGapMin", .num c.fractionDenominatorGapMin.value.toInt),
    ("fractionDenomDisplayStyleGapMin", .num c.fractionDenomDisplayStyleGapMin.value.toInt),
    ("skewedFractionHorizontalGap", .num c.skewedFractionHorizontalGap.value.toInt),
    ("skewedFractionVerticalGap", .num c.skewedFractionVerticalGap.value.toInt),
    ("overbarVerticalGap", .num c.overbarVerticalGap.value.toInt),
    ("overbarRuleThickness", .num c.overbarRuleThickness.value.toInt),
    ("overbarExtraAscender", .num c.overbarExtraAscender.value.toInt),
    ("underbarVerticalGap", .num c.underbarVerticalGap.value.toInt),
    ("underbarRuleThickness", .num c.underbarRuleThickness.value.toInt),
    ("underbarExtraDescender", .num c.underbarExtraDescender.value.toInt),
    ("radicalVerticalGap", .num c.radicalVerticalGap.value.toInt),
    ("radicalDisplayStyleVerticalGap", .num c.radicalDisplayStyleVerticalGap.value.toInt),
    ("radicalRuleThickness", .num c.radicalRuleThickness.value.toInt),
    ("radicalExtraAscender", .num c.radicalExtraAscender.value.toInt),
    ("radicalKernBeforeDegree", .num c.radicalKernBeforeDegree.value.toInt),
    ("radicalKernAfterDegree", .num c.radicalKernAfterDegree.value.toInt),
    ("radicalDegreeBottomRaisePercent", .num c.radicalDegreeBottomRaisePercent.toInt)]

/-- `SimpleKernRecord` (lines 131-146): empty lists are left out. -/
def kern (k : Kern) : Json :=
  let part := fun (n : String) (l : List Value) => if l.isEmpty then [] else [(n, Json.arr (l.map fun v => .num v.value.toInt))]
  .obj (part "correction_height" k.heights ++ part "kern_values" k.kerns)

/-- `SimpleMathKern` (lines 148-169): corners without a table are left out. -/
def kernRecord (r : KernRecord) : Json :=
  let corner := fun (n : String) (k : Option Kern) => match k with
    | none => []
    | some k => [(n, kern k)]
  .obj (corner "top_right" r.topRight ++ corner "bottom_left" r.bottomLeft ++ corner "bottom_right" r.bottomRight ++ corner "top_left" r.topLeft)

/-- The name of a glyph, or its number (lines 218-221 and the like). -/
def glyphName (names : List String) (gid : UInt16) : String := match names[gid.toNat]? with
  | some n => n
  | none => "\\" ++ toString gid.toNat

/-- A map by name (lines 224-263). -/
def byName {α : Type} (names : List String) (f : α → Json) (l : List (UInt16 × α)) : Json :=
  .obj (BMap.collect (l.map fun x => (glyphName names x.1, f x.2)))

/-- `simplify` (lines 211-268) and the derived serializer of `MathEvenEasier` (lines 196-209); both maps of extensions are written as
the number 1 (lines 178-187). -/
def simplify (m : MATH) (names : List String) : Json := .obj [
  ("constants", constants m.constants),
  ("italic_correction", byName names (fun v => .num v.value.toInt) m.italics),
  ("top_accent_attachment", byName names (fun v => .num v.value.toInt) m.accents),
  ("extended_shapes", .arr ((BMap.collect (m.extended.map fun g => (glyphName names g, ()))).map fun x => .str x.1)),
  ("kerning", byName names kernRecord m.kerning),
  ("min_overlap", match m.minOverlap with
    | none => .null
    | some n => .num n.toNat),
  ("vertical_extensions", .num 1),
  ("horizontal_extensions", .num 1)]

variable {S : Type}

/-- Lines 287-298 on the tables: what is printed, `none` for nothing. -/
def editBody (dump : Bool) (M : Machine (Val More) S) (s : S) : Res (Option Json) := do
  let (i, s) ← require M tagPost s
  let v ← valueOf M i s
  match v with
  | .other _ (.post p) =>
    let names := p.glyphnames.getD []
    if dump then do
      let (j, s) ← require M tagMATH s
      let v ← valueOf M j s
      match v with
      | .other _ (.rest (.math m)) => .ok (some (simplify m names))
      | _ => .panic
    else .ok none
  | _ => .panic

/-- `main` (lines 270-300). No file is written. -/
def editMath (E : Env) (dump : Bool) (input : Bytes) : Res (Option Json) :=
  match Font.readTables (Rd.new input) with
  | .ok ((_, tables), _) => do
    let s ← openTables (storeMachine (Formats E)) (Store.fresh tables)
    editBody dump (storeMachine (Formats E)) s
  | .err => .panic
  | .panic => .panic

end FT.EditMath
