import Verif.Model.Derive

/-!
The structures that the crates declare with `tables!` and that have counted lists or offsets, as values of
`Der.Ty`. A type with its own code is `own name`. (Structures of numbers alone, like `head` and `hhea`, are left out;
those with `[nodeserialize]` have their own reader and are left out too.)
-/

namespace FT.Der.Declared
open FT FT.Off FT.Der

/-- A field with its pragmas. -/
structure Field where
  base : Bool := false
  embed : Bool := false
  ty : Ty

/-- The fields of a `tables!` declaration, in order (syntax of otspec_macros/src/tables.rs, see Model/TablesMacro). -/
@[reducible] def fields : List Field → Fields
  | [] => .nil
  | f :: l => .cons f.base f.embed f.ty (fields l)

/-- A field without pragmas (syntax of otspec_macros/src/tables.rs, see Model/TablesMacro). -/
@[reducible] def plain (t : Ty) : Field := { ty := t }
/-- The pragma `[offset_base]` (syntax of otspec_macros/src/tables.rs, see Model/TablesMacro). -/
@[reducible] def offsetBase (f : Field) : Field := { f with base := true }
/-- The pragma `[embed]` (syntax of otspec_macros/src/tables.rs, see Model/TablesMacro). -/
@[reducible] def embed (f : Field) : Field := { f with embed := true }

variable (own : String → Leaf)

/-- A type with its own code. -/
abbrev named (n : String) : Ty := .leaf (own n)
/-- A field of such a type. -/
abbrev f (n : String) : Field := plain (.leaf (own n))
/-- `Counted(t)` (syntax of otspec_macros/src/tables.rs, see Model/TablesMacro). -/
abbrev counted (t : Ty) : Field := plain (.counted .w16 t)
/-- `Counted32(t)` (syntax of otspec_macros/src/tables.rs, see Model/TablesMacro). -/
abbrev counted32 (t : Ty) : Field := plain (.counted .w32 t)
/-- `Offset16(t)` (syntax of otspec_macros/src/tables.rs, see Model/TablesMacro). -/
abbrev offset16 (t : Ty) : Field := plain (.off .w16 t)
/-- `Offset32(t)` (syntax of otspec_macros/src/tables.rs, see Model/TablesMacro). -/
abbrev offset32 (t : Ty) : Field := plain (.off .w32 t)
/-- `CountedOffset16(t)` (syntax of otspec_macros/src/tables.rs, see Model/TablesMacro). -/
abbrev countedOffset16 (t : Ty) : Field := plain (.offs .w16 .w16 t)
/-- `CountedOffset32(t)` (syntax of otspec_macros/src/tables.rs, see Model/TablesMacro). -/
abbrev countedOffset32 (t : Ty) : Field := plain (.offs .w16 .w32 t)

/-! crates/otspec/src/layout/common.rs -/

/-- common.rs:29-33. -/
abbrev langSys := fields [f own "uint16", f own "uint16", counted (named own "uint16")]
/-- common.rs:25-28. -/
abbrev langSysRecord := fields [f own "Tag", offset16 (.record false (langSys own))]
/-- common.rs:19-24. -/
abbrev script := fields [offsetBase (offset16 (.record false (langSys own))), embed (counted (.record true (langSysRecord own)))]
/-- common.rs:15-18. -/
abbrev scriptRecord := fields [f own "Tag", offset16 (.record false (script own))]
/-- common.rs:10-14. -/
abbrev scriptList := fields [offsetBase (embed (counted (.record true (scriptRecord own))))]
/-- common.rs:43-46. -/
abbrev featureTable := fields [f own "uint16", counted (named own "uint16")]
/-- common.rs:39-42. -/
abbrev featureRecord := fields [f own "Tag", offset16 (.record false (featureTable own))]
/-- common.rs:34-38. -/
abbrev featureList := fields [offsetBase (embed (counted (.record true (featureRecord own))))]
/-- common.rs:71-74. -/
abbrev markRecord := fields [f own "uint16", offset16 (named own "Anchor")]
/-- common.rs:65-69. -/
abbrev markArray := fields [offsetBase (embed (counted (.record true (markRecord own))))]
/-- common.rs:87-92. -/
abbrev conditionFormat1 := fields [f own "uint16", f own "uint16", f own "F2DOT14", f own "F2DOT14"]
/-- common.rs:84-86. -/
abbrev conditionSet := fields [countedOffset32 (.record false (conditionFormat1 own))]
/-- common.rs:98-101. -/
abbrev featureTableSubstitutionRecord := fields [f own "uint16", offset32 (.record false (featureTable own))]
/-- common.rs:93-97. -/
abbrev featureTableSubstitution :=
  fields [f own "uint16", f own "uint16", counted (.record false (featureTableSubstitutionRecord own))]
/-- common.rs:80-83. -/
abbrev featureVariationRecord :=
  fields [offset32 (.record false (conditionSet own)), offset32 (.record false (featureTableSubstitution own))]
/-- common.rs:75-79. -/
abbrev featureVariations :=
  fields [f own "uint16", f own "uint16", counted32 (.record false (featureVariationRecord own))]

/-! crates/otspec/src/layout/gsub1.rs … gsub8.rs, gpos3.rs, contextual.rs, coverage.rs, classdef.rs -/

/-- gsub1.rs:8-13. -/
abbrev singleSubstFormat1 := fields [offsetBase (f own "uint16"), offset16 (named own "Coverage"), f own "int16"]
/-- gsub1.rs:14-19. -/
abbrev singleSubstFormat2 :=
  fields [offsetBase (f own "uint16"), offset16 (named own "Coverage"), counted (named own "uint16")]
/-- gsub2.rs:13-15. -/
abbrev sequence := fields [counted (named own "uint16")]
/-- gsub2.rs:7-12. -/
abbrev multipleSubstFormat1 :=
  fields [offsetBase (f own "uint16"), offset16 (named own "Coverage"), countedOffset16 (.record false (sequence own))]
/-- gsub3.rs:13-15. -/
abbrev alternateSet := fields [counted (named own "uint16")]
/-- gsub3.rs:7-12. -/
abbrev alternateSubstFormat1 :=
  fields [offsetBase (f own "uint16"), offset16 (named own "Coverage"), countedOffset16 (.record false (alternateSet own))]
/-- gsub4.rs:16-19. -/
abbrev ligatureSet := fields [offsetBase (countedOffset16 (named own "Ligature"))]
/-- gsub4.rs:10-15. -/
abbrev ligatureSubstFormat1 :=
  fields [offsetBase (f own "uint16"), offset16 (named own "Coverage"), countedOffset16 (.record false (ligatureSet own))]
/-- gsub8.rs:7-14. -/
abbrev reverseChainSingleSubstFormat1 :=
  fields [offsetBase (f own "uint16"), offset16 (named own "Coverage"), countedOffset16 (named own "Coverage"),
    countedOffset16 (named own "Coverage"), counted (named own "uint16")]
/-- gpos3.rs:15-18. -/
abbrev entryExitRecord := fields [offset16 (named own "Anchor"), offset16 (named own "Anchor")]
/-- gpos3.rs:8-14. -/
abbrev cursivePosFormat1 :=
  fields [offsetBase (f own "uint16"), offset16 (named own "Coverage"), embed (counted (.record true (entryExitRecord own)))]
/-- contextual.rs:10-13. -/
abbrev sequenceLookupRecord := fields [f own "uint16", f own "uint16"]
/-- contextual.rs:20-23. -/
abbrev sequenceRuleSet := fields [offsetBase (countedOffset16 (named own "SequenceRule"))]
/-- contextual.rs:14-19. -/
abbrev sequenceContextFormat1 :=
  fields [offsetBase (f own "uint16"), offset16 (named own "Coverage"), countedOffset16 (.record false (sequenceRuleSet own))]
/-- contextual.rs:24-34. -/
abbrev sequenceContextFormat2 :=
  fields [offsetBase (f own "uint16"), offset16 (named own "Coverage"), offset16 (named own "ClassDef"),
    countedOffset16 (.record false (sequenceRuleSet own))]
/-- contextual.rs:41-44. -/
abbrev chainedSequenceRuleSet := fields [offsetBase (countedOffset16 (named own "ChainedSequenceRule"))]
/-- contextual.rs:35-40. -/
abbrev chainedSequenceContextFormat1 :=
  fields [offsetBase (f own "uint16"), offset16 (named own "Coverage"),
    countedOffset16 (.record false (chainedSequenceRuleSet own))]
/-- contextual.rs:45-54. -/
abbrev chainedSequenceContextFormat2 :=
  fields [offsetBase (f own "uint16"), offset16 (named own "Coverage"), offset16 (named own "ClassDef"),
    offset16 (named own "ClassDef"), offset16 (named own "ClassDef"),
    countedOffset16 (.record false (chainedSequenceRuleSet own))]
/-- contextual.rs:55-62. -/
abbrev chainedSequenceContextFormat3 :=
  fields [offsetBase (f own "uint16"), countedOffset16 (named own "Coverage"), countedOffset16 (named own "Coverage"),
    countedOffset16 (named own "Coverage"), counted (.record false (sequenceLookupRecord own))]
/-- coverage.rs:9-11. -/
abbrev coverageFormat1 := fields [counted (named own "uint16")]
/-- coverage.rs:12-19. -/
abbrev coverageFormat2 := fields [counted (.record false (fields [f own "uint16", f own "uint16", f own "uint16"]))]
/-- classdef.rs:12-15. -/
abbrev classDefFormat1 := fields [f own "uint16", counted (named own "uint16")]
/-- classdef.rs:16-23. -/
abbrev classDefFormat2 := fields [counted (.record false (fields [f own "uint16", f own "uint16", f own "uint16"]))]

/-! crates/otspec/src/tables -/

/-- avar.rs:6-20. -/
abbrev avar := fields [f own "uint16", f own "uint16", f own "uint16",
  counted (.record false (fields [counted (.record false (fields [f own "F2DOT14", f own "F2DOT14"]))]))]
/-- GSUB.rs:32-35. -/
abbrev gsubLookupList := fields [offsetBase (countedOffset16 (named own "GSUBLookup"))]
/-- GSUB.rs:17-23. -/
abbrev gsub10 := fields [f own "uint16", f own "uint16", offset16 (.record false (scriptList own)),
  offset16 (.record false (featureList own)), offset16 (.record false (gsubLookupList own))]
/-- GSUB.rs:24-31. -/
abbrev gsub11 := fields [f own "uint16", f own "uint16", offset16 (.record false (scriptList own)),
  offset16 (.record false (featureList own)), offset16 (.record false (gsubLookupList own)),
  offset32 (.record false (featureVariations own))]
/-- GPOS.rs:33-36. -/
abbrev gposLookupList := fields [offsetBase (countedOffset16 (named own "GPOSLookup"))]
/-- GPOS.rs:18-24. -/
abbrev gpos10 := fields [f own "uint16", f own "uint16", offset16 (.record false (scriptList own)),
  offset16 (.record false (featureList own)), offset16 (.record false (gposLookupList own))]
/-- GPOS.rs:25-32. -/
abbrev gpos11 := fields [f own "uint16", f own "uint16", offset16 (.record false (scriptList own)),
  offset16 (.record false (featureList own)), offset16 (.record false (gposLookupList own)),
  offset32 (.record false (featureVariations own))]

/-! src/tables -/

/-- cmap.rs:330-345. -/
abbrev cmap12 := fields [f own "uint16", f own "uint16", f own "uint32", f own "uint32",
  counted32 (.record false (fields [f own "uint32", f own "uint32", f own "uint32"]))]
/-- cmap.rs:425-427. -/
abbrev defaultUVS := fields [counted32 (.record false (fields [f own "uint24", f own "uint8"]))]
/-- cmap.rs:432-434. -/
abbrev nonDefaultUVS := fields [counted32 (.record false (fields [f own "uint24", f own "uint16"]))]
/-- cmap.rs:420-424. -/
abbrev variationSelector :=
  fields [f own "uint24", offset32 (.record false (defaultUVS own)), offset32 (.record false (nonDefaultUVS own))]
/-- cmap.rs:413-419. -/
abbrev cmap14 :=
  fields [offsetBase (f own "uint16"), f own "uint32", embed (counted32 (.record true (variationSelector own)))]
/-- GDEF.rs:57-59. -/
abbrev attachPoint := fields [counted (named own "uint16")]
/-- GDEF.rs:51-55. -/
abbrev attachList :=
  fields [offsetBase (offset16 (named own "Coverage")), countedOffset16 (.record false (attachPoint own))]
/-- GDEF.rs:67-70. -/
abbrev ligGlyph := fields [offsetBase (countedOffset16 (named own "CaretValue"))]
/-- GDEF.rs:61-65. -/
abbrev ligCaretList :=
  fields [offsetBase (offset16 (named own "Coverage")), countedOffset16 (.record false (ligGlyph own))]
/-- GDEF.rs:72-75. -/
abbrev markGlyphSets := fields [f own "uint16", countedOffset32 (named own "Coverage")]
/-- GDEF.rs:21-28. -/
abbrev gdefcore11 := fields [f own "uint16", f own "uint16", offset16 (named own "ClassDef"),
  offset16 (.record false (attachList own)), offset16 (.record false (ligCaretList own)), offset16 (named own "ClassDef")]
/-- GDEF.rs:30-38. -/
abbrev gdefcore12 := fields [f own "uint16", f own "uint16", offset16 (named own "ClassDef"),
  offset16 (.record false (attachList own)), offset16 (.record false (ligCaretList own)), offset16 (named own "ClassDef"),
  offset16 (.record false (markGlyphSets own))]
/-- GDEF.rs:40-49. -/
abbrev gdefcore13 := fields [f own "uint16", f own "uint16", offset16 (named own "ClassDef"),
  offset16 (.record false (attachList own)), offset16 (.record false (ligCaretList own)), offset16 (named own "ClassDef"),
  offset16 (.record false (markGlyphSets own)), offset32 (named own "ItemVariationStore")]
/-- MATH.rs:13-16. -/
abbrev mathValueRecord := fields [f own "FWORD", offset16 (named own "Device")]
/-- MATH.rs:24-81: four numbers, 51 value records, one number. -/
abbrev mathConstants := fields ([f own "int16", f own "int16", f own "UFWORD", f own "UFWORD"] ++
  List.replicate 51 (plain (.record true (mathValueRecord own))) ++ [f own "int16"])
/-- MATH.rs:89-92. -/
abbrev mathItalicsCorrectionInfo :=
  fields [offset16 (named own "Coverage"), counted (.record true (mathValueRecord own))]
/-- MATH.rs:93-96. -/
abbrev mathTopAccentAttachment :=
  fields [offset16 (named own "Coverage"), counted (.record true (mathValueRecord own))]
/-- MATH.rs:103-108. -/
abbrev mathKernInfoRecord := fields [offset16 (named own "MathKern"), offset16 (named own "MathKern"),
  offset16 (named own "MathKern"), offset16 (named own "MathKern")]
/-- MATH.rs:97-102. -/
abbrev mathKernInfo :=
  fields [offsetBase (offset16 (named own "Coverage")), embed (counted (.record true (mathKernInfoRecord own)))]
/-- MATH.rs:82-88. -/
abbrev mathGlyphInfo := fields [offsetBase (offset16 (.record false (mathItalicsCorrectionInfo own))),
  offset16 (.record false (mathTopAccentAttachment own)), offset16 (named own "Coverage"),
  offset16 (.record false (mathKernInfo own))]
/-- MATH.rs:118-128. -/
abbrev glyphAssembly := fields [plain (.record true (mathValueRecord own)),
  counted (.record false (fields [f own "uint16", f own "UFWORD", f own "UFWORD", f own "UFWORD", f own "uint16"]))]
/-- MATH.rs:109-117. -/
abbrev mathGlyphConstruction := fields [offsetBase (offset16 (.record false (glyphAssembly own))),
  counted (.record false (fields [f own "uint16", f own "UFWORD"]))]
/-- MATH.rs:17-23. -/
abbrev mathInternal := fields [f own "uint16", f own "uint16", offset16 (.record false (mathConstants own)),
  offset16 (.record false (mathGlyphInfo own)), offset16 (named own "MathVariants")]

/-! src/otvar/itemvariationstore.rs -/

/-- itemvariationstore.rs:13-17. -/
abbrev itemVariationDataHeader := fields [f own "uint16", f own "uint16", counted (named own "uint16")]
/-- itemvariationstore.rs:18-22. -/
abbrev itemVariationStoreInternal := fields [f own "uint16", offset32 (named own "VariationRegionList"),
  countedOffset32 (named own "ItemVariationData")]

end FT.Der.Declared
