import Verif.Props.TablesMacroSpec
import Verif.Model.Declarations

/-!
Every table that the crates declare with `tables!` (outside tests), as it is written. Comments are left out.
-/

namespace FT.Macro.Text
open FT FT.Macro

/-! crates/otspec/src/layout/common.rs -/

/-- common.rs:10-14. -/
def t_ScriptList : TableSrc :=
  ⟨"ScriptList", [.default], [
    ⟨[.offsetBase, .embed], .of .counted (.ident "ScriptRecord") [], "scriptRecords"⟩], []⟩

/-- common.rs:15-18. -/
def t_ScriptRecord : TableSrc :=
  ⟨"ScriptRecord", [.embedded, .nodebug], [
    ⟨[], .name "Tag", "scriptTag"⟩,
    ⟨[], .of .offset16 (.ident "Script") [], "script"⟩], []⟩

/-- common.rs:19-24. -/
def t_Script : TableSrc :=
  ⟨"Script", [], [
    ⟨[.offsetBase], .of .offset16 (.ident "LangSys") [], "defaultLangSys"⟩,
    ⟨[.embed], .of .counted (.ident "LangSysRecord") [], "langSysRecords"⟩], []⟩

/-- common.rs:25-28. -/
def t_LangSysRecord : TableSrc :=
  ⟨"LangSysRecord", [.embedded], [
    ⟨[], .name "Tag", "langSysTag"⟩,
    ⟨[], .of .offset16 (.ident "LangSys") [], "langSys"⟩], []⟩

/-- common.rs:29-33. -/
def t_LangSys : TableSrc :=
  ⟨"LangSys", [], [
    ⟨[], .name "uint16", "lookupOrderOffset"⟩,
    ⟨[], .name "uint16", "requiredFeatureIndex"⟩,
    ⟨[], .of .counted (.ident "uint16") [], "featureIndices"⟩], []⟩

/-- common.rs:34-38. -/
def t_FeatureList : TableSrc :=
  ⟨"FeatureList", [.default], [
    ⟨[.offsetBase, .embed], .of .counted (.ident "FeatureRecord") [], "featureRecords"⟩], []⟩

/-- common.rs:39-42. -/
def t_FeatureRecord : TableSrc :=
  ⟨"FeatureRecord", [.embedded], [
    ⟨[], .name "Tag", "featureTag"⟩,
    ⟨[], .of .offset16 (.ident "FeatureTable") [], "feature"⟩], []⟩

/-- common.rs:43-46. -/
def t_FeatureTable : TableSrc :=
  ⟨"FeatureTable", [], [
    ⟨[], .name "uint16", "featureParamsOffset"⟩,
    ⟨[], .of .counted (.ident "uint16") [], "lookupListIndices"⟩], []⟩

/-- common.rs:47-56. -/
def t_cvFeatureParams : TableSrc :=
  ⟨"cvFeatureParams", [], [
    ⟨[], .name "uint16", "format"⟩,
    ⟨[], .name "uint16", "featUiLabelNameId"⟩,
    ⟨[], .name "uint16", "featUiTooltipTextNameId"⟩,
    ⟨[], .name "uint16", "sampleTextNameId"⟩,
    ⟨[], .name "uint16", "numNamedParameters"⟩,
    ⟨[], .name "uint16", "firstParamUiLabelNameId"⟩], []⟩

/-- common.rs:57-63. -/
def t_sizeFeatureParams : TableSrc :=
  ⟨"sizeFeatureParams", [], [
    ⟨[], .name "uint16", "designSize"⟩,
    ⟨[], .name "uint16", "subfamilyIdentifier"⟩,
    ⟨[], .name "uint16", "subfamilyNameID"⟩,
    ⟨[], .name "uint16", "smallest"⟩,
    ⟨[], .name "uint16", "largest"⟩], []⟩

/-- common.rs:65-69. -/
def t_MarkArray : TableSrc :=
  ⟨"MarkArray", [.default], [
    ⟨[.offsetBase, .embed], .of .counted (.ident "MarkRecord") [], "markRecords"⟩], []⟩

/-- common.rs:71-74. -/
def t_MarkRecord : TableSrc :=
  ⟨"MarkRecord", [.embedded], [
    ⟨[], .name "uint16", "markClass"⟩,
    ⟨[], .of .offset16 (.ident "Anchor") [], "markAnchor"⟩], []⟩

/-- common.rs:75-79. -/
def t_FeatureVariations : TableSrc :=
  ⟨"FeatureVariations", [], [
    ⟨[], .name "uint16", "majorVersion"⟩,
    ⟨[], .name "uint16", "minorVersion"⟩,
    ⟨[], .of .counted32 (.ident "FeatureVariationRecord") [], "featureVariationRecords"⟩], []⟩

/-- common.rs:80-83. -/
def t_FeatureVariationRecord : TableSrc :=
  ⟨"FeatureVariationRecord", [], [
    ⟨[], .of .offset32 (.ident "ConditionSet") [], "conditionSet"⟩,
    ⟨[], .of .offset32 (.ident "FeatureTableSubstitution") [], "featureTableSubstitution"⟩], []⟩

/-- common.rs:84-86. -/
def t_ConditionSet : TableSrc :=
  ⟨"ConditionSet", [], [
    ⟨[], .of .countedOffset32 (.ident "ConditionFormat1") [], "conditions"⟩], []⟩

/-- common.rs:87-92. -/
def t_ConditionFormat1 : TableSrc :=
  ⟨"ConditionFormat1", [], [
    ⟨[], .name "uint16", "format"⟩,
    ⟨[], .name "uint16", "axisIndex"⟩,
    ⟨[], .name "F2DOT14", "filterRangeMinValue"⟩,
    ⟨[], .name "F2DOT14", "filterRangeMaxValue"⟩], []⟩

/-- common.rs:93-97. -/
def t_FeatureTableSubstitution : TableSrc :=
  ⟨"FeatureTableSubstitution", [], [
    ⟨[], .name "uint16", "majorVersion"⟩,
    ⟨[], .name "uint16", "minorVersion"⟩,
    ⟨[], .of .counted (.ident "FeatureTableSubstitutionRecord") [], "substitutions"⟩], []⟩

/-- common.rs:98-101. -/
def t_FeatureTableSubstitutionRecord : TableSrc :=
  ⟨"FeatureTableSubstitutionRecord", [], [
    ⟨[], .name "uint16", "featureIndex"⟩,
    ⟨[], .of .offset32 (.ident "FeatureTable") [], "alternateFeature"⟩], []⟩

/-! crates/otspec/src/layout/classdef.rs -/

/-- classdef.rs:12-15. -/
def t_ClassDefFormat1 : TableSrc :=
  ⟨"ClassDefFormat1", [], [
    ⟨[], .name "uint16", "startGlyphID"⟩,
    ⟨[], .of .counted (.ident "uint16") [], "classValueArray"⟩], []⟩

/-- classdef.rs:16-18. -/
def t_ClassDefFormat2 : TableSrc :=
  ⟨"ClassDefFormat2", [], [
    ⟨[], .of .counted (.ident "ClassRangeRecord") [], "classRangeRecords"⟩], []⟩

/-- classdef.rs:19-23. -/
def t_ClassRangeRecord : TableSrc :=
  ⟨"ClassRangeRecord", [], [
    ⟨[], .name "uint16", "startGlyphID"⟩,
    ⟨[], .name "uint16", "endGlyphID"⟩,
    ⟨[], .name "uint16", "class"⟩], []⟩

/-! crates/otspec/src/layout/contextual.rs -/

/-- contextual.rs:10-13. -/
def t_SequenceLookupRecord : TableSrc :=
  ⟨"SequenceLookupRecord", [], [
    ⟨[], .name "uint16", "sequenceIndex"⟩,
    ⟨[], .name "uint16", "lookupIndex"⟩], []⟩

/-- contextual.rs:14-19. -/
def t_SequenceContextFormat1 : TableSrc :=
  ⟨"SequenceContextFormat1", [], [
    ⟨[.offsetBase], .name "uint16", "format"⟩,
    ⟨[], .of .offset16 (.ident "Coverage") [], "coverage"⟩,
    ⟨[], .of .countedOffset16 (.ident "SequenceRuleSet") [], "seqRuleSets"⟩], []⟩

/-- contextual.rs:20-23. -/
def t_SequenceRuleSet : TableSrc :=
  ⟨"SequenceRuleSet", [], [
    ⟨[.offsetBase], .of .countedOffset16 (.ident "SequenceRule") [], "sequenceRules"⟩], []⟩

/-- contextual.rs:24-34. -/
def t_SequenceContextFormat2 : TableSrc :=
  ⟨"SequenceContextFormat2", [], [
    ⟨[.offsetBase], .name "uint16", "format"⟩,
    ⟨[], .of .offset16 (.ident "Coverage") [], "coverage"⟩,
    ⟨[], .of .offset16 (.ident "ClassDef") [], "classDef"⟩,
    ⟨[], .of .countedOffset16 (.ident "SequenceRuleSet") [], "classSeqRuleSets"⟩], []⟩

/-- contextual.rs:35-40. -/
def t_ChainedSequenceContextFormat1 : TableSrc :=
  ⟨"ChainedSequenceContextFormat1", [], [
    ⟨[.offsetBase], .name "uint16", "format"⟩,
    ⟨[], .of .offset16 (.ident "Coverage") [], "coverage"⟩,
    ⟨[], .of .countedOffset16 (.ident "ChainedSequenceRuleSet") [], "chainedSeqRuleSets"⟩], []⟩

/-- contextual.rs:41-44. -/
def t_ChainedSequenceRuleSet : TableSrc :=
  ⟨"ChainedSequenceRuleSet", [], [
    ⟨[.offsetBase], .of .countedOffset16 (.ident "ChainedSequenceRule") [], "chainedSequenceRules"⟩], []⟩

/-- contextual.rs:45-54. -/
def t_ChainedSequenceContextFormat2 : TableSrc :=
  ⟨"ChainedSequenceContextFormat2", [], [
    ⟨[.offsetBase], .name "uint16", "format"⟩,
    ⟨[], .of .offset16 (.ident "Coverage") [], "coverage"⟩,
    ⟨[], .of .offset16 (.ident "ClassDef") [], "backtrackClassDef"⟩,
    ⟨[], .of .offset16 (.ident "ClassDef") [], "inputClassDef"⟩,
    ⟨[], .of .offset16 (.ident "ClassDef") [], "lookaheadClassDef"⟩,
    ⟨[], .of .countedOffset16 (.ident "ChainedSequenceRuleSet") [], "chainedClassSeqRuleSets"⟩], []⟩

/-- contextual.rs:55-62. -/
def t_ChainedSequenceContextFormat3 : TableSrc :=
  ⟨"ChainedSequenceContextFormat3", [], [
    ⟨[.offsetBase], .name "uint16", "format"⟩,
    ⟨[], .of .countedOffset16 (.ident "Coverage") [], "backtrackCoverages"⟩,
    ⟨[], .of .countedOffset16 (.ident "Coverage") [], "inputCoverages"⟩,
    ⟨[], .of .countedOffset16 (.ident "Coverage") [], "lookaheadCoverages"⟩,
    ⟨[], .of .counted (.ident "SequenceLookupRecord") [], "seqLookupRecords"⟩], []⟩

/-! crates/otspec/src/layout/coverage.rs -/

/-- coverage.rs:9-11. -/
def t_CoverageFormat1 : TableSrc :=
  ⟨"CoverageFormat1", [], [
    ⟨[], .of .counted (.ident "uint16") [], "glyphArray"⟩], []⟩

/-- coverage.rs:12-14. -/
def t_CoverageFormat2 : TableSrc :=
  ⟨"CoverageFormat2", [], [
    ⟨[], .of .counted (.ident "RangeRecord") [], "rangeRecords"⟩], []⟩

/-- coverage.rs:15-19. -/
def t_RangeRecord : TableSrc :=
  ⟨"RangeRecord", [], [
    ⟨[], .name "uint16", "startGlyphID"⟩,
    ⟨[], .name "uint16", "endGlyphID"⟩,
    ⟨[], .name "uint16", "startCoverageIndex"⟩], []⟩

/-! crates/otspec/src/layout/gpos3.rs -/

/-- gpos3.rs:8-14. -/
def t_CursivePosFormat1 : TableSrc :=
  ⟨"CursivePosFormat1", [], [
    ⟨[.offsetBase], .name "uint16", "posFormat"⟩,
    ⟨[], .of .offset16 (.ident "Coverage") [], "coverage"⟩,
    ⟨[.embed], .of .counted (.ident "EntryExitRecord") [], "entryExitRecord"⟩], []⟩

/-- gpos3.rs:15-18. -/
def t_EntryExitRecord : TableSrc :=
  ⟨"EntryExitRecord", [.embedded], [
    ⟨[], .of .offset16 (.ident "Anchor") [], "entryAnchor"⟩,
    ⟨[], .of .offset16 (.ident "Anchor") [], "exitAnchor"⟩], []⟩

/-! crates/otspec/src/layout/gpos4.rs -/

/-- gpos4.rs:10-18. -/
def t_MarkBasePosFormat1 : TableSrc :=
  ⟨"MarkBasePosFormat1", [.nodeserialize], [
    ⟨[.offsetBase], .name "uint16", "posFormat"⟩,
    ⟨[], .of .offset16 (.ident "Coverage") [], "markCoverage"⟩,
    ⟨[], .of .offset16 (.ident "Coverage") [], "baseCoverage"⟩,
    ⟨[], .name "uint16", "markClassCount"⟩,
    ⟨[], .of .offset16 (.ident "MarkArray") [], "markArray"⟩,
    ⟨[], .of .offset16 (.ident "BaseArray") [], "baseArray"⟩], []⟩

/-- gpos4.rs:20-24. -/
def t_BaseArray : TableSrc :=
  ⟨"BaseArray", [.nodeserialize, .default], [
    ⟨[.offsetBase, .embed], .of .counted (.ident "BaseRecord") [], "baseRecords"⟩], []⟩

/-! crates/otspec/src/layout/gpos5.rs -/

/-- gpos5.rs:13-21. -/
def t_MarkLigPosFormat1 : TableSrc :=
  ⟨"MarkLigPosFormat1", [.nodeserialize], [
    ⟨[.offsetBase], .name "uint16", "posFormat"⟩,
    ⟨[], .of .offset16 (.ident "Coverage") [], "markCoverage"⟩,
    ⟨[], .of .offset16 (.ident "Coverage") [], "ligatureCoverage"⟩,
    ⟨[], .name "uint16", "markClassCount"⟩,
    ⟨[], .of .offset16 (.ident "MarkArray") [], "markArray"⟩,
    ⟨[], .of .offset16 (.ident "LigatureArray") [], "ligatureArray"⟩], []⟩

/-- gpos5.rs:23-26. -/
def t_LigatureArray : TableSrc :=
  ⟨"LigatureArray", [.nodeserialize, .default], [
    ⟨[.offsetBase], .of .countedOffset16 (.ident "LigatureAttach") [], "ligatureAttach"⟩], []⟩

/-- gpos5.rs:28-32. -/
def t_LigatureAttach : TableSrc :=
  ⟨"LigatureAttach", [.nodeserialize, .default], [
    ⟨[.offsetBase, .embed], .of .counted (.ident "ComponentRecord") [], "componentRecords"⟩], []⟩

/-! crates/otspec/src/layout/gpos6.rs -/

/-- gpos6.rs:10-18. -/
def t_MarkMarkPosFormat1 : TableSrc :=
  ⟨"MarkMarkPosFormat1", [.nodeserialize], [
    ⟨[.offsetBase], .name "uint16", "posFormat"⟩,
    ⟨[], .of .offset16 (.ident "Coverage") [], "mark1Coverage"⟩,
    ⟨[], .of .offset16 (.ident "Coverage") [], "mark2Coverage"⟩,
    ⟨[], .name "uint16", "markClassCount"⟩,
    ⟨[], .of .offset16 (.ident "MarkArray") [], "mark1Array"⟩,
    ⟨[], .of .offset16 (.ident "Mark2Array") [], "mark2Array"⟩], []⟩

/-- gpos6.rs:20-24. -/
def t_Mark2Array : TableSrc :=
  ⟨"Mark2Array", [.nodeserialize, .default], [
    ⟨[.offsetBase, .embed], .of .counted (.ident "Mark2Record") [], "mark2Records"⟩], []⟩

/-! crates/otspec/src/layout/gsub1.rs -/

/-- gsub1.rs:8-13. -/
def t_SingleSubstFormat1 : TableSrc :=
  ⟨"SingleSubstFormat1", [], [
    ⟨[.offsetBase], .name "uint16", "substFormat"⟩,
    ⟨[], .of .offset16 (.ident "Coverage") [], "coverage"⟩,
    ⟨[], .name "int16", "deltaGlyphID"⟩], []⟩

/-- gsub1.rs:14-19. -/
def t_SingleSubstFormat2 : TableSrc :=
  ⟨"SingleSubstFormat2", [], [
    ⟨[.offsetBase], .name "uint16", "substFormat"⟩,
    ⟨[], .of .offset16 (.ident "Coverage") [], "coverage"⟩,
    ⟨[], .of .counted (.ident "uint16") [], "substituteGlyphIDs"⟩], []⟩

/-! crates/otspec/src/layout/gsub2.rs -/

/-- gsub2.rs:7-12. -/
def t_MultipleSubstFormat1 : TableSrc :=
  ⟨"MultipleSubstFormat1", [], [
    ⟨[.offsetBase], .name "uint16", "substFormat"⟩,
    ⟨[], .of .offset16 (.ident "Coverage") [], "coverage"⟩,
    ⟨[], .of .countedOffset16 (.ident "Sequence") [], "sequences"⟩], []⟩

/-- gsub2.rs:13-15. -/
def t_Sequence : TableSrc :=
  ⟨"Sequence", [.default], [
    ⟨[], .of .counted (.ident "uint16") [], "substituteGlyphIDs"⟩], []⟩

/-! crates/otspec/src/layout/gsub3.rs -/

/-- gsub3.rs:7-12. -/
def t_AlternateSubstFormat1 : TableSrc :=
  ⟨"AlternateSubstFormat1", [], [
    ⟨[.offsetBase], .name "uint16", "substFormat"⟩,
    ⟨[], .of .offset16 (.ident "Coverage") [], "coverage"⟩,
    ⟨[], .of .countedOffset16 (.ident "AlternateSet") [], "alternateSets"⟩], []⟩

/-- gsub3.rs:13-15. -/
def t_AlternateSet : TableSrc :=
  ⟨"AlternateSet", [.default], [
    ⟨[], .of .counted (.ident "uint16") [], "alternateGlyphIDs"⟩], []⟩

/-! crates/otspec/src/layout/gsub4.rs -/

/-- gsub4.rs:10-15. -/
def t_LigatureSubstFormat1 : TableSrc :=
  ⟨"LigatureSubstFormat1", [], [
    ⟨[.offsetBase], .name "uint16", "substFormat"⟩,
    ⟨[], .of .offset16 (.ident "Coverage") [], "coverage"⟩,
    ⟨[], .of .countedOffset16 (.ident "LigatureSet") [], "ligatureSet"⟩], []⟩

/-- gsub4.rs:16-19. -/
def t_LigatureSet : TableSrc :=
  ⟨"LigatureSet", [], [
    ⟨[.offsetBase], .of .countedOffset16 (.ident "Ligature") [], "ligatureOffsets"⟩], []⟩

/-! crates/otspec/src/layout/gsub8.rs -/

/-- gsub8.rs:7-14. -/
def t_ReverseChainSingleSubstFormat1 : TableSrc :=
  ⟨"ReverseChainSingleSubstFormat1", [], [
    ⟨[.offsetBase], .name "uint16", "substFormat"⟩,
    ⟨[], .of .offset16 (.ident "Coverage") [], "coverage"⟩,
    ⟨[], .of .countedOffset16 (.ident "Coverage") [], "backtrackCoverages"⟩,
    ⟨[], .of .countedOffset16 (.ident "Coverage") [], "lookaheadCoverages"⟩,
    ⟨[], .of .counted (.ident "uint16") [], "substituteGlyphIDs"⟩], []⟩

/-! crates/otspec/src/tables/GPOS.rs -/

/-- GPOS.rs:18-24. -/
def t_GPOS10 : TableSrc :=
  ⟨"GPOS10", [], [
    ⟨[], .name "uint16", "majorVersion"⟩,
    ⟨[], .name "uint16", "minorVersion"⟩,
    ⟨[], .of .offset16 (.ident "ScriptList") [], "scriptList"⟩,
    ⟨[], .of .offset16 (.ident "FeatureList") [], "featureList"⟩,
    ⟨[], .of .offset16 (.ident "GPOSLookupList") [], "lookupList"⟩], []⟩

/-- GPOS.rs:25-32. -/
def t_GPOS11 : TableSrc :=
  ⟨"GPOS11", [], [
    ⟨[], .name "uint16", "majorVersion"⟩,
    ⟨[], .name "uint16", "minorVersion"⟩,
    ⟨[], .of .offset16 (.ident "ScriptList") [], "scriptList"⟩,
    ⟨[], .of .offset16 (.ident "FeatureList") [], "featureList"⟩,
    ⟨[], .of .offset16 (.ident "GPOSLookupList") [], "lookupList"⟩,
    ⟨[], .of .offset32 (.ident "FeatureVariations") [], "featureVariations"⟩], []⟩

/-- GPOS.rs:33-36. -/
def t_GPOSLookupList : TableSrc :=
  ⟨"GPOSLookupList", [], [
    ⟨[.offsetBase], .of .countedOffset16 (.ident "GPOSLookup") [], "lookups"⟩], []⟩

/-- GPOS.rs:38-43. -/
def t_ExtensionPosFormat1 : TableSrc :=
  ⟨"ExtensionPosFormat1", [.nodeserialize], [
    ⟨[.offsetBase], .name "uint16", "substFormat"⟩,
    ⟨[], .name "uint16", "extensionLookupType"⟩,
    ⟨[], .of .offset32 (.ident "GPOSSubtable") [], "extension"⟩], []⟩

/-! crates/otspec/src/tables/GSUB.rs -/

/-- GSUB.rs:17-23. -/
def t_GSUB10 : TableSrc :=
  ⟨"GSUB10", [], [
    ⟨[], .name "uint16", "majorVersion"⟩,
    ⟨[], .name "uint16", "minorVersion"⟩,
    ⟨[], .of .offset16 (.ident "ScriptList") [], "scriptList"⟩,
    ⟨[], .of .offset16 (.ident "FeatureList") [], "featureList"⟩,
    ⟨[], .of .offset16 (.ident "GSUBLookupList") [], "lookupList"⟩], []⟩

/-- GSUB.rs:24-31. -/
def t_GSUB11 : TableSrc :=
  ⟨"GSUB11", [], [
    ⟨[], .name "uint16", "majorVersion"⟩,
    ⟨[], .name "uint16", "minorVersion"⟩,
    ⟨[], .of .offset16 (.ident "ScriptList") [], "scriptList"⟩,
    ⟨[], .of .offset16 (.ident "FeatureList") [], "featureList"⟩,
    ⟨[], .of .offset16 (.ident "GSUBLookupList") [], "lookupList"⟩,
    ⟨[], .of .offset32 (.ident "FeatureVariations") [], "featureVariations"⟩], []⟩

/-- GSUB.rs:32-35. -/
def t_GSUBLookupList : TableSrc :=
  ⟨"GSUBLookupList", [], [
    ⟨[.offsetBase], .of .countedOffset16 (.ident "GSUBLookup") [], "lookups"⟩], []⟩

/-- GSUB.rs:37-42. -/
def t_ExtensionSubstFormat1 : TableSrc :=
  ⟨"ExtensionSubstFormat1", [.nodeserialize], [
    ⟨[.offsetBase], .name "uint16", "substFormat"⟩,
    ⟨[], .name "uint16", "extensionLookupType"⟩,
    ⟨[], .of .offset32 (.ident "GSUBSubtable") [], "extension"⟩], []⟩

/-! crates/otspec/src/tables/avar.rs -/

/-- avar.rs:6-9. -/
def t_AxisValueMap : TableSrc :=
  ⟨"AxisValueMap", [], [
    ⟨[], .name "F2DOT14", "fromCoordinate"⟩,
    ⟨[], .name "F2DOT14", "toCoordinate"⟩], []⟩

/-- avar.rs:10-12. -/
def t_SegmentMap : TableSrc :=
  ⟨"SegmentMap", [], [
    ⟨[], .of .counted (.ident "AxisValueMap") [], "axisValueMaps"⟩], []⟩

/-- avar.rs:14-19. -/
def t_avar : TableSrc :=
  ⟨"avar", [], [
    ⟨[], .name "uint16", "majorVersion"⟩,
    ⟨[], .name "uint16", "minorVersion"⟩,
    ⟨[], .name "uint16", "reserved"⟩,
    ⟨[], .of .counted (.ident "SegmentMap") [], "axisSegmentMaps"⟩], []⟩

/-! crates/otspec/src/tables/head.rs -/

/-- head.rs:5-24. -/
def t_head : TableSrc :=
  ⟨"head", [], [
    ⟨[], .name "uint16", "majorVersion"⟩,
    ⟨[], .name "uint16", "minorVersion"⟩,
    ⟨[], .name "Fixed", "fontRevision"⟩,
    ⟨[], .name "uint32", "checksumAdjustment"⟩,
    ⟨[], .name "uint32", "magicNumber"⟩,
    ⟨[], .name "uint16", "flags"⟩,
    ⟨[], .name "uint16", "unitsPerEm"⟩,
    ⟨[], .name "LONGDATETIME", "created"⟩,
    ⟨[], .name "LONGDATETIME", "modified"⟩,
    ⟨[], .name "int16", "xMin"⟩,
    ⟨[], .name "int16", "yMin"⟩,
    ⟨[], .name "int16", "xMax"⟩,
    ⟨[], .name "int16", "yMax"⟩,
    ⟨[], .name "uint16", "macStyle"⟩,
    ⟨[], .name "uint16", "lowestRecPPEM"⟩,
    ⟨[], .name "int16", "fontDirectionHint"⟩,
    ⟨[], .name "int16", "indexToLocFormat"⟩,
    ⟨[], .name "int16", "glyphDataFormat"⟩], []⟩

/-! src/otvar/itemvariationstore.rs -/

/-- itemvariationstore.rs:8-12. -/
def t_RegionAxisCoordinates : TableSrc :=
  ⟨"RegionAxisCoordinates", [], [
    ⟨[], .name "F2DOT14", "startCoord"⟩,
    ⟨[], .name "F2DOT14", "peakCoord"⟩,
    ⟨[], .name "F2DOT14", "endCoord"⟩], []⟩

/-- itemvariationstore.rs:13-17. -/
def t_ItemVariationDataHeader : TableSrc :=
  ⟨"ItemVariationDataHeader", [], [
    ⟨[], .name "uint16", "itemCount"⟩,
    ⟨[], .name "uint16", "shortDeltaCount"⟩,
    ⟨[], .of .counted (.ident "uint16") [], "regionIndexes"⟩], []⟩

/-- itemvariationstore.rs:18-22. -/
def t_ItemVariationStoreInternal : TableSrc :=
  ⟨"ItemVariationStoreInternal", [], [
    ⟨[], .name "uint16", "format"⟩,
    ⟨[], .of .offset32 (.ident "VariationRegionList") [], "variationRegionList"⟩,
    ⟨[], .of .countedOffset32 (.ident "ItemVariationData") [], "itemVariationData"⟩], []⟩

/-! src/tables/GDEF.rs -/

/-- GDEF.rs:21-28. -/
def t_gdefcore11 : TableSrc :=
  ⟨"gdefcore11", [], [
    ⟨[], .name "uint16", "majorVersion"⟩,
    ⟨[], .name "uint16", "minorVersion"⟩,
    ⟨[], .of .offset16 (.ident "ClassDef") [], "glyphClassDef"⟩,
    ⟨[], .of .offset16 (.ident "AttachList") [], "attachList"⟩,
    ⟨[], .of .offset16 (.ident "LigCaretList") [], "ligCaretList"⟩,
    ⟨[], .of .offset16 (.ident "ClassDef") [], "markAttachClassDef"⟩], []⟩

/-- GDEF.rs:30-38. -/
def t_gdefcore12 : TableSrc :=
  ⟨"gdefcore12", [], [
    ⟨[], .name "uint16", "majorVersion"⟩,
    ⟨[], .name "uint16", "minorVersion"⟩,
    ⟨[], .of .offset16 (.ident "ClassDef") [], "glyphClassDef"⟩,
    ⟨[], .of .offset16 (.ident "AttachList") [], "attachList"⟩,
    ⟨[], .of .offset16 (.ident "LigCaretList") [], "ligCaretList"⟩,
    ⟨[], .of .offset16 (.ident "ClassDef") [], "markAttachClassDef"⟩,
    ⟨[], .of .offset16 (.ident "MarkGlyphSets") [], "markGlyphSets"⟩], []⟩

/-- GDEF.rs:40-49. -/
def t_gdefcore13 : TableSrc :=
  ⟨"gdefcore13", [], [
    ⟨[], .name "uint16", "majorVersion"⟩,
    ⟨[], .name "uint16", "minorVersion"⟩,
    ⟨[], .of .offset16 (.ident "ClassDef") [], "glyphClassDef"⟩,
    ⟨[], .of .offset16 (.ident "AttachList") [], "attachList"⟩,
    ⟨[], .of .offset16 (.ident "LigCaretList") [], "ligCaretList"⟩,
    ⟨[], .of .offset16 (.ident "ClassDef") [], "markAttachClassDef"⟩,
    ⟨[], .of .offset16 (.ident "MarkGlyphSets") [], "markGlyphSets"⟩,
    ⟨[], .of .offset32 (.ident "ItemVariationStore") [], "itemVarStore"⟩], []⟩

/-- GDEF.rs:51-55. -/
def t_AttachList : TableSrc :=
  ⟨"AttachList", [], [
    ⟨[.offsetBase], .of .offset16 (.ident "Coverage") [], "coverage"⟩,
    ⟨[], .of .countedOffset16 (.ident "AttachPoint") [], "attachPoints"⟩], []⟩

/-- GDEF.rs:57-59. -/
def t_AttachPoint : TableSrc :=
  ⟨"AttachPoint", [], [
    ⟨[], .of .counted (.ident "uint16") [], "pointIndices"⟩], []⟩

/-- GDEF.rs:61-65. -/
def t_LigCaretList : TableSrc :=
  ⟨"LigCaretList", [], [
    ⟨[.offsetBase], .of .offset16 (.ident "Coverage") [], "coverage"⟩,
    ⟨[], .of .countedOffset16 (.ident "LigGlyph") [], "ligGlyph"⟩], []⟩

/-- GDEF.rs:67-70. -/
def t_LigGlyph : TableSrc :=
  ⟨"LigGlyph", [], [
    ⟨[.offsetBase], .of .countedOffset16 (.ident "CaretValue") [], "caretValue"⟩], []⟩

/-- GDEF.rs:72-75. -/
def t_MarkGlyphSets : TableSrc :=
  ⟨"MarkGlyphSets", [], [
    ⟨[], .name "uint16", "format"⟩,
    ⟨[], .of .countedOffset32 (.ident "Coverage") [], "coverage"⟩], []⟩

/-! src/tables/MATH.rs -/

/-- MATH.rs:13-16. -/
def t_MathValueRecord : TableSrc :=
  ⟨"MathValueRecord", [.embedded], [
    ⟨[], .name "FWORD", "value"⟩,
    ⟨[], .of .offset16 (.ident "Device") [], "device"⟩], []⟩

/-- MATH.rs:17-23. -/
def t_MATHinternal : TableSrc :=
  ⟨"MATHinternal", [], [
    ⟨[], .name "uint16", "majorVersion"⟩,
    ⟨[], .name "uint16", "minorVersion"⟩,
    ⟨[], .of .offset16 (.ident "MathConstants") [], "mathConstants"⟩,
    ⟨[], .of .offset16 (.ident "MathGlyphInfo") [], "mathGlyphInfo"⟩,
    ⟨[], .of .offset16 (.ident "MathVariants") [], "mathVariants"⟩], []⟩

/-- MATH.rs:24-81. -/
def t_MathConstants : TableSrc :=
  ⟨"MathConstants", [], [
    ⟨[], .name "int16", "scriptPercentScaleDown"⟩,
    ⟨[], .name "int16", "scriptScriptPercentScaleDown"⟩,
    ⟨[], .name "UFWORD", "delimitedSubFormulaMinHeight"⟩,
    ⟨[], .name "UFWORD", "displayOperatorMinHeight"⟩,
    ⟨[], .name "MathValueRecord", "mathLeading"⟩,
    ⟨[], .name "MathValueRecord", "axisHeight"⟩,
    ⟨[], .name "MathValueRecord", "accentBaseHeight"⟩,
    ⟨[], .name "MathValueRecord", "flattenedAccentBaseHeight"⟩,
    ⟨[], .name "MathValueRecord", "subscriptShiftDown"⟩,
    ⟨[], .name "MathValueRecord", "subscriptTopMax"⟩,
    ⟨[], .name "MathValueRecord", "subscriptBaselineDropMin"⟩,
    ⟨[], .name "MathValueRecord", "superscriptShiftUp"⟩,
    ⟨[], .name "MathValueRecord", "superscriptShiftUpCramped"⟩,
    ⟨[], .name "MathValueRecord", "superscriptBottomMin"⟩,
    ⟨[], .name "MathValueRecord", "superscriptBaselineDropMax"⟩,
    ⟨[], .name "MathValueRecord", "subSuperscriptGapMin"⟩,
    ⟨[], .name "MathValueRecord", "superscriptBottomMaxWithSubscript"⟩,
    ⟨[], .name "MathValueRecord", "spaceAfterScript"⟩,
    ⟨[], .name "MathValueRecord", "upperLimitGapMin"⟩,
    ⟨[], .name "MathValueRecord", "upperLimitBaselineRiseMin"⟩,
    ⟨[], .name "MathValueRecord", "lowerLimitGapMin"⟩,
    ⟨[], .name "MathValueRecord", "lowerLimitBaselineDropMin"⟩,
    ⟨[], .name "MathValueRecord", "stackTopShiftUp"⟩,
    ⟨[], .name "MathValueRecord", "stackTopDisplayStyleShiftUp"⟩,
    ⟨[], .name "MathValueRecord", "stackBottomShiftDown"⟩,
    ⟨[], .name "MathValueRecord", "stackBottomDisplayStyleShiftDown"⟩,
    ⟨[], .name "MathValueRecord", "stackGapMin"⟩,
    ⟨[], .name "MathValueRecord", "stackDisplayStyleGapMin"⟩,
    ⟨[], .name "MathValueRecord", "stretchStackTopShiftUp"⟩,
    ⟨[], .name "MathValueRecord", "stretchStackBottomShiftDown"⟩,
    ⟨[], .name "MathValueRecord", "stretchStackGapAboveMin"⟩,
    ⟨[], .name "MathValueRecord", "stretchStackGapBelowMin"⟩,
    ⟨[], .name "MathValueRecord", "fractionNumeratorShiftUp"⟩,
    ⟨[], .name "MathValueRecord", "fractionNumeratorDisplayStyleShiftUp"⟩,
    ⟨[], .name "MathValueRecord", "fractionDenominatorShiftDown"⟩,
    ⟨[], .name "MathValueRecord", "fractionDenominatorDisplayStyleShiftDown"⟩,
    ⟨[], .name "MathValueRecord", "fractionNumeratorGapMin"⟩,
    ⟨[], .name "MathValueRecord", "fractionNumDisplayStyleGapMin"⟩,
    ⟨[], .name "MathValueRecord", "fractionRuleThickness"⟩,
    ⟨[], .name "MathValueRecord", "fractionDenominatorGapMin"⟩,
    ⟨[], .name "MathValueRecord", "fractionDenomDisplayStyleGapMin"⟩,
    ⟨[], .name "MathValueRecord", "skewedFractionHorizontalGap"⟩,
    ⟨[], .name "MathValueRecord", "skewedFractionVerticalGap"⟩,
    ⟨[], .name "MathValueRecord", "overbarVerticalGap"⟩,
    ⟨[], .name "MathValueRecord", "overbarRuleThickness"⟩,
    ⟨[], .name "MathValueRecord", "overbarExtraAscender"⟩,
    ⟨[], .name "MathValueRecord", "underbarVerticalGap"⟩,
    ⟨[], .name "MathValueRecord", "underbarRuleThickness"⟩,
    ⟨[], .name "MathValueRecord", "underbarExtraDescender"⟩,
    ⟨[], .name "MathValueRecord", "radicalVerticalGap"⟩,
    ⟨[], .name "MathValueRecord", "radicalDisplayStyleVerticalGap"⟩,
    ⟨[], .name "MathValueRecord", "radicalRuleThickness"⟩,
    ⟨[], .name "MathValueRecord", "radicalExtraAscender"⟩,
    ⟨[], .name "MathValueRecord", "radicalKernBeforeDegree"⟩,
    ⟨[], .name "MathValueRecord", "radicalKernAfterDegree"⟩,
    ⟨[], .name "int16", "radicalDegreeBottomRaisePercent"⟩], []⟩

/-- MATH.rs:82-88. -/
def t_MathGlyphInfo : TableSrc :=
  ⟨"MathGlyphInfo", [], [
    ⟨[.offsetBase], .of .offset16 (.ident "MathItalicsCorrectionInfo") [], "mathItalicsCorrectionInfo"⟩,
    ⟨[], .of .offset16 (.ident "MathTopAccentAttachment") [], "mathTopAccentAttachment"⟩,
    ⟨[], .of .offset16 (.ident "Coverage") [], "extendedShapeCoverage"⟩,
    ⟨[], .of .offset16 (.ident "MathKernInfo") [], "mathKernInfo"⟩], []⟩

/-- MATH.rs:89-92. -/
def t_MathItalicsCorrectionInfo : TableSrc :=
  ⟨"MathItalicsCorrectionInfo", [], [
    ⟨[], .of .offset16 (.ident "Coverage") [], "italicsCorrectionCoverage"⟩,
    ⟨[], .of .counted (.ident "MathValueRecord") [], "italicsCorrection"⟩], []⟩

/-- MATH.rs:93-96. -/
def t_MathTopAccentAttachment : TableSrc :=
  ⟨"MathTopAccentAttachment", [], [
    ⟨[], .of .offset16 (.ident "Coverage") [], "topAccentCoverage"⟩,
    ⟨[], .of .counted (.ident "MathValueRecord") [], "topAccentAttachment"⟩], []⟩

/-- MATH.rs:97-102. -/
def t_MathKernInfo : TableSrc :=
  ⟨"MathKernInfo", [], [
    ⟨[.offsetBase], .of .offset16 (.ident "Coverage") [], "mathKernCoverage"⟩,
    ⟨[.embed], .of .counted (.ident "MathKernInfoRecord") [], "mathKernInfoRecords"⟩], []⟩

/-- MATH.rs:103-108. -/
def t_MathKernInfoRecord : TableSrc :=
  ⟨"MathKernInfoRecord", [.embedded], [
    ⟨[], .of .offset16 (.ident "MathKern") [], "topRightMathKern"⟩,
    ⟨[], .of .offset16 (.ident "MathKern") [], "topLeftMathKern"⟩,
    ⟨[], .of .offset16 (.ident "MathKern") [], "bottomRightMathKern"⟩,
    ⟨[], .of .offset16 (.ident "MathKern") [], "bottomLeftMathKern"⟩], []⟩

/-- MATH.rs:109-113. -/
def t_MathGlyphConstruction : TableSrc :=
  ⟨"MathGlyphConstruction", [], [
    ⟨[.offsetBase], .of .offset16 (.ident "GlyphAssembly") [], "glyphAssembly"⟩,
    ⟨[], .of .counted (.ident "MathGlyphVariantRecord") [], "mathGlyphVariantRecord"⟩], []⟩

/-- MATH.rs:114-117. -/
def t_MathGlyphVariantRecord : TableSrc :=
  ⟨"MathGlyphVariantRecord", [], [
    ⟨[], .name "uint16", "variantGlyph"⟩,
    ⟨[], .name "UFWORD", "advanceMeasurement"⟩], []⟩

/-- MATH.rs:118-121. -/
def t_GlyphAssembly : TableSrc :=
  ⟨"GlyphAssembly", [], [
    ⟨[], .name "MathValueRecord", "italicsCorrection"⟩,
    ⟨[], .of .counted (.ident "GlyphPartRecord") [], "partRecords"⟩], []⟩

/-- MATH.rs:122-128. -/
def t_GlyphPartRecord : TableSrc :=
  ⟨"GlyphPartRecord", [], [
    ⟨[], .name "uint16", "glyphID"⟩,
    ⟨[], .name "UFWORD", "startConnectorLength"⟩,
    ⟨[], .name "UFWORD", "endConnectorLength"⟩,
    ⟨[], .name "UFWORD", "fullAdvance"⟩,
    ⟨[], .name "uint16", "partFlags"⟩], []⟩

/-! src/tables/STAT.rs -/

/-- STAT.rs:13-21. -/
def t_STATcore : TableSrc :=
  ⟨"STATcore", [], [
    ⟨[], .name "uint16", "majorVersion"⟩,
    ⟨[], .name "uint16", "minorVersion"⟩,
    ⟨[], .name "uint16", "designAxisSize"⟩,
    ⟨[], .name "uint16", "designAxisCount"⟩,
    ⟨[], .name "uint32", "designAxesOffset"⟩,
    ⟨[], .name "uint16", "axisValueCount"⟩,
    ⟨[], .name "uint32", "offsetToAxisValueOffsets"⟩], []⟩

/-- STAT.rs:23-27. -/
def t_AxisRecord : TableSrc :=
  ⟨"AxisRecord", [], [
    ⟨[], .name "Tag", "axisTag"⟩,
    ⟨[], .name "uint16", "axisNameID"⟩,
    ⟨[], .name "uint16", "axisOrdering"⟩], []⟩

/-- STAT.rs:29-35. -/
def t_AxisValueFormat1 : TableSrc :=
  ⟨"AxisValueFormat1", [], [
    ⟨[], .name "uint16", "format"⟩,
    ⟨[], .name "uint16", "axisIndex"⟩,
    ⟨[], .name "uint16", "flags"⟩,
    ⟨[], .name "uint16", "valueNameID"⟩,
    ⟨[], .name "Fixed", "value"⟩], []⟩

/-- STAT.rs:37-45. -/
def t_AxisValueFormat2 : TableSrc :=
  ⟨"AxisValueFormat2", [], [
    ⟨[], .name "uint16", "format"⟩,
    ⟨[], .name "uint16", "axisIndex"⟩,
    ⟨[], .name "uint16", "flags"⟩,
    ⟨[], .name "uint16", "valueNameID"⟩,
    ⟨[], .name "Fixed", "nominalValue"⟩,
    ⟨[], .name "Fixed", "rangeMinValue"⟩,
    ⟨[], .name "Fixed", "rangeMaxValue"⟩], []⟩

/-- STAT.rs:47-54. -/
def t_AxisValueFormat3 : TableSrc :=
  ⟨"AxisValueFormat3", [], [
    ⟨[], .name "uint16", "format"⟩,
    ⟨[], .name "uint16", "axisIndex"⟩,
    ⟨[], .name "uint16", "flags"⟩,
    ⟨[], .name "uint16", "valueNameID"⟩,
    ⟨[], .name "Fixed", "value"⟩,
    ⟨[], .name "Fixed", "linkedValue"⟩], []⟩

/-- STAT.rs:56-61. -/
def t_AxisValueFormat4Core : TableSrc :=
  ⟨"AxisValueFormat4Core", [], [
    ⟨[], .name "uint16", "format"⟩,
    ⟨[], .name "uint16", "axisCount"⟩,
    ⟨[], .name "uint16", "flags"⟩,
    ⟨[], .name "uint16", "valueNameID"⟩], []⟩

/-- STAT.rs:63-66. -/
def t_AxisValueFormat4AxisValue : TableSrc :=
  ⟨"AxisValueFormat4AxisValue", [], [
    ⟨[], .name "uint16", "axisIndex"⟩,
    ⟨[], .name "Fixed", "value"⟩], []⟩

/-! src/tables/cmap.rs -/

/-- cmap.rs:17-21. -/
def t_EncodingRecord : TableSrc :=
  ⟨"EncodingRecord", [], [
    ⟨[], .name "uint16", "platformID"⟩,
    ⟨[], .name "uint16", "encodingID"⟩,
    ⟨[], .name "uint32", "subtableOffset"⟩], []⟩

/-- cmap.rs:23-27. -/
def t_CmapHeader : TableSrc :=
  ⟨"CmapHeader", [], [
    ⟨[.offsetBase], .name "uint16", "version"⟩,
    ⟨[], .of .counted (.ident "EncodingRecord") [], "encodingRecords"⟩], []⟩

/-- cmap.rs:331-337. -/
def t_cmap12 : TableSrc :=
  ⟨"cmap12", [], [
    ⟨[], .name "uint16", "format"⟩,
    ⟨[], .name "uint16", "reserved"⟩,
    ⟨[], .name "uint32", "length"⟩,
    ⟨[], .name "uint32", "language"⟩,
    ⟨[], .of .counted32 (.ident "SequentialMapGroup") [], "groups"⟩], []⟩

/-- cmap.rs:339-343. -/
def t_SequentialMapGroup : TableSrc :=
  ⟨"SequentialMapGroup", [], [
    ⟨[], .name "uint32", "startCharCode"⟩,
    ⟨[], .name "uint32", "endCharCode"⟩,
    ⟨[], .name "uint32", "startGlyphID"⟩], []⟩

/-- cmap.rs:413-419. -/
def t_cmap14 : TableSrc :=
  ⟨"cmap14", [], [
    ⟨[.offsetBase], .name "uint16", "format"⟩,
    ⟨[], .name "uint32", "length"⟩,
    ⟨[.embed], .of .counted32 (.ident "VariationSelector") [], "varSelector"⟩], []⟩

/-- cmap.rs:420-424. -/
def t_VariationSelector : TableSrc :=
  ⟨"VariationSelector", [.embedded], [
    ⟨[], .name "uint24", "varSelector"⟩,
    ⟨[], .of .offset32 (.ident "DefaultUVS") [], "defaultUVS"⟩,
    ⟨[], .of .offset32 (.ident "NonDefaultUVS") [], "nonDefaultUVS"⟩], []⟩

/-- cmap.rs:425-427. -/
def t_DefaultUVS : TableSrc :=
  ⟨"DefaultUVS", [], [
    ⟨[], .of .counted32 (.ident "UnicodeRange") [], "ranges"⟩], []⟩

/-- cmap.rs:428-431. -/
def t_UnicodeRange : TableSrc :=
  ⟨"UnicodeRange", [], [
    ⟨[], .name "uint24", "startUnicodeValue"⟩,
    ⟨[], .name "uint8", "additionalCount"⟩], []⟩

/-- cmap.rs:432-434. -/
def t_NonDefaultUVS : TableSrc :=
  ⟨"NonDefaultUVS", [], [
    ⟨[], .of .counted32 (.ident "UVSMapping") [], "uvsMappings"⟩], []⟩

/-- cmap.rs:435-438. -/
def t_UVSMapping : TableSrc :=
  ⟨"UVSMapping", [], [
    ⟨[], .name "uint24", "unicodeValue"⟩,
    ⟨[], .name "uint16", "glyphID"⟩], []⟩

/-! src/tables/fvar.rs -/

/-- fvar.rs:12-21. -/
def t_fvarcore : TableSrc :=
  ⟨"fvarcore", [], [
    ⟨[], .name "uint16", "majorVersion"⟩,
    ⟨[], .name "uint16", "minorVersion"⟩,
    ⟨[], .name "uint16", "axesArrayOffset"⟩,
    ⟨[], .name "uint16", "reserved"⟩,
    ⟨[], .name "uint16", "axisCount"⟩,
    ⟨[], .name "uint16", "axisSize"⟩,
    ⟨[], .name "uint16", "instanceCount"⟩,
    ⟨[], .name "uint16", "instanceSize"⟩], []⟩

/-- fvar.rs:22-29. -/
def t_VariationAxisRecord : TableSrc :=
  ⟨"VariationAxisRecord", [], [
    ⟨[], .name "Tag", "axisTag"⟩,
    ⟨[], .name "Fixed", "minValue"⟩,
    ⟨[], .name "Fixed", "defaultValue"⟩,
    ⟨[], .name "Fixed", "maxValue"⟩,
    ⟨[], .name "uint16", "flags"⟩,
    ⟨[], .name "uint16", "axisNameID"⟩], []⟩

/-! src/tables/gasp.rs -/

/-- gasp.rs:10-13. -/
def t_GaspRecord : TableSrc :=
  ⟨"GaspRecord", [], [
    ⟨[], .name "uint16", "rangeMaxPPEM"⟩,
    ⟨[], .name "RangeGaspBehaviorFlags", "rangeGaspBehavior"⟩], []⟩

/-- gasp.rs:15-18. -/
def t_gasp : TableSrc :=
  ⟨"gasp", [], [
    ⟨[], .name "uint16", "version"⟩,
    ⟨[], .of .counted (.ident "GaspRecord") [], "gaspRanges"⟩], []⟩

/-! src/tables/glyf/glyph.rs -/

/-- glyph.rs:14-19. -/
def t_GlyphCore : TableSrc :=
  ⟨"GlyphCore", [], [
    ⟨[], .name "int16", "xMin"⟩,
    ⟨[], .name "int16", "yMin"⟩,
    ⟨[], .name "int16", "xMax"⟩,
    ⟨[], .name "int16", "yMax"⟩], []⟩

/-! src/tables/gvar.rs -/

/-- gvar.rs:21-30. -/
def t_gvarcore : TableSrc :=
  ⟨"gvarcore", [], [
    ⟨[], .name "uint16", "majorVersion"⟩,
    ⟨[], .name "uint16", "minorVersion"⟩,
    ⟨[], .name "uint16", "axisCount"⟩,
    ⟨[], .name "uint16", "sharedTupleCount"⟩,
    ⟨[], .name "u32", "sharedTuplesOffset"⟩,
    ⟨[], .name "uint16", "glyphCount"⟩,
    ⟨[], .name "uint16", "flags"⟩,
    ⟨[], .name "u32", "glyphVariationDataArrayOffset"⟩], []⟩

/-! src/tables/hhea.rs -/

/-- hhea.rs:8-27. -/
def t_hhea : TableSrc :=
  ⟨"hhea", [], [
    ⟨[], .name "uint16", "majorVersion"⟩,
    ⟨[], .name "uint16", "minorVersion"⟩,
    ⟨[], .name "FWORD", "ascender"⟩,
    ⟨[], .name "FWORD", "descender"⟩,
    ⟨[], .name "FWORD", "lineGap"⟩,
    ⟨[], .name "UFWORD", "advanceWidthMax"⟩,
    ⟨[], .name "FWORD", "minLeftSideBearing"⟩,
    ⟨[], .name "FWORD", "minRightSideBearing"⟩,
    ⟨[], .name "FWORD", "xMaxExtent"⟩,
    ⟨[], .name "int16", "caretSlopeRise"⟩,
    ⟨[], .name "int16", "caretSlopeRun"⟩,
    ⟨[], .name "int16", "caretOffset"⟩,
    ⟨[], .name "int16", "reserved0"⟩,
    ⟨[], .name "int16", "reserved1"⟩,
    ⟨[], .name "int16", "reserved2"⟩,
    ⟨[], .name "int16", "reserved3"⟩,
    ⟨[], .name "int16", "metricDataFormat"⟩,
    ⟨[], .name "uint16", "numberOfHMetrics"⟩], []⟩

/-! src/tables/maxp.rs -/

/-- maxp.rs:9-11. -/
def t_maxp05 : TableSrc :=
  ⟨"maxp05", [], [
    ⟨[], .name "uint16", "numGlyphs"⟩], []⟩

/-- maxp.rs:13-28. -/
def t_maxp10 : TableSrc :=
  ⟨"maxp10", [], [
    ⟨[], .name "uint16", "numGlyphs"⟩,
    ⟨[], .name "uint16", "maxPoints"⟩,
    ⟨[], .name "uint16", "maxContours"⟩,
    ⟨[], .name "uint16", "maxCompositePoints"⟩,
    ⟨[], .name "uint16", "maxCompositeContours"⟩,
    ⟨[], .name "uint16", "maxZones"⟩,
    ⟨[], .name "uint16", "maxTwilightPoints"⟩,
    ⟨[], .name "uint16", "maxStorage"⟩,
    ⟨[], .name "uint16", "maxFunctionDefs"⟩,
    ⟨[], .name "uint16", "maxInstructionDefs"⟩,
    ⟨[], .name "uint16", "maxStackElements"⟩,
    ⟨[], .name "uint16", "maxSizeOfInstructions"⟩,
    ⟨[], .name "uint16", "maxComponentElements"⟩,
    ⟨[], .name "uint16", "maxComponentDepth"⟩], []⟩

/-! src/tables/name.rs -/

/-- name.rs:112-119. -/
def t_NameRecordInternal : TableSrc :=
  ⟨"NameRecordInternal", [], [
    ⟨[], .name "uint16", "platformID"⟩,
    ⟨[], .name "uint16", "encodingID"⟩,
    ⟨[], .name "uint16", "languageID"⟩,
    ⟨[], .name "uint16", "nameID"⟩,
    ⟨[], .name "uint16", "length"⟩,
    ⟨[], .name "uint16", "stringOffset"⟩], []⟩

/-! src/tables/os2.rs -/

/-- os2.rs:215-226. -/
def t_Panose : TableSrc :=
  ⟨"Panose", [], [
    ⟨[], .name "u8", "panose0"⟩,
    ⟨[], .name "u8", "panose1"⟩,
    ⟨[], .name "u8", "panose2"⟩,
    ⟨[], .name "u8", "panose3"⟩,
    ⟨[], .name "u8", "panose4"⟩,
    ⟨[], .name "u8", "panose5"⟩,
    ⟨[], .name "u8", "panose6"⟩,
    ⟨[], .name "u8", "panose7"⟩,
    ⟨[], .name "u8", "panose8"⟩,
    ⟨[], .name "u8", "panose9"⟩], []⟩

/-- os2.rs:227-258. -/
def t_os2core : TableSrc :=
  ⟨"os2core", [], [
    ⟨[], .name "uint16", "version"⟩,
    ⟨[], .name "int16", "xAvgCharWidth"⟩,
    ⟨[], .name "uint16", "usWeightClass"⟩,
    ⟨[], .name "uint16", "usWidthClass"⟩,
    ⟨[], .name "uint16", "fsType"⟩,
    ⟨[], .name "int16", "ySubscriptXSize"⟩,
    ⟨[], .name "int16", "ySubscriptYSize"⟩,
    ⟨[], .name "int16", "ySubscriptXOffset"⟩,
    ⟨[], .name "int16", "ySubscriptYOffset"⟩,
    ⟨[], .name "int16", "ySuperscriptXSize"⟩,
    ⟨[], .name "int16", "ySuperscriptYSize"⟩,
    ⟨[], .name "int16", "ySuperscriptXOffset"⟩,
    ⟨[], .name "int16", "ySuperscriptYOffset"⟩,
    ⟨[], .name "int16", "yStrikeoutSize"⟩,
    ⟨[], .name "int16", "yStrikeoutPosition"⟩,
    ⟨[], .name "int16", "sFamilyClass"⟩,
    ⟨[], .name "Panose", "panose"⟩,
    ⟨[], .name "uint32", "ulUnicodeRange1"⟩,
    ⟨[], .name "uint32", "ulUnicodeRange2"⟩,
    ⟨[], .name "uint32", "ulUnicodeRange3"⟩,
    ⟨[], .name "uint32", "ulUnicodeRange4"⟩,
    ⟨[], .name "Tag", "achVendID"⟩,
    ⟨[], .name "uint16", "fsSelection"⟩,
    ⟨[], .name "uint16", "usFirstCharIndex"⟩,
    ⟨[], .name "uint16", "usLastCharIndex"⟩,
    ⟨[], .name "int16", "sTypoAscender"⟩,
    ⟨[], .name "int16", "sTypoDescender"⟩,
    ⟨[], .name "int16", "sTypoLineGap"⟩,
    ⟨[], .name "uint16", "usWinAscent"⟩,
    ⟨[], .name "uint16", "usWinDescent"⟩], []⟩

/-- os2.rs:260-263. -/
def t_os2v1 : TableSrc :=
  ⟨"os2v1", [], [
    ⟨[], .name "uint32", "ulCodePageRange1"⟩,
    ⟨[], .name "uint32", "ulCodePageRange2"⟩], []⟩

/-- os2.rs:265-271. -/
def t_os2v2 : TableSrc :=
  ⟨"os2v2", [], [
    ⟨[], .name "int16", "sxHeight"⟩,
    ⟨[], .name "int16", "sCapHeight"⟩,
    ⟨[], .name "uint16", "usDefaultChar"⟩,
    ⟨[], .name "uint16", "usBreakChar"⟩,
    ⟨[], .name "uint16", "usMaxContext"⟩], []⟩

/-- os2.rs:272-275. -/
def t_os2v5 : TableSrc :=
  ⟨"os2v5", [], [
    ⟨[], .name "uint16", "usLowerOpticalPointSize"⟩,
    ⟨[], .name "uint16", "usUpperOpticalPointSize"⟩], []⟩

/-! src/tables/post.rs -/

/-- post.rs:274-284. -/
def t_postcore : TableSrc :=
  ⟨"postcore", [], [
    ⟨[], .name "Version16Dot16", "version"⟩,
    ⟨[], .name "Fixed", "italicAngle"⟩,
    ⟨[], .name "FWORD", "underlinePosition"⟩,
    ⟨[], .name "FWORD", "underlineThickness"⟩,
    ⟨[], .name "uint32", "isFixedPitch"⟩,
    ⟨[], .name "uint32", "minMemType42"⟩,
    ⟨[], .name "uint32", "maxMemType42"⟩,
    ⟨[], .name "uint32", "minMemType1"⟩,
    ⟨[], .name "uint32", "maxMemType1"⟩], []⟩

/-- All of them. -/
def all : List TableSrc :=
    [t_ScriptList, t_ScriptRecord, t_Script, t_LangSysRecord, t_LangSys, t_FeatureList, t_FeatureRecord,
    t_FeatureTable, t_cvFeatureParams, t_sizeFeatureParams, t_MarkArray, t_MarkRecord, t_FeatureVariations,
    t_FeatureVariationRecord, t_ConditionSet, t_ConditionFormat1, t_FeatureTableSubstitution,
    t_FeatureTableSubstitutionRecord, t_ClassDefFormat1, t_ClassDefFormat2, t_ClassRangeRecord,
    t_SequenceLookupRecord, t_SequenceContextFormat1, t_SequenceRuleSet, t_SequenceContextFormat2,
    t_ChainedSequenceContextFormat1, t_ChainedSequenceRuleSet, t_ChainedSequenceContextFormat2,
    t_ChainedSequenceContextFormat3, t_CoverageFormat1, t_CoverageFormat2, t_RangeRecord, t_CursivePosFormat1,
    t_EntryExitRecord, t_MarkBasePosFormat1, t_BaseArray, t_MarkLigPosFormat1, t_LigatureArray, t_LigatureAttach,
    t_MarkMarkPosFormat1, t_Mark2Array, t_SingleSubstFormat1, t_SingleSubstFormat2, t_MultipleSubstFormat1,
    t_Sequence, t_AlternateSubstFormat1, t_AlternateSet, t_LigatureSubstFormat1, t_LigatureSet,
    t_ReverseChainSingleSubstFormat1, t_GPOS10, t_GPOS11, t_GPOSLookupList, t_ExtensionPosFormat1, t_GSUB10, t_GSUB11,
    t_GSUBLookupList, t_ExtensionSubstFormat1, t_AxisValueMap, t_SegmentMap, t_avar, t_head, t_RegionAxisCoordinates,
    t_ItemVariationDataHeader, t_ItemVariationStoreInternal, t_gdefcore11, t_gdefcore12, t_gdefcore13, t_AttachList,
    t_AttachPoint, t_LigCaretList, t_LigGlyph, t_MarkGlyphSets, t_MathValueRecord, t_MATHinternal, t_MathConstants,
    t_MathGlyphInfo, t_MathItalicsCorrectionInfo, t_MathTopAccentAttachment, t_MathKernInfo, t_MathKernInfoRecord,
    t_MathGlyphConstruction, t_MathGlyphVariantRecord, t_GlyphAssembly, t_GlyphPartRecord, t_STATcore, t_AxisRecord,
    t_AxisValueFormat1, t_AxisValueFormat2, t_AxisValueFormat3, t_AxisValueFormat4Core, t_AxisValueFormat4AxisValue,
    t_EncodingRecord, t_CmapHeader, t_cmap12, t_SequentialMapGroup, t_cmap14, t_VariationSelector, t_DefaultUVS,
    t_UnicodeRange, t_NonDefaultUVS, t_UVSMapping, t_fvarcore, t_VariationAxisRecord, t_GaspRecord, t_gasp,
    t_GlyphCore, t_gvarcore, t_hhea, t_maxp05, t_maxp10, t_NameRecordInternal, t_Panose, t_os2core, t_os2v1, t_os2v2,
    t_os2v5, t_postcore]

end FT.Macro.Text
