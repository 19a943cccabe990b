import Verif.Props.TablesMacro
import Verif.Model.DeclaredText

/-! C110: the tables that the crates declare. -/

namespace FT.Props
open FT FT.Off FT.Der FT.Macro FT.Macro.Text FT.Der.Declared Reader

/-- What was declared (`Model/Declarations`): text, whether `[embedded]`, fields. -/
def declared (own : String → Leaf) : List (TableSrc × Bool × Fields) := [
  (t_RangeRecord, false, (fields [f own "uint16", f own "uint16", f own "uint16"])),
  (t_ClassRangeRecord, false, (fields [f own "uint16", f own "uint16", f own "uint16"])),
  (t_AxisValueMap, false, (fields [f own "F2DOT14", f own "F2DOT14"])),
  (t_SegmentMap, false, (fields [counted (.record false (fields [f own "F2DOT14", f own "F2DOT14"]))])),
  (t_SequentialMapGroup, false, (fields [f own "uint32", f own "uint32", f own "uint32"])),
  (t_UnicodeRange, false, (fields [f own "uint24", f own "uint8"])),
  (t_UVSMapping, false, (fields [f own "uint24", f own "uint16"])),
  (t_MathGlyphVariantRecord, false, (fields [f own "uint16", f own "UFWORD"])),
  (t_GlyphPartRecord, false, (fields [f own "uint16", f own "UFWORD", f own "UFWORD", f own "UFWORD", f own "uint16"])),
  (t_ScriptList, false, (scriptList own)),
  (t_ScriptRecord, true, (scriptRecord own)),
  (t_Script, false, (script own)),
  (t_LangSysRecord, true, (langSysRecord own)),
  (t_LangSys, false, (langSys own)),
  (t_FeatureList, false, (featureList own)),
  (t_FeatureRecord, true, (featureRecord own)),
  (t_FeatureTable, false, (featureTable own)),
  (t_MarkArray, false, (markArray own)),
  (t_MarkRecord, true, (markRecord own)),
  (t_FeatureVariations, false, (featureVariations own)),
  (t_FeatureVariationRecord, false, (featureVariationRecord own)),
  (t_ConditionSet, false, (conditionSet own)),
  (t_ConditionFormat1, false, (conditionFormat1 own)),
  (t_FeatureTableSubstitution, false, (featureTableSubstitution own)),
  (t_FeatureTableSubstitutionRecord, false, (featureTableSubstitutionRecord own)),
  (t_ClassDefFormat1, false, (classDefFormat1 own)),
  (t_ClassDefFormat2, false, (classDefFormat2 own)),
  (t_SequenceLookupRecord, false, (sequenceLookupRecord own)),
  (t_SequenceContextFormat1, false, (sequenceContextFormat1 own)),
  (t_SequenceRuleSet, false, (sequenceRuleSet own)),
  (t_SequenceContextFormat2, false, (sequenceContextFormat2 own)),
  (t_ChainedSequenceContextFormat1, false, (chainedSequenceContextFormat1 own)),
  (t_ChainedSequenceRuleSet, false, (chainedSequenceRuleSet own)),
  (t_ChainedSequenceContextFormat2, false, (chainedSequenceContextFormat2 own)),
  (t_ChainedSequenceContextFormat3, false, (chainedSequenceContextFormat3 own)),
  (t_CoverageFormat1, false, (coverageFormat1 own)),
  (t_CoverageFormat2, false, (coverageFormat2 own)),
  (t_CursivePosFormat1, false, (cursivePosFormat1 own)),
  (t_EntryExitRecord, true, (entryExitRecord own)),
  (t_SingleSubstFormat1, false, (singleSubstFormat1 own)),
  (t_SingleSubstFormat2, false, (singleSubstFormat2 own)),
  (t_MultipleSubstFormat1, false, (multipleSubstFormat1 own)),
  (t_Sequence, false, (sequence own)),
  (t_AlternateSubstFormat1, false, (alternateSubstFormat1 own)),
  (t_AlternateSet, false, (alternateSet own)),
  (t_LigatureSubstFormat1, false, (ligatureSubstFormat1 own)),
  (t_LigatureSet, false, (ligatureSet own)),
  (t_ReverseChainSingleSubstFormat1, false, (reverseChainSingleSubstFormat1 own)),
  (t_GPOS10, false, (gpos10 own)),
  (t_GPOS11, false, (gpos11 own)),
  (t_GPOSLookupList, false, (gposLookupList own)),
  (t_GSUB10, false, (gsub10 own)),
  (t_GSUB11, false, (gsub11 own)),
  (t_GSUBLookupList, false, (gsubLookupList own)),
  (t_avar, false, (avar own)),
  (t_ItemVariationDataHeader, false, (itemVariationDataHeader own)),
  (t_ItemVariationStoreInternal, false, (itemVariationStoreInternal own)),
  (t_gdefcore11, false, (gdefcore11 own)),
  (t_gdefcore12, false, (gdefcore12 own)),
  (t_gdefcore13, false, (gdefcore13 own)),
  (t_AttachList, false, (attachList own)),
  (t_AttachPoint, false, (attachPoint own)),
  (t_LigCaretList, false, (ligCaretList own)),
  (t_LigGlyph, false, (ligGlyph own)),
  (t_MarkGlyphSets, false, (markGlyphSets own)),
  (t_MathValueRecord, true, (mathValueRecord own)),
  (t_MATHinternal, false, (mathInternal own)),
  (t_MathConstants, false, (mathConstants own)),
  (t_MathGlyphInfo, false, (mathGlyphInfo own)),
  (t_MathItalicsCorrectionInfo, false, (mathItalicsCorrectionInfo own)),
  (t_MathTopAccentAttachment, false, (mathTopAccentAttachment own)),
  (t_MathKernInfo, false, (mathKernInfo own)),
  (t_MathKernInfoRecord, true, (mathKernInfoRecord own)),
  (t_MathGlyphConstruction, false, (mathGlyphConstruction own)),
  (t_GlyphAssembly, false, (glyphAssembly own)),
  (t_cmap12, false, (cmap12 own)),
  (t_cmap14, false, (cmap14 own)),
  (t_VariationSelector, true, (variationSelector own)),
  (t_DefaultUVS, false, (defaultUVS own)),
  (t_NonDefaultUVS, false, (nonDefaultUVS own))]

/-- What a type name stands for. -/
def typeNamed (own : String → Leaf) (n : String) : Ty :=
  match (declared own).find? (fun x => x.1.name == n) with
  | some (_, e, fs) => .record e fs
  | none => .leaf (own n)

/-! ### Checking -/

theorem proper_iff (f : FieldSrc) : f.Proper ↔ match f.written with
    | .name t => ∀ w ∈ Word.all, t ≠ w.text
    | .of _ _ _ => True := by
  unfold FieldSrc.Proper
  cases f.written with
  | name t => simp
  | of w t i => simp

instance (f : FieldSrc) : Decidable f.Proper :=
  match h : f.written with
  | .name t => decidable_of_iff (∀ w ∈ Word.all, t ≠ w.text) (by rw [proper_iff, h])
  | .of _ _ _ => isTrue (by rw [proper_iff, h]; trivial)

instance (d : TableSrc) : Decidable d.Proper := inferInstanceAs (Decidable (∀ f ∈ d.fields, f.Proper))

instance (f : FieldSrc) : Decidable (∀ t, f.written = .name t → t ∉ ["Option", "VecOffset16", "VecOffset32"]) :=
  match h : f.written with
  | .name t => decidable_of_iff (t ∉ ["Option", "VecOffset16", "VecOffset32"]) (by simp)
  | .of _ _ _ => isTrue (by simp)

instance (d : TableSrc) : Decidable d.NoGenericNames :=
  inferInstanceAs (Decidable (∀ f ∈ d.fields, ∀ t, f.written = .name t → t ∉ ["Option", "VecOffset16", "VecOffset32"]))

/-- **C110** (the crates' tables, what compiles). All declarations in the crates are of the form described, and compile. -/
theorem C110_crates_compile : ∀ d ∈ Text.all, d.Proper ∧ d.NoGenericNames ∧ d.trailing = [] ∧
    ¬ (.noserialize ∈ d.pragmas ∧ .nodeserialize ∈ d.pragmas) ∧ ∀ f ∈ d.fields, f.pragmas.Nodup := by
  decide +kernel

set_option maxRecDepth 100000 in
theorem declared_fields (own : String → Leaf) : (declared own).map (fun x => fieldsOf (typeNamed own) x.1.fields) =
    (declared own).map (fun x => some x.2.2) := rfl

theorem declared_embedded (own : String → Leaf) : (declared own).map (fun x => x.1.pragmas.contains .embedded) =
    (declared own).map (fun x => x.2.1) := rfl

universe u v in
theorem map_eq_mem {α : Type u} {β : Type v} {f g : α → β} {l : List α} (h : l.map f = l.map g) : ∀ x ∈ l, f x = g x :=
  List.map_inj_left.mp h

theorem typeNamed_sensible (own : String → Leaf) : Sensible (typeNamed own) := by
  intro n
  unfold typeNamed
  cases h : (declared own).find? (fun x => x.1.name == n) with
  | none => exact Or.inl ⟨_, rfl⟩
  | some x =>
    obtain ⟨d, e, fs⟩ := x
    refine Or.inr ⟨⟨e, fs, rfl⟩, ?_⟩
    have hn : d.name = n := by simpa using List.find?_some h
    have hm := List.mem_of_find?_eq_some h
    have k : (declared own).map (fun x => (seenAs.lookup x.1.name).isNone) = (declared own).map (fun _ => true) := rfl
    rw [← hn]
    exact map_eq_mem k _ hm

/-- The texts in `declared` are among those of the crates. -/
theorem declared_all (own : String → Leaf) : ∀ x ∈ declared own, x.1 ∈ Text.all := by
  have : ∀ d ∈ (declared own).map (fun x => x.1), d ∈ Text.all := by
    show ∀ d ∈ _, _
    simp only [declared, List.map_cons, List.map_nil, Text.all]
    simp
  intro x hx
  exact this _ (List.mem_map_of_mem hx)

/-- **C110** (the crates' tables). For every structure that the crates declare with lists or offsets, and that has no reader of its own,
the derived code is that of the declarations the other claims are about (`Model/Declarations`): it writes, measures and reads the
fields declared there. -/
theorem C110_crates (own : String → Leaf) : ∀ x ∈ declared own,
    fieldsOf (typeNamed own) x.1.fields = some x.2.2 ∧
    ∃ s, deriveSer x.1.struct = .ok s ∧
      (∀ v, runWrites s.writes x.2.2 v = some (Der.shallow x.2.2 v)) ∧ (∀ v, runSizes s.sizes x.2.2 v = some (sizeF x.2.2 v)) ∧
    ∃ r, deriveDe x.1.struct = .ok r ∧ r.run x.2.2 = some (Der.read (.record x.2.1 x.2.2)) := by
  intro x hx
  have hf := map_eq_mem (declared_fields own) x hx
  have he := map_eq_mem (declared_embedded own) x hx
  obtain ⟨hp, hg, _, _, hn⟩ := C110_crates_compile x.1 (declared_all own x hx)
  obtain ⟨s, h1, h2, h3, _⟩ := C110_writes hp hg hn (typeNamed_sensible own) hf
  obtain ⟨r, h4, h5, _⟩ := C110_reads hn (typeNamed_sensible own) hf
  rw [he] at h5
  exact ⟨hf, s, h1, h2, h3, r, h4, h5⟩

/-- Instance: one of them, with its text as tokens. -/
example (own : String → Leaf) : (t_Script, false, script own) ∈ declared own := by simp [declared]

example : t_Script.toks = [.ident "Script", .group .brace [
    .group .bracket [.ident "offset_base"], .ident "Offset16", .group .paren [.ident "LangSys"], .ident "defaultLangSys",
    .group .bracket [.ident "embed"], .ident "Counted", .group .paren [.ident "LangSysRecord"], .ident "langSysRecords"]] := rfl

end FT.Props
