import Verif.Lemmas.DeriveRead
import Verif.Model.LayoutTables
import Verif.Model.Gsub
import Verif.Model.Gpos

/-!
# C109: declared structures and the layout models

`Model/Derive` is the generated code for any declaration; `Model/Offsets`, on which the theorems about layout tables
rest, starts from what the fields of one table write. Here both are shown to write the same bytes, for any
declaration and then for script and feature lists and for the subtables that are declared with `tables!`.
-/

namespace FT.Props
open FT FT.Off FT.Der FT.Lay

/-- Both models write the same bytes, or both fail. -/
theorem C109_same_bytes (embedded : Bool) (fs : Fields) (v : fs.den) (T : Tab) (hd : WellDeclared embedded fs)
    (hf : flatF false fs = true) (ha : FieldsAll Sized (fun _ => True) fs) (h : IsTabF false fs v T) :
    Der.toBytes (.record embedded fs) v = Off.toBytes T := toBytes_tab ha hd hf h

/-! ### The types with own code that layout tables use -/

/-- A type with own code; its size is what it writes. -/
abbrev ownLeaf {α : Type} (enc : α → Res Bytes) (read : Reader α) : Leaf :=
  ⟨α, enc, fun a => match enc a with
    | .ok bs => bs.length
    | _ => 0, read⟩

theorem ownLeaf_sized {α : Type} (enc : α → Res Bytes) (read : Reader α) : Sized (ownLeaf enc read) := by
  intro a bs h
  have h : enc a = .ok bs := h
  show bs.length = match enc a with
    | .ok bs => bs.length
    | _ => 0
  rw [h]

/-- Own code that writes bytes without offsets, given as a table. -/
abbrev bytesOf {α : Type} (f : α → Res Tab) (a : α) : Res Bytes := do Off.toBytes (← f a)

/-- The code behind the names in the declarations (Model/Declarations). -/
def layoutLeaf (n : String) : Leaf :=
  match n with
  | "Tag" => ownLeaf (fun t => .ok (encTag t)) readTag
  | "int16" => ownLeaf (fun x => .ok (encI16 x)) readI16
  | "Coverage" => ownLeaf Coverage.toBytes Coverage.read
  | "ClassDef" => ownLeaf ClassDef.toBytes ClassDef.read
  | "Anchor" => ownLeaf (bytesOf Gpos.Anchor.tab) Gpos.Anchor.read
  | "Ligature" => ownLeaf (bytesOf Gsub.Ligature.tab) Gsub.Ligature.read
  | "SequenceRule" => ownLeaf (bytesOf Gsub.SeqRule.tab) Gsub.SeqRule.read
  | "ChainedSequenceRule" => ownLeaf (bytesOf Gsub.ChainRule.tab) Gsub.ChainRule.read
  | _ => ownLeaf (fun x => .ok (encU16 x)) readU16

theorem tag_enc (t : Tag) : (layoutLeaf "Tag").enc t = .ok (encTag t) := rfl
theorem int_enc (x : Int16) : (layoutLeaf "int16").enc x = .ok (encI16 x) := rfl
theorem uint_enc (x : UInt16) : (layoutLeaf "uint16").enc x = .ok (encU16 x) := rfl

theorem layoutLeaf_sized (n : String) : Sized (layoutLeaf n) := by
  unfold layoutLeaf
  split <;> exact ownLeaf_sized _ _

/-! ### Values of the declared types -/

/-- A record of a tag and an offset. -/
def tagRecV {α β : Type} (g : α → β) (x : Tag × Option α) : Tag × Link β × Unit := (x.1, linkOf g x.2, ())
def langSysV (x : LangSys) : (Declared.langSys layoutLeaf).den := (x.lookupOrder, x.required, x.features, ())
def scriptV (s : ScriptLow) : (Declared.script layoutLeaf).den := (linkOf langSysV s.dflt, s.langs.map (tagRecV langSysV), ())
def scriptListV (l : ScriptListLow) : (Declared.scriptList layoutLeaf).den := (l.map (tagRecV scriptV), ())
def featureTableV (x : FeatureTable) : (Declared.featureTable layoutLeaf).den := (x.params, x.lookups, ())
def featureListV (l : FeatureListLow) : (Declared.featureList layoutLeaf).den := (l.map (tagRecV featureTableV), ())
def markArrayV (l : List Gpos.MarkRec) : (Declared.markArray layoutLeaf).den :=
  (l.map fun r => (r.1, linkOf (fun a : Gpos.Anchor => a) r.2, ()), ())

/-- Links to a type with own code. -/
def linkV {α : Type} (o : Option α) : Link α := linkOf (fun a => a) o
/-- A set: a structure with one field, a counted list of offsets. -/
def setV {α : Type} (l : List (Option α)) : List (Link α) × Unit := (l.map linkV, ())

/-- The declared structure of a substitution subtable, and its value. `SequenceContextFormat3` has a plain `Vec` and is
left out. -/
def gsubDeclared : Gsub.Sub → Option ((fs : Fields) × fs.den)
  | .s1_1 cov d => some ⟨Declared.singleSubstFormat1 layoutLeaf, ((1 : UInt16), linkV cov, d, ())⟩
  | .s1_2 cov l => some ⟨Declared.singleSubstFormat2 layoutLeaf, ((2 : UInt16), linkV cov, l, ())⟩
  | .s2_1 f cov l => some ⟨Declared.multipleSubstFormat1 layoutLeaf, (f, linkV cov, l.map (linkOf fun x => (x, ())), ())⟩
  | .s3_1 f cov l => some ⟨Declared.alternateSubstFormat1 layoutLeaf, (f, linkV cov, l.map (linkOf fun x => (x, ())), ())⟩
  | .s4_1 f cov l => some ⟨Declared.ligatureSubstFormat1 layoutLeaf, (f, linkV cov, l.map (linkOf setV), ())⟩
  | .s5_1 cov l => some ⟨Declared.sequenceContextFormat1 layoutLeaf, ((1 : UInt16), linkV cov, l.map (linkOf setV), ())⟩
  | .s5_2 cov k l => some ⟨Declared.sequenceContextFormat2 layoutLeaf, ((2 : UInt16), linkV cov, linkV k, l.map (linkOf setV), ())⟩
  | .s5_3 _ _ _ _ => none
  | .s6_1 cov l => some ⟨Declared.chainedSequenceContextFormat1 layoutLeaf, ((1 : UInt16), linkV cov, l.map (linkOf setV), ())⟩
  | .s6_2 cov b i a l => some ⟨Declared.chainedSequenceContextFormat2 layoutLeaf,
      ((2 : UInt16), linkV cov, linkV b, linkV i, linkV a, l.map (linkOf setV), ())⟩
  | .s6_3 b i a recs => some ⟨Declared.chainedSequenceContextFormat3 layoutLeaf,
      ((3 : UInt16), b.map linkV, i.map linkV, a.map linkV, recs.map (fun r => (r.1, r.2, ())), ())⟩
  | .s8_1 f cov b a l => some ⟨Declared.reverseChainSingleSubstFormat1 layoutLeaf,
      (f, linkV cov, b.map linkV, a.map linkV, l, ())⟩

/-- `CursivePosFormat1`. -/
def cursiveV (fmt : UInt16) (cov : Cov) (recs : List (Gpos.AnchorLink × Gpos.AnchorLink)) : (Declared.cursivePosFormat1 layoutLeaf).den :=
  (fmt, linkV cov, recs.map (fun r => (linkV r.1, linkV r.2, ())), ())

/-! ### Each is what the layout models write -/

theorem repr_u16 (vec : Bool) (x : UInt16) : Repr vec (.leaf (layoutLeaf "uint16")) x (.bytes (encU16 x)) := repr_leaf rfl
theorem repr_tag (vec : Bool) (x : Tag) : Repr vec (.leaf (layoutLeaf "Tag")) x (.bytes (encTag x)) := repr_leaf rfl

theorem repr_u16s (vec : Bool) (l : List UInt16) : Repr vec (.counted .w16 (.leaf (layoutLeaf "uint16"))) l (.bytes (u16s l)) := by
  have := repr_encCounted (vec := vec) (t := .leaf (layoutLeaf "uint16")) (enc := encU16) (g := fun x : UInt16 => x)
    (fun a => repr_u16 true a) l
  exact (congrArg (fun m : List UInt16 => Repr vec (.counted .w16 (.leaf (layoutLeaf "uint16"))) m (.bytes (u16s l)))
    (List.map_id' l)).mp this

theorem repr_cov (gs : List UInt16) (T : Tab) (h : covTab gs = .ok T) : Repr false (.leaf (layoutLeaf "Coverage")) gs T := by
  unfold covTab at h
  cases e : Coverage.toBytes gs with
  | ok bs => simp only [e] at h; cases h; exact repr_leaf e
  | err => simp [e] at h
  | panic => simp [e] at h

theorem repr_class (m : List (UInt16 × UInt16)) (T : Tab) (h : classTab m = .ok T) : Repr false (.leaf (layoutLeaf "ClassDef")) m T := by
  unfold classTab at h
  cases e : ClassDef.toBytes m with
  | ok bs => simp only [e] at h; cases h; exact repr_leaf e
  | err => simp [e] at h
  | panic => simp [e] at h

theorem toBytes_bytes (bs : Bytes) : Off.toBytes (.bytes bs) = .ok bs := by
  show Res.ok (bs ++ [] ++ [] ++ []) = _
  simp

theorem bytesOf_ok {α : Type} {f : α → Res Tab} {a : α} {bs : Bytes} (h : f a = .ok (.bytes bs)) : bytesOf f a = .ok bs := by
  show (f a >>= Off.toBytes) = _
  rw [h]; exact toBytes_bytes bs

theorem repr_anchor (a : Gpos.Anchor) (T : Tab) (h : Gpos.Anchor.tab a = .ok T) : Repr false (.leaf (layoutLeaf "Anchor")) a T := by
  have h' := h
  unfold Gpos.Anchor.tab at h
  cases h
  exact repr_leaf (bytesOf_ok h')

theorem repr_lig (a : Gsub.Ligature) (T : Tab) (h : Gsub.Ligature.tab a = .ok T) : Repr false (.leaf (layoutLeaf "Ligature")) a T := by
  have h' := h
  unfold Gsub.Ligature.tab at h
  simp only at h
  split at h
  · cases h
  · cases h; exact repr_leaf (bytesOf_ok h')

theorem repr_rule (a : Gsub.SeqRule) (T : Tab) (h : Gsub.SeqRule.tab a = .ok T) : Repr false (.leaf (layoutLeaf "SequenceRule")) a T := by
  have h' := h
  unfold Gsub.SeqRule.tab at h
  cases h
  exact repr_leaf (bytesOf_ok h')

theorem repr_chain (a : Gsub.ChainRule) (T : Tab) (h : Gsub.ChainRule.tab a = .ok T) :
    Repr false (.leaf (layoutLeaf "ChainedSequenceRule")) a T := by
  have h' := h
  unfold Gsub.ChainRule.tab at h
  cases h
  exact repr_leaf (bytesOf_ok h')

theorem repr_tagRecs {α : Type} {vec : Bool} {t : Ty} {f : α → Res Tab} {g : α → t.den}
    (hf : ∀ a T, f a = .ok T → Repr false t (g a) T) (l : List (Tag × Option α)) (T : Tab) (h : tagRecs f l = .ok T) :
    Repr vec (.counted .w16 (.record true (Declared.fields [Declared.f layoutLeaf "Tag", Declared.offset16 t]))) (l.map (tagRecV g)) T := by
  unfold tagRecs at h
  cases e : Res.mapL (tagRecTab f) l with
  | err => simp [e] at h
  | panic => simp [e] at h
  | ok Ts =>
    simp only [e] at h; cases h
    refine repr_counted (t := .record true (Declared.fields [Declared.f layoutLeaf "Tag", Declared.offset16 t])) (g := tagRecV g)
      (fun a T hT => ?_) l Ts e
    unfold tagRecTab at hT
    cases e' : optOff true f a.2 with
    | err => simp [e'] at hT
    | panic => simp [e'] at hT
    | ok U =>
      simp only [e'] at hT; cases hT
      exact repr_record (repr_cons (repr_tag true a.1) (repr_last (repr_off hf a.2 U e')))

theorem repr_langSys (a : LangSys) (T : Tab) (h : LangSys.tab a = .ok T) : Repr false (.record false (Declared.langSys layoutLeaf)) (langSysV a) T := by
  cases h
  refine repr_merge (repr_cons (repr_u16 true a.lookupOrder) (repr_cons (repr_u16 true a.required) (repr_last (repr_u16s true a.features)))) ?_
  simp [Tab.append, mergeRaw, joinRaw]

theorem repr_featureTable (a : FeatureTable) (T : Tab) (h : FeatureTable.tab a = .ok T) :
    Repr false (.record false (Declared.featureTable layoutLeaf)) (featureTableV a) T := by
  cases h
  refine repr_merge (repr_cons (repr_u16 true a.params) (repr_last (repr_u16s true a.lookups))) ?_
  simp [Tab.append, mergeRaw, joinRaw]

theorem repr_script (a : ScriptLow) (T : Tab) (h : ScriptLow.tab a = .ok T) : Repr false (.record false (Declared.script layoutLeaf)) (scriptV a) T := by
  obtain ⟨D, h1, h2⟩ := bind_ok_inv h
  obtain ⟨R, h3, h4⟩ := bind_ok_inv h2
  cases h4
  exact repr_cons (repr_off repr_langSys _ _ h1) (repr_last (repr_tagRecs repr_langSys _ _ h3))

theorem repr_rec (r : Gsub.LookupRec) :
    Repr true (.record false (Declared.sequenceLookupRecord layoutLeaf)) (r.1, r.2, ()) (.bytes (Gsub.encRec r)) := by
  refine repr_merge (repr_cons (repr_u16 true r.1) (repr_last (repr_u16 true r.2))) ?_
  simp [Tab.append, mergeRaw, joinRaw, Gsub.encRec]

theorem repr_seq (l : List UInt16) (T : Tab) (h : Gsub.seqTab l = .ok T) :
    Repr false (.record false (Declared.sequence layoutLeaf)) (l, ()) T := by
  cases h
  exact repr_record (repr_last (repr_u16s true l))

theorem repr_ligSet (l : List (Option Gsub.Ligature)) (T : Tab) (h : Gsub.setTab Gsub.Ligature.tab l = .ok T) :
    Repr false (.record false (Declared.ligatureSet layoutLeaf)) (setV l) T :=
  repr_record (repr_last (repr_offVec repr_lig l T h))
theorem repr_ruleSet (l : List (Option Gsub.SeqRule)) (T : Tab) (h : Gsub.setTab Gsub.SeqRule.tab l = .ok T) :
    Repr false (.record false (Declared.sequenceRuleSet layoutLeaf)) (setV l) T :=
  repr_record (repr_last (repr_offVec repr_rule l T h))
theorem repr_chainSet (l : List (Option Gsub.ChainRule)) (T : Tab) (h : Gsub.setTab Gsub.ChainRule.tab l = .ok T) :
    Repr false (.record false (Declared.chainedSequenceRuleSet layoutLeaf)) (setV l) T :=
  repr_record (repr_last (repr_offVec repr_chain l T h))

theorem repr_sub (s : Gsub.Sub) (fs : Fields) (v : fs.den) (T : Tab) (hs : gsubDeclared s = some ⟨fs, v⟩) (h : s.tab = .ok T) :
    ReprF false fs v T ∧ FieldsAll Sized (fun _ => True) fs ∧ WellDeclared false fs ∧ flatF false fs = true := by
  have sz := layoutLeaf_sized
  cases s with
  | s5_3 => simp [gsubDeclared] at hs
  | s1_1 cov d =>
    simp only [gsubDeclared, Option.some.injEq] at hs
    cases hs
    obtain ⟨C, h1, h2⟩ := bind_ok_inv h
    cases h2
    exact ⟨repr_cons (repr_u16 true 1) (repr_cons (repr_off repr_cov _ _ h1) (repr_last (repr_leaf (c := layoutLeaf "int16") (a := d) rfl))),
      ⟨sz _, ⟨trivial, sz _⟩, sz _, trivial⟩, by decide, by decide⟩
  | s1_2 cov l =>
    simp only [gsubDeclared, Option.some.injEq] at hs
    cases hs
    obtain ⟨C, h1, h2⟩ := bind_ok_inv h
    cases h2
    exact ⟨repr_cons (repr_u16 true 2) (repr_cons (repr_off repr_cov _ _ h1) (repr_last (repr_u16s true l))),
      ⟨sz _, ⟨trivial, sz _⟩, sz _, trivial⟩, by decide, by decide⟩
  | s2_1 f cov l =>
    simp only [gsubDeclared, Option.some.injEq] at hs
    cases hs
    obtain ⟨C, h1, h2⟩ := bind_ok_inv h
    obtain ⟨V, h3, h4⟩ := bind_ok_inv h2
    cases h4
    exact ⟨repr_cons (repr_u16 true f) (repr_cons (repr_off repr_cov _ _ h1) (repr_last (repr_offVec repr_seq _ _ h3))),
      ⟨sz _, ⟨trivial, sz _⟩, ⟨trivial, sz _, trivial⟩, trivial⟩, by decide, by decide⟩
  | s3_1 f cov l =>
    simp only [gsubDeclared, Option.some.injEq] at hs
    cases hs
    obtain ⟨C, h1, h2⟩ := bind_ok_inv h
    obtain ⟨V, h3, h4⟩ := bind_ok_inv h2
    cases h4
    exact ⟨repr_cons (repr_u16 true f) (repr_cons (repr_off repr_cov _ _ h1) (repr_last (repr_offVec repr_seq _ _ h3))),
      ⟨sz _, ⟨trivial, sz _⟩, ⟨trivial, sz _, trivial⟩, trivial⟩, by decide, by decide⟩
  | s4_1 f cov l =>
    simp only [gsubDeclared, Option.some.injEq] at hs
    cases hs
    obtain ⟨C, h1, h2⟩ := bind_ok_inv h
    obtain ⟨V, h3, h4⟩ := bind_ok_inv h2
    cases h4
    exact ⟨repr_cons (repr_u16 true f) (repr_cons (repr_off repr_cov _ _ h1) (repr_last (repr_offVec repr_ligSet _ _ h3))),
      ⟨sz _, ⟨trivial, sz _⟩, ⟨trivial, ⟨trivial, sz _⟩, trivial⟩, trivial⟩, by decide, by decide⟩
  | s5_1 cov l =>
    simp only [gsubDeclared, Option.some.injEq] at hs
    cases hs
    obtain ⟨C, h1, h2⟩ := bind_ok_inv h
    obtain ⟨V, h3, h4⟩ := bind_ok_inv h2
    cases h4
    exact ⟨repr_cons (repr_u16 true 1) (repr_cons (repr_off repr_cov _ _ h1) (repr_last (repr_offVec repr_ruleSet _ _ h3))),
      ⟨sz _, ⟨trivial, sz _⟩, ⟨trivial, ⟨trivial, sz _⟩, trivial⟩, trivial⟩, by decide, by decide⟩
  | s5_2 cov k l =>
    simp only [gsubDeclared, Option.some.injEq] at hs
    cases hs
    obtain ⟨C, h1, h2⟩ := bind_ok_inv h
    obtain ⟨K, h5, h6⟩ := bind_ok_inv h2
    obtain ⟨V, h3, h4⟩ := bind_ok_inv h6
    cases h4
    exact ⟨repr_cons (repr_u16 true 2) (repr_cons (repr_off repr_cov _ _ h1) (repr_cons (repr_off repr_class _ _ h5)
      (repr_last (repr_offVec repr_ruleSet _ _ h3)))),
      ⟨sz _, ⟨trivial, sz _⟩, ⟨trivial, sz _⟩, ⟨trivial, ⟨trivial, sz _⟩, trivial⟩, trivial⟩, by decide, by decide⟩
  | s6_1 cov l =>
    simp only [gsubDeclared, Option.some.injEq] at hs
    cases hs
    obtain ⟨C, h1, h2⟩ := bind_ok_inv h
    obtain ⟨V, h3, h4⟩ := bind_ok_inv h2
    cases h4
    exact ⟨repr_cons (repr_u16 true 1) (repr_cons (repr_off repr_cov _ _ h1) (repr_last (repr_offVec repr_chainSet _ _ h3))),
      ⟨sz _, ⟨trivial, sz _⟩, ⟨trivial, ⟨trivial, sz _⟩, trivial⟩, trivial⟩, by decide, by decide⟩
  | s6_2 cov b i a l =>
    simp only [gsubDeclared, Option.some.injEq] at hs
    cases hs
    obtain ⟨C, h1, h2⟩ := bind_ok_inv h
    obtain ⟨K, h5, h6⟩ := bind_ok_inv h2
    obtain ⟨K', h7, h8⟩ := bind_ok_inv h6
    obtain ⟨K'', h9, h10⟩ := bind_ok_inv h8
    obtain ⟨V, h3, h4⟩ := bind_ok_inv h10
    cases h4
    exact ⟨repr_cons (repr_u16 true 2) (repr_cons (repr_off repr_cov _ _ h1) (repr_cons (repr_off repr_class _ _ h5)
      (repr_cons (repr_off repr_class _ _ h7) (repr_cons (repr_off repr_class _ _ h9) (repr_last (repr_offVec repr_chainSet _ _ h3)))))),
      ⟨sz _, ⟨trivial, sz _⟩, ⟨trivial, sz _⟩, ⟨trivial, sz _⟩, ⟨trivial, sz _⟩, ⟨trivial, ⟨trivial, sz _⟩, trivial⟩, trivial⟩,
      by decide, by decide⟩
  | s6_3 b i a recs =>
    simp only [gsubDeclared, Option.some.injEq] at hs
    cases hs
    obtain ⟨B, h1, h2⟩ := bind_ok_inv h
    obtain ⟨I, h3, h4⟩ := bind_ok_inv h2
    obtain ⟨A, h5, h6⟩ := bind_ok_inv h4
    cases h6
    exact ⟨repr_cons (repr_u16 true 3) (repr_cons (repr_offVec repr_cov _ _ h1) (repr_cons (repr_offVec repr_cov _ _ h3)
      (repr_cons (repr_offVec repr_cov _ _ h5) (repr_last (repr_encCounted repr_rec recs))))),
      ⟨sz _, ⟨trivial, sz _⟩, ⟨trivial, sz _⟩, ⟨trivial, sz _⟩, ⟨sz _, sz _, trivial⟩, trivial⟩, by decide, by decide⟩
  | s8_1 f cov b a l =>
    simp only [gsubDeclared, Option.some.injEq] at hs
    cases hs
    obtain ⟨C, h1, h2⟩ := bind_ok_inv h
    obtain ⟨B, h3, h4⟩ := bind_ok_inv h2
    obtain ⟨A, h5, h6⟩ := bind_ok_inv h4
    cases h6
    exact ⟨repr_cons (repr_u16 true f) (repr_cons (repr_off repr_cov _ _ h1) (repr_cons (repr_offVec repr_cov _ _ h3)
      (repr_cons (repr_offVec repr_cov _ _ h5) (repr_last (repr_u16s true l))))),
      ⟨sz _, ⟨trivial, sz _⟩, ⟨trivial, sz _⟩, ⟨trivial, sz _⟩, sz _, trivial⟩, by decide, by decide⟩

/-! ### The theorems -/

/-- A script list is written by the code generated for its declaration as the model of script lists says. -/
theorem C109_script_list (l : ScriptListLow) (T : Tab) (h : scriptListTab l = .ok T) :
    Der.toBytes (.record false (Declared.scriptList layoutLeaf)) (scriptListV l) = Off.toBytes T := by
  have sz := layoutLeaf_sized
  refine repr_toBytes (Q := fun _ => True) ?_ (by decide) (by decide) (repr_last (repr_tagRecs repr_script l T h))
  exact ⟨⟨sz _, ⟨trivial, ⟨trivial, sz _, sz _, sz _, trivial⟩, ⟨sz _, ⟨trivial, sz _, sz _, sz _, trivial⟩, trivial⟩, trivial⟩, trivial⟩, trivial⟩

/-- So is a feature list. -/
theorem C109_feature_list (l : FeatureListLow) (T : Tab) (h : featureListTab l = .ok T) :
    Der.toBytes (.record false (Declared.featureList layoutLeaf)) (featureListV l) = Off.toBytes T := by
  have sz := layoutLeaf_sized
  refine repr_toBytes (Q := fun _ => True) ?_ (by decide) (by decide) (repr_last (repr_tagRecs repr_featureTable l T h))
  exact ⟨⟨sz _, ⟨trivial, sz _, sz _, trivial⟩, trivial⟩, trivial⟩

/-- So is every substitution subtable that has a declaration. -/
theorem C109_gsub_subtables (s : Gsub.Sub) (fs : Fields) (v : fs.den) (T : Tab) (hs : gsubDeclared s = some ⟨fs, v⟩) (h : s.tab = .ok T) :
    Der.toBytes (.record false fs) v = Off.toBytes T := by
  obtain ⟨h1, h2, h3, h4⟩ := repr_sub s fs v T hs h
  exact repr_toBytes h2 h3 h4 h1

theorem repr_countedTab {α : Type} {vec : Bool} {t : Ty} {f : α → Res Tab} {g : α → t.den}
    (hf : ∀ a T, f a = .ok T → Repr true t (g a) T) (l : List α) (T : Tab) (h : Gpos.countedTab f l = .ok T) :
    Repr vec (.counted .w16 t) (l.map g) T := by
  unfold Gpos.countedTab at h
  cases e : Res.mapL f l with
  | err => simp [e] at h
  | panic => simp [e] at h
  | ok Ts => simp only [e] at h; cases h; exact repr_counted hf l Ts e

/-- So are cursive attachments. -/
theorem C109_cursive (fmt : UInt16) (cov : Cov) (recs : List (Gpos.AnchorLink × Gpos.AnchorLink)) (T : Tab)
    (h : (Gpos.Sub.p3_1 fmt cov recs).tab = .ok T) :
    Der.toBytes (.record false (Declared.cursivePosFormat1 layoutLeaf)) (cursiveV fmt cov recs) = Off.toBytes T := by
  have sz := layoutLeaf_sized
  obtain ⟨C, h1, h2⟩ := bind_ok_inv h
  obtain ⟨V, h3, h4⟩ := bind_ok_inv h2
  cases h4
  refine repr_toBytes (Q := fun _ => True) ?_ (by decide) (by decide) (repr_cons (repr_u16 true fmt) (repr_cons (repr_off repr_cov _ _ h1)
    (repr_last (repr_countedTab (f := Gpos.entryExitTab) (fun r T hT => ?_) recs V h3))))
  · exact ⟨sz _, ⟨trivial, sz _⟩, ⟨⟨trivial, sz _⟩, ⟨trivial, sz _⟩, trivial⟩, trivial⟩
  · obtain ⟨A, a1, a2⟩ := bind_ok_inv hT
    obtain ⟨B, a3, a4⟩ := bind_ok_inv a2
    cases a4
    exact repr_record (repr_cons (repr_off repr_anchor _ _ a1) (repr_last (repr_off repr_anchor _ _ a3)))

/-- So are the marks of mark positioning. -/
theorem C109_mark_array (l : List Gpos.MarkRec) (T : Tab) (h : Gpos.markArrayTab l = .ok T) :
    Der.toBytes (.record false (Declared.markArray layoutLeaf)) (markArrayV l) = Off.toBytes T := by
  have sz := layoutLeaf_sized
  refine repr_toBytes (Q := fun _ => True) ?_ (by decide) (by decide) (repr_last (repr_countedTab (fun r T hT => ?_) l T h))
  · exact ⟨⟨sz _, ⟨trivial, sz _⟩, trivial⟩, trivial⟩
  · unfold Gpos.markRecTab at hT
    cases e : optOff true Gpos.Anchor.tab r.2 with
    | err => simp [e] at hT
    | panic => simp [e] at hT
    | ok U =>
      simp only [e] at hT; cases hT
      exact repr_record (repr_cons (repr_u16 true r.1) (repr_last (repr_off repr_anchor r.2 U e)))

/-! ### Reading -/

theorem alike_u16 : Alike (fun a v => Same (.leaf (layoutLeaf "uint16")) a v) readU16 (read (.leaf (layoutLeaf "uint16"))) := alike_self _
theorem alike_tag : Alike (fun a v => Same (.leaf (layoutLeaf "Tag")) a v) readTag (read (.leaf (layoutLeaf "Tag"))) := alike_self _
theorem alike_cov : Alike (fun a v => Same (.leaf (layoutLeaf "Coverage")) ((fun x => x) a) v) Coverage.read (read (.leaf (layoutLeaf "Coverage"))) :=
  alike_self _
theorem alike_anchor : Alike (fun a v => Same (.leaf (layoutLeaf "Anchor")) ((fun x => x) a) v) Gpos.Anchor.read (read (.leaf (layoutLeaf "Anchor"))) :=
  alike_self _
theorem alike_ligature : Alike (fun a v => Same (.leaf (layoutLeaf "Ligature")) ((fun x => x) a) v) Gsub.Ligature.read (read (.leaf (layoutLeaf "Ligature"))) :=
  alike_self _

theorem alike_u16s : Alike (fun l m => Same (.counted .w16 (.leaf (layoutLeaf "uint16"))) l m) readU16s
    (read (.counted .w16 (.leaf (layoutLeaf "uint16")))) := by
  refine alike_imp (alike_counted (g := fun x : UInt16 => x) (t := .leaf (layoutLeaf "uint16")) (alike_self _)) (fun l m h => ?_)
  exact (congrArg (fun k : List UInt16 => Same (.counted .w16 (.leaf (layoutLeaf "uint16"))) k m) (List.map_id' l)).mp h

theorem alike_tagRecs {α : Type} {t : Ty} {g : α → t.den} {p : Reader α} (h : Alike (fun a v => Same t (g a) v) p (read t)) :
    Alike (fun l m => Same (.counted .w16 (.record true (Declared.fields [Declared.f layoutLeaf "Tag", Declared.offset16 t]))) (l.map (tagRecV g)) m)
      (readTagRecs p) (read (.counted .w16 (.record true (Declared.fields [Declared.f layoutLeaf "Tag", Declared.offset16 t])))) := by
  refine alike_counted (t := .record true (Declared.fields [Declared.f layoutLeaf "Tag", Declared.offset16 t])) (g := tagRecV g) ?_
  refine alike_record rfl (alike_cons alike_tag fun a x hx => ?_)
  exact alike_cons (alike_link h) fun b y hy => alike_nil ⟨hx, hy, trivial⟩

theorem alike_langSys : Alike (fun a v => Same (.record false (Declared.langSys layoutLeaf)) (langSysV a) v) LangSys.read
    (read (.record false (Declared.langSys layoutLeaf))) :=
  alike_record rfl (alike_cons alike_u16 fun _ _ h1 => alike_cons alike_u16 fun _ _ h2 => alike_cons alike_u16s fun _ _ h3 =>
    alike_nil ⟨h1, h2, h3, trivial⟩)
theorem alike_featureTable : Alike (fun a v => Same (.record false (Declared.featureTable layoutLeaf)) (featureTableV a) v) FeatureTable.read
    (read (.record false (Declared.featureTable layoutLeaf))) :=
  alike_record rfl (alike_cons alike_u16 fun _ _ h1 => alike_cons alike_u16s fun _ _ h3 => alike_nil ⟨h1, h3, trivial⟩)
theorem alike_script : Alike (fun a v => Same (.record false (Declared.script layoutLeaf)) (scriptV a) v) ScriptLow.read
    (read (.record false (Declared.script layoutLeaf))) :=
  alike_table (alike_cons (alike_link alike_langSys) fun _ _ h1 => alike_cons (alike_tagRecs alike_langSys) fun _ _ h2 =>
    alike_nil ⟨h1, h2, trivial⟩)
theorem alike_seq : Alike (fun a v => Same (.record false (Declared.sequence layoutLeaf)) (a, ()) v) readU16s
    (read (.record false (Declared.sequence layoutLeaf))) := by
  rw [← bind_pure_reader readU16s]
  exact alike_record rfl (alike_cons alike_u16s fun _ _ h1 => alike_nil ⟨h1, trivial⟩)
theorem alike_ligSet : Alike (fun a v => Same (.record false (Declared.ligatureSet layoutLeaf)) (setV (α := Gsub.Ligature) a) v) (Gsub.readSet Gsub.Ligature.read)
    (read (.record false (Declared.ligatureSet layoutLeaf))) := by
  have h0 : Gsub.readSet Gsub.Ligature.read = inTable (readOffVec Gsub.Ligature.read >>= fun a => pure a) := by
    rw [bind_pure_reader]; rfl
  rw [h0]
  exact alike_table (alike_cons (alike_offVec alike_ligature) fun _ _ h1 => alike_nil ⟨h1, trivial⟩)

/-- A script list is read by the code generated for its declaration as the model of script lists says: both fail, both
panic, or both find the same and stop at the same place. -/
theorem C109_reads_script_list : Alike (fun l v => SameF (Declared.scriptList layoutLeaf) (scriptListV l) v) readScriptList
    (read (.record false (Declared.scriptList layoutLeaf))) := by
  unfold readScriptList
  rw [← bind_pure_reader (readTagRecs ScriptLow.read)]
  exact alike_table (alike_cons (alike_tagRecs alike_script) fun _ _ h1 => alike_nil ⟨h1, trivial⟩)

/-- So is a feature list. -/
theorem C109_reads_feature_list : Alike (fun l v => SameF (Declared.featureList layoutLeaf) (featureListV l) v) readFeatureList
    (read (.record false (Declared.featureList layoutLeaf))) := by
  unfold readFeatureList
  rw [← bind_pure_reader (readTagRecs FeatureTable.read)]
  exact alike_table (alike_cons (alike_tagRecs alike_featureTable) fun _ _ h1 => alike_nil ⟨h1, trivial⟩)

/-- A subtable is the value of the declaration `fs`. -/
def SubIs (fs : Fields) (s : Gsub.Sub) (v : fs.den) : Prop := ∃ v0, gsubDeclared s = some ⟨fs, v0⟩ ∧ SameF fs v0 v

/-- So are multiple, alternate, ligature and reverse chaining substitutions. -/
theorem C109_reads_gsub :
    Alike (SubIs (Declared.multipleSubstFormat1 layoutLeaf)) Gsub.read2 (read (.record false (Declared.multipleSubstFormat1 layoutLeaf))) ∧
    Alike (SubIs (Declared.alternateSubstFormat1 layoutLeaf)) Gsub.read3 (read (.record false (Declared.alternateSubstFormat1 layoutLeaf))) ∧
    Alike (SubIs (Declared.ligatureSubstFormat1 layoutLeaf)) Gsub.read4 (read (.record false (Declared.ligatureSubstFormat1 layoutLeaf))) ∧
    Alike (SubIs (Declared.reverseChainSingleSubstFormat1 layoutLeaf)) Gsub.read8
      (read (.record false (Declared.reverseChainSingleSubstFormat1 layoutLeaf))) := by
  refine ⟨?_, ?_, ?_, ?_⟩
  · exact alike_table (alike_cons alike_u16 fun _ _ h1 => alike_cons (alike_link alike_cov) fun _ _ h2 =>
      alike_cons (alike_offVec alike_seq) fun _ _ h3 => alike_nil ⟨_, rfl, h1, h2, h3, trivial⟩)
  · exact alike_table (alike_cons alike_u16 fun _ _ h1 => alike_cons (alike_link alike_cov) fun _ _ h2 =>
      alike_cons (alike_offVec alike_seq) fun _ _ h3 => alike_nil ⟨_, rfl, h1, h2, h3, trivial⟩)
  · exact alike_table (alike_cons alike_u16 fun _ _ h1 => alike_cons (alike_link alike_cov) fun _ _ h2 =>
      alike_cons (alike_offVec alike_ligSet) fun _ _ h3 => alike_nil ⟨_, rfl, h1, h2, h3, trivial⟩)
  · exact alike_table (alike_cons alike_u16 fun _ _ h1 => alike_cons (alike_link alike_cov) fun _ _ h2 =>
      alike_cons (alike_offVec alike_cov) fun _ _ h3 => alike_cons (alike_offVec alike_cov) fun _ _ h4 =>
      alike_cons alike_u16s fun _ _ h5 => alike_nil ⟨_, rfl, h1, h2, h3, h4, h5, trivial⟩)

/-- So are cursive attachments. -/
theorem C109_reads_cursive :
    Alike (fun s v => ∃ fmt cov recs, s = Gpos.Sub.p3_1 fmt cov recs ∧ SameF (Declared.cursivePosFormat1 layoutLeaf) (cursiveV fmt cov recs) v)
      Gpos.read3 (read (.record false (Declared.cursivePosFormat1 layoutLeaf))) :=
  alike_table (alike_cons alike_u16 fun _ _ h1 => alike_cons (alike_link alike_cov) fun _ _ h2 =>
    alike_cons (alike_counted (t := .record true (Declared.entryExitRecord layoutLeaf)) (g := fun r : Gpos.AnchorLink × Gpos.AnchorLink => (linkV r.1, linkV r.2, ()))
      (alike_record rfl (alike_cons (alike_link alike_anchor) fun _ _ k1 => alike_cons (alike_link alike_anchor) fun _ _ k2 =>
        alike_nil ⟨k1, k2, trivial⟩))) fun _ _ h3 => alike_nil ⟨_, _, _, rfl, h1, h2, h3, trivial⟩)

/-- So are the marks of mark positioning. -/
theorem C109_reads_mark_array : Alike (fun l v => SameF (Declared.markArray layoutLeaf) (markArrayV l) v) Gpos.readMarkArray
    (read (.record false (Declared.markArray layoutLeaf))) := by
  unfold Gpos.readMarkArray
  rw [← bind_pure_reader (readCounted Gpos.readMarkRec)]
  exact alike_table (alike_cons (alike_counted (t := .record true (Declared.markRecord layoutLeaf))
      (g := fun r : Gpos.MarkRec => (r.1, linkOf (fun a : Gpos.Anchor => a) r.2, ()))
      (alike_record rfl (alike_cons alike_u16 fun _ _ k1 => alike_cons (alike_link alike_anchor) fun _ _ k2 =>
        alike_nil ⟨k1, k2, trivial⟩))) fun _ _ h1 => alike_nil ⟨h1, trivial⟩)

/-! ### Examples -/

example : ∃ T, scriptListTab [(⟨108, 97, 116, 110⟩, some ⟨some ⟨0, 65535, [1, 2]⟩, [(⟨84, 82, 75, 32⟩, some ⟨0, 1, [3]⟩)]⟩),
      (⟨97, 114, 97, 98⟩, none)] = .ok T ∧
    Der.toBytes (.record false (Declared.scriptList layoutLeaf))
      (scriptListV [(⟨108, 97, 116, 110⟩, some ⟨some ⟨0, 65535, [1, 2]⟩, [(⟨84, 82, 75, 32⟩, some ⟨0, 1, [3]⟩)]⟩),
        (⟨97, 114, 97, 98⟩, none)]) = Off.toBytes T := ⟨_, rfl, C109_script_list _ _ rfl⟩

example : ∃ T fs v, (Gsub.Sub.s2_1 1 (some [5, 6]) [some [7, 8], none]).tab = .ok T ∧
    gsubDeclared (.s2_1 1 (some [5, 6]) [some [7, 8], none]) = some ⟨fs, v⟩ ∧
    Der.toBytes (.record false fs) v = Off.toBytes T ∧
    Off.toBytes T = .ok [0, 1, 0, 10, 0, 2, 0, 18, 0, 0, 0, 1, 0, 2, 0, 5, 0, 6, 0, 2, 0, 7, 0, 8] := by
  refine ⟨_, _, _, rfl, rfl, C109_gsub_subtables (.s2_1 1 (some [5, 6]) [some [7, 8], none]) _ _ _ rfl rfl,
    by decide +kernel⟩

/-- The generated reader finds the one script of a list and its language system. -/
example : (readScriptList (Rd.new [0, 1, 108, 97, 116, 110, 0, 8, 0, 4, 0, 0, 0, 0, 0, 9, 0, 1, 0, 3])) =
    .ok ([(⟨108, 97, 116, 110⟩, some ⟨some ⟨0, 9, [3]⟩, []⟩)],
      ⟨[0, 1, 108, 97, 116, 110, 0, 8, 0, 4, 0, 0, 0, 0, 0, 9, 0, 1, 0, 3], 8, [0]⟩) := by decide +kernel

/-- A declaration that `flatF` leaves out, and one that it does not. -/
example : flatF false exampleFields = true ∧
    flatF false (.cons true true (.counted .w16 (.record true (.cons false false (.offs .w16 .w16 (.leaf u16Leaf)) .nil))) .nil) = false := by
  decide

end FT.Props
