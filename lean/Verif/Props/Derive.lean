import Verif.Lemmas.Derive
import Verif.Model.Declarations

/-!
# C106: structures declared with `tables!`

The code that `derive(Serialize, Deserialize)` generates, for every structure: a value whose parts are written and
read back by themselves is written, and read back equal, wherever it stands, if the structure is declared as
`WellDeclared` says. Which declarations of the crates are so, and what happens to the others.
-/

namespace FT.Props
open FT FT.Off FT.Der Reader

/-- If the structure and all tables below it take at most 65535 bytes, it is written, and the bytes are exactly those
of the structure and of the tables below it. -/
theorem C106_writes (embedded : Bool) (fs : Fields) (v : fs.den) (hd : WellDeclared embedded fs)
    (ha : FieldsAll Sized (fun _ => True) fs) (hf : FitsF fs v) (hl : sizeF fs v + belowF fs v ≤ 65535) :
    ∃ bs, Der.toBytes (.record embedded fs) v = .ok bs ∧ bs.length = sizeF fs v + belowF fs v :=
  writes_root embedded fs v hd ha hf hl

/-- Whatever was written is read back equal, with the cursor behind the fields of the structure and the stack as
before, at any position in any file; a structure without `[offset_base]` only if the current table starts with it.
Offsets of 32 bits must not be beyond 65535. -/
theorem C106_round_trip (embedded : Bool) (fs : Fields) (v : fs.den) (bs : Bytes)
    (hd : WellDeclared embedded fs) (ha : FieldsAll Sized (Reach bs.length) fs) (hf : FitsF fs v)
    (h : Der.toBytes (.record embedded fs) v = .ok bs)
    (before after : Bytes) (stk : List Nat)
    (hb : based fs = true ∨ hasOffF fs = false ∨ ∃ tl, stk = before.length :: tl) :
    ∃ v', read (.record embedded fs) ⟨before ++ bs ++ after, before.length, stk⟩ =
        .ok (v', ⟨before ++ bs ++ after, before.length + sizeF fs v, stk⟩) ∧ SameF fs v v' := by
  obtain ⟨v', h1, h2, _⟩ := reads_back embedded fs v bs hd ha hf h before after stk hb
  exact ⟨v', h1, h2⟩

/-- Both together, for a file that is the table: written, read back equal, and written again as the same bytes. -/
theorem C106_survives (embedded : Bool) (fs : Fields) (v : fs.den) (hd : WellDeclared embedded fs)
    (ha : FieldsAll Sized (fun _ => True) fs) (hf : FitsF fs v) (hl : sizeF fs v + belowF fs v ≤ 65535) :
    ∃ bs v', Der.toBytes (.record embedded fs) v = .ok bs ∧
      read (.record embedded fs) (Rd.new bs) = .ok (v', ⟨bs, sizeF fs v, [0]⟩) ∧ SameF fs v v' ∧
      Der.toBytes (.record embedded fs) v' = .ok bs := by
  obtain ⟨bs, h1, h2⟩ := writes_root embedded fs v hd ha hf hl
  have ha' : FieldsAll Sized (Reach bs.length) fs := all_mono (fun _ h => h) (fun w _ => .inr (by omega)) fs ha
  obtain ⟨v', h3, h4, h5⟩ := reads_back embedded fs v bs hd ha' hf h1 [] [] [0] (.inr (.inr ⟨[], rfl⟩))
  refine ⟨bs, v', h1, ?_, h4, by rw [← same_bytes hd h4 hf h5]; exact h1⟩
  simpa [Rd.new] using h3

/-- Writing never panics if the parts with own code do not. -/
theorem C106_no_panic (t : Ty) (v : t.den) (ha : TyAll (fun c => ∀ a, c.enc a ≠ .panic) (fun _ => True) t) :
    Der.toBytes t v ≠ .panic := toBytes_no_panic t v ha

/-! ### An example -/

/-- `uint16`. -/
abbrev u16Leaf : Leaf := ⟨UInt16, fun x => .ok (encU16 x), fun _ => 2, readU16⟩

theorem u16_sized : Sized u16Leaf := fun a bs h => by cases h; rfl
theorem u16_fits (x : UInt16) : Fits (.leaf u16Leaf) x := ⟨encU16 x, rfl, reads_u16 x⟩

/-- A table with an offset to a table with offsets, and an embedded list of records with offsets
(compare the tests offsetmanager.rs:167-220, 284-360). -/
abbrev exampleChild : Ty := .record false (.cons true false (.leaf u16Leaf) (.cons false false (.offs .w16 .w16 (.leaf u16Leaf)) .nil))
abbrev exampleItem : Ty := .record true (.cons false false (.leaf u16Leaf) (.cons false false (.off .w16 (.leaf u16Leaf)) .nil))
abbrev exampleFields : Fields :=
  .cons true false (.leaf u16Leaf) (.cons false false (.off .w16 exampleChild)
    (.cons false true (.counted .w16 exampleItem) (.cons false false (.off .w32 (.leaf u16Leaf)) .nil)))
abbrev exampleValue : exampleFields.den :=
  ((1 : UInt16), Link.to ((2 : UInt16), [Link.to (3 : UInt16), Link.nothing, Link.to (4 : UInt16)], ()),
    [((5 : UInt16), Link.to (6 : UInt16), ()), ((7 : UInt16), Link.nothing, ())], Link.nothing, ())

theorem exampleFits : FitsF exampleFields exampleValue := by
  refine ⟨u16_fits 1, ⟨u16_fits 2, ⟨by decide, ?_⟩, trivial⟩, ⟨by decide, ?_⟩, rfl, trivial⟩
  · intro x hx
    simp only [List.mem_cons, List.not_mem_nil, or_false] at hx
    rcases hx with rfl | rfl | rfl
    · exact u16_fits 3
    · rfl
    · exact u16_fits 4
  · intro x hx
    simp only [List.mem_cons, List.not_mem_nil, or_false] at hx
    rcases hx with rfl | rfl
    · exact ⟨u16_fits 5, u16_fits 6, trivial⟩
    · exact ⟨u16_fits 7, rfl, trivial⟩

theorem exampleSized : FieldsAll Sized (fun _ => True) exampleFields :=
  ⟨u16_sized, ⟨trivial, u16_sized, ⟨trivial, u16_sized⟩, trivial⟩, ⟨u16_sized, ⟨trivial, u16_sized⟩, trivial⟩,
    ⟨trivial, u16_sized⟩, trivial⟩

example : ∃ bs v', Der.toBytes (.record false exampleFields) exampleValue = .ok bs ∧
    read (.record false exampleFields) (Rd.new bs) = .ok (v', ⟨bs, 18, [0]⟩) ∧
    SameF exampleFields exampleValue v' ∧ Der.toBytes (.record false exampleFields) v' = .ok bs :=
  C106_survives false exampleFields exampleValue (by decide) exampleSized exampleFits (by decide)

example : Der.toBytes (.record false exampleFields) exampleValue = .ok
    [0, 1, 0, 18, 0, 2, 0, 5, 0, 32, 0, 7, 0, 0, 0, 0, 0, 0,
     0, 2, 0, 3, 0, 10, 0, 0, 0, 12, 0, 3, 0, 4, 0, 6] := by decide +kernel

example : Der.toBytes (.record false exampleFields) exampleValue ≠ .panic :=
  C106_no_panic (.record false exampleFields) exampleValue
    ⟨fun _ => ok_np, ⟨trivial, fun _ => ok_np, ⟨trivial, fun _ => ok_np⟩, trivial⟩,
      ⟨fun _ => ok_np, ⟨trivial, fun _ => ok_np⟩, trivial⟩, ⟨trivial, fun _ => ok_np⟩, trivial⟩

/-! ### The declarations of the crates -/

/-- `WellDeclared` and, for a structure behind an offset, `tableOK`, as functions. -/
def wellDeclared (d : Bool × Fields) : Bool :=
  fieldsOK d.2 && (based d.2 || unbased d.2) && (!hasOffF d.2 || !d.1)

theorem wellDeclared_iff (d : Bool × Fields) : wellDeclared d = true ↔ WellDeclared d.1 d.2 := by
  simp only [wellDeclared, WellDeclared, Bool.and_eq_true, Bool.or_eq_true, Bool.not_eq_true']
  constructor
  · rintro ⟨⟨h1, h2⟩, h3⟩
    exact ⟨h1, h2, fun h => by rcases h3 with h3 | h3 <;> simp_all⟩
  · rintro ⟨h1, h2, h3⟩
    exact ⟨⟨h1, h2⟩, by cases h : hasOffF d.2 <;> simp_all⟩

open Declared in
/-- Structures that may also stand behind an offset. -/
def goodTables (own : String → Leaf) : List Fields :=
  [langSys own, script own, scriptList own, featureTable own, featureList own, markArray own, conditionFormat1 own,
    singleSubstFormat1 own, singleSubstFormat2 own, sequence own, multipleSubstFormat1 own, alternateSet own,
    alternateSubstFormat1 own, ligatureSet own, ligatureSubstFormat1 own, reverseChainSingleSubstFormat1 own,
    cursivePosFormat1 own, sequenceLookupRecord own, sequenceRuleSet own, sequenceContextFormat1 own,
    sequenceContextFormat2 own, chainedSequenceRuleSet own, chainedSequenceContextFormat1 own,
    chainedSequenceContextFormat2 own, chainedSequenceContextFormat3 own, coverageFormat1 own, coverageFormat2 own,
    classDefFormat1 own, classDefFormat2 own, avar own, gsubLookupList own, gposLookupList own, cmap12 own,
    defaultUVS own, nonDefaultUVS own, cmap14 own, attachPoint own, attachList own, ligGlyph own, ligCaretList own,
    mathKernInfo own, itemVariationDataHeader own]

open Declared in
/-- Structures that may stand at the start of a table of the font, but not behind an offset. -/
def goodTops (own : String → Leaf) : List Fields :=
  [gsub10 own, gpos10 own, gdefcore11 own, conditionSet own, markGlyphSets own, itemVariationStoreInternal own]

open Declared in
/-- Structures that are neither. -/
def misdeclared (own : String → Leaf) : List Fields :=
  [featureVariations own, featureVariationRecord own, featureTableSubstitution own, gsub11 own, gpos11 own,
    gdefcore12 own, gdefcore13 own, mathConstants own, mathItalicsCorrectionInfo own, mathTopAccentAttachment own,
    mathGlyphInfo own, glyphAssembly own, mathGlyphConstruction own, mathInternal own]

/-- Which declarations are as the theorems above need them, whatever the types with their own code are. -/
theorem C106_declarations (own : String → Leaf) :
    (∀ fs ∈ goodTables own, WellDeclared false fs ∧ tableOK (.record false fs) = true) ∧
    (∀ fs ∈ goodTops own, WellDeclared false fs ∧ tableOK (.record false fs) = false) ∧
    (∀ fs ∈ misdeclared own, ¬ WellDeclared false fs) := by
  have h1 : (goodTables own).all (fun fs => wellDeclared (false, fs) && tableOK (.record false fs)) = true := rfl
  have h2 : (goodTops own).all (fun fs => wellDeclared (false, fs) && !tableOK (.record false fs)) = true := rfl
  have h3 : (misdeclared own).all (fun fs => !wellDeclared (false, fs)) = true := rfl
  rw [List.all_eq_true] at h1 h2 h3
  refine ⟨fun fs h => ?_, fun fs h => ?_, fun fs h => ?_⟩
  · have := h1 fs h
    simp only [Bool.and_eq_true] at this
    exact ⟨(wellDeclared_iff (false, fs)).1 this.1, this.2⟩
  · have := h2 fs h
    simp only [Bool.and_eq_true, Bool.not_eq_true'] at this
    exact ⟨(wellDeclared_iff (false, fs)).1 this.1, this.2⟩
  · have := h3 fs h
    intro hw
    rw [(wellDeclared_iff (false, fs)).2 hw] at this
    cases this

/-! ### What happens to the others -/

/-- All types with own code are two-byte numbers. -/
abbrev num : String → Leaf := fun _ => u16Leaf

/-- The first mark glyph set. -/
def firstSet (v : (Declared.gdefcore12 num).den) : Option UInt16 :=
  match v with
  | (_, _, _, _, _, _, ⟨_, some (_, ⟨_, some n⟩ :: _, _)⟩, _) => some n
  | _ => none

/-- What `f` finds in the result of reading. -/
def seen {α : Type} (f : α → Option UInt16) (r : Res (α × Rd)) : Option UInt16 :=
  match r with
  | .ok (v, _) => f v
  | _ => none

theorem seen_inv {α : Type} {f : α → Option UInt16} {r : Res (α × Rd)} {n : UInt16} (h : seen f r = some n) :
    ∃ v' r', r = .ok (v', r') ∧ f v' = some n := by
  cases r with
  | ok p => exact ⟨p.1, p.2, rfl, h⟩
  | err => cases h
  | panic => cases h

abbrev markSets : (Declared.gdefcore12 num).den :=
  ((1 : UInt16), (2 : UInt16), Link.nothing, Link.nothing, Link.nothing, Link.nothing,
    Link.to ((1 : UInt16), [Link.to (5 : UInt16), Link.to (6 : UInt16)], ()), ())

/-- `[offset_base]` is missing (`MarkGlyphSets`, behind an offset in `gdefcore12`): the offsets are written as
distances from the structure and read as distances from the start of the table around it, so that other sets are read
than were written. -/
theorem C106_unbased : ∃ bs v' r, Der.toBytes (.record false (Declared.gdefcore12 num)) markSets = .ok bs ∧
    read (.record false (Declared.gdefcore12 num)) (Rd.new bs) = .ok (v', r) ∧
    ¬ SameF (Declared.gdefcore12 num) markSets v' := by
  have h : seen firstSet (read (.record false (Declared.gdefcore12 num)) (Rd.new
    [0, 1, 0, 2, 0, 0, 0, 0, 0, 0, 0, 0, 0, 14, 0, 1, 0, 2, 0, 0, 0, 12, 0, 0, 0, 14, 0, 5, 0, 6])) = some 14 := by
    decide +kernel
  obtain ⟨v', r, h1, h2⟩ := seen_inv h
  refine ⟨_, v', r, ?_, h1, ?_⟩
  · decide +kernel
  · intro hs
    unfold firstSet at h2
    split at h2
    · injection h2 with h2
      have h3 : (5 : UInt16) = _ := hs.2.2.2.2.2.2.1.2.1.1
      rw [h2] at h3
      exact absurd h3 (by decide)
    · cases h2

/-- `[embed]` is missing (`MathItalicsCorrectionInfo`): with one device, it is not written. -/
theorem C106_unembedded : Der.toBytes (.record false (Declared.mathItalicsCorrectionInfo num))
    (Link.to (1 : UInt16), [((2 : UInt16), Link.to (3 : UInt16), ())], ()) = .err := by decide +kernel

abbrev substitutions : (Declared.featureTableSubstitution num).den :=
  ((1 : UInt16), (0 : UInt16), [((7 : UInt16), Link.to ((0 : UInt16), [(9 : UInt16)], ()), ()),
    ((8 : UInt16), Link.to ((0 : UInt16), [(10 : UInt16)], ()), ())], ())

/-- The result is a panic. -/
def isPanic {α : Type} : Res α → Bool
  | .panic => true
  | _ => false

theorem isPanic_iff {α : Type} {r : Res α} (h : isPanic r = true) : r = .panic := by
  cases r <;> first | rfl | cases h

/-- `[embedded]` and `[embed]` are missing (`FeatureTableSubstitution`): each record is written with its own tables
behind it, so that the second is not where it is looked for; what is found there instead is taken for an offset that
is too large, and reading panics. -/
theorem C106_inline : ∃ bs, Der.toBytes (.record false (Declared.featureTableSubstitution num)) substitutions = .ok bs ∧
    read (.record false (Declared.featureTableSubstitution num)) (Rd.new bs) = .panic := by
  refine ⟨[0, 1, 0, 0, 0, 2, 0, 7, 0, 0, 0, 6, 0, 0, 0, 1, 0, 9, 0, 8, 0, 0, 0, 6, 0, 0, 0, 1, 0, 10], ?_,
    isPanic_iff ?_⟩ <;> decide +kernel

/-- An offset whose table was taken away (`link` is `None`, but it was not made with `to_nothing`) is not written as
zero: it points to the next table. -/
theorem C106_cleared (w : Width) (t : Ty) (c : Leaf) (a : c.α) (bs : Bytes) (h : c.enc a = .ok bs) (o : Option Nat)
    (ho : o ≠ some 0) :
    Der.toBytes (.record false (.cons false false (.off w t) (.cons false false (.off w (.leaf c)) .nil)))
      (⟨o, none⟩, Link.to a, ()) = .ok (w.enc (2 * w.size) ++ w.enc (2 * w.size) ++ bs) := by
  have hz : (Link.isZero (α := t.den) ⟨o, none⟩ : Bool) = false := by
    simp only [Link.isZero, Option.isNone_none, Bool.true_and, beq_eq_false_iff_ne]
    exact ho
  cases w <;> simp [Der.toBytes, marksF, Ty.isOff, Ty.isOffs, placeDirect, placeHere, placeRest, placeLink, Link.to, sizeF,
    Der.size, Width.size, Width.max, Der.shallow, encLink, writeDirect, writeHere, writeRest, writeLink, own, write, h, hz,
    place] <;> rfl

example : Der.toBytes (.record false (.cons false false (.off .w16 (.leaf u16Leaf)) (.cons false false (.off .w16 (.leaf u16Leaf)) .nil)))
    (⟨none, none⟩, Link.to (5 : UInt16), ()) = .ok [0, 4, 0, 4, 0, 5] :=
  C106_cleared .w16 (.leaf u16Leaf) u16Leaf 5 [0, 5] rfl none (by simp)

end FT.Props
