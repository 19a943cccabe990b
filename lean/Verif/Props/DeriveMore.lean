import Verif.Props.DeriveMath
import Verif.Model.Gdef
import Verif.Model.Cmap

/-! # C109: the lists of GDEF and the character maps of formats 12 and 14 are read as their declarations say -/

namespace FT.Props
open FT FT.Off FT.Der FT.Lay

/-- The code behind the names in the declarations of GDEF and cmap (Model/Declarations). -/
def tableLeaf (n : String) : Leaf :=
  match n with
  | "uint8" => ownLeaf (fun x => .ok (encU8 x)) readU8
  | "uint24" => ownLeaf encU24 readU24
  | "uint32" => ownLeaf (fun x => .ok (encU32 x)) readU32
  | "Coverage" => ownLeaf Coverage.toBytes Coverage.read
  | "ClassDef" => ownLeaf ClassDef.toBytes ClassDef.read
  | "CaretValue" => readLeaf Gdef.readCaret
  | _ => ownLeaf (fun x => .ok (encU16 x)) readU16

/-! ### Values of the declared types, fields in the declared order -/

def attachPointV (l : List UInt16) : (Declared.attachPoint tableLeaf).den := (l, ())
def attachListV (a : Cov × List (Option (List UInt16))) : (Declared.attachList tableLeaf).den :=
  (linkV a.1, a.2.map (linkOf attachPointV), ())
def ligGlyphV (l : List (Option Gdef.Caret)) : (Declared.ligGlyph tableLeaf).den := (l.map (linkOf fun c : Gdef.Caret => c), ())
def ligCaretListV (a : Cov × List (Option (List (Option Gdef.Caret)))) : (Declared.ligCaretList tableLeaf).den :=
  (linkV a.1, a.2.map (linkOf ligGlyphV), ())
/-- The format of the sets is not kept by the program. -/
def markSetsV (format : UInt16) (l : List Cov) : (Declared.markGlyphSets tableLeaf).den :=
  (format, l.map (linkOf fun c : List UInt16 => c), ())
def groupV (g : Cmap.Group) : UInt32 × UInt32 × UInt32 × Unit := (g.startCharCode, g.endCharCode, g.startGlyphID, ())
def cmap12V (t : Cmap.Cmap12) : (Declared.cmap12 tableLeaf).den :=
  (t.format, t.reserved, t.length, t.language, t.groups.map groupV, ())
def defaultUvsV (l : List Cmap.UnicodeRange) : (Declared.defaultUVS tableLeaf).den :=
  (l.map (fun x : Cmap.UnicodeRange => (x.startUnicodeValue, x.additionalCount, ())), ())
def nonDefaultUvsV (l : List Cmap.UvsMapping) : (Declared.nonDefaultUVS tableLeaf).den :=
  (l.map (fun x : Cmap.UvsMapping => (x.unicodeValue, x.glyphID, ())), ())
def selectorV (s : Cmap.VarSelector) : (Declared.variationSelector tableLeaf).den :=
  (s.selector, linkOf defaultUvsV s.defaultUVS, linkOf nonDefaultUvsV s.nonDefaultUVS, ())
def cmap14V (t : Cmap.Cmap14) : (Declared.cmap14 tableLeaf).den := (t.format, t.length, t.varSelector.map selectorV, ())

namespace DMore

theorem tu8 : Alike (fun a v => Same (.leaf (tableLeaf "uint8")) a v) readU8 (read (.leaf (tableLeaf "uint8"))) := alike_self _
theorem tu16 : Alike (fun a v => Same (.leaf (tableLeaf "uint16")) a v) readU16 (read (.leaf (tableLeaf "uint16"))) := alike_self _
theorem tu24 : Alike (fun a v => Same (.leaf (tableLeaf "uint24")) a v) readU24 (read (.leaf (tableLeaf "uint24"))) := alike_self _
theorem tu32 : Alike (fun a v => Same (.leaf (tableLeaf "uint32")) a v) readU32 (read (.leaf (tableLeaf "uint32"))) := alike_self _
theorem tcov : Alike (fun a v => Same (.leaf (tableLeaf "Coverage")) ((fun c : List UInt16 => c) a) v) Coverage.read
    (read (.leaf (tableLeaf "Coverage"))) := alike_self _
theorem tcaret : Alike (fun a v => Same (.leaf (tableLeaf "CaretValue")) ((fun c : Gdef.Caret => c) a) v) Gdef.readCaret
    (read (.leaf (tableLeaf "CaretValue"))) := alike_self _

theorem tu16s : Alike (fun l m => Same (.counted .w16 (.leaf (tableLeaf "uint16"))) l m) readU16s
    (read (.counted .w16 (.leaf (tableLeaf "uint16")))) := by
  refine alike_imp (alike_counted (g := fun x : UInt16 => x) (t := .leaf (tableLeaf "uint16")) (alike_self _)) (fun l m h => ?_)
  exact (congrArg (fun k : List UInt16 => Same (.counted .w16 (.leaf (tableLeaf "uint16"))) k m) (List.map_id' l)).mp h

theorem readWidth32 {α : Type} (f : Nat → Reader α) : (readWidth .w32 >>= f) = readU32 >>= fun n => f n.toNat := by
  show (readU32 >>= fun n => pure n.toNat) >>= f = _
  rw [bind_assoc_reader]; rfl

theorem tcounted32 {α : Type} {t : Ty} {g : α → t.den} {p : Reader α} (h : Alike (fun a v => Same t (g a) v) p (read t)) :
    Alike (fun l m => Same (.counted .w32 t) (l.map g) m) (readCounted32 p) (read (.counted .w32 t)) := by
  unfold readCounted32
  show Alike _ _ (readWidth .w32 >>= fun n => deCounted (read t) n)
  rw [readWidth32]
  refine alike_bind (alike_self _) (fun n n' e => ?_)
  subst e
  exact alike_deCounted h _

theorem toffs32 {α : Type} {t : Ty} {g : α → t.den} {p : Reader α} (h : Alike (fun a v => Same t (g a) v) p (read t)) :
    Alike (fun l m => Same (.offs .w16 .w32 t) (l.map (linkOf g)) m) (readCounted (readOffset .w32 p)) (read (.offs .w16 .w32 t)) := by
  unfold readCounted
  show Alike _ _ (readWidth .w16 >>= fun n => deCounted (readLink .w32 (read t)) n)
  rw [readWidth16]
  refine alike_bind (alike_self _) (fun n n' e => ?_)
  subst e
  exact alike_deCounted (alike_link h) _

theorem tattachPoint : Alike (fun a v => Same (.record false (Declared.attachPoint tableLeaf)) (attachPointV a) v) readU16s
    (read (.record false (Declared.attachPoint tableLeaf))) := by
  rw [← bind_pure_reader readU16s]
  exact alike_record rfl (alike_cons tu16s fun _ _ h1 => alike_nil ⟨h1, trivial⟩)

theorem tligGlyph : Alike (fun a v => Same (.record false (Declared.ligGlyph tableLeaf)) (ligGlyphV a) v) Gdef.readLigGlyph
    (read (.record false (Declared.ligGlyph tableLeaf))) := by
  unfold Gdef.readLigGlyph
  rw [← bind_pure_reader (readOffVec Gdef.readCaret)]
  exact alike_table (alike_cons (alike_offVec tcaret) fun _ _ h1 => alike_nil ⟨h1, trivial⟩)

theorem tgroup : Alike (fun a v => Same (.record false (Declared.fields [Declared.f tableLeaf "uint32", Declared.f tableLeaf "uint32",
      Declared.f tableLeaf "uint32"])) (groupV a) v) Cmap.readGroup
    (read (.record false (Declared.fields [Declared.f tableLeaf "uint32", Declared.f tableLeaf "uint32", Declared.f tableLeaf "uint32"]))) :=
  alike_record rfl (alike_cons tu32 fun _ _ h1 => alike_cons tu32 fun _ _ h2 => alike_cons tu32 fun _ _ h3 =>
    alike_nil ⟨h1, h2, h3, trivial⟩)

theorem tdefault : Alike (fun a v => Same (.record false (Declared.defaultUVS tableLeaf)) (defaultUvsV a) v)
    (readCounted32 Cmap.readUnicodeRange) (read (.record false (Declared.defaultUVS tableLeaf))) := by
  rw [← bind_pure_reader (readCounted32 Cmap.readUnicodeRange)]
  exact alike_record rfl (alike_cons (tcounted32 (g := fun x : Cmap.UnicodeRange => (x.startUnicodeValue, x.additionalCount, ()))
      (t := .record false (Declared.fields [Declared.f tableLeaf "uint24", Declared.f tableLeaf "uint8"]))
      (alike_record rfl (alike_cons tu24 fun _ _ k1 => alike_cons tu8 fun _ _ k2 => alike_nil ⟨k1, k2, trivial⟩)))
    fun _ _ h1 => alike_nil ⟨h1, trivial⟩)

theorem tnonDefault : Alike (fun a v => Same (.record false (Declared.nonDefaultUVS tableLeaf)) (nonDefaultUvsV a) v)
    (readCounted32 Cmap.readUvsMapping) (read (.record false (Declared.nonDefaultUVS tableLeaf))) := by
  rw [← bind_pure_reader (readCounted32 Cmap.readUvsMapping)]
  exact alike_record rfl (alike_cons (tcounted32 (g := fun x : Cmap.UvsMapping => (x.unicodeValue, x.glyphID, ()))
      (t := .record false (Declared.fields [Declared.f tableLeaf "uint24", Declared.f tableLeaf "uint16"]))
      (alike_record rfl (alike_cons tu24 fun _ _ k1 => alike_cons tu16 fun _ _ k2 => alike_nil ⟨k1, k2, trivial⟩)))
    fun _ _ h1 => alike_nil ⟨h1, trivial⟩)

theorem tselector : Alike (fun a v => Same (.record true (Declared.variationSelector tableLeaf)) (selectorV a) v) Cmap.readSelector
    (read (.record true (Declared.variationSelector tableLeaf))) :=
  alike_record rfl (alike_cons tu24 fun _ _ h1 => alike_cons (alike_link tdefault) fun _ _ h2 =>
    alike_cons (alike_link tnonDefault) fun _ _ h3 => alike_nil ⟨h1, h2, h3, trivial⟩)

theorem cmap12_fields : Cmap.readCmap12 = readU16 >>= fun format => readU16 >>= fun reserved => readU32 >>= fun length =>
    readU32 >>= fun language => readCounted32 Cmap.readGroup >>= fun groups => pure ⟨format, reserved, length, language, groups⟩ := by
  unfold Cmap.readCmap12 readCounted32
  simp only [bind_assoc_reader]

theorem cmap14_fields : Cmap.readCmap14 = inTable (readU16 >>= fun format => readU32 >>= fun length =>
    readCounted32 Cmap.readSelector >>= fun ss => pure ⟨format, length, ss⟩) := by
  unfold Cmap.readCmap14 readCounted32
  simp only [bind_assoc_reader]

end DMore
open DMore

/-- The lists of attachment points and carets and the sets of mark glyphs in GDEF are read as declared: both readers fail,
both panic, or both find the same and stop at the same place. -/
theorem C109_reads_gdef :
    Alike (fun a v => SameF (Declared.attachList tableLeaf) (attachListV a) v) Gdef.readAttachList
      (read (.record false (Declared.attachList tableLeaf))) ∧
    Alike (fun a v => SameF (Declared.ligCaretList tableLeaf) (ligCaretListV a) v) Gdef.readLigCaretList
      (read (.record false (Declared.ligCaretList tableLeaf))) ∧
    Alike (fun a v => ∃ format, SameF (Declared.markGlyphSets tableLeaf) (markSetsV format a) v) Gdef.readMarkSets
      (read (.record false (Declared.markGlyphSets tableLeaf))) := by
  refine ⟨?_, ?_, ?_⟩
  · exact alike_table (alike_cons (alike_link tcov) fun _ _ h1 => alike_cons (alike_offVec tattachPoint) fun _ _ h2 =>
      alike_nil ⟨h1, h2, trivial⟩)
  · exact alike_table (alike_cons (alike_link tcov) fun _ _ h1 => alike_cons (alike_offVec tligGlyph) fun _ _ h2 =>
      alike_nil ⟨h1, h2, trivial⟩)
  · unfold Gdef.readMarkSets
    rw [← bind_pure_reader (readCounted (readOffset .w32 Coverage.read))]
    exact alike_record rfl (alike_cons tu16 fun _ _ h1 => alike_cons (toffs32 tcov) fun _ _ h2 => alike_nil ⟨_, h1, h2, trivial⟩)

/-- So are character maps of formats 12 and 14. -/
theorem C109_reads_cmap :
    Alike (fun a v => SameF (Declared.cmap12 tableLeaf) (cmap12V a) v) Cmap.readCmap12 (read (.record false (Declared.cmap12 tableLeaf))) ∧
    Alike (fun a v => SameF (Declared.cmap14 tableLeaf) (cmap14V a) v) Cmap.readCmap14 (read (.record false (Declared.cmap14 tableLeaf))) := by
  refine ⟨?_, ?_⟩
  · rw [cmap12_fields]
    exact alike_record rfl (alike_cons tu16 fun _ _ h1 => alike_cons tu16 fun _ _ h2 => alike_cons tu32 fun _ _ h3 =>
      alike_cons tu32 fun _ _ h4 => alike_cons (tcounted32 tgroup) fun _ _ h5 => alike_nil ⟨h1, h2, h3, h4, h5, trivial⟩)
  · rw [cmap14_fields]
    exact alike_table (alike_cons tu16 fun _ _ h1 => alike_cons tu32 fun _ _ h2 => alike_cons (tcounted32 tselector) fun _ _ h3 =>
      alike_nil ⟨h1, h2, h3, trivial⟩)

/-! ### The headers of GSUB and GPOS -/

/-- The code behind the names in the declarations of GSUB and GPOS, the lookups with subtable readers `q`. -/
def headerLeaf {S : Type} (q : Nat → Reader S) (n : String) : Leaf :=
  match n with
  | "GSUBLookup" => readLeaf (readLookup q)
  | "GPOSLookup" => readLeaf (readLookup q)
  | n => layoutLeaf n

def gsubLookupsV {S : Type} (q : Nat → Reader S) (l : LookupListLow S) : (Declared.gsubLookupList (headerLeaf q)).den :=
  (l.map (linkOf fun x : LookupLow S => x), ())
def gposLookupsV {S : Type} (q : Nat → Reader S) (l : LookupListLow S) : (Declared.gposLookupList (headerLeaf q)).den :=
  (l.map (linkOf fun x : LookupLow S => x), ())
def gsubHeaderV {S : Type} (q : Nat → Reader S) (t : TableLow S) : (Declared.gsub10 (headerLeaf q)).den :=
  (t.major, t.minor, linkOf scriptListV t.scripts, linkOf featureListV t.features, linkOf (gsubLookupsV q) t.lookups, ())
def gposHeaderV {S : Type} (q : Nat → Reader S) (t : TableLow S) : (Declared.gpos10 (headerLeaf q)).den :=
  (t.major, t.minor, linkOf scriptListV t.scripts, linkOf featureListV t.features, linkOf (gposLookupsV q) t.lookups, ())

namespace DMore

theorem thu16 {S : Type} (q : Nat → Reader S) : Alike (fun a v => Same (.leaf (headerLeaf q "uint16")) a v) readU16
    (read (.leaf (headerLeaf q "uint16"))) := alike_self _

theorem tlookups {S : Type} (q : Nat → Reader S) : Alike (fun a v => Same (.record false (Declared.gsubLookupList (headerLeaf q)))
      (gsubLookupsV q a) v) (readLookupList q) (read (.record false (Declared.gsubLookupList (headerLeaf q)))) := by
  unfold readLookupList
  rw [← bind_pure_reader (readOffVec (readLookup q))]
  exact alike_table (alike_cons (alike_offVec (g := fun x : LookupLow S => x) (t := .leaf (headerLeaf q "GSUBLookup")) (alike_self _))
    fun _ _ h1 => alike_nil ⟨h1, trivial⟩)

theorem tlookups' {S : Type} (q : Nat → Reader S) : Alike (fun a v => Same (.record false (Declared.gposLookupList (headerLeaf q)))
      (gposLookupsV q a) v) (readLookupList q) (read (.record false (Declared.gposLookupList (headerLeaf q)))) := by
  unfold readLookupList
  rw [← bind_pure_reader (readOffVec (readLookup q))]
  exact alike_table (alike_cons (alike_offVec (g := fun x : LookupLow S => x) (t := .leaf (headerLeaf q "GPOSLookup")) (alike_self _))
    fun _ _ h1 => alike_nil ⟨h1, trivial⟩)

end DMore

/-- The headers of GSUB and GPOS, with their lists of scripts, features and lookups, are read as declared, whatever the
lookups are; each lookup has own code. -/
theorem C109_reads_header {S : Type} (q : Nat → Reader S) :
    Alike (fun a v => SameF (Declared.gsub10 (headerLeaf q)) (gsubHeaderV q a) v) (TableLow.read q)
      (read (.record false (Declared.gsub10 (headerLeaf q)))) ∧
    Alike (fun a v => SameF (Declared.gpos10 (headerLeaf q)) (gposHeaderV q a) v) (TableLow.read q)
      (read (.record false (Declared.gpos10 (headerLeaf q)))) := by
  refine ⟨?_, ?_⟩
  · exact alike_record rfl (alike_cons (thu16 q) fun _ _ h1 => alike_cons (thu16 q) fun _ _ h2 =>
      alike_cons (alike_link (t := .record false (Declared.scriptList layoutLeaf)) (g := scriptListV) C109_reads_script_list) fun _ _ h3 =>
      alike_cons (alike_link (t := .record false (Declared.featureList layoutLeaf)) (g := featureListV) C109_reads_feature_list) fun _ _ h4 =>
      alike_cons (alike_link (tlookups q)) fun _ _ h5 => alike_nil ⟨h1, h2, h3, h4, h5, trivial⟩)
  · exact alike_record rfl (alike_cons (thu16 q) fun _ _ h1 => alike_cons (thu16 q) fun _ _ h2 =>
      alike_cons (alike_link (t := .record false (Declared.scriptList layoutLeaf)) (g := scriptListV) C109_reads_script_list) fun _ _ h3 =>
      alike_cons (alike_link (t := .record false (Declared.featureList layoutLeaf)) (g := featureListV) C109_reads_feature_list) fun _ _ h4 =>
      alike_cons (alike_link (tlookups' q)) fun _ _ h5 => alike_nil ⟨h1, h2, h3, h4, h5, trivial⟩)

/-! ### Writing -/

namespace DMore

theorem z8 : Sized (tableLeaf "uint8") := ownLeaf_sized _ _
theorem z16 : Sized (tableLeaf "uint16") := ownLeaf_sized _ _
theorem z24 : Sized (tableLeaf "uint24") := ownLeaf_sized _ _
theorem z32 : Sized (tableLeaf "uint32") := ownLeaf_sized _ _
theorem zcov : Sized (tableLeaf "Coverage") := ownLeaf_sized _ _

theorem ru8 (vec : Bool) (x : UInt8) : Repr vec (.leaf (tableLeaf "uint8")) x (.bytes (encU8 x)) := repr_leaf rfl
theorem ru16 (vec : Bool) (x : UInt16) : Repr vec (.leaf (tableLeaf "uint16")) x (.bytes (encU16 x)) := repr_leaf rfl
theorem ru32 (vec : Bool) (x : UInt32) : Repr vec (.leaf (tableLeaf "uint32")) x (.bytes (encU32 x)) := repr_leaf rfl
theorem ru24 (vec : Bool) (x : UInt32) (bs : Bytes) (h : encU24 x = .ok bs) : Repr vec (.leaf (tableLeaf "uint24")) x (.bytes bs) :=
  repr_leaf h
theorem rcov (gs : List UInt16) (T : Tab) (h : covTab gs = .ok T) : Repr false (.leaf (tableLeaf "Coverage")) gs T := by
  unfold covTab at h
  cases e : Coverage.toBytes gs with
  | ok bs => simp only [e] at h; cases h; exact repr_leaf e
  | err => simp [e] at h
  | panic => simp [e] at h

theorem ru16s (vec : Bool) (l : List UInt16) : Repr vec (.counted .w16 (.leaf (tableLeaf "uint16"))) l (.bytes (u16s l)) := by
  have := repr_encCounted (vec := vec) (t := .leaf (tableLeaf "uint16")) (enc := encU16) (g := fun x : UInt16 => x)
    (fun a => ru16 true a) l
  exact (congrArg (fun m : List UInt16 => Repr vec (.counted .w16 (.leaf (tableLeaf "uint16"))) m (.bytes (u16s l)))
    (List.map_id' l)).mp this

theorem roff32 {α : Type} {t : Ty} {f : α → Res Tab} {g : α → t.den}
    (hf : ∀ a T, f a = .ok T → Repr false t (g a) T) (o : Option α) (T : Tab) (h : Cmap.optOff32 f o = .ok T) :
    Repr true (.off .w32 t) (linkOf g o) T := by
  cases o with
  | none => cases h; exact ⟨Tab.nullOff .w32, ⟨rfl, rfl⟩, rfl⟩
  | some a =>
    simp only [Cmap.optOff32] at h
    cases e : f a with
    | err => simp [e] at h
    | panic => simp [e] at h
    | ok C =>
      simp only [e] at h; cases h
      obtain ⟨D, d1, d2⟩ := hf a C e
      exact ⟨.link .w32 true false none D .nil, ⟨D, d1, rfl⟩, by simp only [mergeRaw, d2]⟩

theorem rcounted32 {α : Type} {vec : Bool} {t : Ty} {f : α → Res Tab} {g : α → t.den}
    (hf : ∀ a T, f a = .ok T → Repr true t (g a) T) (l : List α) (Ts : List Tab) (h : Res.mapL f l = .ok Ts) :
    Repr vec (.counted .w32 t) (l.map g) ((Tab.bytes (encU32 (UInt32.ofNat l.length))).append (Tab.concat Ts)) := by
  obtain ⟨Us, u1, u2⟩ := repr_list (R := IsTab true t) l Ts (fun a T _ hT => hf a T hT) h
  refine ⟨_, ⟨Us, u1, rfl⟩, ?_⟩
  rw [merge_append, merge_append, u2, List.length_map]
  rfl

/-- Bytes as tables. -/
def asTab {α : Type} (f : α → Res Bytes) (a : α) : Res Tab := match f a with
  | .ok bs => .ok (.bytes bs)
  | .err => .err
  | .panic => .panic

theorem asTab_mapL {α : Type} {f : α → Res Bytes} : ∀ (l : List α) (bs : List Bytes), Res.mapL f l = .ok bs →
    Res.mapL (asTab f) l = .ok (bs.map Tab.bytes)
  | [], bs, h => by cases h; rfl
  | a :: l, bs, h => by
    simp only [Res.mapL] at h
    cases e1 : f a with
    | err => simp [e1] at h
    | panic => simp [e1] at h
    | ok b =>
      cases e2 : Res.mapL f l with
      | err => simp [e1, e2] at h
      | panic => simp [e1, e2] at h
      | ok bs' =>
        simp only [e1, e2] at h; cases h
        simp only [Res.mapL, asTab, e1, asTab_mapL l bs' e2, List.map_cons]

theorem join_all : ∀ (l : List Bytes) (b : Bytes), joinRaw b (mergeRaw (Tab.concat (l.map Tab.bytes))) = .raw (b ++ l.flatten) .nil
  | [], b => by simp [Tab.concat, mergeRaw, joinRaw]
  | a :: l, b => by
    simp only [List.map_cons, Tab.concat, joinRaw_merge_bytes, join_all l]
    simp [joinRaw]

theorem rcountedTab32 {α : Type} {vec : Bool} {t : Ty} {f : α → Res Bytes} {g : α → t.den}
    (hf : ∀ a bs, f a = .ok bs → Repr true t (g a) (.bytes bs)) (l : List α) (T : Tab) (h : Cmap.counted32Tab f l = .ok T) :
    Repr vec (.counted .w32 t) (l.map g) T := by
  unfold Cmap.counted32Tab at h
  cases e : Res.mapL f l with
  | err => simp [e] at h
  | panic => simp [e] at h
  | ok bs =>
    simp only [e] at h; cases h
    obtain ⟨U, u1, u2⟩ := rcounted32 (vec := vec) (f := asTab f) (g := g) (fun a T hT => by
      unfold asTab at hT
      cases e : f a with
      | err => simp [e] at hT
      | panic => simp [e] at hT
      | ok b => simp only [e] at hT; cases hT; exact hf a b e) l _ (asTab_mapL l bs e)
    refine ⟨U, u1, u2.trans ?_⟩
    rw [joinRaw_merge_bytes, join_all]
    rfl

/-- Two runs of bytes. -/
theorem rtwo {vec b1 b2 e1 e2 : Bool} {t u : Ty} {x : t.den} {y : u.den} {a b : Bytes} (h : Repr (vec || !t.isOff) t x (.bytes a))
    (h' : Repr (vec || !u.isOff) u y (.bytes b)) : ReprF vec (.cons b1 e1 t (.cons b2 e2 u .nil)) (x, y, ()) (.bytes (a ++ b)) := by
  refine repr_merge (repr_cons h (repr_last h')) ?_
  simp [Tab.bytes, Tab.append, mergeRaw, joinRaw]

theorem rrange (a : Cmap.UnicodeRange) (bs : Bytes) (h : Cmap.encUnicodeRange a = .ok bs) :
    Repr true (.record false (Declared.fields [Declared.f tableLeaf "uint24", Declared.f tableLeaf "uint8"]))
      (a.startUnicodeValue, a.additionalCount, ()) (.bytes bs) := by
  unfold Cmap.encUnicodeRange at h
  cases e : encU24 a.startUnicodeValue with
  | err => simp [e] at h
  | panic => simp [e] at h
  | ok b => simp only [e] at h; cases h; exact repr_record (rtwo (ru24 _ _ _ e) (ru8 _ _))

theorem rmapping (a : Cmap.UvsMapping) (bs : Bytes) (h : Cmap.encUvsMapping a = .ok bs) :
    Repr true (.record false (Declared.fields [Declared.f tableLeaf "uint24", Declared.f tableLeaf "uint16"]))
      (a.unicodeValue, a.glyphID, ()) (.bytes bs) := by
  unfold Cmap.encUvsMapping at h
  cases e : encU24 a.unicodeValue with
  | err => simp [e] at h
  | panic => simp [e] at h
  | ok b => simp only [e] at h; cases h; exact repr_record (rtwo (ru24 _ _ _ e) (ru16 _ _))

theorem rdefault (l : List Cmap.UnicodeRange) (T : Tab) (h : Cmap.counted32Tab Cmap.encUnicodeRange l = .ok T) :
    Repr false (.record false (Declared.defaultUVS tableLeaf)) (defaultUvsV l) T :=
  repr_record (repr_last (rcountedTab32 rrange l T h))

theorem rnonDefault (l : List Cmap.UvsMapping) (T : Tab) (h : Cmap.counted32Tab Cmap.encUvsMapping l = .ok T) :
    Repr false (.record false (Declared.nonDefaultUVS tableLeaf)) (nonDefaultUvsV l) T :=
  repr_record (repr_last (rcountedTab32 rmapping l T h))

theorem rselector (s : Cmap.VarSelector) (T : Tab) (h : Cmap.selectorTab s = .ok T) :
    Repr true (.record true (Declared.variationSelector tableLeaf)) (selectorV s) T := by
  obtain ⟨A, a1, a2⟩ := bind_ok_inv h
  obtain ⟨B, b1, b2⟩ := bind_ok_inv a2
  obtain ⟨C, c1, c2⟩ := bind_ok_inv b2
  cases c2
  exact repr_record (repr_cons (ru24 _ _ _ a1) (repr_cons (roff32 rdefault _ _ b1) (repr_last (roff32 rnonDefault _ _ c1))))

end DMore

/-- A character map of format 14 is written by the code generated for its declaration as the model says, if all its
numbers fit in 24 bits. -/
theorem C109_cmap14 (t : Cmap.Cmap14) (T : Tab) (h : Cmap.cmap14Tab t = .ok T) :
    Der.toBytes (.record false (Declared.cmap14 tableLeaf)) (cmap14V t) = Off.toBytes T := by
  obtain ⟨Ts, a1, a2⟩ := bind_ok_inv h
  cases a2
  refine repr_toBytes (Q := fun _ => True) ?_ (by decide) (by decide) (repr_cons (ru16 _ _) (repr_cons (ru32 _ _)
    (repr_last (rcounted32 rselector t.varSelector Ts a1))))
  exact ⟨z16, z32, ⟨z24, ⟨trivial, ⟨z24, z8, trivial⟩, trivial⟩, ⟨trivial, ⟨z24, z16, trivial⟩, trivial⟩, trivial⟩, trivial⟩

/-- So are the attachment points of GDEF. -/
theorem C109_attach_list (m : List (UInt16 × List UInt16)) (T : Tab) (h : Gdef.attachTab m = .ok T) :
    Der.toBytes (.record false (Declared.attachList tableLeaf)) (attachListV (some (m.map Prod.fst), m.map (fun x => some x.2))) =
      Off.toBytes T := by
  obtain ⟨C, a1, a2⟩ := bind_ok_inv h
  obtain ⟨P, b1, b2⟩ := bind_ok_inv a2
  cases b2
  refine repr_toBytes (Q := fun _ => True) ?_ (by decide) (by decide) (repr_cons (repr_off rcov (some (m.map Prod.fst)) (Tab.off16 C) ?_)
    (repr_last (repr_offVec (fun l T hT => ?_) _ P b1)))
  · exact ⟨⟨trivial, zcov⟩, ⟨trivial, z16, trivial⟩, trivial⟩
  · simp only [optOff, a1]; rfl
  · cases hT
    exact repr_record (repr_last (ru16s _ l))

/-- So are the sets of mark glyphs. -/
theorem C109_mark_sets (l : List (List UInt16)) (T : Tab) (h : Gdef.setsTab l = .ok T) :
    Der.toBytes (.record false (Declared.markGlyphSets tableLeaf)) (markSetsV 1 (l.map some)) = Off.toBytes T := by
  obtain ⟨Ts, a1, a2⟩ := bind_ok_inv h
  cases a2
  have key : ReprF false (Declared.markGlyphSets tableLeaf) (markSetsV 1 (l.map some))
      ((Tab.bytes (encU16 1 ++ encU16 (UInt16.ofNat l.length))).append (Tab.concat Ts)) := by
    obtain ⟨Us, u1, u2⟩ := repr_list (g := fun x : List UInt16 => linkOf (fun c : List UInt16 => c) (some x))
      (R := IsLink .w32 true (IsTab false (.leaf (tableLeaf "Coverage")))) l Ts (fun a T _ hT => by
        obtain ⟨C, c1, c2⟩ := bind_ok_inv hT
        cases c2
        obtain ⟨D, d1, d2⟩ := rcov a C c1
        exact ⟨.link .w32 true false none D .nil, ⟨D, d1, rfl⟩, by simp only [mergeRaw, d2]⟩) a1
    have h2 : Repr true (.offs .w16 .w32 (.leaf (tableLeaf "Coverage"))) (l.map fun x : List UInt16 => linkOf (fun c : List UInt16 => c) (some x))
        ((Tab.bytes (encU16 (UInt16.ofNat l.length))).append (Tab.concat Ts)) := by
      refine ⟨_, ⟨Us, u1, rfl⟩, ?_⟩
      rw [merge_append, merge_append, u2, List.length_map]
      rfl
    have e : (l.map some).map (linkOf fun c : List UInt16 => c) = l.map fun x : List UInt16 => linkOf (fun c : List UInt16 => c) (some x) := by
      rw [List.map_map]; rfl
    have h3 := (congrArg (fun m : List (Link (List UInt16)) => Repr true (.offs .w16 .w32 (.leaf (tableLeaf "Coverage"))) m
      ((Tab.bytes (encU16 (UInt16.ofNat l.length))).append (Tab.concat Ts))) e).mpr h2
    refine repr_merge (repr_cons (ru16 _ 1) (repr_last h3)) ?_
    rw [joinRaw_merge_bytes, joinRaw_merge_bytes, joinRaw_merge_bytes]
    exact joinRaw_joinRaw _ _ _
  exact repr_toBytes (Q := fun _ => True) ⟨z16, ⟨trivial, zcov⟩, trivial⟩ (by decide) (by decide) key

/-- A character map of format 12 is written as declared. -/
theorem C109_cmap12 (t : Cmap.Cmap12) : Der.toBytes (.record false (Declared.cmap12 tableLeaf)) (cmap12V t) = .ok (Cmap.encCmap12 t) := by
  have h1 : ∀ l : List Cmap.Group, Res.mapL (fun g => Res.ok (Cmap.encGroup g)) l = .ok (l.map Cmap.encGroup) := by
    intro l
    induction l with
    | nil => rfl
    | cons a l ih => simp only [Res.mapL, ih, List.map_cons]
  have h2 : Cmap.counted32Tab (fun g => Res.ok (Cmap.encGroup g)) t.groups =
      .ok (.bytes (encU32 (UInt32.ofNat t.groups.length) ++ encVec Cmap.encGroup t.groups)) := by
    unfold Cmap.counted32Tab
    rw [h1]
    simp only [encVec, List.flatMap]
  have h3 := rcountedTab32 (vec := true) (t := .record false (Declared.fields [Declared.f tableLeaf "uint32", Declared.f tableLeaf "uint32",
      Declared.f tableLeaf "uint32"])) (g := groupV) (fun a bs h => ?_) t.groups _ h2
  · rw [← toBytes_bytes]
    refine repr_toBytes (Q := fun _ => True) ⟨z16, z16, z32, z32, ⟨z32, z32, z32, trivial⟩, trivial⟩ (by decide) (by decide)
      (repr_merge (repr_cons (ru16 _ _) (repr_cons (ru16 _ _) (repr_cons (ru32 _ _) (repr_cons (ru32 _ _) (repr_last h3))))) ?_)
    simp [Cmap.encCmap12, Tab.bytes, Tab.append, mergeRaw, joinRaw]
  · cases h
    refine repr_record (repr_merge (repr_cons (ru32 _ _) (repr_cons (ru32 _ _) (repr_last (ru32 _ _)))) ?_)
    simp [Cmap.encGroup, Tab.bytes, Tab.append, mergeRaw, joinRaw]

/-! ### Examples -/

/-- A list of two attachment points of glyph 7, and a map of one group. -/
example : (match Gdef.readAttachList (Rd.new [0, 6, 0, 1, 0, 12, 0, 1, 0, 1, 0, 7, 0, 2, 0, 3, 0, 4]) with
      | .ok (a, s) => some (a, s.ptr)
      | _ => none) = some ((some [7], [some [3, 4]]), 6) ∧
    (match read (.record false (Declared.attachList tableLeaf)) (Rd.new [0, 6, 0, 1, 0, 12, 0, 1, 0, 1, 0, 7, 0, 2, 0, 3, 0, 4]) with
      | .ok (_, s) => some s.ptr
      | _ => none) = some 6 := by
  refine ⟨?_, ?_⟩ <;> decide +kernel

/-- A map of format 14 with one variation of one character, and two sets of marks. -/
example : Cmap.encCmap14 ⟨14, 30, [⟨0xFE00, none, some [⟨0x4E00, 7⟩]⟩]⟩ =
      .ok [0, 14, 0, 0, 0, 30, 0, 0, 0, 1, 0, 0xFE, 0, 0, 0, 0, 0, 0, 0, 0, 21, 0, 0, 0, 1, 0, 0x4E, 0, 0, 7] ∧
    (do Off.toBytes (← Gdef.setsTab [[3], [4, 9]])) =
      .ok [0, 1, 0, 2, 0, 0, 0, 12, 0, 0, 0, 18, 0, 1, 0, 1, 0, 3, 0, 1, 0, 2, 0, 4, 0, 9] := by
  refine ⟨?_, ?_⟩ <;> decide +kernel

example : (match Cmap.readCmap12 (Rd.new [0, 12, 0, 0, 0, 0, 0, 28, 0, 0, 0, 0, 0, 0, 0, 1, 0, 0, 0, 65, 0, 0, 0, 67, 0, 0, 0, 5]) with
      | .ok (a, s) => some (a, s.ptr)
      | _ => none) = some (⟨12, 0, 28, 0, [⟨65, 67, 5⟩]⟩, 28) := by
  decide +kernel

end FT.Props
