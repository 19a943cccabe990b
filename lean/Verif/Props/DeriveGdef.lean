import Verif.Props.DeriveMore

/-! # C109: the whole GDEF table is written as its declarations say -/

namespace FT.Props
open FT FT.Off FT.Der FT.Lay

/-- The code behind the names in the declarations of GDEF (Model/Declarations) that have code of their own. -/
def gdefLeaf (n : String) : Leaf :=
  match n with
  | "Coverage" => ownLeaf Coverage.toBytes Coverage.read
  | "ClassDef" => ownLeaf ClassDef.toBytes ClassDef.read
  | "CaretValue" => ownLeaf (fun c => do Off.toBytes (← Gdef.caretTab c)) Gdef.readCaret
  | "ItemVariationStore" => ownLeaf ItemVar.encStore ItemVar.readStore
  | _ => ownLeaf (fun x => .ok (encU16 x)) readU16

/-! ### What `From<&GDEF> for gdefcore12` and `gdefcore13` make (GDEF.rs:292-413), fields in the declared order -/

/-- A null offset for an empty map. -/
def orNull {α : Type} (m : List α) : Option (List α) := if m.isEmpty then none else some m

def gAttachV (m : List (UInt16 × List UInt16)) : (Declared.attachList gdefLeaf).den :=
  (Link.to (m.map Prod.fst), m.map (fun x => Link.to (x.2, ())), ())
def gCaretsV (m : List (UInt16 × List Gdef.Caret)) : (Declared.ligCaretList gdefLeaf).den :=
  (Link.to (m.map Prod.fst), m.map (fun x => Link.to (x.2.map (fun c : Gdef.Caret => Link.to c), ())), ())
def gSetsV (l : List (List UInt16)) : (Declared.markGlyphSets gdefLeaf).den :=
  ((1 : UInt16), l.map (fun x : List UInt16 => Link.to x), ())

def gdef12V (g : Gdef.GDEF) : (Declared.gdefcore12 gdefLeaf).den :=
  ((1 : UInt16), (2 : UInt16), linkV (orNull (g.glyphClass.map (fun x => (x.1, x.2.num)))),
    linkOf gAttachV (orNull g.attach), linkOf gCaretsV (orNull g.carets), linkV (orNull g.markClass),
    linkOf gSetsV g.markSets, ())
def gdef13V (g : Gdef.GDEF) (s : ItemVar.Store) : (Declared.gdefcore13 gdefLeaf).den :=
  ((1 : UInt16), (3 : UInt16), linkV (orNull (g.glyphClass.map (fun x => (x.1, x.2.num)))),
    linkOf gAttachV (orNull g.attach), linkOf gCaretsV (orNull g.carets), linkV (orNull g.markClass),
    linkOf gSetsV g.markSets, Link.to s, ())

/-- A caret without a device: a coordinate or a point. -/
def PlainCaret : Gdef.Caret → Prop
  | .format1 _ => True
  | .format2 _ => True
  | .format3 _ _ => False

/-! ### Each field is what the model writes

Writing does not look at `[offset_base]`, so `MarkGlyphSets`, which lacks it (C106_unbased), can be given it here. -/

abbrev basedSets (own : String → Leaf) := Declared.fields [Declared.offsetBase (Declared.f own "uint16"), Declared.countedOffset32 (Declared.named own "Coverage")]
abbrev based12 (own : String → Leaf) := Declared.fields [Declared.f own "uint16", Declared.f own "uint16", Declared.offset16 (Declared.named own "ClassDef"),
  Declared.offset16 (.record false (Declared.attachList own)), Declared.offset16 (.record false (Declared.ligCaretList own)),
  Declared.offset16 (Declared.named own "ClassDef"), Declared.offset16 (.record false (basedSets own))]
abbrev based13 (own : String → Leaf) := Declared.fields [Declared.f own "uint16", Declared.f own "uint16", Declared.offset16 (Declared.named own "ClassDef"),
  Declared.offset16 (.record false (Declared.attachList own)), Declared.offset16 (.record false (Declared.ligCaretList own)),
  Declared.offset16 (Declared.named own "ClassDef"), Declared.offset16 (.record false (basedSets own)),
  Declared.offset32 (Declared.named own "ItemVariationStore")]

theorem based12_same (own : String → Leaf) (v : (Declared.gdefcore12 own).den) :
    Der.toBytes (.record false (Declared.gdefcore12 own)) v = Der.toBytes (.record false (based12 own)) v := by
  obtain ⟨v1, v2, v3, v4, v5, v6, v7, v8⟩ := v
  simp only [Declared.fields, Declared.f, Declared.offsetBase, Declared.countedOffset32, Declared.offset16, Declared.plain, Declared.named,
    Der.toBytes, marksF, sizeF, Der.size, place, placeDirect, placeRest, placeHere, Der.shallow, writeDirect, writeRest, writeHere,
    write, Der.own]
  rfl
theorem based13_same (own : String → Leaf) (v : (Declared.gdefcore13 own).den) :
    Der.toBytes (.record false (Declared.gdefcore13 own)) v = Der.toBytes (.record false (based13 own)) v := by
  obtain ⟨v1, v2, v3, v4, v5, v6, v7, v8, v9⟩ := v
  simp only [Declared.fields, Declared.f, Declared.offsetBase, Declared.countedOffset32, Declared.offset16, Declared.offset32, Declared.plain, Declared.named,
    Der.toBytes, marksF, sizeF, Der.size, place, placeDirect, placeRest, placeHere, Der.shallow, writeDirect, writeRest, writeHere,
    write, Der.own]
  rfl

theorem gu16 (vec : Bool) (x : UInt16) : Repr vec (.leaf (gdefLeaf "uint16")) x (.bytes (encU16 x)) := repr_leaf rfl
theorem gcov (gs : List UInt16) (T : Tab) (h : covTab gs = .ok T) : Repr false (.leaf (gdefLeaf "Coverage")) gs T := by
  unfold covTab at h
  cases e : Coverage.toBytes gs with
  | ok bs => simp only [e] at h; cases h; exact repr_leaf e
  | err => simp [e] at h
  | panic => simp [e] at h
theorem gclass (m : List (UInt16 × UInt16)) (T : Tab) (h : classTab m = .ok T) : Repr false (.leaf (gdefLeaf "ClassDef")) m T := by
  unfold classTab at h
  cases e : ClassDef.toBytes m with
  | ok bs => simp only [e] at h; cases h; exact repr_leaf e
  | err => simp [e] at h
  | panic => simp [e] at h
theorem gu16s (vec : Bool) (l : List UInt16) : Repr vec (.counted .w16 (.leaf (gdefLeaf "uint16"))) l (.bytes (u16s l)) := by
  have := repr_encCounted (vec := vec) (t := .leaf (gdefLeaf "uint16")) (enc := encU16) (g := fun x : UInt16 => x)
    (fun a => gu16 true a) l
  exact (congrArg (fun m : List UInt16 => Repr vec (.counted .w16 (.leaf (gdefLeaf "uint16"))) m (.bytes (u16s l)))
    (List.map_id' l)).mp this

theorem gcaret (c : Gdef.Caret) (hc : PlainCaret c) (T : Tab) (h : Gdef.caretTab c = .ok T) :
    Repr false (.leaf (gdefLeaf "CaretValue")) c T := by
  cases c with
  | format1 x => cases h; exact repr_leaf (toBytes_bytes _)
  | format2 x => cases h; exact repr_leaf (toBytes_bytes _)
  | format3 x d => exact hc.elim

/-- A list of offsets, none of them null; each table is needed only for the members. -/
theorem goffVec {α : Type} {vec : Bool} {t : Ty} {f : α → Res Tab} {g : α → t.den} (l : List α)
    (hf : ∀ a, a ∈ l → ∀ T, f a = .ok T → Repr false t (g a) T) (T : Tab) (h : offVec f (l.map some) = .ok T) :
    Repr vec (.offs .w16 .w16 t) (l.map (fun a => Link.to (g a))) T := by
  simp only [offVec] at h
  cases e : Res.mapL (optOff true f) (l.map some) with
  | err => simp [e] at h
  | panic => simp [e] at h
  | ok Ts =>
    simp only [e] at h; cases h
    obtain ⟨Us, u1, u2⟩ := repr_list (R := IsLink .w16 true (IsTab false t)) (g := linkOf g) (l.map some) Ts (fun o T ho hT => by
      obtain ⟨a, ha, rfl⟩ := List.mem_map.mp ho
      simp only [optOff] at hT
      cases e : f a with
      | err => simp [e] at hT
      | panic => simp [e] at hT
      | ok C =>
        simp only [e] at hT; cases hT
        obtain ⟨D, d1, d2⟩ := hf a ha C e
        exact ⟨.link .w16 true false none D .nil, ⟨D, d1, rfl⟩, by simp only [mergeRaw, d2]⟩) e
    have e2 : (l.map some).map (linkOf g) = l.map (fun a => Link.to (g a)) := by rw [List.map_map]; rfl
    rw [e2] at u1
    refine ⟨_, ⟨Us, u1, rfl⟩, ?_⟩
    rw [merge_append, merge_append, u2, List.length_map, List.length_map]
    try rfl

theorem gcovLink (gs : List UInt16) (C : Tab) (h : covTab gs = .ok C) :
    Repr false (.off .w16 (.leaf (gdefLeaf "Coverage"))) (Link.to gs) (Tab.off16 C) := by
  obtain ⟨D, d1, d2⟩ := gcov gs C h
  exact ⟨.link .w16 false false none D .nil, ⟨D, d1, rfl⟩, by simp only [mergeRaw, d2]⟩

theorem gattach (m : List (UInt16 × List UInt16)) (T : Tab) (h : Gdef.attachTab m = .ok T) :
    Repr false (.record false (Declared.attachList gdefLeaf)) (gAttachV m) T := by
  obtain ⟨C, a1, a2⟩ := bind_ok_inv h
  obtain ⟨P, b1, b2⟩ := bind_ok_inv a2
  cases b2
  have b1 : offVec (fun l => .ok (.bytes (u16s l))) ((m.map Prod.snd).map some) = .ok P := by
    rw [List.map_map]; exact b1
  have h2 := goffVec (vec := true) (t := .record false (Declared.attachPoint gdefLeaf)) (g := fun l : List UInt16 => ((l, ()) : (Declared.attachPoint gdefLeaf).den)) (m.map Prod.snd)
    (fun l _ T hT => by cases hT; exact repr_record (repr_last (gu16s _ l))) P b1
  rw [List.map_map] at h2
  exact repr_record (repr_cons (gcovLink _ C a1) (repr_last h2))

theorem gcarets (m : List (UInt16 × List Gdef.Caret)) (hc : ∀ x ∈ m, ∀ c ∈ x.2, PlainCaret c) (T : Tab) (h : Gdef.caretsTab m = .ok T) :
    Repr false (.record false (Declared.ligCaretList gdefLeaf)) (gCaretsV m) T := by
  obtain ⟨C, a1, a2⟩ := bind_ok_inv h
  obtain ⟨P, b1, b2⟩ := bind_ok_inv a2
  cases b2
  have b1 : offVec (fun l : List Gdef.Caret => Gdef.ligGlyphTab (l.map some)) ((m.map Prod.snd).map some) = .ok P := by
    rw [← b1]
    simp only [offVec, List.length_map]
    have : ∀ m : List (UInt16 × List Gdef.Caret), Res.mapL (optOff true fun l : List Gdef.Caret => Gdef.ligGlyphTab (l.map some)) ((m.map Prod.snd).map some) =
        Res.mapL (optOff true Gdef.ligGlyphTab) (m.map fun x => some (x.2.map some)) := by
      intro m
      induction m with
      | nil => rfl
      | cons x m ih => simp only [List.map_cons, Res.mapL, ih]; rfl
    rw [this m]
  have h2 := goffVec (vec := true) (t := .record false (Declared.ligGlyph gdefLeaf))
    (g := fun l : List Gdef.Caret => ((l.map (fun c : Gdef.Caret => Link.to c), ()) : (Declared.ligGlyph gdefLeaf).den)) (m.map Prod.snd)
    (fun l hl T hT => by
      obtain ⟨x, hx, rfl⟩ := List.mem_map.mp hl
      exact repr_record (repr_last (goffVec (t := .leaf (gdefLeaf "CaretValue")) (g := fun c : Gdef.Caret => c) x.2 (fun c hcm T hT => gcaret c (hc x hx c hcm) T hT) T hT))) P b1
  rw [List.map_map] at h2
  exact repr_record (repr_cons (gcovLink _ C a1) (repr_last h2))

theorem gsets (l : List (List UInt16)) (T : Tab) (h : Gdef.setsTab l = .ok T) :
    Repr false (.record false (basedSets gdefLeaf)) (gSetsV l) T := by
  obtain ⟨Ts, a1, a2⟩ := bind_ok_inv h
  cases a2
  obtain ⟨Us, u1, u2⟩ := repr_list (g := fun x : List UInt16 => Link.to x)
    (R := IsLink .w32 true (IsTab false (.leaf (gdefLeaf "Coverage")))) l Ts (fun a T _ hT => by
      obtain ⟨C, c1, c2⟩ := bind_ok_inv hT
      cases c2
      obtain ⟨D, d1, d2⟩ := gcov a C c1
      exact ⟨.link .w32 true false none D .nil, ⟨D, d1, rfl⟩, by simp only [mergeRaw, d2]⟩) a1
  have h2 : Repr true (.offs .w16 .w32 (.leaf (gdefLeaf "Coverage"))) (l.map fun x : List UInt16 => Link.to x)
      ((Tab.bytes (encU16 (UInt16.ofNat l.length))).append (Tab.concat Ts)) := by
    refine ⟨_, ⟨Us, u1, rfl⟩, ?_⟩
    rw [merge_append, merge_append, u2, List.length_map]
    rfl
  refine repr_record (repr_merge (repr_cons (gu16 _ 1) (repr_last h2)) ?_)
  rw [joinRaw_merge_bytes, joinRaw_merge_bytes, joinRaw_merge_bytes]
  exact joinRaw_joinRaw _ _ _

theorem gmap {α : Type} {t : Ty} {f : List α → Res Tab} {g : List α → t.den} (m : List α)
    (hf : ∀ T, f m = .ok T → Repr false t (g m) T) (T : Tab) (h : Gdef.mapOff f m = .ok T) :
    Repr false (.off .w16 t) (linkOf g (orNull m)) T := by
  unfold Gdef.mapOff at h
  unfold orNull
  split at h
  · rename_i hm
    rw [if_pos hm]
    cases h
    exact ⟨Tab.nullOff .w16, ⟨rfl, rfl⟩, rfl⟩
  · rename_i hm
    rw [if_neg hm]
    simp only [optOff] at h
    cases e : f m with
    | err => simp [e] at h
    | panic => simp [e] at h
    | ok C =>
      simp only [e] at h; cases h
      obtain ⟨D, d1, d2⟩ := hf C e
      exact ⟨.link .w16 false false none D .nil, ⟨D, d1, rfl⟩, by simp only [mergeRaw, d2]⟩

theorem gz (n : String) : Sized (gdefLeaf n) := by
  unfold gdefLeaf
  split <;> exact ownLeaf_sized _ _

/-- A whole GDEF table is written as declared: as `gdefcore12` without an item variation store. -/
theorem C109_gdef12 (g : Gdef.GDEF) (T : Tab) (hc : ∀ x ∈ g.carets, ∀ c ∈ x.2, PlainCaret c) (hs : g.store = none)
    (h : Gdef.gdefTab g = .ok T) :
    Der.toBytes (.record false (Declared.gdefcore12 gdefLeaf)) (gdef12V g) = Off.toBytes T := by
  obtain ⟨t1, a1, h⟩ := bind_ok_inv h
  obtain ⟨t2, a2, h⟩ := bind_ok_inv h
  obtain ⟨t3, a3, h⟩ := bind_ok_inv h
  obtain ⟨t4, a4, h⟩ := bind_ok_inv h
  obtain ⟨t5, a5, h⟩ := bind_ok_inv h
  obtain ⟨t6, a6, h⟩ := bind_ok_inv h
  rw [hs] at a6 h
  cases a6
  cases h
  refine (based12_same gdefLeaf _).trans ?_
  refine repr_toBytes (Q := fun _ => True) ?_ (by decide) (by decide)
    (repr_cons (gu16 _ 1) (repr_cons (gu16 _ 2) (repr_cons (gmap _ (gclass _) _ a1) (repr_cons (gmap _ (gattach _) _ a2)
      (repr_cons (gmap _ (gcarets _ hc) _ a3) (repr_cons (gmap _ (gclass _) _ a4) (repr_cons (repr_off gsets _ _ a5) (repr_nil _))))))))
  exact ⟨gz _, gz _, ⟨trivial, gz _⟩, ⟨trivial, ⟨trivial, gz _⟩, ⟨trivial, gz _, trivial⟩, trivial⟩,
    ⟨trivial, ⟨trivial, gz _⟩, ⟨trivial, ⟨trivial, gz _⟩, trivial⟩, trivial⟩, ⟨trivial, gz _⟩, ⟨trivial, gz _, ⟨trivial, gz _⟩, trivial⟩, trivial⟩

/-- And as `gdefcore13` with one. -/
theorem C109_gdef13 (g : Gdef.GDEF) (s : ItemVar.Store) (T : Tab) (hc : ∀ x ∈ g.carets, ∀ c ∈ x.2, PlainCaret c) (hs : g.store = some s)
    (h : Gdef.gdefTab g = .ok T) :
    Der.toBytes (.record false (Declared.gdefcore13 gdefLeaf)) (gdef13V g s) = Off.toBytes T := by
  obtain ⟨t1, a1, h⟩ := bind_ok_inv h
  obtain ⟨t2, a2, h⟩ := bind_ok_inv h
  obtain ⟨t3, a3, h⟩ := bind_ok_inv h
  obtain ⟨t4, a4, h⟩ := bind_ok_inv h
  obtain ⟨t5, a5, h⟩ := bind_ok_inv h
  obtain ⟨t6, a6, h⟩ := bind_ok_inv h
  rw [hs] at a6 h
  cases h
  have a6 : Gdef.storeLink s = .ok t6 := a6
  unfold Gdef.storeLink at a6
  split at a6
  · rename_i bs hb
    cases a6
    have hst : Repr false (.off .w32 (.leaf (gdefLeaf "ItemVariationStore"))) (Link.to s) (.link .w32 false false none (.bytes bs) .nil) :=
      ⟨_, ⟨.bytes bs, ⟨bs, hb, rfl⟩, rfl⟩, rfl⟩
    refine (based13_same gdefLeaf _).trans ?_
    refine repr_toBytes (Q := fun _ => True) ?_ (by decide) (by decide)
      (repr_cons (gu16 _ 1) (repr_cons (gu16 _ 3) (repr_cons (gmap _ (gclass _) _ a1) (repr_cons (gmap _ (gattach _) _ a2)
        (repr_cons (gmap _ (gcarets _ hc) _ a3) (repr_cons (gmap _ (gclass _) _ a4) (repr_cons (repr_off gsets _ _ a5) (repr_last hst))))))))
    exact ⟨gz _, gz _, ⟨trivial, gz _⟩, ⟨trivial, ⟨trivial, gz _⟩, ⟨trivial, gz _, trivial⟩, trivial⟩,
      ⟨trivial, ⟨trivial, gz _⟩, ⟨trivial, ⟨trivial, gz _⟩, trivial⟩, trivial⟩, ⟨trivial, gz _⟩, ⟨trivial, gz _, ⟨trivial, gz _⟩, trivial⟩, ⟨trivial, gz _⟩, trivial⟩
  · cases a6

/-! ### Reading -/

/-- What reading a `gdefcore11` gives (GDEF.rs:21-28), offsets followed. -/
structure Core11 where
  major : UInt16
  minor : UInt16
  glyphClass : Option (List (UInt16 × UInt16))
  attach : Option (Cov × List (Option (List UInt16)))
  carets : Option (Cov × List (Option (List (Option Gdef.Caret))))
  markClass : Option (List (UInt16 × UInt16))

def core11V (c : Core11) : (Declared.gdefcore11 tableLeaf).den :=
  (c.major, c.minor, linkV c.glyphClass, linkOf attachListV c.attach, linkOf ligCaretListV c.carets, linkV c.markClass, ())

/-- `From` of what was read (GDEF.rs:247-280), after the `gdefcore11`. -/
def gdefOf (c : Core11) : Reader Gdef.GDEF := do
  let markSets ← Gdef.readSetsField c.minor
  let store ← Gdef.readStoreField c.minor
  let attach ← Reader.lift (Gdef.orEmpty Gdef.attachMap c.attach)
  let carets ← Reader.lift (Gdef.orEmpty Gdef.caretMap c.carets)
  return { glyphClass := (c.glyphClass.getD []).map (fun x => (x.1, Gdef.GlyphClass.ofNum x.2)), attach, carets,
           markClass := c.markClass.getD [], markSets, store }

/-- A GDEF table of any version is read as a `gdefcore11`, as declared, and then the fields of later versions. -/
theorem C109_reads_gdefcore : ∃ core : Reader Core11,
    Gdef.readGdef = (do gdefOf (← core)) ∧
    Alike (fun a v => SameF (Declared.gdefcore11 tableLeaf) (core11V a) v) core (read (.record false (Declared.gdefcore11 tableLeaf))) := by
  refine ⟨readU16 >>= fun major => readU16 >>= fun minor => readOffset .w16 ClassDef.read >>= fun gc =>
    readOffset .w16 Gdef.readAttachList >>= fun al => readOffset .w16 Gdef.readLigCaretList >>= fun lc =>
    readOffset .w16 ClassDef.read >>= fun mc => pure ⟨major, minor, gc, al, lc, mc⟩, ?_, ?_⟩
  · simp only [bind_assoc_reader, pure_bind_reader]
    rfl
  · exact alike_record rfl (alike_cons DMore.tu16 fun _ _ h1 => alike_cons DMore.tu16 fun _ _ h2 =>
      alike_cons (alike_link (t := .leaf (tableLeaf "ClassDef")) (g := fun x : List (UInt16 × UInt16) => x) (alike_self _)) fun _ _ h3 =>
      alike_cons (alike_link (t := .record false (Declared.attachList tableLeaf)) (g := attachListV) C109_reads_gdef.1) fun _ _ h4 =>
      alike_cons (alike_link (t := .record false (Declared.ligCaretList tableLeaf)) (g := ligCaretListV) C109_reads_gdef.2.1) fun _ _ h5 =>
      alike_cons (alike_link (t := .leaf (tableLeaf "ClassDef")) (g := fun x : List (UInt16 × UInt16) => x) (alike_self _)) fun _ _ h6 =>
      alike_nil ⟨h1, h2, h3, h4, h5, h6, trivial⟩)

/-- A table with glyph classes, an attachment point, two carets, marks, and a set. -/
example : let g : Gdef.GDEF := ⟨[(3, .base), (4, .mark)], [(3, [7, 9])], [(5, [.format1 300, .format2 6])], [(4, 1)], some [[4]], none⟩
    (∀ x ∈ g.carets, ∀ c ∈ x.2, PlainCaret c) ∧ (match Gdef.encGdef g with
      | .ok bs => some (bs.take 14, bs.length)
      | _ => none) = some ([0, 1, 0, 2, 0, 14, 0, 24, 0, 42, 0, 68, 0, 76], 90) := by
  refine ⟨?_, ?_⟩
  · intro x hx c hc
    simp only [List.mem_singleton] at hx
    subst hx
    simp only [List.mem_cons, List.not_mem_nil, or_false] at hc
    rcases hc with rfl | rfl <;> trivial
  · decide +kernel

/-- A table of version 1.2 with one glyph class and no list of carets. -/
example : (match Gdef.readGdef (Rd.new [0, 1, 0, 2, 0, 14, 0, 0, 0, 0, 0, 0, 0, 0, 0, 1, 0, 7, 0, 1, 0, 3]) with
      | .ok (a, s) => some (a, s.ptr)
      | _ => none) = some (⟨[(7, .mark)], [], [], [], none, none⟩, 14) := by
  decide +kernel

end FT.Props
