import Verif.Props.ForeignGposTable
import Verif.Props.SpecGdef
import Verif.Props.Gdef

/-!
# C90: GDEF tables written by any program
-/

namespace FT.Props
open FT Reader FT.Off FT.Lay FT.Gdef

/-! ### Specification -/

/-- What a GDEF table says. Lists of glyphs are coverage tables, with one entry of the list after it for each glyph. -/
structure GdefSays where
  /-- the minor version: 0, 2 or 3 -/
  minor : Nat
  classes : Option (List (UInt16 × UInt16))
  attach : Option (Cov × List (Option (List UInt16)))
  carets : Option (Cov × List (Option (List (Option Caret))))
  markClasses : Option (List (UInt16 × UInt16))
  markSets : Option (List Cov)
  store : Option ItemVar.Store

/-- An offset of four bytes. -/
def linked32 {α : Type} (P : α → Bytes → Nat → Prop) : Option α → Cell
  | none => .null 4
  | some a => .ref 4 (P a)

def anyAttachRows (x : Cov × List (Option (List UInt16))) : List Cell :=
  linked CoverageAt x.1 :: setRows (fun l => At (wordRows l)) x.2
def anyCaretRows (x : Cov × List (Option (List (Option Caret)))) : List Cell :=
  linked CoverageAt x.1 :: setRows (fun l => At (setRows (fun c => At (caretRows c)) l)) x.2
def anyMarkSetRows (l : List Cov) : List Cell := [.num 2 1, .num 2 l.length] ++ l.map (linked32 CoverageAt)

/-- GDEF, versions 1.0, 1.2 and 1.3. -/
def anyGdefRows (t : GdefSays) : List Cell :=
  [.num 2 1, .num 2 t.minor, linked ClassListAt t.classes, linked (fun x => At (anyAttachRows x)) t.attach,
    linked (fun x => At (anyCaretRows x)) t.carets, linked ClassListAt t.markClasses] ++
  ((if 2 ≤ t.minor then [linked (fun l => At (anyMarkSetRows l)) t.markSets] else []) ++
  (if 3 ≤ t.minor then [linked32 (fun s => At (itemStoreRows s)) t.store] else []))

/-- The glyph classes by number; 0 is no class. -/
def glyphClassSays (t : GdefSays) (g : UInt16) : Option GlyphClass :=
  match (classOf (t.classes.getD []) g).toNat with
  | 1 => some .base
  | 2 => some .ligature
  | 3 => some .mark
  | 4 => some .component
  | _ => none

/-- The contour points of a glyph to attach to. -/
def attachSays (t : GdefSays) (g : UInt16) : Option (List UInt16) := do
  let x ← t.attach
  let l ← entryOf (covGlyphs x.1) x.2 g
  l

/-- The carets of a ligature. -/
def caretsSays (t : GdefSays) (g : UInt16) : Option (List Caret) := do
  let x ← t.carets
  let l ← entryOf (covGlyphs x.1) x.2 g
  let l ← l
  return l.filterMap id

/-- Where the reader goes right: versions 1.0, 1.2 and 1.3; glyph 65535 has no properties; class tables list glyphs
once, in order, with classes 1 to 4 for `classes`; glyphs are covered once; offsets in the attachment and caret lists are
not null (except to the carets of a glyph), carets have no devices; no mark glyph set and no item variation store. -/
structure GdefReadable (t : GdefSays) : Prop where
  minor : t.minor = 0 ∨ t.minor = 2 ∨ t.minor = 3
  classes : ClsOk t.classes
  known : ∀ m ∈ t.classes, ∀ x ∈ m, 1 ≤ x.2.toNat ∧ x.2.toNat ≤ 4
  markClasses : ClsOk t.markClasses
  attach : ∀ x ∈ t.attach, CovOk x.1 ∧ x.1.isSome ∧ (covGlyphs x.1).Nodup ∧ x.2.length ≤ 65535 ∧
    ∀ l ∈ x.2, l.isSome ∧ ∀ p ∈ l, p.length ≤ 65535
  carets : ∀ x ∈ t.carets, CovOk x.1 ∧ (covGlyphs x.1).Nodup ∧ x.2.length ≤ 65535 ∧
    ∀ l ∈ x.2, ∀ cs ∈ l, cs.length ≤ 65535 ∧ ∀ c ∈ cs, ∃ v, c = some v ∧ NoDevice v
  markSets : ∀ l ∈ t.markSets, l = []
  store : t.store = none

/-! ### Proofs -/

theorem plain_null32 {α : Type} (p : Reader α) : Plain (readOffset .w32 p) none [.null 4] := by
  intro B base pos stk hs
  obtain ⟨⟨h1, h2⟩, _⟩ := hs
  obtain ⟨y, e1, e2⟩ := readU32_ok (r := ⟨B, pos, stk⟩) h1
  unfold readOffset readWidth
  rw [bind_run]
  simp only [bind_run, e2, pure_run]
  simp only at e1
  rw [e1, h2]
  rfl

theorem plain_null16 {α : Type} (p : Reader α) : Plain (readOffset .w16 p) none [.null 2] := by
  intro B base pos stk hs
  obtain ⟨⟨h1, h2⟩, _⟩ := hs
  obtain ⟨y, e1, e2⟩ := readU16_ok (r := ⟨B, pos, stk⟩) h1
  unfold readOffset readWidth
  rw [bind_run]
  simp only [bind_run, e2, pure_run]
  simp only at e1
  rw [e1, h2]
  rfl

theorem finds_caret {c : Caret} (h : NoDevice c) : FindsAt readCaret c (At (caretRows c)) := by
  have : Plain readCaret c (caretRows c) := by
    unfold readCaret
    cases c with
    | format1 c =>
      refine (plain_num16 1 (by decide)).cons ?_
      rw [if_pos rfl]
      exact (plain_i16 c).last rfl
    | format2 p =>
      refine (plain_num16 2 (by decide)).cons ?_
      rw [if_neg (by decide), if_pos rfl]
      exact (plain_u16 p).last rfl
    | format3 c d =>
      cases d with
      | dev k d => exact h.elim
      | null =>
        refine (plain_num16 3 (by decide)).cons ?_
        rw [if_neg (by decide), if_neg (by decide), if_pos rfl]
        exact (plain_i16 c).cons ((plain_null16 _).last rfl)
  exact this.table (by cases c <;> simp [caretRows, widths_cons, Cell.width])

theorem finds_attachList {x : Cov × List (Option (List UInt16))} (hc : CovOk x.1) (hl : x.2.length ≤ 65535)
    (hp : ∀ l ∈ x.2, ∀ p ∈ l, p.length ≤ 65535) : FindsAt readAttachList x (At (anyAttachRows x)) := by
  refine Finds.table (p := _) ?_ (by simp [anyAttachRows, widths_cons, setRows, Cell.width])
  unfold anyAttachRows
  exact (finds_cov hc).cons ((finds_offVec hl fun l hx p hm => (plain_words (hp l hx p hm)).table (words_wide p)).last rfl)

theorem finds_caretList {x : Cov × List (Option (List (Option Caret)))} (hc : CovOk x.1) (hl : x.2.length ≤ 65535)
    (hp : ∀ l ∈ x.2, ∀ cs ∈ l, cs.length ≤ 65535 ∧ ∀ c ∈ cs, ∃ v, c = some v ∧ NoDevice v) :
    FindsAt readLigCaretList x (At (anyCaretRows x)) := by
  refine Finds.table (p := _) ?_ (by simp [anyCaretRows, widths_cons, setRows, Cell.width])
  unfold anyCaretRows
  refine (finds_cov hc).cons ((finds_offVec hl fun l hx cs hm => ?_).last rfl)
  obtain ⟨h1, h2⟩ := hp l hx cs hm
  refine Finds.table (p := _) (finds_offVec h1 fun c hc a ha => ?_) (set_wide _ _)
  obtain ⟨v, rfl, hv⟩ := h2 c hc
  cases ha
  exact finds_caret hv

theorem finds_noSets : FindsAt readMarkSets [] (At (anyMarkSetRows [])) := by
  refine Plain.table (p := _) ?_ (by simp [anyMarkSetRows, widths_cons, Cell.width])
  exact (plain_num16 1 (by decide)).cons (plain_counted1 (p := readOffset .w32 Coverage.read) (row := linked32 CoverageAt) (l := [])
    (by simp) (by simp))

theorem finds_setsField {t : GdefSays} (h : GdefReadable t) :
    Finds (readSetsField (UInt16.ofNat t.minor)) (if 2 ≤ t.minor then t.markSets.map (fun _ => []) else none)
      (if 2 ≤ t.minor then [linked (fun l => At (anyMarkSetRows l)) t.markSets] else []) := by
  have hm : (UInt16.ofNat t.minor).toNat = t.minor := ofNat16_toNat (by rcases h.minor with e | e | e <;> omega)
  unfold readSetsField
  rw [hm]
  by_cases hc : 2 ≤ t.minor
  · rw [if_pos (by omega), if_pos hc, if_pos hc]
    refine Finds.lift (a := t.markSets) (finds_linked fun l hl => ?_) ?_
    · rw [h.markSets l hl]; exact finds_noSets
    · cases e : t.markSets with
      | none => rfl
      | some l =>
        rw [h.markSets l (by rw [e]; rfl)]
        rfl
  · rw [if_neg (by omega), if_neg hc, if_neg hc]
    exact finds_pure none

theorem finds_storeField {t : GdefSays} (h : GdefReadable t) :
    Finds (readStoreField (UInt16.ofNat t.minor)) none
      (if 3 ≤ t.minor then [linked32 (fun s => At (itemStoreRows s)) t.store] else []) := by
  have hm : (UInt16.ofNat t.minor).toNat = t.minor := ofNat16_toNat (by rcases h.minor with e | e | e <;> omega)
  unfold readStoreField
  rw [hm, h.store]
  by_cases hc : 3 ≤ t.minor
  · rw [if_pos (by omega), if_pos hc]
    exact (plain_null32 _).finds
  · rw [if_neg (by omega), if_neg hc]
    exact finds_pure none

theorem attach_map {t : GdefSays} (h : GdefReadable t) :
    ∃ m, orEmpty attachMap t.attach = .ok m ∧ ∀ g, valueOf m g = attachSays t g := by
  unfold attachSays
  have ha := h.attach
  cases hx : t.attach with
  | none => exact ⟨[], rfl, fun g => rfl⟩
  | some x =>
    obtain ⟨h1, h2, h3, h4, h5⟩ := ha x (by rw [hx]; rfl)
    obtain ⟨c, l⟩ := x
    cases c with
    | none => cases h2
    | some gs =>
      have e : Res.mapL attachEntry (gs.zip l) = .ok ((gs.zip l).map (fun p => (p.1, p.2.getD []))) := by
        refine mapL_map _ _ fun p hp => ?_
        obtain ⟨a, b⟩ := p
        have := (h5 b (List.of_mem_zip hp).2).1
        cases b with
        | none => cases this
        | some b => rfl
      refine ⟨_, by simp only [orEmpty, attachMap, Res.unwrap, Res.ok_bind, e]; rfl, fun g => ?_⟩
      have e2 : (gs.zip l).map (fun p => (p.1, p.2.getD [])) = gs.zip (l.map (fun x => x.getD [])) := by
        rw [List.zip_map_right]; rfl
      rw [e2, valueOf_zip (show gs.Nodup from h3), entryOf_map]
      show _ = (entryOf gs l g).bind id
      cases eo : entryOf gs l g with
      | none => rfl
      | some x =>
        have := (h5 x (entryOf_mem eo)).1
        cases x with
        | none => cases this
        | some p => rfl

theorem caret_map {t : GdefSays} (h : GdefReadable t) :
    ∃ m, orEmpty caretMap t.carets = .ok m ∧ ∀ g, valueOf m g = caretsSays t g := by
  unfold caretsSays
  have ha := h.carets
  cases hx : t.carets with
  | none => exact ⟨[], rfl, fun g => rfl⟩
  | some x =>
    obtain ⟨h1, h3, h4, h5⟩ := ha x (by rw [hx]; rfl)
    obtain ⟨c, l⟩ := x
    simp only at h1 h3 h4 h5
    have e : Res.mapL caretEntry ((covGlyphs c).zip l) =
        .ok (((covGlyphs c).zip l).map (fun p => p.2.map (fun cs => (p.1, cs.filterMap id)))) := by
      refine mapL_map _ _ fun p hp => ?_
      obtain ⟨a, b⟩ := p
      have hb := h5 b (List.of_mem_zip hp).2
      cases b with
      | none => rfl
      | some cs =>
        have hcs := (hb cs rfl).2
        have : Res.mapL Res.unwrap cs = .ok (cs.filterMap id) := by
          clear hb hp
          induction cs with
          | nil => rfl
          | cons x cs ih =>
            obtain ⟨v, rfl, _⟩ := hcs x (by simp)
            rw [Res.mapL, ih fun c hc => hcs c (by simp [hc])]
            rfl
        simp only [caretEntry, this, Res.ok_bind]
        rfl
    refine ⟨_, by simp only [orEmpty, caretMap, e, Res.ok_bind]; rfl, fun g => ?_⟩
    apply Option.ext
    intro v
    have hmem : ∀ a w, (a, w) ∈ (((covGlyphs c).zip l).map (fun p => p.2.map (fun cs => (p.1, cs.filterMap id)))).filterMap id ↔
        ∃ cs, entryOf (covGlyphs c) l a = some (some cs) ∧ w = cs.filterMap id := by
      intro a w
      simp only [List.mem_filterMap, List.mem_map, id_eq]
      constructor
      · rintro ⟨y, ⟨⟨b, x⟩, hz, rfl⟩, e⟩
        cases x with
        | none => cases e
        | some cs => cases e; exact ⟨cs, (mem_zip_entry h3 l _ _).mp hz, rfl⟩
      · rintro ⟨cs, he, rfl⟩
        exact ⟨_, ⟨(a, some cs), (mem_zip_entry h3 l _ _).mpr he, rfl⟩, rfl⟩
    rw [valueOf_collect, hmem]
    · show _ ↔ ((entryOf (covGlyphs c) l g).bind fun x => x.bind fun l => some (l.filterMap id)) = some v
      constructor
      · rintro ⟨cs, e, rfl⟩; rw [e]; rfl
      · intro e
        cases eo : entryOf (covGlyphs c) l g with
        | none => rw [eo] at e; cases e
        | some x =>
          rw [eo] at e
          cases x with
          | none => cases e
          | some cs => cases e; exact ⟨cs, rfl, rfl⟩
    · rintro ⟨a, w⟩ hx ⟨a', w'⟩ hy e
      simp only at e
      subst e
      obtain ⟨cs, e1, rfl⟩ := (hmem _ _).mp hx
      obtain ⟨cs', e2, rfl⟩ := (hmem _ _).mp hy
      rw [e1] at e2; cases e2
      rfl

theorem class_says {t : GdefSays} (h : GdefReadable t) (g : UInt16) :
    valueOf ((t.classes.getD []).map (fun x => (x.1, GlyphClass.ofNum x.2))) g = glyphClassSays t g := by
  unfold glyphClassSays
  have hk := h.known
  cases hx : t.classes with
  | none => rfl
  | some m =>
    have hk := hk m (by rw [hx]; rfl)
    have : ∀ m : List (UInt16 × UInt16), (∀ x ∈ m, 1 ≤ x.2.toNat ∧ x.2.toNat ≤ 4) →
        valueOf (m.map (fun x => (x.1, GlyphClass.ofNum x.2))) g = match (classOf m g).toNat with
          | 1 => some .base | 2 => some .ligature | 3 => some .mark | 4 => some .component | _ => none := by
      intro m hm
      induction m with
      | nil => rfl
      | cons x m ih =>
        unfold valueOf classOf at ih ⊢
        rw [List.map_cons, List.find?_cons, List.find?_cons]
        by_cases e : x.1 = g
        · have e' : (x.1 == g) = true := by simpa using e
          simp only [e', Option.map_some]
          have hx := hm x (by simp)
          obtain ⟨a, c⟩ := x
          simp only at hx
          have hc : c.toNat = 1 ∨ c.toNat = 2 ∨ c.toNat = 3 ∨ c.toNat = 4 := by omega
          rcases hc with e | e | e | e
          · obtain rfl : c = 1 := UInt16.toNat_inj.mp e
            rfl
          · obtain rfl : c = 2 := UInt16.toNat_inj.mp e
            rfl
          · obtain rfl : c = 3 := UInt16.toNat_inj.mp e
            rfl
          · obtain rfl : c = 4 := UInt16.toNat_inj.mp e
            rfl
        · have e' : (x.1 == g) = false := by simpa using e
          simp only [e']
          exact ih fun y hy => hm y (by simp [hy])
    exact this m hk

/-- **C90.** A GDEF table, whatever program wrote it and however it arranged the parts: reading succeeds, and gives for
every glyph the class, the attachment points, the carets and the mark attachment class that the table says. -/
theorem C90_gdef (t : GdefSays) (h : GdefReadable t) (B : Bytes) (hB : At (anyGdefRows t) B 0) :
    ∃ g rd, readGdef (Rd.new B) = .ok (g, rd) ∧ (∀ x, valueOf g.glyphClass x = glyphClassSays t x) ∧
      (∀ x, valueOf g.attach x = attachSays t x) ∧ (∀ x, valueOf g.carets x = caretsSays t x) ∧
      (∀ x, classOf g.markClass x = classOf (t.markClasses.getD []) x) ∧
      g.markSets = (if 2 ≤ t.minor then t.markSets.map (fun _ => []) else none) ∧ g.store = none := by
  obtain ⟨ma, a1, a2⟩ := attach_map h
  obtain ⟨mc, c1, c2⟩ := caret_map h
  have key : Finds readGdef ⟨(t.classes.getD []).map (fun x => (x.1, GlyphClass.ofNum x.2)), ma, mc, t.markClasses.getD [],
      if 2 ≤ t.minor then t.markSets.map (fun _ => []) else none, none⟩ (anyGdefRows t) := by
    unfold readGdef anyGdefRows
    refine (plain_num16 1 (by decide)).finds.cons ((plain_count (n := t.minor)
      (by rcases h.minor with e | e | e <;> omega)).finds.cons ((finds_cls h.classes).cons
      ((finds_linked fun x hx => ?_).cons ((finds_linked fun x hx => ?_).cons ((finds_cls h.markClasses).cons
      ((finds_setsField h).bind ((finds_storeField h).last ?_)))))))
    · obtain ⟨h1, _, _, h4, h5⟩ := h.attach x hx
      exact finds_attachList h1 h4 fun l hl => (h5 l hl).2
    · obtain ⟨h1, _, h4, h5⟩ := h.carets x hx
      exact finds_caretList h1 h4 h5
    · rw [a1, c1]; rfl
  exact ⟨_, _, key B 0 0 [] hB, class_says h, a2, c2, fun _ => rfl, rfl, rfl⟩

/-- A table of version 1.0, the caret list before the class table: glyphs 5 and 6 are marks, glyph 9 is a ligature with
carets at 300 and at point 7, and attachment points 1 and 4. -/
def strangeGdef : Bytes :=
  [0, 1, 0, 0, 0, 40, 0, 56, 0, 12, 0, 0,
   0, 6, 0, 1, 0, 12, 0, 1, 0, 1, 0, 9,
   0, 2, 0, 10, 0, 6,
   0, 1, 1, 44,
   0, 2, 0, 7,
   0, 0,
   0, 2, 0, 2, 0, 5, 0, 6, 0, 3, 0, 9, 0, 9, 0, 2,
   0, 6, 0, 1, 0, 12, 0, 1, 0, 1, 0, 9,
   0, 2, 0, 1, 0, 4]

def strangeGlyphs : GdefSays where
  minor := 0
  classes := some [(5, 3), (6, 3), (9, 2)]
  attach := some (some [9], [some [1, 4]])
  carets := some (some [9], [some [some (.format2 7), some (.format1 300)]])
  markClasses := none
  markSets := none
  store := none

theorem strangeGdef_follows : At (anyGdefRows strangeGlyphs) strangeGdef 0 := by
  refine ⟨⟨by decide, by decide⟩, ⟨by decide, by decide⟩, ⟨by decide, by decide, .inr ?_⟩, ⟨by decide, by decide, ?_⟩,
    ⟨by decide, by decide, ?_⟩, ⟨by decide, by decide⟩, trivial⟩
  · exact ⟨[(5, 6, 3), (9, 9, 2)], by decide, by decide, ⟨by decide, by decide⟩, ⟨by decide, by decide⟩, ⟨by decide, by decide⟩,
      ⟨by decide, by decide⟩, ⟨by decide, by decide⟩, ⟨by decide, by decide⟩, ⟨by decide, by decide⟩, ⟨by decide, by decide⟩, trivial⟩
  · refine ⟨⟨by decide, by decide, .inl ⟨⟨by decide, by decide⟩, ⟨by decide, by decide⟩, ⟨by decide, by decide⟩, trivial⟩⟩,
      ⟨by decide, by decide⟩, ⟨by decide, by decide, ?_⟩, trivial⟩
    exact ⟨⟨by decide, by decide⟩, ⟨by decide, by decide⟩, ⟨by decide, by decide⟩, trivial⟩
  · refine ⟨⟨by decide, by decide, .inl ⟨⟨by decide, by decide⟩, ⟨by decide, by decide⟩, ⟨by decide, by decide⟩, trivial⟩⟩,
      ⟨by decide, by decide⟩, ⟨by decide, by decide, ?_⟩, trivial⟩
    exact ⟨⟨by decide, by decide⟩, ⟨by decide, by decide, ⟨by decide, by decide⟩, ⟨by decide, by decide⟩, trivial⟩,
      ⟨by decide, by decide, ⟨by decide, by decide⟩, ⟨by decide, by decide⟩, trivial⟩, trivial⟩

theorem strangeGdef_readable : GdefReadable strangeGlyphs where
  minor := .inl rfl
  classes := by intro m hm; cases hm; exact ⟨asc_of (by decide), by decide, by decide⟩
  known := by intro m hm; cases hm; decide
  markClasses := by intro m hm; cases hm
  attach := by
    intro x hx; cases hx
    refine ⟨?_, rfl, by decide, by decide, ?_⟩
    · intro gs hg; cases hg; exact ⟨by decide, by decide⟩
    · intro l hl; simp only [List.mem_singleton] at hl; subst hl
      exact ⟨rfl, by intro p hp; cases hp; decide⟩
  carets := by
    intro x hx; cases hx
    refine ⟨?_, by decide, by decide, ?_⟩
    · intro gs hg; cases hg; exact ⟨by decide, by decide⟩
    · intro l hl cs hcs; simp only [List.mem_singleton] at hl; subst hl; cases hcs
      refine ⟨by decide, fun c hc => ?_⟩
      simp only [List.mem_cons, List.not_mem_nil, or_false] at hc
      rcases hc with rfl | rfl
      · exact ⟨_, rfl, trivial⟩
      · exact ⟨_, rfl, trivial⟩
  markSets := by intro l hl; cases hl
  store := rfl

example : ∃ g rd, readGdef (Rd.new strangeGdef) = .ok (g, rd) ∧ valueOf g.glyphClass 5 = some .mark ∧
    valueOf g.glyphClass 7 = none ∧ valueOf g.attach 9 = some [1, 4] ∧ valueOf g.carets 9 = some [.format2 7, .format1 300] := by
  obtain ⟨g, rd, h1, h2, h3, h4, _⟩ := C90_gdef strangeGlyphs strangeGdef_readable strangeGdef strangeGdef_follows
  exact ⟨g, rd, h1, h2 5, h2 7, h3 9, h4 9⟩

/-! ### Outside the guards -/

/-- Mark glyph sets are looked for from the start of GDEF instead of the table of sets: a set of two glyphs is read as an
empty set. -/
theorem C90_mark_sets : ∃ t B g rd, At (anyGdefRows t) B 0 ∧ t.markSets = some [some [1, 2]] ∧
    readGdef (Rd.new B) = .ok (g, rd) ∧ g.markSets = some [[]] := by
  refine ⟨⟨2, none, none, none, none, some [some [1, 2]], none⟩,
    [0, 1, 0, 2, 0, 0, 0, 0, 0, 0, 0, 0, 0, 14, 0, 1, 0, 1, 0, 0, 0, 8, 0, 1, 0, 2, 0, 1, 0, 2],
    ⟨[], [], [], [], some [[]], none⟩,
    ⟨[0, 1, 0, 2, 0, 0, 0, 0, 0, 0, 0, 0, 0, 14, 0, 1, 0, 1, 0, 0, 0, 8, 0, 1, 0, 2, 0, 1, 0, 2], 14, [0]⟩,
    ?_, rfl, by decide +kernel, rfl⟩
  refine ⟨⟨by decide, by decide⟩, ⟨by decide, by decide⟩, ⟨by decide, by decide⟩, ⟨by decide, by decide⟩,
    ⟨by decide, by decide⟩, ⟨by decide, by decide⟩, ⟨by decide, by decide, ?_⟩, trivial⟩
  exact ⟨⟨by decide, by decide⟩, ⟨by decide, by decide⟩, ⟨by decide, by decide, .inl ⟨⟨by decide, by decide⟩,
    ⟨by decide, by decide⟩, ⟨by decide, by decide⟩, ⟨by decide, by decide⟩, trivial⟩⟩, trivial⟩

/-- So are the parts of the item variation store: a store with a region is read as one without. -/
theorem C90_store : ∃ t B g rd s, At (anyGdefRows t) B 0 ∧ t.store = some s ∧ s.regions = [[⟨0, 1, 1⟩]] ∧
    readGdef (Rd.new B) = .ok (g, rd) ∧ g.store = some ⟨1, 0, [], []⟩ := by
  refine ⟨⟨3, none, none, none, none, none, some ⟨1, 1, [[⟨0, 1, 1⟩]], []⟩⟩,
    [0, 1, 0, 3, 0, 0, 0, 0, 0, 0, 0, 0, 0, 0, 0, 0, 0, 18, 0, 1, 0, 0, 0, 8, 0, 0, 0, 1, 0, 1, 0, 0, 64, 0, 64, 0],
    ⟨[], [], [], [], none, some ⟨1, 0, [], []⟩⟩,
    ⟨[0, 1, 0, 3, 0, 0, 0, 0, 0, 0, 0, 0, 0, 0, 0, 0, 0, 18, 0, 1, 0, 0, 0, 8, 0, 0, 0, 1, 0, 1, 0, 0, 64, 0, 64, 0], 18, [0]⟩,
    ⟨1, 1, [[⟨0, 1, 1⟩]], []⟩, ?_, rfl, rfl, by decide +kernel, rfl⟩
  refine ⟨⟨by decide, by decide⟩, ⟨by decide, by decide⟩, ⟨by decide, by decide⟩, ⟨by decide, by decide⟩,
    ⟨by decide, by decide⟩, ⟨by decide, by decide⟩, ⟨by decide, by decide⟩, ⟨by decide, by decide, ?_⟩, trivial⟩
  refine ⟨⟨by decide, by decide⟩, ⟨by decide, by decide, ?_⟩, ⟨by decide, by decide⟩, trivial⟩
  exact ⟨⟨by decide, by decide⟩, ⟨by decide, by decide⟩, ⟨by decide, 0, by decide, by decide, by decide, by norm_num⟩,
    ⟨by decide, 16384, by decide, by decide, by decide, by norm_num⟩,
    ⟨by decide, 16384, by decide, by decide, by decide, by norm_num⟩, trivial⟩

/-- The device of a caret is looked for from the list of carets instead of the caret: here that panics. -/
theorem C90_caret_device : ∃ t B, At (anyGdefRows t) B 0 ∧
    caretsSays t 1 = some [.format3 5 (.dev true ⟨12, 12, some 3, [9]⟩)] ∧ readGdef (Rd.new B) = .panic := by
  refine ⟨⟨2, none, none, some (some [1], [some [some (.format3 5 (.dev true ⟨12, 12, some 3, [9]⟩))]]), none, none, none⟩,
    [0, 1, 0, 2, 0, 0, 0, 0, 0, 14, 0, 0, 0, 0, 0, 6, 0, 1, 0, 12, 0, 1, 0, 1, 0, 1, 0, 1, 0, 4, 0, 3, 0, 5, 0, 6, 0, 12,
      0, 12, 0, 3, 9, 0], ?_, by decide, by decide +kernel⟩
  refine ⟨⟨by decide, by decide⟩, ⟨by decide, by decide⟩, ⟨by decide, by decide⟩, ⟨by decide, by decide⟩,
    ⟨by decide, by decide, ?_⟩, ⟨by decide, by decide⟩, ⟨by decide, by decide⟩, trivial⟩
  refine ⟨⟨by decide, by decide, .inl ⟨⟨by decide, by decide⟩, ⟨by decide, by decide⟩, ⟨by decide, by decide⟩, trivial⟩⟩,
      ⟨by decide, by decide⟩, ⟨by decide, by decide, ?_⟩, trivial⟩
  refine ⟨⟨by decide, by decide⟩, ⟨by decide, by decide, ⟨by decide, by decide⟩, ⟨by decide, by decide⟩, ⟨by decide, by decide, ?_⟩,
    trivial⟩, trivial⟩
  refine ⟨3, by decide, by decide, ⟨⟨by decide, by decide⟩, ⟨by decide, by decide⟩, ⟨by decide, by decide⟩, trivial⟩, ?_⟩
  intro i v hv
  cases i with
  | zero => cases hv; exact ⟨by decide, by decide⟩
  | succ i => cases hv

/-- A glyph with an explicit class 0, or a class that OpenType does not know, is read as a base glyph. -/
theorem C90_class_zero : ∃ t B g rd, At (anyGdefRows t) B 0 ∧ glyphClassSays t 5 = none ∧
    readGdef (Rd.new B) = .ok (g, rd) ∧ valueOf g.glyphClass 5 = some .base := by
  refine ⟨⟨0, some [(5, 0)], none, none, none, none, none⟩,
    [0, 1, 0, 0, 0, 12, 0, 0, 0, 0, 0, 0, 0, 1, 0, 5, 0, 1, 0, 0], ⟨[(5, .base)], [], [], [], none, none⟩,
    ⟨[0, 1, 0, 0, 0, 12, 0, 0, 0, 0, 0, 0, 0, 1, 0, 5, 0, 1, 0, 0], 12, [0]⟩, ?_, by decide, by decide +kernel, rfl⟩
  exact ⟨⟨by decide, by decide⟩, ⟨by decide, by decide⟩, ⟨by decide, by decide, .inl ⟨5, by decide, by decide,
    ⟨by decide, by decide⟩, ⟨by decide, by decide⟩, ⟨by decide, by decide⟩, ⟨by decide, by decide⟩, trivial⟩⟩,
    ⟨by decide, by decide⟩, ⟨by decide, by decide⟩, ⟨by decide, by decide⟩, trivial⟩

/-- A null offset to attachment points panics. -/
theorem C90_null_attach (gs : List UInt16) (g : UInt16) (l : List (Option (List UInt16))) :
    attachMap (some (g :: gs), none :: l) = .panic := rfl

end FT.Props
