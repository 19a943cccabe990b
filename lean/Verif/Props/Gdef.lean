import Verif.Model.Gdef
import Verif.Lemmas.Gsub
import Verif.Lemmas.Tab32
import Verif.Props.ItemVar

/-!
# C62: the GDEF table
-/

namespace FT.Props
open FT Reader FT.Off FT.Lay FT.Gdef

/-- Specification: entries `m` of a class map against the entries `m'` read back: every entry is kept, and any other
entry is of the class `none` and lies between two glyphs of `m`. -/
def Kept {κ : Type} (none : κ) (m m' : List (UInt16 × κ)) : Prop :=
  m'.Pairwise (fun x y => x.1.toNat < y.1.toNat) ∧ (∀ x ∈ m, x ∈ m') ∧
  ∀ x ∈ m', x ∈ m ∨ (x.2 = none ∧ (∀ y ∈ m, y.1 ≠ x.1) ∧
    ∃ a ∈ m, ∃ b ∈ m, a.1.toNat < x.1.toNat ∧ x.1.toNat < b.1.toNat)

/-- Specification: a class map within the limits of C08. -/
def ClassFits (m : List (UInt16 × UInt16)) : Prop := AscendingKeys m ∧
  (∀ x ∈ m, x.1.toNat ≤ 65533) ∧ classRuns m ≤ 21845

/-- Specification: the range encoding of the class map is no longer than the array encoding. -/
def RangesNoLonger (m : List (UInt16 × UInt16)) : Prop :=
  ∀ first last, m.head? = some first → m.getLast? = some last →
    4 + 6 * classRuns m ≤ 8 + 2 * (last.1.toNat - first.1.toNat)

theorem classOf_mem {m : List (UInt16 × UInt16)} (h : AscendingKeys m) {x : UInt16 × UInt16} (hx : x ∈ m) :
    classOf m x.1 = x.2 := by
  rw [classOf_eq (sorted_of_asc h), (BMap.get?_eq_some (sorted_of_asc h) (k := x.1) (v := x.2)).mpr hx]
  rfl

theorem classOf_no_entry {m : List (UInt16 × UInt16)} {g : UInt16} (h : ¬ HasEntry m g) : classOf m g = 0 := by
  unfold classOf
  cases e : m.find? (fun x => x.1 == g) with
  | none => rfl
  | some x =>
    have h1 := List.find?_some e
    have h2 := List.mem_of_find?_eq_some e
    simp only [beq_iff_eq] at h1
    exact absurd ⟨x.2, h1 ▸ h2⟩ h

/-- A class definition field: null for the empty map. -/
theorem class_field {m : List (UInt16 × UInt16)} (h : ClassFits m) :
    ∃ t o, mapOff classTab m = .ok t ∧ ReadsTab (readOffset .w16 ClassDef.read) t o ∧ Kept 0 m (o.getD []) ∧
      (RangesNoLonger m → o.getD [] = m) := by
  obtain ⟨h1, h2, h3⟩ := h
  cases m with
  | nil => exact ⟨_, none, rfl, readsTab_null16 _, ⟨List.Pairwise.nil, by simp, by simp⟩, fun _ => rfl⟩
  | cons a l =>
    obtain ⟨z, hz⟩ : ∃ z, (a :: l).getLast? = some z := ⟨_, List.getLast?_eq_some_getLast (by simp)⟩
    have hzm := List.mem_of_getLast? hz
    obtain ⟨bs, m', e1, e2, _, e4, e5, e6, e7, e8⟩ := C08_roundtrip (a :: l) a z h1 rfl hz (h2 z hzm) h3
    refine ⟨.link .w16 false false none (.bytes bs) .nil, some m', ?_, readsTab_link16 _ _ _ (Reads.child e2),
      ⟨e4, ?_, ?_⟩, ?_⟩
    · simp [mapOff, optOff, classTab, e1]
    · intro x hx
      obtain ⟨c, hc⟩ := e6 x.1 ⟨x.2, hx⟩
      have := classOf_mem e4 hc
      rw [e5, classOf_mem h1 hx] at this
      simp only at this
      rw [← this] at hc
      exact hc
    · intro x hx
      simp only [Option.getD_some] at hx
      by_cases hm : HasEntry (a :: l) x.1
      · left
        obtain ⟨c, hc⟩ := hm
        have h5 := classOf_mem e4 hx
        rw [e5, classOf_mem h1 hc] at h5
        simp only at h5
        rw [h5] at hc
        exact hc
      · right
        have h5 := classOf_mem e4 hx
        rw [e5, classOf_no_entry hm] at h5
        have hb := e7 x.1 ⟨x.2, hx⟩
        have hne : ∀ y ∈ a :: l, y.1 ≠ x.1 := fun y hy e => hm ⟨y.2, e ▸ hy⟩
        refine ⟨h5.symm, hne, a, by simp, z, hzm, ?_, ?_⟩
        · have := hne a (by simp)
          have : a.1.toNat ≠ x.1.toNat := fun e => this (UInt16.toNat_inj.mp e)
          omega
        · have := hne z hzm
          have : z.1.toNat ≠ x.1.toNat := fun e => this (UInt16.toNat_inj.mp e)
          omega
    · intro hr
      exact e8 (hr a z rfl hz)

/-- Specification: a caret that refers to no device table. -/
def NoDevice : Caret → Prop
  | .format3 _ (.dev _ _) => False
  | _ => True

theorem writes_caret {c : Caret} (h : NoDevice c) : Writes caretTab readCaret c := by
  cases c with
  | format1 c =>
    refine ⟨_, rfl, Reads.child ?_⟩
    refine (reads_u16 1).bind ?_
    rw [if_pos rfl]
    exact Reads.map (fun c => Caret.format1 c) (reads_i16 c)
  | format2 p =>
    refine ⟨_, rfl, Reads.child ?_⟩
    refine (reads_u16 2).bind ?_
    rw [if_neg (by decide), if_pos rfl]
    exact Reads.map (fun c => Caret.format2 c) (reads_u16 p)
  | format3 c d =>
    cases d with
    | dev k d => exact h.elim
    | null =>
      refine ⟨_, rfl, ?_⟩
      intro B base ext stk hl hh
      obtain ⟨p1, p2⟩ := hh
      have hlen : base + 6 ≤ B.length := by simpa [size, Tab.append, Width.size] using hl
      have e1 := reads_of_prefix (reads_u16 3) (List.IsPrefix.trans (List.prefix_append _ _) p1) (by omega) stk
      have p1' : encI16 c <+: B.drop (base + (encU16 3).length) := by
        obtain ⟨post, hp⟩ := p1
        refine ⟨post, ?_⟩
        rw [← List.drop_drop, ← hp, List.append_assoc, List.drop_left]
      have e2 := reads_of_prefix (reads_i16 c) p1' (by simp; omega) stk
      have p2' : encU16 (UInt16.ofNat 0) <+: B.drop (base + (encU16 3 ++ encI16 c).length) := p2.1
      have e3 := reads_of_prefix (readWidth16 (UInt16.ofNat 0)) p2' (by simp; omega) stk
      refine ⟨base + 6, ?_⟩
      unfold readCaret
      rw [Reader.bind_run, e1]
      simp only
      rw [if_neg (by decide), if_neg (by decide), if_pos trivial, Reader.bind_run, e2]
      simp only
      rw [Reader.bind_run]
      unfold readOffset
      rw [Reader.bind_run]
      have e3' : readWidth .w16 ⟨B, base + (encU16 3).length + (encI16 c).length, stk⟩ =
          .ok ((UInt16.ofNat 0).toNat, ⟨B, base + 6, stk⟩) := by
        have : base + (encU16 3).length + (encI16 c).length = base + (encU16 3 ++ encI16 c).length := by simp
        rw [this, e3]
        simp
      rw [e3']
      simp only [ofNat16_toNat (n := 0) (by omega)]
      rfl


theorem writes_ligGlyph {l : List Caret} (hl : l.length ≤ 65535) (h : ∀ c ∈ l, NoDevice c) :
    Writes ligGlyphTab readLigGlyph (l.map some) := by
  obtain ⟨t, h1, h2⟩ := readsTab_offVec (f := caretTab) (q := readCaret) (l.map some) (by simpa using hl) (by
    intro c hc
    simp only [List.mem_map, Option.some.injEq, exists_eq_right] at hc
    exact writes_caret (h c hc))
  exact ⟨t, h1, h2.inTable⟩

/-- Specification: glyphs of a map that make a coverage table within the limits of C07: ascending, and none of them
65535 unless the list encoding is no longer than the range encoding. -/
def GlyphsFit (gs : List UInt16) : Prop := Ascending gs ∧
  ((∀ g ∈ gs, g.toNat ≠ 65535) ∨ 2 * gs.length ≤ 6 * runs gs)

theorem GlyphsFit.cov {gs : List UInt16} (h : GlyphsFit gs) : CovOk gs := covOk_of_asc h.1 h.2

theorem sorted_of_keys {α : Type} {m : List (UInt16 × α)} (h : Ascending (m.map Prod.fst)) : BMap.Sorted m := by
  have h' := List.pairwise_map.mp h
  refine List.Pairwise.imp ?_ h'
  intro a b h
  show decide _ = true
  simpa using h

theorem attachMap_written : ∀ (m : List (UInt16 × List UInt16)), Ascending (m.map Prod.fst) →
    attachMap (some (m.map Prod.fst), m.map (fun x => some x.2)) = .ok m := by
  intro m h
  have key : ∀ (m : List (UInt16 × List UInt16)),
      Res.mapL attachEntry ((m.map Prod.fst).zip (m.map (fun x => some x.2))) = .ok m := by
    intro m
    induction m with
    | nil => rfl
    | cons a m ih =>
      rw [List.map_cons, List.map_cons, List.zip_cons_cons, Res.mapL, ih]
      rfl
  unfold attachMap
  rw [show Res.unwrap (some (m.map Prod.fst)) = .ok (m.map Prod.fst) from rfl, Res.ok_bind]
  rw [key m]
  simp only [Res.ok_bind, Res.pure_eq]
  rw [BMap.collect_of_sorted (sorted_of_keys h)]

theorem caretMap_written : ∀ (m : List (UInt16 × List Caret)), Ascending (m.map Prod.fst) →
    caretMap (some (m.map Prod.fst), m.map (fun x => some (x.2.map some))) = .ok m := by
  intro m h
  have key : ∀ (m : List (UInt16 × List Caret)),
      Res.mapL caretEntry ((m.map Prod.fst).zip (m.map (fun x => some (x.2.map some)))) = .ok (m.map some) := by
    intro m
    induction m with
    | nil => rfl
    | cons a m ih =>
      rw [List.map_cons, List.map_cons, List.zip_cons_cons, Res.mapL, ih]
      simp only [caretEntry, mapL_unwrap_some, Res.ok_bind, Res.pure_eq]
      rfl
  unfold caretMap
  simp only [covGlyphs, Option.getD_some]
  rw [key m]
  simp only [Res.ok_bind, Res.pure_eq]
  have : (m.map some).filterMap id = m := by
    rw [List.filterMap_map]; simp
  rw [this, BMap.collect_of_sorted (sorted_of_keys h)]

theorem attach_field {m : List (UInt16 × List UInt16)} (hg : GlyphsFit (m.map Prod.fst))
    (hp : ∀ x ∈ m, x.2.length ≤ 65535) :
    ∃ t o, mapOff attachTab m = .ok t ∧ ReadsTab (readOffset .w16 readAttachList) t o ∧
      orEmpty attachMap o = .ok m := by
  cases hm : m with
  | nil => exact ⟨_, none, rfl, readsTab_null16 _, rfl⟩
  | cons a l =>
    rw [← hm]
    have hne : m.isEmpty = false := by rw [hm]; rfl
    obtain ⟨ct, c1, c2⟩ := writes_cov hg.cov
    obtain ⟨pt, p1, p2⟩ := readsTab_offVec (f := fun l => .ok (.bytes (u16s l))) (q := readU16s)
      (m.map (fun x => some x.2)) (by have := hg.cov.1; simpa using this) (by
        intro l hl
        simp only [List.mem_map, Option.some.injEq] at hl
        obtain ⟨x, hx, rfl⟩ := hl
        exact ⟨_, rfl, (reads_u16s _ (hp x hx)).child⟩)
    refine ⟨.link .w16 false false none ((Tab.off16 ct).append pt) .nil, some (some (m.map Prod.fst), m.map (fun x => some x.2)), ?_, ?_, ?_⟩
    rotate_right
    · exact attachMap_written m hg.1
    · unfold mapOff
      rw [hne]
      simp only [Bool.false_eq_true, if_false, optOff, attachTab, c1, p1, Res.ok_bind, Res.pure_eq]
    · refine readsTab_link16 _ _ _ (ReadsTab.inTable ?_)
      exact ReadsTab.bind (readsTab_link16 false false none c2)
        (ReadsTab.map (fun l => (some (m.map Prod.fst), l)) p2)

theorem carets_field {m : List (UInt16 × List Caret)} (hg : GlyphsFit (m.map Prod.fst))
    (hp : ∀ x ∈ m, x.2.length ≤ 65535 ∧ ∀ c ∈ x.2, NoDevice c) :
    ∃ t o, mapOff caretsTab m = .ok t ∧ ReadsTab (readOffset .w16 readLigCaretList) t o ∧
      orEmpty caretMap o = .ok m := by
  cases hm : m with
  | nil => exact ⟨_, none, rfl, readsTab_null16 _, rfl⟩
  | cons a l =>
    rw [← hm]
    have hne : m.isEmpty = false := by rw [hm]; rfl
    obtain ⟨ct, c1, c2⟩ := writes_cov hg.cov
    obtain ⟨pt, p1, p2⟩ := readsTab_offVec (f := ligGlyphTab) (q := readLigGlyph)
      (m.map (fun x => some (x.2.map some))) (by have := hg.cov.1; simpa using this) (by
        intro l hl
        simp only [List.mem_map, Option.some.injEq] at hl
        obtain ⟨x, hx, rfl⟩ := hl
        exact writes_ligGlyph (hp x hx).1 (hp x hx).2)
    refine ⟨.link .w16 false false none ((Tab.off16 ct).append pt) .nil, some (some (m.map Prod.fst), m.map (fun x => some (x.2.map some))), ?_, ?_, ?_⟩
    rotate_right
    · exact caretMap_written m hg.1
    · unfold mapOff
      rw [hne]
      simp only [Bool.false_eq_true, if_false, optOff, caretsTab, c1, p1, Res.ok_bind, Res.pure_eq]
    · refine readsTab_link16 _ _ _ (ReadsTab.inTable ?_)
      exact ReadsTab.bind (readsTab_link16 false false none c2)
        (ReadsTab.map (fun l => (some (m.map Prod.fst), l)) p2)

/-- Specification: what of a GDEF table survives: every map within the limits of the coverage and class tables, no
caret with a device table, no mark glyph set (an empty list of them is fine), and no item variation store. -/
def GdefOk (g : GDEF) : Prop :=
  ClassFits (g.glyphClass.map (fun x => (x.1, x.2.num))) ∧
  (GlyphsFit (g.attach.map Prod.fst) ∧ ∀ x ∈ g.attach, x.2.length ≤ 65535) ∧
  (GlyphsFit (g.carets.map Prod.fst) ∧ ∀ x ∈ g.carets, x.2.length ≤ 65535 ∧ ∀ c ∈ x.2, NoDevice c) ∧
  ClassFits g.markClass ∧ (g.markSets = none ∨ g.markSets = some []) ∧ g.store = none

theorem ofNum_num (c : GlyphClass) : GlyphClass.ofNum c.num = c := by cases c <;> decide

theorem kept_classes {m : List (UInt16 × GlyphClass)} {m' : List (UInt16 × UInt16)}
    (h : Kept 0 (m.map (fun x => (x.1, x.2.num))) m') :
    Kept GlyphClass.base m (m'.map (fun x => (x.1, GlyphClass.ofNum x.2))) := by
  obtain ⟨h1, h2, h3⟩ := h
  refine ⟨?_, ?_, ?_⟩
  · rw [List.pairwise_map]; exact h1
  · intro x hx
    have := h2 (x.1, x.2.num) (List.mem_map.mpr ⟨x, hx, rfl⟩)
    exact List.mem_map.mpr ⟨_, this, by simp only [ofNum_num]⟩
  · intro x hx
    obtain ⟨y, hy, rfl⟩ := List.mem_map.mp hx
    rcases h3 y hy with h | ⟨g1, g2, a, ha, b, hb, g3, g4⟩
    · left
      obtain ⟨z, hz, e⟩ := List.mem_map.mp h
      rw [← e]
      simp only [ofNum_num]
      exact hz
    · right
      obtain ⟨a', ha', ea⟩ := List.mem_map.mp ha
      obtain ⟨b', hb', eb⟩ := List.mem_map.mp hb
      refine ⟨?_, ?_, a', ha', b', hb', ?_, ?_⟩
      · rw [g1]; rfl
      · intro z hz
        exact g2 (z.1, z.2.num) (List.mem_map.mpr ⟨z, hz, rfl⟩)
      · rw [← ea] at g3; exact g3
      · rw [← eb] at g4; exact g4

theorem sets_field {x : Option (List (List UInt16))} (h : x = none ∨ x = some []) {minor : UInt16}
    (hm : minor.toNat > 1) :
    ∃ t, optOff false setsTab x = .ok t ∧ ReadsTab (readSetsField minor) t x := by
  rcases h with rfl | rfl
  · refine ⟨_, rfl, ?_⟩
    unfold readSetsField
    rw [if_pos hm]
    exact ReadsTab.bind' (readsTab_null16 _) (ReadsTab.lift rfl) (append_nil _).symm
  · refine ⟨_, rfl, ?_⟩
    unfold readSetsField
    rw [if_pos hm]
    refine ReadsTab.bind' (readsTab_link16 false false none (a := []) ?_) (ReadsTab.lift rfl) (append_nil _).symm
    have : Reads readMarkSets (encU16 1 ++ encU16 0) [] := by
      refine (reads_u16 1).bind ?_
      have := reads_counted (p := readOffset .w32 Coverage.read) (enc := fun _ => []) [] (by simp) (by simp)
      exact this
    exact this.child

/-- The table that is written, and what is read from it. -/
theorem gdef_tab {g : GDEF} (h : GdefOk g) : ∃ t g', gdefTab g = .ok t ∧ ReadsTab readGdef t g' ∧
      g'.attach = g.attach ∧ g'.carets = g.carets ∧
      g'.markSets = g.markSets ∧ g'.store = g.store ∧
      Kept GlyphClass.base g.glyphClass g'.glyphClass ∧ Kept 0 g.markClass g'.markClass ∧
      (RangesNoLonger (g.glyphClass.map (fun x => (x.1, x.2.num))) → g'.glyphClass = g.glyphClass) ∧
      (RangesNoLonger g.markClass → g'.markClass = g.markClass) := by
  obtain ⟨h1, ⟨h2, h2'⟩, ⟨h3, h3'⟩, h4, h5, h6⟩ := h
  obtain ⟨t1, o1, a1, b1, c1, d1⟩ := class_field h1
  obtain ⟨t2, o2, a2, b2, c2⟩ := attach_field h2 h2'
  obtain ⟨t3, o3, a3, b3, c3⟩ := carets_field h3 h3'
  obtain ⟨t4, o4, a4, b4, c4, d4⟩ := class_field h4
  obtain ⟨t5, a5, b5⟩ := sets_field h5 (minor := 2) (by decide)
  refine ⟨_, ⟨(o1.getD []).map (fun x => (x.1, GlyphClass.ofNum x.2)), g.attach, g.carets, o4.getD [], g.markSets,
    none⟩, by rw [gdefTab, a1, a2, a3, a4, a5, h6]; rfl, ?_, rfl, rfl, rfl, h6.symm, kept_classes c1, c4, ?_, d4⟩
  · refine ReadsTab.bind (readsTab_u16 1) (ReadsTab.bind (readsTab_u16 2) (ReadsTab.bind b1 (ReadsTab.bind b2
      (ReadsTab.bind b3 (ReadsTab.bind b4 (ReadsTab.bind b5 ?_))))))
    refine ReadsTab.bind' (t := .nil) (u := .nil) (a := none) (ReadsTab.pure none) ?_ rfl
    rw [c2, c3]
    exact ReadsTab.bind' (t := .nil) (u := .nil) (ReadsTab.lift rfl)
      (ReadsTab.bind' (t := .nil) (u := .nil) (ReadsTab.lift rfl) (ReadsTab.pure _) rfl) rfl
  · intro hr
    simp only [d1 hr, List.map_map]
    have : ((fun (x : UInt16 × UInt16) => (x.1, GlyphClass.ofNum x.2)) ∘ fun (x : UInt16 × GlyphClass) => (x.1, x.2.num)) = id := by
      funext x; simp [ofNum_num]
    rw [this, List.map_id]

/-- Reading what was written gives the attachment points, the carets and the mark glyph sets exactly, and every glyph
its glyph class and its mark attachment class. A glyph without a class stays without one or, only if it lies between two
glyphs that have one, becomes a base glyph (has mark attachment class 0); that does not happen if the range encoding
of the class table is no longer than the array encoding. -/
theorem C62_gdef {g : GDEF} (h : GdefOk g) {bs : Bytes} (hw : encGdef g = .ok bs) :
    ∃ g' r, readGdef (Rd.new bs) = .ok (g', r) ∧ g'.attach = g.attach ∧ g'.carets = g.carets ∧
      g'.markSets = g.markSets ∧ g'.store = g.store ∧
      Kept GlyphClass.base g.glyphClass g'.glyphClass ∧ Kept 0 g.markClass g'.markClass ∧
      (RangesNoLonger (g.glyphClass.map (fun x => (x.1, x.2.num))) → g'.glyphClass = g.glyphClass) ∧
      (RangesNoLonger g.markClass → g'.markClass = g.markClass) := by
  obtain ⟨t, g', h1, h2, h3⟩ := gdef_tab h
  rw [encGdef, h1, Res.ok_bind] at hw
  obtain ⟨ext, k1, _, k3, k4⟩ := C05_offsets_right t bs hw [] []
  have := h2 bs 0 0 ext [] (by simpa using k1)
  exact ⟨g', _, this, h3⟩

/-- No field of the table or of the tables below it is an `Option<Offset>`. -/
def NoOpt : Tab → Prop
  | .nil => True
  | .raw _ r => NoOpt r
  | .null _ r => NoOpt r
  | .link _ _ opt _ c r => opt = false ∧ NoOpt c ∧ NoOpt r

theorem noOpt_distances : ∀ (t : Tab) (base d v : Nat), NoOpt t → ∀ x ∈ distances t base d v, x.2.1 = false
  | .nil, _, _, _, _, x, hx => by simp [distances] at hx
  | .raw _ r, base, d, v, h, x, hx => noOpt_distances r base d v h x hx
  | .null _ r, base, d, v, h, x, hx => noOpt_distances r base d v h x hx
  | .link w false opt _ c r, base, d, v, h, x, hx => by
    simp only [distances, List.cons_append, List.mem_cons, List.mem_append] at hx
    rcases hx with rfl | hx | hx
    · exact h.1
    · exact noOpt_distances c _ _ _ h.2.1 x hx
    · exact noOpt_distances r _ _ _ h.2.2 x hx
  | .link w true opt _ c r, base, d, v, h, x, hx => by
    simp only [distances, List.cons_append, List.mem_cons, List.mem_append] at hx
    rcases hx with rfl | hx | hx
    · exact h.1
    · exact noOpt_distances c _ _ _ h.2.1 x hx
    · exact noOpt_distances r _ _ _ h.2.2 x hx

theorem noOpt_append : ∀ {t u : Tab}, NoOpt t → NoOpt u → NoOpt (t.append u)
  | .nil, _, _, hu => hu
  | .raw _ r, _, ht, hu => noOpt_append (t := r) ht hu
  | .null _ r, _, ht, hu => noOpt_append (t := r) ht hu
  | .link _ _ _ _ _ _, _, ht, hu => ⟨ht.1, ht.2.1, noOpt_append ht.2.2 hu⟩

theorem noOpt_outcome {t : Tab} (h : NoOpt t) : (∃ bs, toBytes t = .ok bs) ∨ toBytes t = .err := by
  obtain ⟨h1, _, h3⟩ := C05_outcome t
  by_cases hd : ∀ x ∈ allDistances t, x.2.2 ≤ x.1.max
  · exact .inl (h1 hd)
  · right
    simp only [not_forall, not_le] at hd
    obtain ⟨x, hx, hlt⟩ := hd
    refine h3 ⟨x, hx, hlt⟩ ?_
    intro y hy he
    rw [noOpt_distances t _ _ _ h y hy] at he
    exact absurd he (by decide)

theorem noOpt_optOff {α : Type} {f : α → Res Tab} (vec : Bool) {x : Option α} {t : Tab}
    (h : ∀ a t, x = some a → f a = .ok t → NoOpt t) (e : optOff vec f x = .ok t) : NoOpt t := by
  cases x with
  | none => cases e; trivial
  | some a =>
    simp only [optOff] at e
    cases ha : f a with
    | ok u => rw [ha] at e; cases e; exact ⟨rfl, h a u rfl ha, trivial⟩
    | err => rw [ha] at e; cases e
    | panic => rw [ha] at e; cases e

theorem mapL_forall₂ {α β : Type} {f : α → Res β} : ∀ {l : List α} {bs : List β}, Res.mapL f l = .ok bs →
    List.Forall₂ (fun a b => f a = .ok b) l bs
  | [], bs, h => by cases h; exact .nil
  | a :: l, bs, h => by
    rw [Res.mapL] at h
    cases ha : f a with
    | ok b =>
      cases hl : Res.mapL f l with
      | ok cs => rw [ha, hl] at h; cases h; exact .cons ha (mapL_forall₂ hl)
      | err => rw [ha, hl] at h; cases h
      | panic => rw [ha, hl] at h; cases h
    | err => rw [ha] at h; cases h
    | panic => rw [ha] at h; cases h

theorem mapL_mem {α β : Type} {f : α → Res β} {l : List α} {bs : List β} (h : Res.mapL f l = .ok bs) :
    ∀ b ∈ bs, ∃ a ∈ l, f a = .ok b := by
  have := mapL_forall₂ h
  clear h
  induction this with
  | nil => simp
  | cons h1 h2 ih =>
    intro t ht
    rcases List.mem_cons.mp ht with rfl | ht
    · exact ⟨_, by simp, h1⟩
    · obtain ⟨x, hx, e⟩ := ih t ht
      exact ⟨x, by simp [hx], e⟩

theorem noOpt_concat : ∀ (l : List Tab), (∀ t ∈ l, NoOpt t) → NoOpt (Tab.concat l)
  | [], _ => trivial
  | t :: l, h => noOpt_append (h t (by simp)) (noOpt_concat l (fun x hx => h x (by simp [hx])))

theorem noOpt_offVec {α : Type} {f : α → Res Tab} {l : List (Option α)} {t : Tab}
    (h : ∀ a t, some a ∈ l → f a = .ok t → NoOpt t) (e : offVec f l = .ok t) : NoOpt t := by
  simp only [offVec] at e
  cases hl : Res.mapL (optOff true f) l with
  | ok ts =>
    rw [hl] at e
    cases e
    refine noOpt_append (by trivial) (noOpt_concat _ ?_)
    intro t ht
    obtain ⟨x, hx, hxt⟩ := mapL_mem hl t ht
    exact noOpt_optOff true (fun a t ha => h a t (ha ▸ hx)) hxt
  | err => rw [hl] at e; cases e
  | panic => rw [hl] at e; cases e

theorem noOpt_cov {gs : List UInt16} {t : Tab} (e : covTab gs = .ok t) : NoOpt t := by
  simp only [covTab] at e
  cases h : Coverage.toBytes gs with
  | ok bs => rw [h] at e; cases e; trivial
  | err => rw [h] at e; cases e
  | panic => rw [h] at e; cases e

theorem noOpt_class {m : List (UInt16 × UInt16)} {t : Tab} (e : classTab m = .ok t) : NoOpt t := by
  simp only [classTab] at e
  cases h : ClassDef.toBytes m with
  | ok bs => rw [h] at e; cases e; trivial
  | err => rw [h] at e; cases e
  | panic => rw [h] at e; cases e

theorem noOpt_mapOff {α : Type} {f : List α → Res Tab} {m : List α} {t : Tab}
    (h : ∀ t, f m = .ok t → NoOpt t) (e : mapOff f m = .ok t) : NoOpt t := by
  unfold mapOff at e
  split at e
  · cases e; trivial
  · exact noOpt_optOff false (fun a t ha hf => by cases ha; exact h t hf) e

theorem noOpt_caret {c : Caret} {t : Tab} (e : caretTab c = .ok t) : NoOpt t := by
  cases c with
  | format1 c => cases e; trivial
  | format2 p => cases e; trivial
  | format3 c d =>
    cases d with
    | null => cases e; trivial
    | dev k d =>
      cases k with
      | false => cases e
      | true =>
        simp only [caretTab] at e
        cases h : Device.toBytes d with
        | ok bs => rw [h] at e; cases e; exact ⟨rfl, trivial, trivial⟩
        | err => rw [h] at e; cases e
        | panic => rw [h] at e; cases e

theorem noOpt_gdef {g : GDEF} {t : Tab} (e : gdefTab g = .ok t) : NoOpt t := by
  unfold gdefTab at e
  obtain ⟨t1, e1, e⟩ := Res.bind_inv e
  obtain ⟨t2, e2, e⟩ := Res.bind_inv e
  obtain ⟨t3, e3, e⟩ := Res.bind_inv e
  obtain ⟨t4, e4, e⟩ := Res.bind_inv e
  obtain ⟨t5, e5, e⟩ := Res.bind_inv e
  obtain ⟨t6, e6, e⟩ := Res.bind_inv e
  cases e
  have n1 := noOpt_mapOff (fun t => noOpt_class) e1
  have n4 := noOpt_mapOff (fun t => noOpt_class) e4
  have n2 : NoOpt t2 := by
    refine noOpt_mapOff (fun t h => ?_) e2
    unfold attachTab at h
    obtain ⟨c, hc, h⟩ := Res.bind_inv h
    obtain ⟨p, hp, h⟩ := Res.bind_inv h
    cases h
    exact noOpt_append ⟨rfl, noOpt_cov hc, trivial⟩
      (noOpt_offVec (fun a t _ hf => by cases hf; trivial) hp)
  have n3 : NoOpt t3 := by
    refine noOpt_mapOff (fun t h => ?_) e3
    unfold caretsTab at h
    obtain ⟨c, hc, h⟩ := Res.bind_inv h
    obtain ⟨p, hp, h⟩ := Res.bind_inv h
    cases h
    exact noOpt_append ⟨rfl, noOpt_cov hc, trivial⟩
      (noOpt_offVec (fun a t _ hf => noOpt_offVec (fun a t _ hf => noOpt_caret hf) hf) hp)
  have n5 : NoOpt t5 := by
    refine noOpt_optOff false (fun l t _ h => ?_) e5
    unfold setsTab at h
    obtain ⟨ts, hts, h⟩ := Res.bind_inv h
    cases h
    refine noOpt_append (by trivial) (noOpt_concat _ ?_)
    intro t ht
    obtain ⟨x, _, h1⟩ := mapL_mem hts t ht
    obtain ⟨c, hc, h⟩ := Res.bind_inv h1
    cases h
    exact ⟨rfl, noOpt_cov hc, trivial⟩
  have n6 : NoOpt t6 := by
    cases hs : g.store with
    | none => rw [hs] at e6; cases e6; trivial
    | some s =>
      rw [hs] at e6
      simp only [storeField, storeLink] at e6
      cases h : ItemVar.encStore s with
      | ok bs => rw [h] at e6; cases e6; exact ⟨rfl, trivial, trivial⟩
      | err => rw [h] at e6; cases e6
      | panic => rw [h] at e6; cases e6
  exact noOpt_append (by trivial) (noOpt_append (by trivial) (noOpt_append n1 (noOpt_append n2 (noOpt_append n3
    (noOpt_append n4 (noOpt_append n5 n6))))))

/-- A GDEF table within these limits is written or, if some table is too far away for its 16-bit offset, refused with an
error; it does not panic. -/
theorem C62_gdef_writes {g : GDEF} (h : GdefOk g) : (∃ bs, encGdef g = .ok bs) ∨ encGdef g = .err := by
  obtain ⟨t, g', h1, _⟩ := gdef_tab h
  rw [encGdef, h1, Res.ok_bind]
  exact noOpt_outcome (noOpt_gdef h1)

theorem mapL_one_panic {α β : Type} {f : α → Res β} : ∀ {l : List α}, (∀ a ∈ l, f a ≠ .err) →
    (∃ a ∈ l, f a = .panic) → Res.mapL f l = .panic
  | [], _, h => by simp at h
  | a :: l, h, hp => by
    rw [Res.mapL]
    cases ha : f a with
    | err => exact absurd ha (h a (by simp))
    | panic => rfl
    | ok b =>
      have : Res.mapL f l = .panic := by
        refine mapL_one_panic (fun x hx => h x (by simp [hx])) ?_
        obtain ⟨x, hx, e⟩ := hp
        rcases List.mem_cons.mp hx with rfl | hx
        · rw [ha] at e; cases e
        · exact ⟨x, hx, e⟩
      rw [this]

theorem mapL_ne_err {α β : Type} {f : α → Res β} : ∀ {l : List α}, (∀ a ∈ l, f a ≠ .err) → Res.mapL f l ≠ .err
  | [], _ => by simp [Res.mapL]
  | a :: l, h => by
    rw [Res.mapL]
    have hl := mapL_ne_err (f := f) (l := l) (fun x hx => h x (by simp [hx]))
    cases ha : f a with
    | err => exact absurd ha (h a (by simp))
    | panic => simp
    | ok b =>
      cases e : Res.mapL f l with
      | err => exact absurd e hl
      | ok => simp
      | panic => simp

theorem offVec_panic {α : Type} {f : α → Res Tab} {l : List (Option α)} (h : ∀ a, some a ∈ l → f a ≠ .err)
    (hp : ∃ a, some a ∈ l ∧ f a = .panic) : offVec f l = .panic := by
  have : Res.mapL (optOff true f) l = .panic := by
    refine mapL_one_panic ?_ ?_
    · intro x hx
      cases x with
      | none => simp [optOff]
      | some a =>
        have := h a hx
        simp only [optOff]
        cases e : f a with
        | err => exact absurd e this
        | ok => simp
        | panic => simp
    · obtain ⟨a, ha, e⟩ := hp
      exact ⟨some a, ha, by simp only [optOff, e]⟩
  simp only [offVec, this]

theorem offVec_ne_err {α : Type} {f : α → Res Tab} {l : List (Option α)} (h : ∀ a, some a ∈ l → f a ≠ .err) :
    offVec f l ≠ .err := by
  have : Res.mapL (optOff true f) l ≠ .err := by
    refine mapL_ne_err ?_
    intro x hx
    cases x with
    | none => simp [optOff]
    | some a =>
      have := h a hx
      simp only [optOff]
      cases e : f a with
      | err => exact absurd e this
      | ok => simp
      | panic => simp
  simp only [offVec]
  cases e : Res.mapL (optOff true f) l with
  | err => exact absurd e this
  | ok => simp
  | panic => simp

theorem caretTab_ne_err (c : Caret) : caretTab c ≠ .err := by
  cases c with
  | format1 c => simp [caretTab]
  | format2 p => simp [caretTab]
  | format3 c d =>
    cases d with
    | null => simp [caretTab]
    | dev k d =>
      cases k with
      | false => simp [caretTab]
      | true =>
        simp only [caretTab]
        cases h : Device.toBytes d <;> simp

/-- A caret with a device table that was not read from a file cannot be written: the writer panics. -/
theorem C62_device_panics {g : GDEF} (h1 : ClassFits (g.glyphClass.map (fun x => (x.1, x.2.num))))
    (h2 : GlyphsFit (g.attach.map Prod.fst)) (h3 : ∀ x ∈ g.attach, x.2.length ≤ 65535)
    (h4 : GlyphsFit (g.carets.map Prod.fst))
    (hd : ∃ x ∈ g.carets, ∃ c d, .format3 c (.dev false d) ∈ x.2) : encGdef g = .panic := by
  obtain ⟨t1, o1, a1, _⟩ := class_field h1
  obtain ⟨t2, o2, a2, _⟩ := attach_field h2 h3
  obtain ⟨ct, c1, _⟩ := writes_cov h4.cov
  obtain ⟨x, hx, c, d, hc⟩ := hd
  have a3 : mapOff caretsTab g.carets = .panic := by
    have hne : g.carets.isEmpty = false := by
      cases e : g.carets with
      | nil => rw [e] at hx; simp at hx
      | cons => rfl
    have hp : offVec ligGlyphTab (g.carets.map (fun x => some (x.2.map some))) = .panic := by
      refine offVec_panic (fun a _ => offVec_ne_err (fun b _ => caretTab_ne_err b)) ?_
      exact ⟨x.2.map some, List.mem_map.mpr ⟨x, hx, rfl⟩, offVec_panic (fun b _ => caretTab_ne_err b)
        ⟨_, List.mem_map.mpr ⟨_, hc, rfl⟩, rfl⟩⟩
    unfold mapOff
    rw [hne]
    simp only [Bool.false_eq_true, if_false, optOff, caretsTab, c1, hp, Res.ok_bind]
    rfl
  rw [encGdef, gdefTab, a1, a2, a3]
  rfl

/-- A glyph that has no class can become a base glyph: between two marks. -/
theorem C62_gap_becomes_base : ∃ g bs g' r, GdefOk g ∧ g.glyphClass = [(1, .mark), (3, .mark)] ∧
    encGdef g = .ok bs ∧ readGdef (Rd.new bs) = .ok (g', r) ∧
    g'.glyphClass = [(1, .mark), (2, .base), (3, .mark)] :=
  ⟨⟨[(1, .mark), (3, .mark)], [], [], [], none, none⟩,
    [0, 1, 0, 2, 0, 14, 0, 0, 0, 0, 0, 0, 0, 0, 0, 1, 0, 1, 0, 3, 0, 3, 0, 0, 0, 3],
    ⟨[(1, .mark), (2, .base), (3, .mark)], [], [], [], none, none⟩,
    ⟨[0, 1, 0, 2, 0, 14, 0, 0, 0, 0, 0, 0, 0, 0, 0, 1, 0, 1, 0, 3, 0, 3, 0, 0, 0, 3], 14, [0]⟩,
    ⟨⟨by simp [AscendingKeys], by decide, by decide⟩, ⟨⟨List.Pairwise.nil, by simp⟩, by simp⟩,
      ⟨⟨List.Pairwise.nil, by simp⟩, by simp⟩, ⟨List.Pairwise.nil, by simp, by decide⟩, by simp, rfl⟩,
    rfl, by decide +kernel, by decide +kernel, rfl⟩

/-- Mark glyph sets do not survive: a set with two glyphs is written, and read back as an empty set. -/
theorem C62_mark_sets_lost : ∃ g bs g' r, g.markSets = some [[1, 2]] ∧ encGdef g = .ok bs ∧
    readGdef (Rd.new bs) = .ok (g', r) ∧ g'.markSets = some [[]] :=
  ⟨⟨[], [], [], [], some [[1, 2]], none⟩,
    [0, 1, 0, 2, 0, 0, 0, 0, 0, 0, 0, 0, 0, 14, 0, 1, 0, 1, 0, 0, 0, 8, 0, 1, 0, 2, 0, 1, 0, 2],
    ⟨[], [], [], [], some [[]], none⟩,
    ⟨[0, 1, 0, 2, 0, 0, 0, 0, 0, 0, 0, 0, 0, 14, 0, 1, 0, 1, 0, 0, 0, 8, 0, 1, 0, 2, 0, 1, 0, 2], 14, [0]⟩,
    rfl, by decide +kernel, by decide +kernel, rfl⟩

/-- A device table of a caret that was read from a file is written, but it is looked for at another place on reading. -/
theorem C62_device_misread : ∃ g bs, g.carets = [(1, [.format3 5 (.dev true ⟨12, 12, some 3, [9]⟩)])] ∧
    encGdef g = .ok bs ∧ readGdef (Rd.new bs) = .panic :=
  ⟨⟨[], [], [(1, [.format3 5 (.dev true ⟨12, 12, some 3, [9]⟩)])], [], none, none⟩,
    [0, 1, 0, 2, 0, 0, 0, 0, 0, 14, 0, 0, 0, 0, 0, 6, 0, 1, 0, 12, 0, 1, 0, 1, 0, 1, 0, 1, 0, 4, 0, 3, 0, 5, 0, 6, 0, 12,
      0, 12, 0, 3, 9, 0], rfl, by decide +kernel, by decide +kernel⟩

theorem reads_null16 {α : Type} (q : Reader α) : Reads (readOffset .w16 q) (encU16 0) none := by
  refine Reads.bind' (readWidth16 0) ?_ (List.append_nil _).symm
  rw [if_pos (by decide)]
  exact Reads.pure _

theorem encStore_no_data {s : ItemVar.Store} (h : StoreOk s) (hd : s.data = []) :
    ∃ rb, ItemVar.encStore s = .ok (encU16 1 ++ (encU32 8 ++ (encU16 0 ++ rb))) := by
  obtain ⟨rb, hrb, _⟩ := C45_regions (l := ⟨s.axisCount, UInt16.ofNat s.regions.length, s.regions⟩)
    (ofNat16_toNat h.regions) h.axes h.grid
  refine ⟨rb, ?_⟩
  unfold ItemVar.encStore
  rw [hrb, hd]
  simp [toBytes, ItemVar.storeTab, resolve, shallow, serDesc, setOff, size, descSize, Tab.append, Tab.concat,
    Width.size, Width.max, Width.enc, Res.ok_bind, Res.pure_eq]

/-- An item variation store does not survive: all its regions are lost on reading. -/
theorem C62_store_lost {s : ItemVar.Store} (h : StoreOk s) (hd : s.data = []) :
    ∃ bs r, encGdef ⟨[], [], [], [], none, some s⟩ = .ok bs ∧
      readGdef (Rd.new bs) = .ok (⟨[], [], [], [], none, some ⟨1, 0, [], []⟩⟩, r) := by
  obtain ⟨rb, e⟩ := encStore_no_data h hd
  obtain ⟨B, hB⟩ : ∃ B, B = encU16 1 ++ (encU16 3 ++ (encU16 0 ++ (encU16 0 ++ (encU16 0 ++ (encU16 0 ++ (encU16 0 ++
    (encU32 18 ++ (encU16 1 ++ (encU32 8 ++ (encU16 0 ++ rb)))))))))) := ⟨_, rfl⟩
  have hlen : 26 ≤ B.length := by rw [hB]; simp; omega
  have at16 : ∀ (n : Nat) (x : UInt16) (stk : List Nat), n ≤ 24 → encU16 x <+: B.drop n →
      readU16 ⟨B, n, stk⟩ = .ok (x, ⟨B, n + 2, stk⟩) := by
    intro n x stk hn hp
    have := reads_of_prefix (reads_u16 x) hp (by omega) stk
    simpa using this
  have at32 : ∀ (n : Nat) (x : UInt32) (stk : List Nat), n ≤ 22 → encU32 x <+: B.drop n →
      readU32 ⟨B, n, stk⟩ = .ok (x, ⟨B, n + 4, stk⟩) := by
    intro n x stk hn hp
    have := reads_of_prefix (reads_u32 x) hp (by omega) stk
    simpa using this
  have null : ∀ {α : Type} (q : Reader α) (n : Nat) (stk : List Nat), n ≤ 24 → encU16 0 <+: B.drop n →
      readOffset .w16 q ⟨B, n, stk⟩ = .ok (none, ⟨B, n + 2, stk⟩) := by
    intro α q n stk hn hp
    have := reads_of_prefix (reads_null16 q) hp (by omega) stk
    simpa using this
  have p0 : encU16 1 <+: B.drop 0 := ⟨_, hB.symm⟩
  have p2 : encU16 3 <+: B.drop 2 := by rw [hB]; exact ⟨_, rfl⟩
  have p4 : encU16 0 <+: B.drop 4 := by rw [hB]; exact ⟨_, rfl⟩
  have p6 : encU16 0 <+: B.drop 6 := by rw [hB]; exact ⟨_, rfl⟩
  have p8 : encU16 0 <+: B.drop 8 := by rw [hB]; exact ⟨_, rfl⟩
  have p10 : encU16 0 <+: B.drop 10 := by rw [hB]; exact ⟨_, rfl⟩
  have p12 : encU16 0 <+: B.drop 12 := by rw [hB]; exact ⟨_, rfl⟩
  have p14 : encU32 18 <+: B.drop 14 := by rw [hB]; exact ⟨_, rfl⟩
  have p18 : encU16 1 <+: B.drop 18 := by rw [hB]; exact ⟨_, rfl⟩
  have p20 : encU32 8 <+: B.drop 20 := by rw [hB]; exact ⟨_, rfl⟩
  have p24 : encU16 0 <+: B.drop 24 := by rw [hB]; exact ⟨_, rfl⟩
  have off32 : ∀ {α : Type} (q : Reader α) (n : Nat) (x : UInt32) (a : α) (ptr : Nat), n ≤ 22 → x.toNat ≠ 0 →
      x.toNat ≤ 18 → encU32 x <+: B.drop n → q ⟨B, x.toNat, [0]⟩ = .ok (a, ⟨B, ptr, [0]⟩) →
      readOffset .w32 q ⟨B, n, [0]⟩ = .ok (some a, ⟨B, n + 4, [0]⟩) := by
    intro α q n x a ptr hn h0 hx hp hq
    have hto : (UInt16.ofNat x.toNat).toNat = x.toNat := ofNat16_toNat (by omega)
    unfold readOffset readWidth
    simp only [Reader.bind_run, at32 n x [0] hn hp]
    simp only [Reader.pure_run]
    rw [if_neg h0, if_neg (by omega), Reader.bind_run]
    simp only [getPtr]
    rw [Reader.bind_run, followOffset_ok (by rw [hto]; omega), hto]
    simp only [Nat.zero_add]
    rw [Reader.bind_run, hq]
    rfl
  have rl : ItemVar.readRegionList ⟨B, 8, [0]⟩ = .ok (⟨0, 0, []⟩, ⟨B, 12, [0]⟩) := by
    unfold ItemVar.readRegionList
    rw [Reader.bind_run, at16 8 0 _ (by omega) p8]
    simp only
    rw [Reader.bind_run, at16 10 0 _ (by omega) p10]
    rfl
  have st : ItemVar.readStore ⟨B, 18, [0]⟩ = .ok (⟨1, 0, [], []⟩, ⟨B, 26, [0]⟩) := by
    unfold ItemVar.readStore
    rw [Reader.bind_run, at16 18 1 _ (by omega) p18]
    simp only
    rw [Reader.bind_run, off32 _ 20 8 _ 12 (by omega) (by decide) (by decide) p20 rl]
    simp only [readCounted]
    rw [Reader.bind_run, Reader.bind_run, at16 24 0 _ (by omega) p24]
    rfl
  refine ⟨B, ⟨B, 18, [0]⟩, ?_, ?_⟩
  · rw [hB]
    simp [encGdef, gdefTab, mapOff, optOff, storeField, storeLink, e, toBytes, resolve, shallow, serDesc, setOff, size,
      Tab.append, Width.size, Width.max, Width.enc, Res.ok_bind, Res.pure_eq]
  · unfold readGdef Rd.new
    rw [Reader.bind_run, at16 0 1 _ (by omega) p0]
    simp only
    rw [Reader.bind_run, at16 2 3 _ (by omega) p2]
    simp only
    rw [Reader.bind_run, null _ 4 _ (by omega) p4]
    simp only
    rw [Reader.bind_run, null _ 6 _ (by omega) p6]
    simp only
    rw [Reader.bind_run, null _ 8 _ (by omega) p8]
    simp only
    rw [Reader.bind_run, null _ 10 _ (by omega) p10]
    simp only
    unfold readSetsField readStoreField
    rw [if_pos (by decide), if_pos (by decide), Reader.bind_run, Reader.bind_run, null _ 12 _ (by omega) p12]
    simp only [optInto, Reader.lift]
    rw [Reader.bind_run, off32 _ 14 18 _ 26 (by omega) (by decide) (by decide) p14 st]
    rfl

example : StoreOk ⟨1, 1, [[⟨0, 1, 1⟩]], []⟩ where
  regions := by simp
  axes := by simp
  grid := by
    simp only [List.mem_singleton, forall_eq]
    exact ⟨⟨0, by norm_num, by norm_num, by norm_num⟩, ⟨16384, by norm_num, by norm_num, by norm_num⟩,
      ⟨16384, by norm_num, by norm_num, by norm_num⟩⟩
  data := by simp
  dataOk := by simp

/-- A table with a gap in its classes, attachment points, all kinds of carets and mark classes. -/
def exampleGdef : GDEF := ⟨[(1, .mark), (3, .ligature)], [(4, [1, 2]), (9, [])],
  [(5, [.format1 7, .format2 3, .format3 9 .null])], [(1, 2)], some [], none⟩

example : GdefOk exampleGdef :=
  ⟨⟨by simp [AscendingKeys, exampleGdef], by decide, by decide⟩,
    ⟨⟨by simp [Ascending, exampleGdef], .inl (by decide)⟩, by decide⟩,
    ⟨⟨by simp [Ascending, exampleGdef], .inl (by decide)⟩, by simp [exampleGdef, NoDevice]⟩,
    ⟨by simp [AscendingKeys, exampleGdef], by decide, by decide⟩, .inr rfl, rfl⟩

example : RangesNoLonger [(1, 3), (2, 3), (3, 3), (20, 1)] := by
  intro a b ha hb
  cases ha; cases hb; decide

end FT.Props
