import Verif.Model.AllTables
import Verif.Lemmas.FontDirectory
import Verif.Lemmas.WholeFont
import Verif.Props.ForeignMath
import Verif.Props.ForeignGvar
import Verif.Props.ForeignText
import Verif.Props.ForeignGdef
import Verif.Props.ForeignGposTable
import Verif.Props.ForeignGsubTable
import Verif.Props.GvarPoints

/-!
C96: a whole font file, whichever program wrote it: every table is what the bytes of the file say.
-/

namespace FT.Props
open FT Reader FT.Store FT.Save FT.Cli FT.Whole

/-! ### The directory -/

/-- The number of tables, and of each the tag, the place and the length. -/
def tableCount (file : Bytes) : Nat := beValue (bytesAt file 4 2)
def recordTag (file : Bytes) (i : Nat) : Bytes := bytesAt file (12 + 16 * i) 4
def recordOffset (file : Bytes) (i : Nat) : Nat := beValue (bytesAt file (12 + 16 * i + 8) 4)
def recordLength (file : Bytes) (i : Nat) : Nat := beValue (bytesAt file (12 + 16 * i + 12) 4)

/-- The file has a table `t` with contents `b`: they are where a record with this tag says. If there are several, it is the one
whose contents begin last, and of those the last one in the directory. -/
def TableIn (file : Bytes) (t : Tag) (b : Bytes) : Prop :=
  ∃ i < tableCount file, recordTag file i = t.bytes ∧ b = bytesAt file (recordOffset file i) (recordLength file i) ∧
    ∀ j < tableCount file, recordTag file j = t.bytes →
      recordOffset file j < recordOffset file i ∨ (recordOffset file j = recordOffset file i ∧ j ≤ i)

/-- A file whose directory can be read and whose tables lie inside the file. -/
structure FontFile (file : Bytes) : Prop where
  directory : DirectoryReadable file
  inside : ∀ i < tableCount file, EntryInside file i

theorem TableIn.unique {file : Bytes} {t : Tag} {b b' : Bytes} (h : TableIn file t b) (h' : TableIn file t b') : b = b' := by
  obtain ⟨i, h1, h2, rfl, h3⟩ := h
  obtain ⟨j, g1, g2, rfl, g3⟩ := h'
  have e1 := h3 j g1 g2
  have e2 := g3 i h1 h2
  obtain rfl : i = j := by omega
  rfl

theorem C96_tables (file : Bytes) (h : FontFile file) : ∃ version T, IsFont file version T ∧
    version.toNat = beValue (bytesAt file 0 4) ∧ ∀ t b, T t = some b ↔ TableIn file t b := by
  have hd : Font.DirOk file := (directoryReadable_iff file).mp h.directory
  obtain ⟨v, l, r', e, hr', hv, hl, hf⟩ := Font.dir_ok file hd
  have htag := Font.dir_tags e
  let le : Font.Rec → Font.Rec → Bool := fun a b => decide (a.offset.toNat ≤ b.offset.toNat)
  obtain ⟨T, et⟩ := Font.slice_ok file (l.mergeSort le) [] (by
    intro r hr
    obtain ⟨i, hi, rfl⟩ := List.getElem_of_mem (List.mem_mergeSort.mp hr)
    have := hf i hi
    rw [this.1, this.2]
    exact h.inside i (by rw [show tableCount file = l.length from hl.symm]; exact hi))
  refine ⟨v, fun t => BMap.get? T t, ⟨T, r', ?_, fun _ => rfl⟩, hv, ?_⟩
  · unfold Font.readTables
    rw [Reader.bind_run, e]
    simp only
    rw [Reader.bind_run]
    simp only [getInp]
    rw [Reader.bind_run, hr']
    change (match Reader.lift (Font.sliceTables file (l.mergeSort le) []) r' with | _ => _) = _
    rw [et]
    rfl
  · -- the sorted records with their places
    let z := (l.zipIdx).mergeSort (List.zipIdxLE le)
    have hz : z.map Prod.fst = l.mergeSort le := List.mergeSort_zipIdx
    have hpw : z.Pairwise (fun a b => List.zipIdxLE le a b = true) := by
      refine List.pairwise_mergeSort (List.zipIdxLE_trans ?_) (List.zipIdxLE_total ?_) _
      · intro a b c h1 h2; simp only [le, decide_eq_true_eq] at *; omega
      · intro a b; simp only [le, Bool.or_eq_true, decide_eq_true_eq]; omega
    have hmem : ∀ x, x ∈ z ↔ l[x.2]? = some x.1 := by
      intro x
      rw [List.mem_mergeSort, List.mem_zipIdx_iff_getElem?]
    have hcount : tableCount file = l.length := hl.symm
    have hrec : ∀ (i : Nat) (r : Font.Rec) (t : Tag), l[i]? = some r → (i < tableCount file ∧ (r.tag = t ↔ recordTag file i = t.bytes) ∧
        r.offset.toNat = recordOffset file i ∧ r.length.toNat = recordLength file i) := by
      intro i r t hi
      obtain ⟨h1, rfl⟩ := List.getElem?_eq_some_iff.mp hi
      have h2 := htag i h1
      have h3 := hf i h1
      refine ⟨hcount ▸ h1, ⟨fun e => by subst e; exact h2.symm, fun e => Font.tag_bytes_inj (h2.trans e)⟩, h3.1, h3.2⟩
    intro t b
    show BMap.get? T t = some b ↔ _
    rw [Font.slice_get file t _ [] T et, ← hz]
    have hfil : (z.map Prod.fst).filter (fun r => decide (r.tag = t)) = (z.filter (fun x => decide (x.1.tag = t))).map Prod.fst := by
      rw [List.filter_map]; rfl
    rw [hfil, List.getLast?_map]
    have hle : ∀ x y : Font.Rec × Nat, List.zipIdxLE le x y = true →
        x.1.offset.toNat < y.1.offset.toNat ∨ (x.1.offset.toNat = y.1.offset.toNat ∧ x.2 ≤ y.2) := by
      intro x y hxy
      simp only [List.zipIdxLE, le] at hxy
      by_cases h1 : x.1.offset.toNat ≤ y.1.offset.toNat
      · by_cases h2 : y.1.offset.toNat ≤ x.1.offset.toNat
        · rw [if_pos (by simpa using h1), if_pos (by simpa using h2)] at hxy
          right; exact ⟨by omega, by simpa using hxy⟩
        · left; omega
      · rw [if_neg (by simpa using h1)] at hxy; cases hxy
    constructor
    · intro hb
      cases hlast : (z.filter (fun x => decide (x.1.tag = t))).getLast? with
      | none => rw [hlast] at hb; cases hb
      | some x =>
        rw [hlast] at hb
        simp only [Option.map_some, Option.some_or, Option.some.injEq] at hb
        have hx : x ∈ z.filter (fun x => decide (x.1.tag = t)) := List.mem_of_getLast? hlast
        obtain ⟨hx1, hx2⟩ := List.mem_filter.mp hx
        obtain ⟨a1, a2, a3, a4⟩ := hrec x.2 x.1 t ((hmem x).mp hx1)
        refine ⟨x.2, a1, a2.mp (by simpa using hx2), by rw [← hb, a3, a4]; rfl, ?_⟩
        intro j hj hjt
        rw [hcount] at hj
        obtain ⟨_, b2, b3, _⟩ := hrec j l[j] t (List.getElem?_eq_getElem hj)
        have hy : (l[j], j) ∈ z.filter (fun x => decide (x.1.tag = t)) :=
          List.mem_filter.mpr ⟨(hmem _).mpr (List.getElem?_eq_getElem hj), by simpa using b2.mpr hjt⟩
        rcases Font.last_max (hpw.filter _) hlast _ hy with e | e
        · rw [← e]; right; exact ⟨rfl, le_refl _⟩
        · have := hle _ _ e
          simp only at this
          rw [b3, a3] at this
          exact this
    · rintro ⟨i, hi, hit, rfl, hmax⟩
      rw [hcount] at hi
      obtain ⟨_, b2, b3, b4⟩ := hrec i l[i] t (List.getElem?_eq_getElem hi)
      have hy : (l[i], i) ∈ z.filter (fun x => decide (x.1.tag = t)) :=
        List.mem_filter.mpr ⟨(hmem _).mpr (List.getElem?_eq_getElem hi), by simpa using b2.mpr hit⟩
      cases hlast : (z.filter (fun x => decide (x.1.tag = t))).getLast? with
      | none => rw [List.getLast?_eq_none_iff] at hlast; rw [hlast] at hy; cases hy
      | some x =>
        have hx : x ∈ z.filter (fun x => decide (x.1.tag = t)) := List.mem_of_getLast? hlast
        obtain ⟨hx1, hx2⟩ := List.mem_filter.mp hx
        obtain ⟨a1, a2, a3, a4⟩ := hrec x.2 x.1 t ((hmem x).mp hx1)
        have hm := hmax x.2 a1 (a2.mp (by simpa using hx2))
        have : x.2 = i := by
          rcases Font.last_max (hpw.filter _) hlast _ hy with e | e
          · rw [← e]
          · have := hle _ _ e
            simp only at this
            rw [b3, a3] at this
            omega
        simp only [Option.map_some, Option.some_or, Option.some.injEq]
        rw [a3, a4, this]
        rfl

/-! ### The tables -/

/-- The points of a glyph for its variations, and where its contours end: all points, then the place of each component, then
four points at the origin; each of the latter is a contour of its own. -/
structure PointsOf (g : Glyf.Glyph) (c : List Iup.Pt × List Nat) : Prop where
  points : c.1 = g.contours.flatten.map (fun p => (p.x, p.y)) ++
    g.components.map (fun c => (Glyf.qToI16 c.transformation.e, Glyf.qToI16 c.transformation.f)) ++ List.replicate 4 (0, 0)
  count : c.2.length = g.contours.length + g.components.length + 4
  ends : ∀ k < g.contours.length, ∃ e, c.2[k]? = some e ∧ e + 1 = pointsBefore g.contours (k + 1)
  single : ∀ j < g.components.length + 4, c.2[g.contours.length + j]? = some (g.contours.flatten.length + j)

/-- The tags of the tables that the library knows. -/
def knownTags : List Tag := [tagHead, tagHhea, tagMaxp, tagHmtx, tagLoca, tagGlyf, tagPost, tagCmap, tagGasp, tagGvar, tagFvar, tagAvar,
  tagSTAT, tagCvt, tagFpgm, tagGDEF, tagGPOS, tagGSUB, tagMATH, tagName, tagOS2, tagPrep]

/-- The file has a `head` table that says `h`. -/
def HeadSays (file : Bytes) (h : Tables.Head) : Prop := HeadReadable h ∧ ∃ b, TableIn file tagHead b ∧ At (headRows h) b 0

/-- The file has a `maxp` table that says `m`. -/
def MaxpSays (file : Bytes) (m : Tables.Maxp) : Prop :=
  (match m.table with | .v05 _ => m.version = 0x8000 | .v10 _ => m.version = 0x10000) ∧ ∃ b, TableIn file tagMaxp b ∧ At (maxpRows m) b 0

/-- The file has `head`, `loca` and `glyf` tables that say that these are the glyphs. -/
def OutlinesIn (file : Bytes) (gs : List Glyf.Glyph) : Prop :=
  ∃ h L G, HeadSays file h ∧ TableIn file tagLoca L ∧ TableIn file tagGlyf G ∧ OutlinesSay L G (h.indexToLocFormat == 1) gs

/-- Whatever table is looked up, it is what its bytes in the file say. -/
structure EveryTable (E : Env) (file : Bytes) (s : Tables) : Prop where
  none : ∀ t, (∀ b, ¬ TableIn file t b) → ∃ s', Store.step (parser (Formats E)) (.open_ t) s = .ok (.absent, s')
  unknown : ∀ t b, t ∉ knownTags → TableIn file t b → Opens (Formats E) s t (.other t (.rest (.unknown b)))
  head : ∀ h, HeadSays file h → Opens (Formats E) s tagHead (.head h)
  maxp : ∀ m, MaxpSays file m → Opens (Formats E) s tagMaxp (.maxp m)
  hhea : ∀ h b, TableIn file tagHhea b → At (hheaRows h) b 0 → Opens (Formats E) s tagHhea (.hhea h)
  hmtx : ∀ h hb b full lsbs, TableIn file tagHhea hb → At (hheaRows h) hb 0 → h.numberOfHMetrics.toNat = full.length → full ≠ [] →
    TableIn file tagHmtx b → Follows b (full.flatMap (fun m => [u16 m.advanceWidth, i16 m.lsb]) ++ lsbs.map i16) →
    Opens (Formats E) s tagHmtx (.hmtx (metricsSay full lsbs))
  os2 : ∀ o b, Os2Readable o → TableIn file tagOS2 b → At (os2Rows o) b 0 → Opens (Formats E) s tagOS2 (.other tagOS2 (.rest (.os2 o)))
  cvt : ∀ l b, TableIn file tagCvt b → Follows b (l.map i16) → Opens (Formats E) s tagCvt (.other tagCvt (.rest (.cvt l)))
  fpgm : ∀ b, TableIn file tagFpgm b → Opens (Formats E) s tagFpgm (.other tagFpgm (.rest (.fpgm b)))
  prep : ∀ b, TableIn file tagPrep b → Opens (Formats E) s tagPrep (.other tagPrep (.rest (.prep b)))
  gasp : ∀ g b, g.gaspRanges.length ≤ 65535 → TableIn file tagGasp b → At (gaspRows g) b 0 →
    Opens (Formats E) s tagGasp (.other tagGasp (.gasp g))
  avar : ∀ maps b, maps.length ≤ 65535 → (∀ m ∈ maps, m.length ≤ 65535) → TableIn file tagAvar b → At (avarRows maps) b 0 →
    Opens (Formats E) s tagAvar (.other tagAvar (.avar maps))
  fvar : ∀ f named reserved b, FvarReadable f named → TableIn file tagFvar b → At (anyFvarRows f named reserved) b 0 →
    Opens (Formats E) s tagFvar (.other tagFvar (.fvar f))
  post : ∀ p v b, otVersion p.version = some v → p.version ≠ 0x20000 → F32.FixedVal p.italicAngle → TableIn file tagPost b →
    At (postHead p v) b 0 → Opens (Formats E) s tagPost (.other tagPost (.post { p with glyphnames := Option.none }))
  postNames : ∀ p indices stored names b, p.version = 0x20000 → F32.FixedVal p.italicAngle → indices.length ≤ 65535 →
    (∀ s ∈ stored, (Strings.utf8 s).length ≤ 255) → indices.map (nameAt stored) = names.map some → TableIn file tagPost b →
    Follows b (post2Rows p indices stored) → Opens (Formats E) s tagPost (.other tagPost (.post { p with glyphnames := some names }))
  name : ∀ format storage l b, NameReadable E.lib storage l → TableIn file tagName b → NameAt format storage l b 0 →
    Opens (Formats E) s tagName (.other tagName (.rest (.name (l.map NameSays.record))))
  stat : ∀ t minor b, StatReadable t minor → TableIn file tagSTAT b → At (anyStatRows t minor) b 0 →
    ∃ t', Opens (Formats E) s tagSTAT (.other tagSTAT (.stat t')) ∧ t'.elided = t.elided ∧ t'.axes = t.axes ∧
      List.Forall₂ SameValue t.values t'.values
  cmap : ∀ b, GoodCmap b → TableIn file tagCmap b → ∃ sts, Opens (Formats E) s tagCmap (.other tagCmap (.cmap sts)) ∧
    sts.length = field b 2 2 ∧ ∀ i st, sts[i]? = some st →
      SubSays (b.drop (field b (8 + 8 * i) 4)) (field b (4 + 8 * i) 2) (field b (6 + 8 * i) 2) st
  glyf : ∀ gs, OutlinesIn file gs → Opens (Formats E) s tagGlyf (.glyf gs)
  gvar : ∀ gs ce stores b, OutlinesIn file gs → (∀ g ∈ gs, g.contours.head? ≠ some []) → List.Forall₂ PointsOf gs ce →
    TableIn file tagGvar b → GvarStored b ce stores → ∃ g, Opens (Formats E) s tagGvar (.other tagGvar (.gvar g)) ∧
      g.length = stores.length ∧ ∀ i st, stores[i]? = some st → ∃ x, g[i]? = some x ∧ GlyphSays b ce i st x
  gdef : ∀ t b, GdefReadable t → TableIn file tagGDEF b → At (anyGdefRows t) b 0 →
    ∃ g, Opens (Formats E) s tagGDEF (.other tagGDEF (.rest (.gdef g))) ∧ (∀ x, valueOf g.glyphClass x = glyphClassSays t x) ∧
      (∀ x, valueOf g.attach x = attachSays t x) ∧ (∀ x, valueOf g.carets x = caretsSays t x) ∧
      (∀ x, classOf g.markClass x = classOf (t.markClasses.getD []) x) ∧
      g.markSets = (if 2 ≤ t.minor then t.markSets.map (fun _ => []) else Option.none) ∧ g.store = Option.none
  gsub : ∀ m t b, MaxpSays file m → SaysOk SubstSays.number SubstSays.tables t → (∀ l ∈ t.lookups, SubstReadable l.rule) →
    TableIn file tagGSUB b → At (saysRows SubstSays.number SubstSays.tables t) b 0 →
    ∃ g, Opens (Formats E) s tagGSUB (.other tagGSUB (.rest (.gsub g))) ∧ g.scripts = t.scripts ∧ g.features = saysFeatures t ∧
      List.Forall₂ (fun (l : Lay.Lookup SubstSays) (l' : Lay.Lookup Gsub.Subst) =>
        l'.flags = l.flags ∧ l'.mfs = l.mfs ∧ SubstMeans m.numGlyphs l.rule l'.rule) t.lookups g.lookups
  gpos : ∀ m t b, MaxpSays file m → SaysOk PosSays.number PosSays.tables t → (∀ l ∈ t.lookups, PosReadable l.rule) →
    TableIn file tagGPOS b → At (saysRows PosSays.number PosSays.tables t) b 0 →
    ∃ g, Opens (Formats E) s tagGPOS (.other tagGPOS (.rest (.gpos g))) ∧ g.scripts = t.scripts ∧ g.features = saysFeatures t ∧
      List.Forall₂ (fun (l : Lay.Lookup PosSays) (l' : Lay.Lookup Gpos.Positioning) =>
        l'.flags = l.flags ∧ l'.mfs = l.mfs ∧ PosMeans m.numGlyphs l.rule l'.rule) t.lookups g.lookups
  math : ∀ t c b, MathOk t → MathPlain t → TableIn file tagMATH b → MathStored b t → t.constants = some c →
    ∃ m, Opens (Formats E) s tagMATH (.other tagMATH (.rest (.math m))) ∧ MathIs m t
  mathConstants : ∀ t b, MathOk t → MathPlain t → TableIn file tagMATH b → MathStored b t → t.constants = Option.none →
    ∃ s', Store.step (parser (Formats E)) (.open_ tagMATH) s = .ok (.failed, s')
  bytes : ∀ t b, TableIn file t b → s.write (parser (Formats E)) t = .ok b

theorem points_of {g : Glyf.Glyph} {c : List Iup.Pt × List Nat} (h : g.contours.head? ≠ some []) (hc : PointsOf g c) :
    Glyf.gvarCoordsAndEnds g = .ok c := by
  obtain ⟨ends, e1, e2, e3, e4⟩ := C61_points g h
  rw [e1, ← hc.points]
  have : ends = c.2 := by
    apply List.ext_getElem?
    intro k
    by_cases h1 : k < g.contours.length
    · obtain ⟨e, a1, a2⟩ := e3 k h1
      obtain ⟨e', b1, b2⟩ := hc.ends k h1
      rw [a1, b1]; congr 1; omega
    · by_cases h2 : k < g.contours.length + g.components.length + 4
      · obtain ⟨j, rfl⟩ : ∃ j, k = g.contours.length + j := ⟨k - g.contours.length, by omega⟩
        rw [e4 j (by omega), hc.single j (by omega)]
      · rw [List.getElem?_eq_none (by omega), List.getElem?_eq_none (by rw [hc.count]; omega)]
  rw [this]

theorem points_all : ∀ {gs : List Glyf.Glyph} {ce : List (List Iup.Pt × List Nat)}, (∀ g ∈ gs, g.contours.head? ≠ some []) →
    List.Forall₂ PointsOf gs ce → Res.mapL Glyf.gvarCoordsAndEnds gs = .ok ce
  | [], _, _, .nil => rfl
  | g :: gs, c :: ce, h, .cons h1 h2 => by
    unfold Res.mapL
    rw [points_of (h g (by simp)) h1, points_all (fun x hx => h x (by simp [hx])) h2]

theorem fails_open {F : Fmt Glyf.Glyph (Other More)} {T : Tag → Option Bytes} {s : Tables} (h : Whole.Holds F T s) {t : Tag}
    (hf : Fails F T t) : ∃ s', Store.step (parser F) (.open_ t) s = .ok (.failed, s') := by
  rcases load_all t h with ⟨h1 | ⟨v, h1⟩, _⟩ | ⟨_, s', h2, _⟩ | ⟨h1, h2⟩
  · cases hf <;> rename_i h2 _ _ <;> simp_all
  · exact absurd h1 (hf.not_means v)
  · exact ⟨s', by show St.getAs _ _ _ _ = _; unfold St.getAs; rw [h2]⟩
  · obtain ⟨a, hr, ha⟩ := h
    obtain ⟨a', e⟩ := load_fails hf 4 a (rank_le t) ha
    have := sim_load (parser F) 4 hr t
    rw [e, h2] at this
    exact this.elim

theorem every_table {E : Env} {file : Bytes} {T : Tag → Option Bytes} {s : Tables} (hT : ∀ t b, T t = some b ↔ TableIn file t b)
    (h : Whole.Holds (Formats E) T s) : EveryTable E file s := by
  have head : ∀ {h}, HeadSays file h → HeadIs T h := by
    rintro h ⟨h1, b, h2, h3⟩
    exact ⟨b, (hT _ _).mpr h2, run_ok (C91_head h h1 b h3)⟩
  have outl : ∀ {gs}, OutlinesIn file gs → GlyfIs T gs := by
    rintro gs ⟨hd, L, G, h1, h2, h3, h4⟩
    obtain ⟨locs, e1, e2⟩ := C93_outlines L G _ gs h4
    exact ⟨locs, G, ⟨hd, L, head h1, (hT _ _).mpr h2, e1⟩, (hT _ _).mpr h3, e2⟩
  have rest : ∀ {t : Tag} {b : Bytes} {x : Other More}, dep t = none →
      (t ≠ tagHead ∧ t ≠ tagHhea ∧ t ≠ tagMaxp ∧ t ≠ tagHmtx ∧ t ≠ tagLoca ∧ t ≠ tagGlyf) → TableIn file t b →
      parseRest (Whole.rest E) t b none = .ok x → Opens (Formats E) s t (.other t x) := by
    intro t b x h1 h2 h3 h4
    exact holds_opens h ((means_rest h1 h2).mpr ⟨b, x, (hT _ _).mpr h3, h4, rfl⟩)
  have more : ∀ {t : Tag} {b : Bytes} {x : More}, dep t = none →
      (t ≠ tagHead ∧ t ≠ tagHhea ∧ t ≠ tagMaxp ∧ t ≠ tagHmtx ∧ t ≠ tagLoca ∧ t ≠ tagGlyf) →
      (t ≠ tagPost ∧ t ≠ tagCmap ∧ t ≠ tagGasp ∧ t ≠ tagGvar ∧ t ≠ tagFvar ∧ t ≠ tagAvar ∧ t ≠ tagSTAT) → TableIn file t b →
      parseMore E t b none = .ok x → Opens (Formats E) s t (.other t (.rest x)) := by
    intro t b x h1 h2 h3 h4 h5
    exact holds_opens h (means_more h1 h2 h3 ((hT _ _).mpr h4) h5)
  constructor
  case none =>
    intro t hn
    refine holds_absent h ?_
    cases hb : T t with
    | none => rfl
    | some b => exact absurd ((hT t b).mp hb) (hn b)
  case unknown =>
    intro t b ht hb
    simp only [knownTags, List.mem_cons, List.not_mem_nil, or_false, not_or] at ht
    obtain ⟨n1, n2, n3, n4, n5, n6, n7, n8, n9, n10, n11, n12, n13, n14, n15, n16, n17, n18, n19, n20, n21, n22⟩ := ht
    refine more ?_ ⟨n1, n2, n3, n4, n5, n6⟩ ⟨n7, n8, n9, n10, n11, n12, n13⟩ hb ?_
    · unfold dep
      rw [if_neg (by rintro (h | h); exacts [n17 h, n18 h]), if_neg n4, if_neg n5, if_neg n6, if_neg n10]
    · unfold parseMore
      rw [if_neg n14, if_neg n15, if_neg n16, if_neg n17, if_neg n18, if_neg n19, if_neg n20, if_neg n21, if_neg n22]
  case head => intro hd h1; exact holds_opens h (means_head.mpr ⟨hd, head h1, rfl⟩)
  case maxp =>
    rintro m ⟨h1, b, h2, h3⟩
    exact holds_opens h (means_maxp.mpr ⟨b, m, (hT _ _).mpr h2, run_ok (C91_maxp m h1 b h3), rfl⟩)
  case hhea =>
    intro hh b h1 h2
    exact holds_opens h (means_hhea.mpr ⟨hh, ⟨b, (hT _ _).mpr h1, run_ok (C91_hhea hh b h2)⟩, rfl⟩)
  case hmtx =>
    intro hh hb b full lsbs h1 h2 h3 h4 h5 h6
    have hn : full.length ≤ 65535 := by have := hh.numberOfHMetrics.toNat_lt; omega
    have e := C91_hmtx full lsbs h4 hn b h6
    rw [← h3] at e
    simp only [UInt16.ofNat_toNat] at e
    exact holds_opens h (means_hmtx.mpr ⟨_, ⟨hh, b, ⟨hb, (hT _ _).mpr h1, run_ok (C91_hhea hh hb h2)⟩, (hT _ _).mpr h5, run_ok e⟩, rfl⟩)
  case os2 =>
    intro o b h1 h2 h3
    refine more (by decide) (by decide) (by decide) h2 ?_
    unfold parseMore
    rw [if_neg (by decide), if_neg (by decide), if_neg (by decide), if_neg (by decide), if_neg (by decide), if_neg (by decide),
      if_neg (by decide), if_pos rfl, run_ok (C91_os2 o h1 b h3)]
    rfl
  case cvt =>
    intro l b h1 h2
    refine more (by decide) (by decide) (by decide) h1 ?_
    unfold parseMore
    rw [if_pos rfl, run_ok (C91_cvt l b h2)]
    rfl
  case fpgm =>
    intro b h1
    refine more (by decide) (by decide) (by decide) h1 ?_
    unfold parseMore
    rw [if_neg (by decide), if_pos rfl]
    rfl
  case prep =>
    intro b h1
    refine more (by decide) (by decide) (by decide) h1 ?_
    unfold parseMore
    rw [if_neg (by decide), if_neg (by decide), if_neg (by decide), if_neg (by decide), if_neg (by decide), if_neg (by decide),
      if_neg (by decide), if_neg (by decide), if_pos rfl]
    rfl
  case gasp =>
    intro g b h1 h2 h3
    refine rest (by decide) (by decide) h2 ?_
    unfold parseRest
    rw [if_neg (by decide), if_neg (by decide), if_pos rfl, run_ok (C91_gasp g h1 b h3)]
    rfl
  case avar =>
    intro maps b h1 h2 h3 h4
    refine rest (by decide) (by decide) h3 ?_
    unfold parseRest
    rw [if_neg (by decide), if_neg (by decide), if_neg (by decide), if_neg (by decide), if_neg (by decide), if_pos rfl,
      run_ok (C91_avar maps h1 h2 b h4)]
    rfl
  case fvar =>
    intro f named reserved b h1 h2 h3
    refine rest (by decide) (by decide) h2 ?_
    unfold parseRest
    rw [if_neg (by decide), if_neg (by decide), if_neg (by decide), if_neg (by decide), if_pos rfl,
      run_ok (C91_fvar f named reserved h1 b h3)]
    rfl
  case post =>
    intro p v b h1 h2 h3 h4 h5
    refine rest (by decide) (by decide) h4 ?_
    unfold parseRest
    rw [if_pos rfl, run_ok (C91_post p v h1 h2 h3 b h5)]
    rfl
  case postNames =>
    intro p indices stored names b h1 h2 h3 h4 h5 h6 h7
    refine rest (by decide) (by decide) h6 ?_
    unfold parseRest
    rw [if_pos rfl, run_ok (C91_post_names p indices stored names h1 h2 h3 h4 h5 b h7)]
    rfl
  case name =>
    intro format storage l b h1 h2 h3
    refine more (by decide) (by decide) (by decide) h2 ?_
    unfold parseMore
    rw [if_neg (by decide), if_neg (by decide), if_neg (by decide), if_neg (by decide), if_neg (by decide), if_neg (by decide),
      if_pos rfl, run_ok (C91_name E.lib format storage l h1 b h3)]
    rfl
  case stat =>
    intro t minor b h1 h2 h3
    obtain ⟨t', rd, e, k⟩ := C91_stat t minor h1 b h3
    refine ⟨t', rest (by decide) (by decide) h2 ?_, k⟩
    unfold parseRest
    rw [if_neg (by decide), if_neg (by decide), if_neg (by decide), if_neg (by decide), if_neg (by decide), if_neg (by decide),
      if_pos rfl, run_ok ⟨rd, e⟩]
    rfl
  case cmap =>
    intro b h1 h2
    obtain ⟨sts, rd, e, k⟩ := C92_cmap b h1
    refine ⟨sts, rest (by decide) (by decide) h2 ?_, k⟩
    unfold parseRest
    rw [if_neg (by decide), if_pos rfl, run_ok ⟨rd, e⟩]
    rfl
  case glyf => intro gs h1; exact holds_opens h (means_glyf.mpr ⟨gs, outl h1, rfl⟩)
  case gvar =>
    intro gs ce stores b h1 h2 h3 h4 h5
    obtain ⟨g, rd, e, k⟩ := C94_gvar b ce stores h5
    exact ⟨g, holds_opens h (means_gvar.mpr ⟨gs, g, outl h1, ⟨ce, b, points_all h2 h3, (hT _ _).mpr h4, run_ok ⟨rd, e⟩⟩, rfl⟩), k⟩
  case gdef =>
    intro t b h1 h2 h3
    obtain ⟨g, rd, e, k⟩ := C90_gdef t h1 b h3
    refine ⟨g, more (by decide) (by decide) (by decide) h2 ?_, k⟩
    unfold parseMore
    rw [if_neg (by decide), if_neg (by decide), if_pos rfl, run_ok ⟨rd, e⟩]
    rfl
  case gsub =>
    rintro m t b ⟨m1, mb, m2, m3⟩ h1 h2 h3 h4
    obtain ⟨g, rd, e, k⟩ := C88_gsub m.numGlyphs t h1 h2 b h4
    refine ⟨g, holds_opens h (means_layout (.inr rfl) ((hT _ _).mpr h3) ((hT _ _).mpr m2) (run_ok (C91_maxp m m1 mb m3)) ?_), k⟩
    unfold parseMore withGlyphs
    rw [if_neg (by decide), if_neg (by decide), if_neg (by decide), if_neg (by decide), if_pos rfl]
    simp only
    rw [run_ok ⟨rd, e⟩]
    rfl
  case gpos =>
    rintro m t b ⟨m1, mb, m2, m3⟩ h1 h2 h3 h4
    obtain ⟨g, rd, e, k⟩ := C89_gpos m.numGlyphs t h1 h2 b h4
    refine ⟨g, holds_opens h (means_layout (.inl rfl) ((hT _ _).mpr h3) ((hT _ _).mpr m2) (run_ok (C91_maxp m m1 mb m3)) ?_), k⟩
    unfold parseMore withGlyphs
    rw [if_neg (by decide), if_neg (by decide), if_neg (by decide), if_pos rfl]
    simp only
    rw [run_ok ⟨rd, e⟩]
    rfl
  case math =>
    intro t c b h1 h2 h3 h4 h5
    obtain ⟨m, rd, e, k⟩ := (C95_math t h1 h2 b h4).1 c h5
    refine ⟨m, more (by decide) (by decide) (by decide) h3 ?_, k⟩
    unfold parseMore
    rw [if_neg (by decide), if_neg (by decide), if_neg (by decide), if_neg (by decide), if_neg (by decide), if_pos rfl, run_ok ⟨rd, e⟩]
    rfl
  case mathConstants =>
    intro t b h1 h2 h3 h4 h5
    have e := (C95_math t h1 h2 b h4).2 h5
    refine fails_open h (.plain ((hT _ _).mpr h3) (by decide) ?_)
    unfold Save.parse
    rw [if_neg (by decide), if_neg (by decide), if_neg (by decide), if_neg (by decide), if_neg (by decide), if_neg (by decide)]
    show (do return Loaded.other tagMATH (← parseRest (Whole.rest E) tagMATH b none)) = _
    unfold parseRest
    rw [if_neg (by decide), if_neg (by decide), if_neg (by decide), if_neg (by decide), if_neg (by decide), if_neg (by decide),
      if_neg (by decide)]
    show (do return Loaded.other tagMATH (← (do return Other.rest (← parseMore E tagMATH b none)))) = _
    unfold parseMore
    rw [if_neg (by decide), if_neg (by decide), if_neg (by decide), if_neg (by decide), if_neg (by decide), if_pos rfl]
    unfold runAll
    rw [e]
    rfl
  case bytes =>
    intro t b hb
    rw [holds_write h t, (hT t b).mpr hb]
    rfl

theorem opened_holds {E : Env} {file : Bytes} {v version : UInt32} {T : Tag → Option Bytes} {s : Tables} (hi : IsFont file version T)
    (h : fromBytes E file = .ok (v, s)) : v = version ∧ Whole.Holds (Formats E) T s := by
  obtain ⟨l, r, e, hT⟩ := hi
  obtain ⟨h1, _, _⟩ := loads_facts e
  unfold fromBytes at h
  rw [e] at h
  simp only at h
  obtain ⟨s1, a1, h⟩ := bind_eq_ok h
  obtain ⟨s2, a2, h⟩ := bind_eq_ok h
  cases h
  refine ⟨rfl, ?_⟩
  rcases need_ok (E := E) (T := T) (holds_fresh h1 hT) (t := tagHead) with ⟨_, s', b1, b2⟩ | ⟨_, b1⟩ | ⟨_, b1⟩
  · rw [a1] at b1; cases b1
    rcases need_ok b2 (t := tagLoca) with ⟨_, s', c1, c2⟩ | ⟨_, c1⟩ | ⟨_, c1⟩
    · rw [a2] at c1; cases c1; exact c2
    · rw [a2] at c1; cases c1
    · rw [a2] at c1; cases c1
  · rw [a1] at b1; cases b1
  · rw [a1] at b1; cases b1

/-- **C96.** A font that was loaded from a file: the version is that of the file, and after any use of the font that replaces no
table, every table is looked up as what its bytes in the file say. -/
theorem C96_reads (E : Env) (file : Bytes) (hf : FontFile file) (v : UInt32) (s : Tables) (h : fromBytes E file = .ok (v, s))
    (ops : List (Op (Val More))) (hops : ∀ op ∈ ops, ReadOnly op) (os : List (Obs (Val More))) (s' : Tables)
    (hs : Store.run (parser (Formats E)) ops s = .ok (os, s')) :
    v.toNat = beValue (bytesAt file 0 4) ∧ EveryTable E file s' := by
  obtain ⟨version, T, h1, h2, h3⟩ := C96_tables file hf
  obtain ⟨rfl, h4⟩ := opened_holds h1 h
  exact ⟨h2, every_table h3 (holds_run hops h4 hs)⟩

/-- **C96.** A font file without `head` and `loca`, or with a readable `head`, is loaded; the locations of the glyphs are never
malformed. -/
theorem C96_opens (E : Env) (file : Bytes) (hf : FontFile file)
    (hh : (∃ h, HeadSays file h) ∨ ∀ b, ¬ TableIn file tagHead b ∧ ¬ TableIn file tagLoca b) : ∃ v s, fromBytes E file = .ok (v, s) := by
  obtain ⟨version, T, ⟨l, r, e, hT⟩, h2, h3⟩ := C96_tables file hf
  obtain ⟨h1, _, _⟩ := loads_facts e
  have absent : ∀ t, (∀ b, ¬ TableIn file t b) → T t = none := by
    intro t hn
    cases hb : T t with
    | none => rfl
    | some b => exact absurd ((h3 t b).mp hb) (hn b)
  have good : (T tagHead = none ∨ ∃ v, Means (Formats E) T tagHead v) ∧ (T tagLoca = none ∨ ∃ v, Means (Formats E) T tagLoca v) := by
    rcases hh with ⟨h, hr, b, hb, hb'⟩ | hh
    · have hi : HeadIs T h := ⟨b, (h3 _ _).mpr hb, run_ok (C91_head h hr b hb')⟩
      refine ⟨.inr ⟨_, means_head.mpr ⟨h, hi, rfl⟩⟩, ?_⟩
      cases hL : T tagLoca with
      | none => exact .inl rfl
      | some L =>
        obtain ⟨raw, r, e1, _, _⟩ := raw_read L (h.indexToLocFormat == 1)
        refine .inr ⟨_, means_loca.mpr ⟨h, L, Loca.pairs raw, hi, hL, ?_, rfl⟩⟩
        unfold runAll Loca.fromBytes
        rw [Reader.bind_run, e1]
        rfl
    · exact ⟨.inl (absent _ fun b => (hh b).1), .inl (absent _ fun b => (hh b).2)⟩
  have key : ∀ {t : Tag} {s : Tables}, (T t = none ∨ ∃ v, Means (Formats E) T t v) → Whole.Holds (Formats E) T s →
      ∃ s', need E t s = .ok s' ∧ Whole.Holds (Formats E) T s' := by
    intro t s h4 h5
    rcases need_ok h5 (t := t) with ⟨_, b⟩ | ⟨b, _⟩ | ⟨b, _⟩
    · exact b
    · exfalso
      rcases h4 with h4 | ⟨v, h4⟩
      · cases b <;> simp_all
      · exact b.not_means v h4
    · exfalso
      rcases h4 with h4 | ⟨v, h4⟩
      · cases b <;> simp_all
      · exact b.not_means v h4
  obtain ⟨s1, a1, a2⟩ := key good.1 (holds_fresh h1 hT)
  obtain ⟨s2, b1, _⟩ := key good.2 a2
  refine ⟨version, s2, ?_⟩
  unfold fromBytes
  rw [e]
  simp only
  rw [a1, Res.ok_bind, b1]
  rfl

/-- **C96.** A font file with locations of glyphs but without `head` cannot be loaded. -/
theorem C96_needs_head (E : Env) (file : Bytes) (hf : FontFile file) (h0 : ∀ b, ¬ TableIn file tagHead b) (L : Bytes)
    (hL : TableIn file tagLoca L) : fromBytes E file = .err := by
  obtain ⟨version, T, ⟨l, r, e, hT⟩, h2, h3⟩ := C96_tables file hf
  obtain ⟨h1, _, _⟩ := loads_facts e
  have hn : T tagHead = none := by
    cases hb : T tagHead with
    | none => rfl
    | some b => exact absurd ((h3 _ b).mp hb) (h0 b)
  have hf : Fails (Formats E) T tagLoca := .missing ((h3 _ _).mpr hL) (by decide) hn
  unfold fromBytes
  rw [e]
  simp only
  rcases need_ok (E := E) (T := T) (holds_fresh h1 hT) (t := tagHead) with ⟨_, s', b1, b2⟩ | ⟨b, _⟩ | ⟨b, _⟩
  · rw [b1, Res.ok_bind]
    obtain ⟨a, hr, ha⟩ := b2
    obtain ⟨a', e'⟩ := load_fails hf 4 a (rank_le _) ha
    have := sim_load (parser (Formats E)) 4 hr tagLoca
    rw [e'] at this
    unfold need loadTable
    cases hl : s'.load (parser (Formats E)) 4 tagLoca with
    | err => rw [hl] at this; exact this.elim
    | panic => rw [hl] at this; exact this.elim
    | ok x =>
      obtain ⟨c, s2⟩ := x
      rw [hl] at this
      obtain ⟨rfl, _⟩ := this
      rfl
  · cases b <;> simp_all
  · cases b <;> simp_all

/-- **C96.** What is not a font file is not loaded: an error if its directory is not one, a panic if a table is outside. -/
theorem C96_not_font (E : Env) (file : Bytes) (hf : ¬ FontFile file) :
    (¬ DirectoryReadable file ∧ fromBytes E file = .err) ∨ (DirectoryReadable file ∧ fromBytes E file = .panic) := by
  obtain ⟨h1, h2, h3⟩ := C22_load_outcome file
  by_cases hd : DirectoryReadable file
  · refine .inr ⟨hd, ?_⟩
    have : Font.readTables (Rd.new file) = .panic := by
      refine h2.mpr ⟨hd, ?_⟩
      by_contra hc
      push Not at hc
      exact hf ⟨hd, hc⟩
    unfold fromBytes
    rw [this]
  · refine .inl ⟨hd, ?_⟩
    unfold fromBytes
    rw [h1.mpr hd]

/-! ### Example -/

def fileHead : Tables.Head := ⟨1, 0, 1, 7, 0x5F0F3CF5, 3, 1000, ⟨2082844800, 0⟩, ⟨2082844800, 0⟩, -1, 0, 2, 300, 0, 8, 2, 1, 0⟩

/-- A font with `head` and `maxp`, and two tables of the same unknown tag. -/
def oddFile : Bytes :=
  [0, 1, 0, 0, 0, 4, 0, 64, 0, 2, 0, 0,
   104, 101, 97, 100, 0, 0, 0, 0, 0, 0, 0, 76, 0, 0, 0, 54,
   109, 97, 120, 112, 0, 0, 0, 0, 0, 0, 0, 130, 0, 0, 0, 6,
   122, 122, 122, 122, 0, 0, 0, 0, 0, 0, 0, 137, 0, 0, 0, 2,
   122, 122, 122, 122, 0, 0, 0, 0, 0, 0, 0, 136, 0, 0, 0, 1,
   0, 1, 0, 0, 0, 1, 0, 0, 0, 0, 0, 7, 95, 15, 60, 245, 0, 3, 3, 232,
   0, 0, 0, 0, 0x7C, 0x25, 0xB0, 0x80, 0, 0, 0, 0, 0x7C, 0x25, 0xB0, 0x80, 255, 255, 0, 0, 0, 2, 1, 44,
   0, 0, 0, 8, 0, 2, 0, 1, 0, 0,
   0, 0, 80, 0, 1, 44, 7, 8, 9]

def zzzz : Tag := ⟨122, 122, 122, 122⟩

theorem oddFile_font : FontFile oddFile := by
  refine ⟨⟨by decide +kernel, .inl (by decide +kernel), by decide +kernel, by decide +kernel⟩, ?_⟩
  intro i hi
  unfold EntryInside
  have : i < 4 := hi
  interval_cases i <;> decide +kernel

theorem oddFile_in {i : Nat} {t : Tag} (hi : i < 4) (ht : recordTag oddFile i = t.bytes)
    (hm : ∀ j < 4, recordTag oddFile j = t.bytes → recordOffset oddFile j < recordOffset oddFile i ∨
      (recordOffset oddFile j = recordOffset oddFile i ∧ j ≤ i)) :
    TableIn oddFile t (bytesAt oddFile (recordOffset oddFile i) (recordLength oddFile i)) := ⟨i, hi, ht, rfl, hm⟩

theorem oddFile_head : HeadSays oddFile fileHead := by
  refine ⟨⟨?_, ⟨by decide +kernel, by decide +kernel, rfl⟩, ⟨by decide +kernel, by decide +kernel, rfl⟩⟩, _,
    oddFile_in (i := 0) (by decide) (by decide +kernel) (by decide +kernel), ?_⟩
  · have := F32.fixedVal_int (n := 1) (by omega) (by omega)
    exact_mod_cast this
  · refine ⟨⟨by decide +kernel, by decide +kernel⟩, ⟨by decide +kernel, by decide +kernel⟩,
      ⟨by decide +kernel, 65536, by decide, by decide, by decide +kernel, by norm_num [fileHead]⟩, flat_shown (by decide +kernel)⟩

/-- It is loaded, and after the unknown table was looked up, its contents replaced in the copy, and dropped, every table is still
what the file says. -/
example (E : Env) : ∃ v s, fromBytes E oddFile = .ok (v, s) ∧ ∀ ops : List (Op (Val More)), (∀ op ∈ ops, ReadOnly op) → ∀ os s',
    Store.run (parser (Formats E)) ops s = .ok (os, s') →
      Opens (Formats E) s' tagHead (.head fileHead) ∧ Opens (Formats E) s' tagMaxp (.maxp ⟨0x8000, .v05 ⟨300⟩⟩) ∧
      Opens (Formats E) s' zzzz (.other zzzz (.rest (.unknown [8, 9]))) := by
  obtain ⟨v, s, h⟩ := C96_opens E oddFile oddFile_font (.inl ⟨_, oddFile_head⟩)
  refine ⟨v, s, h, fun ops hops os s' hs => ?_⟩
  have he := (C96_reads E oddFile oddFile_font v s h ops hops os s' hs).2
  refine ⟨he.head _ oddFile_head, he.maxp _ ⟨rfl, _, oddFile_in (i := 1) (by decide) (by decide +kernel) (by decide +kernel),
    flat_shown (by decide +kernel)⟩, ?_⟩
  exact he.unknown zzzz _ (by decide +kernel) (oddFile_in (i := 2) (by decide) (by decide +kernel) (by decide +kernel))

end FT.Props
