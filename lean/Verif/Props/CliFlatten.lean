import Verif.Lemmas.CliFlat
import Verif.Props.GlyphReread
import Verif.Props.Decompose
import Verif.Props.CliGvar

/-!
C86: `ttf-flatten-components`, from the bytes of the input file to the bytes of the output file.

Vocabulary (in Lemmas/CliGvar and Lemmas/CliFlat): `GlyfIs T gs`, the glyphs of a font with the tables `T` can be read and are
`gs`; `HheaIs T h` and `HmtxIs T l`, the same for `hhea` and the metrics. In Props/GlyfTable: `Expands gs cs out`, `out` are
the components that remain of `cs` when those with components of their own are replaced by these.
-/

namespace FT.Props
open FT FT.Cli FT.Tables FT.Save FT.Store FT.Glyf FT.Loca

variable {X : Type}

/-! ### Which fonts are accepted -/

theorem mapL_item {α β : Type} {f : α → Res β} {l : List α} {bs : List β} (h : Res.mapL f l = .ok bs) {a : α} (ha : a ∈ l) :
    ∃ b, f a = .ok b := by
  have hf := mapL_inv _ _ h
  clear h
  induction hf with
  | nil => cases ha
  | cons h1 _ ih =>
    rcases List.mem_cons.mp ha with rfl | ha
    · exact ⟨_, h1⟩
    · exact ih ha

/-- If flattening succeeds, every component refers to a glyph. -/
theorem flatten_noDangling {gs flat : List Glyph} (h : flattenTable gs = .ok flat) : NoDangling gs := by
  have loop : ∀ (rec : Glyph → Res (List Component)) (cs out : List Component), flatLoop gs rec cs = .ok out →
      ∀ c ∈ cs, c.glyphIndex.toNat < gs.length := by
    intro rec cs
    induction cs with
    | nil => intro _ _ c hc; cases hc
    | cons c cs ih =>
      intro out h d hd
      unfold flatLoop at h
      obtain ⟨g, h1, h⟩ := bind_eq_ok h
      obtain ⟨here, _, h⟩ := bind_eq_ok h
      obtain ⟨rest, h2, _⟩ := bind_eq_ok h
      rcases List.mem_cons.mp hd with rfl | hd
      · exact (List.getElem?_eq_some_iff.mp (glyphAt_inv h1)).1
      · exact ih rest h2 d hd
  intro g hg c hc
  obtain ⟨g', h1⟩ := mapL_item h hg
  unfold flattenOne at h1
  split at h1
  · obtain ⟨out, h2, _⟩ := bind_eq_ok h1
    exact loop _ _ _ h2 c hc
  · next hn =>
    have : g.components = [] := by
      rw [Bool.not_eq_true] at hn
      simpa [Glyph.hasComponents] using hn
    rw [this] at hc
    cases hc

/-- Specification: the glyphs can be written, and their number and size fit the format. -/
def CanWrite (gs : List Glyph) : Prop := gs.length ≤ 65535 ∧ ∃ bytesOf : Glyph → Bytes,
  (∀ g ∈ gs, g.isEmpty = false → encGlyph g = .ok (bytesOf g)) ∧ outlineSize Glyph.isEmpty bytesOf gs ≤ 4294967295

theorem loop_each {G : Type} {isEmpty : G → Bool} {ser : G → Res Bytes} : ∀ (gs : List G) (o : Bytes) (x : List UInt32 × Bytes),
    compileLoop isEmpty ser gs o = .ok x → ∀ g ∈ gs, isEmpty g = false → ∃ b, ser g = .ok b
  | [], _, _, _, g, hg, _ => by cases hg
  | g :: gs, o, x, h, g', hg, he => by
    unfold compileLoop at h
    split at h
    · cases h
    split at h
    · next e =>
      cases hc : compileLoop isEmpty ser gs o with
      | err => rw [hc] at h; cases h
      | panic => rw [hc] at h; cases h
      | ok y =>
        rcases List.mem_cons.mp hg with rfl | hg
        · rw [e] at he; cases he
        · exact loop_each gs o y hc g' hg he
    · cases hs : ser g with
      | err => rw [hs] at h; cases h
      | panic => rw [hs] at h; cases h
      | ok bs =>
        rw [hs] at h
        simp only at h
        cases hc : compileLoop isEmpty ser gs (pad4 (o ++ bs)) with
        | err => rw [hc] at h; cases h
        | panic => rw [hc] at h; cases h
        | ok y =>
          rcases List.mem_cons.mp hg with rfl | hg
          · exact ⟨bs, hs⟩
          · exact loop_each gs _ y hc g' hg he

theorem compile_iff {gs : List Glyph} : (∃ c, Loca.compile Glyph.isEmpty encGlyph gs = .ok c) ↔ ∃ bytesOf : Glyph → Bytes,
    (∀ g ∈ gs, g.isEmpty = false → encGlyph g = .ok (bytesOf g)) ∧ outlineSize Glyph.isEmpty bytesOf gs ≤ 4294967295 := by
  constructor
  · rintro ⟨c, h⟩
    have hl : ∃ x, compileLoop Glyph.isEmpty encGlyph gs [] = .ok x := by
      unfold Loca.compile at h
      cases hc : compileLoop Glyph.isEmpty encGlyph gs [] with
      | err => rw [hc] at h; cases h
      | panic => rw [hc] at h; cases h
      | ok y => exact ⟨y, rfl⟩
    obtain ⟨x, hx⟩ := hl
    have : ∀ g : Glyph, ∃ b, g ∈ gs → g.isEmpty = false → encGlyph g = .ok b := by
      intro g
      by_cases hg : g ∈ gs ∧ g.isEmpty = false
      · obtain ⟨b, hb⟩ := loop_each _ _ _ hx g hg.1 hg.2
        exact ⟨b, fun _ _ => hb⟩
      · exact ⟨[], fun h1 h2 => absurd ⟨h1, h2⟩ hg⟩
    choose bytesOf hb using this
    refine ⟨bytesOf, fun g hg he => hb g hg he, ?_⟩
    by_contra hbig
    rw [C26_too_big _ _ bytesOf gs (fun g hg he => hb g hg he) (by omega)] at h
    cases h
  · rintro ⟨bytesOf, h1, h2⟩
    obtain ⟨out, loca, is32, _, _, h, _⟩ := C26_layout _ _ bytesOf gs h1 h2
    exact ⟨_, h⟩

/-- The number of full metrics of metrics that were read never overflows. -/
theorem hmtx_count {T : Tag → Option Bytes} {l : List Hmtx.Metric} (h : HmtxIs T l) : ∃ n, Hmtx.numberOfHMetrics l = .ok n := by
  obtain ⟨hh, b, _, _, h⟩ := h
  obtain ⟨h1, h2⟩ := (hmtx_read _ b).2 l h
  obtain ⟨full, m, others, e1, e2, e3, e4⟩ := (hmtx_read _ b).1 h1 h2
  rw [h] at e4
  cases e4
  obtain ⟨k, _, k2, e⟩ := count_is full m others e2
  rw [e]
  have := hh.numberOfHMetrics.toNat_lt
  exact ⟨_, if_neg (by omega)⟩

theorem NewGlyphs.few {F : Fmt Glyph (Other X)} {gs : List Glyph} {T T' : Tag → Option Bytes} (h : NewGlyphs F gs T T')
    (hg : T tagGlyf ≠ none) (hl : T tagLoca ≠ none) : FewTables T' ↔ FewTables T := by
  have hn : ∀ t, T' t = none ↔ T t = none := by
    obtain ⟨out, loca, is32, hd, m, x, _, _, _, ⟨_, hh, _⟩, hx, rfl⟩ := h
    intro t
    unfold put
    split
    · next e =>
      subst e
      rcases hx with ⟨_, rfl⟩ | ⟨_, _, _, ⟨_, e, _⟩, _, _, rfl⟩
      · rfl
      · simp [e]
    split
    · next e => subst e; simp [hh]
    split
    · next e => subst e; simp [hl]
    split
    · next e => subst e; simp [hg]
    · rfl
  unfold FewTables
  simp only [ne_eq, hn]

theorem NewGlyphs.other {F : Fmt Glyph (Other X)} {gs : List Glyph} {T T' : Tag → Option Bytes} (h : NewGlyphs F gs T T') {t : Tag}
    (ht : t ≠ tagGlyf ∧ t ≠ tagLoca ∧ t ≠ tagHead ∧ t ≠ tagHhea) : T' t = T t := by
  obtain ⟨out, loca, is32, hd, m, x, _, _, _, _, hx, rfl⟩ := h
  obtain ⟨h1, h2, h3, h4⟩ := ht
  unfold put
  rw [if_neg h4, if_neg h3, if_neg h2, if_neg h1]

theorem encHead_length (h : Head) : (encHead h).length = 54 := by simp [encHead, F32.encFixed, encDate]

theorem NewGlyphs.long {F : Fmt Glyph (Other X)} {gs : List Glyph} {T T' : Tag → Option Bytes} (h : NewGlyphs F gs T T') :
    ∀ b, T' tagHead = some b → 12 ≤ b.length := by
  obtain ⟨out, loca, is32, hd, m, x, _, _, _, _, hx, rfl⟩ := h
  intro b hb
  unfold put at hb
  rw [if_neg (by decide), if_pos rfl] at hb
  cases hb
  rw [encHead_length]
  omega

theorem glyf_there {T : Tag → Option Bytes} {gs : List Glyph} (h : GlyfIs T gs) : T tagGlyf ≠ none ∧ T tagLoca ≠ none := by
  obtain ⟨_, _, ⟨_, _, _, e1, _⟩, e2, _⟩ := h
  exact ⟨by rw [e2]; simp, by rw [e1]; simp⟩

/-- **C86.** The tool writes a file exactly if the font can be opened, `maxp`, the glyphs and, if present, the metrics can be
read, there are fewer than 4096 tables, every component refers to a glyph, and the flattened glyphs can be written. -/
theorem C86_accepts (R : Rest X) : Accepts (flattenComponents R) (fun T => Openable T ∧ FewTables T ∧ (∃ m, MaxpIs T m) ∧
    (T tagHmtx = none ∨ ∃ l, HmtxIs T l) ∧ ∃ gs, GlyfIs T gs ∧ NoDangling gs ∧ ∃ flat, flattenTable gs = .ok flat ∧ CanWrite flat) := by
  intro input
  constructor
  · rintro ⟨out, e⟩
    obtain ⟨v, T, gs, flat, T', l, h1, h2, h3, h4, h5, h6, h7, h8⟩ := (flatten_spec R _ _).mp e
    obtain ⟨g1, g2⟩ := glyf_there h3
    refine ⟨v, T, h1, h2, (NewGlyphs.few h5 g1 g2).mp ((toBytes_iff (NewGlyphs.long h5)).mp ⟨l, out, h6, h7, h8⟩), ?_, ?_, gs, h3,
      flatten_noDangling h4, flat, h4, ?_⟩
    · obtain ⟨_, _, _, _, m, _, _, _, hm, _⟩ := h5
      exact ⟨m, hm⟩
    · obtain ⟨_, _, _, _, m, x, _, _, _, _, hx, _⟩ := h5
      rcases hx with ⟨h, _⟩ | ⟨_, l, _, _, h, _⟩
      · exact .inl h
      · exact .inr ⟨l, h⟩
    · obtain ⟨_, _, _, _, m, x, hc, hn, _⟩ := h5
      exact ⟨hn, compile_iff.mp ⟨_, hc⟩⟩
  · rintro ⟨v, T, h1, h2, h3, ⟨m, hm⟩, hx, gs, h5, _, flat, h6, hn, hc⟩
    obtain ⟨⟨o, lc, is32⟩, hc⟩ := compile_iff.mpr hc
    obtain ⟨hd, hhd⟩ : ∃ h, HeadIs T h := by
      obtain ⟨_, _, ⟨h, _, e, _⟩, _⟩ := h5
      exact ⟨h, e⟩
    obtain ⟨x, hx⟩ : ∃ x, NewHhea T x := by
      rcases hx with h | ⟨l, hl⟩
      · exact ⟨_, .inl ⟨h, rfl⟩⟩
      · obtain ⟨n, e⟩ := hmtx_count hl
        obtain ⟨h, _, e1, _⟩ := id hl
        exact ⟨_, .inr ⟨h, l, n, e1, hl, e, rfl⟩⟩
    have hT : NewGlyphs (fmt R) flat T _ := ⟨o, lc, is32, hd, m, x, hc, hn, hm, hhd, hx, rfl⟩
    obtain ⟨g1, g2⟩ := glyf_there h5
    obtain ⟨l, out, e1, e2, e3⟩ := (toBytes_iff (v := v) (NewGlyphs.long hT)).mpr ((NewGlyphs.few hT g1 g2).mpr h3)
    exact ⟨out, (flatten_spec R _ _).mpr ⟨v, T, gs, flat, _, l, h1, h2, h5, h6, hT, e1, e2, e3⟩⟩

/-! ### What is in the new file -/

theorem date_whole {r r' : Rd} {d : Date} (h : readDate r = .ok (d, r')) : dateMin ≤ d.secs ∧ d.secs ≤ dateMax ∧ d.nanos = 0 := by
  unfold readDate at h
  obtain ⟨x, _, _, h⟩ := reader_bind_ok h
  split at h
  · next e => cases h; exact ⟨e.1, e.2, rfl⟩
  · cases h

theorem head_dates {b : Bytes} {h : Head} (e : runAll readHead b = .ok h) :
    (dateMin ≤ h.created.secs ∧ h.created.secs ≤ dateMax ∧ h.created.nanos = 0) ∧
    (dateMin ≤ h.modified.secs ∧ h.modified.secs ≤ dateMax ∧ h.modified.nanos = 0) := by
  unfold runAll at e
  split at e
  · next x r h1 =>
    cases e
    unfold readHead at h1
    obtain ⟨_, _, _, h1⟩ := reader_bind_ok h1
    obtain ⟨_, _, _, h1⟩ := reader_bind_ok h1
    obtain ⟨_, _, _, h1⟩ := reader_bind_ok h1
    obtain ⟨_, _, _, h1⟩ := reader_bind_ok h1
    obtain ⟨_, _, _, h1⟩ := reader_bind_ok h1
    obtain ⟨_, _, _, h1⟩ := reader_bind_ok h1
    obtain ⟨_, _, _, h1⟩ := reader_bind_ok h1
    obtain ⟨d1, _, e1, h1⟩ := reader_bind_ok h1
    obtain ⟨d2, _, e2, h1⟩ := reader_bind_ok h1
    iterate 9 obtain ⟨_, _, _, h1⟩ := reader_bind_ok h1
    cases h1
    exact ⟨date_whole e1, date_whole e2⟩
  · cases e
  · cases e

theorem reads_revision (q : ℚ) : Reads F32.readFixed (F32.encFixed q) (F32.fixedFromPacked (Int32.ofInt (F32.fixedAsPacked q)).toInt) := by
  unfold F32.readFixed F32.encFixed
  exact Reads.bind' (reads_i32 _) (Reads.pure _) (List.append_nil _).symm

/-- What is left of a revision when it is written. -/
def rewritten (q : ℚ) : ℚ := F32.fixedFromPacked (Int32.ofInt (F32.fixedAsPacked q)).toInt

/-- Writing a `head` that was read. -/
theorem head_again (h : Head) (hc : dateMin ≤ h.created.secs ∧ h.created.secs ≤ dateMax ∧ h.created.nanos = 0)
    (hm : dateMin ≤ h.modified.secs ∧ h.modified.secs ≤ dateMax ∧ h.modified.nanos = 0) :
    Reads readHead (encHead h) { h with fontRevision := rewritten h.fontRevision } := by
  obtain ⟨h1, h2, h3, h4, h5, h6, h7, h8, h9, h10, h11, h12, h13, h14, h15, h16, h17, h18⟩ := h
  simp only at hc hm
  unfold encHead readHead
  refine Reads.bind (reads_u16 _) (Reads.bind (reads_u16 _) (Reads.bind (reads_revision _) (Reads.bind (reads_u32 _)
    (Reads.bind (reads_u32 _) (Reads.bind (reads_u16 _) (Reads.bind (reads_u16 _)
    (Reads.bind (reads_date hc.1 hc.2.1 hc.2.2) (Reads.bind (reads_date hm.1 hm.2.1 hm.2.2)
    (Reads.bind (reads_i16 _) (Reads.bind (reads_i16 _) (Reads.bind (reads_i16 _) (Reads.bind (reads_i16 _)
    (Reads.bind (reads_u16 _) (Reads.bind (reads_u16 _) (Reads.bind (reads_i16 _) (Reads.bind (reads_i16 _)
    (Reads.bind' (reads_i16 _) (Reads.pure _) (List.append_nil _).symm)))))))))))))))))

theorem runAll_reads {α : Type} {p : Reader α} {bs : Bytes} {a : α} (h : Reads p bs a) : runAll p bs = .ok a := by
  have := h [] [] [0]
  simp only [List.nil_append, List.append_nil, List.length_nil] at this
  unfold runAll Rd.new
  rw [this]

/-- A revision between -128 and 128 stays. -/
theorem rewritten_small (p : Int32) (hp : |p.toInt| ≤ 2 ^ 23) :
    rewritten (F32.fixedFromPacked p.toInt) = F32.fixedFromPacked p.toInt := by
  have h1 := runAll_reads (reads_revision (F32.fixedFromPacked p.toInt))
  have h2 := runAll_reads (C04_fixed_bytes p hp).2
  rw [h1] at h2
  exact Res.ok.inj h2

/-- Specification: the same glyph, as far as the format holds it. -/
structure KeptGlyph (g g' : Glyph) : Prop where
  box : g'.xMin = g.xMin ∧ g'.xMax = g.xMax ∧ g'.yMin = g.yMin ∧ g'.yMax = g.yMax
  contours : g'.contours = g.contours
  instructions : g'.instructions = g.instructions
  components : g'.components.map componentContent = g.components.map componentContent

theorem glyphs_each : ∀ (l : List (Option UInt32)) (r r' : Rd) (gs : List Glyph), readGlyphs emptyGlyph readGlyph l r = .ok (gs, r') →
    ∀ g ∈ gs, g = emptyGlyph ∨ ∃ q q', readGlyph q = .ok (g, q')
  | [], r, r', gs, h => by cases h; intro g hg; cases hg
  | none :: l, r, r', gs, h => by
    unfold readGlyphs at h
    obtain ⟨gs', r1, h1, h⟩ := reader_bind_ok h
    cases h
    intro g hg
    rcases List.mem_cons.mp hg with rfl | hg
    · exact .inl rfl
    · exact glyphs_each l _ _ _ h1 g hg
  | some o :: l, r, r', gs, h => by
    unfold readGlyphs at h
    obtain ⟨_, r1, _, h⟩ := reader_bind_ok h
    obtain ⟨_, r2, _, h⟩ := reader_bind_ok h
    obtain ⟨g0, r3, h3, h⟩ := reader_bind_ok h
    obtain ⟨_, r4, _, h⟩ := reader_bind_ok h
    obtain ⟨gs', r5, h5, h⟩ := reader_bind_ok h
    cases h
    intro g hg
    rcases List.mem_cons.mp hg with rfl | hg
    · exact .inr ⟨_, _, h3⟩
    · exact glyphs_each l _ _ _ h5 g hg

theorem glyf_each {T : Tag → Option Bytes} {gs : List Glyph} (h : GlyfIs T gs) :
    ∀ g ∈ gs, g = emptyGlyph ∨ ∃ q q', readGlyph q = .ok (g, q') := by
  obtain ⟨l, b, _, _, h⟩ := h
  unfold runAll at h
  split at h
  · next x r h1 => cases h; exact glyphs_each _ _ _ _ h1
  · cases h
  · cases h

theorem expands_nil {gs : List Glyph} {cs out : List Component} (h : Expands gs cs out) : out = [] ↔ cs = [] := by
  induction h with
  | nil => simp
  | leaf => simp
  | nested c g cs inner placed out hg hc h1 h2 h3 ih1 ih2 =>
    have : placed ≠ [] := by
      intro e
      subst e
      cases h2
      exact hc (ih1.mp rfl)
    simp [this]

/-- What comes back of one flattened glyph. -/
theorem kept_of {g : Glyph} {cs : List Component} (hg : g = emptyGlyph ∨ ∃ q q', readGlyph q = .ok (g, q')) (hn : cs = [] ↔ g.components = [])
    (he : ({ g with components := cs } : Glyph).isEmpty = false) (hb : ∃ b, encGlyph { g with components := cs } = .ok b)
    (hl : ∀ c ∈ g.contours, c.length ≤ 32767) (hs : ∀ c ∈ cs, StorableComponent c) :
    ∃ b g', encGlyph { g with components := cs } = .ok b ∧ Reads readGlyph b g' ∧ KeptGlyph { g with components := cs } g' ∧ b ≠ [] := by
  have hne : ∀ b, encGlyph { g with components := cs } = .ok b → b ≠ [] := by
    intro b e
    unfold encGlyph at e
    rw [he] at e
    simp only [Bool.false_eq_true, if_false] at e
    split at e
    · obtain ⟨_, _, e⟩ := bind_eq_ok e
      cases e
      intro e0
      have := congrArg List.length e0
      simp at this
    · obtain ⟨_, _, e⟩ := bind_eq_ok e
      cases e
      intro e0
      have := congrArg List.length e0
      simp at this
  rcases hg with rfl | ⟨q, q', hg⟩
  · rw [hn.mpr rfl] at he
    exact absurd he (by decide)
  · obtain ⟨hi, ⟨h0, h1, h2, h3, h4⟩ | ⟨h0, h1, _⟩⟩ := read_glyph hg
    · have hcs := hn.mpr h0
      subst hcs
      have hp : g.contours.flatten.length ≤ 32768 := by
        by_contra hp
        obtain ⟨b, hb⟩ := hb
        rw [C28_too_many_points { g with components := [] } rfl hl (by simpa using hp)] at hb
        cases hb
      obtain ⟨b, e1, e2⟩ := C28_roundtrip { g with components := [] } rfl h1 h2 h3 hl hp hi h4
      exact ⟨b, _, e1, e2, ⟨⟨rfl, rfl, rfl, rfl⟩, rfl, rfl, rfl⟩, hne b e1⟩
    · obtain ⟨b, g', e1, e2, e3, e4, e5, e6, _⟩ := C29_roundtrip { g with components := cs } (fun e => h1 (hn.mp e)) hs hi
      exact ⟨b, g', e1, e2, ⟨e3, by rw [e6]; exact h0.symm, e4, e5⟩, hne b e1⟩

/-- The new tables give the flattened glyphs. -/
theorem newGlyphs_read {R : Rest X} {flat : List Glyph} {T T' : Tag → Option Bytes} (h : NewGlyphs (fmt R) flat T T')
    (hk : ∀ g ∈ flat, g.isEmpty = false → (∃ b, encGlyph g = .ok b) →
      ∃ b g', encGlyph g = .ok b ∧ Reads readGlyph b g' ∧ KeptGlyph g g' ∧ b ≠ [])
    (he : ∀ g ∈ flat, g.isEmpty = true → g = emptyGlyph) :
    ∃ back : Glyph → Glyph, GlyfIs T' (flat.map back) ∧ ∀ g ∈ flat, KeptGlyph g (back g) := by
  obtain ⟨out, loca, is32, hd, m, x, hc, _, _, hhd, hx, rfl⟩ := h
  obtain ⟨bytesOf, hb, hfit⟩ := compile_iff.mp ⟨_, hc⟩
  have : ∀ g : Glyph, ∃ g', g ∈ flat → g.isEmpty = false → Reads readGlyph (bytesOf g) g' ∧ KeptGlyph g g' ∧ bytesOf g ≠ [] := by
    intro g
    by_cases hg : g ∈ flat ∧ g.isEmpty = false
    · have e := hb g hg.1 hg.2
      obtain ⟨b, g', e1, e2, e3, e4⟩ := hk g hg.1 hg.2 ⟨_, e⟩
      rw [e] at e1
      cases e1
      exact ⟨g', fun _ _ => ⟨e2, e3, e4⟩⟩
    · exact ⟨g, fun h1 h2 => absurd ⟨h1, h2⟩ hg⟩
  choose back hback using this
  obtain ⟨out', loca', is32', idx, r1, r2, e1, e2, e3⟩ := C26_reload_as Glyph.isEmpty encGlyph bytesOf back emptyGlyph readGlyph flat hb
    (fun g hg h => ⟨(hback g hg h).1, (hback g hg h).2.2⟩) hfit
  have hc2 := e1.symm.trans hc
  simp only [Res.ok.injEq, Prod.mk.injEq] at hc2
  obtain ⟨rfl, rfl, rfl⟩ := hc2
  refine ⟨fun g => if g.isEmpty then emptyGlyph else back g, ?_, fun g hg => ?_⟩
  · obtain ⟨bh, k1, k2⟩ := hhd
    obtain ⟨d1, d2⟩ := head_dates k2
    refine ⟨idx, out', ⟨_, loca', ⟨_, ?_, runAll_reads (head_again { hd with indexToLocFormat := if is32' then 1 else 0 } d1 d2)⟩, ?_, ?_⟩,
      ?_, ?_⟩
    · unfold put; rw [if_neg (by decide), if_pos rfl]
    · unfold put; rw [if_neg (by decide), if_neg (by decide), if_pos rfl]
    · unfold runAll
      have : ((if is32' then (1 : Int16) else 0) == 1) = is32' := by cases is32' <;> decide
      simp only [this]
      rw [e2]
    · unfold put; rw [if_neg (by decide), if_neg (by decide), if_neg (by decide), if_pos rfl]
    · unfold runAll
      rw [e3]
  · dsimp only
    split
    · next e =>
      rw [he g hg e]
      exact ⟨⟨rfl, rfl, rfl, rfl⟩, rfl, rfl, rfl⟩
    · next e => exact (hback g hg (by simpa using e)).2.1

/-- The file that is written. -/
theorem flatten_writes (R : Rest X) {input out : Bytes} (h : flattenComponents R input = .ok out) (hl : out.length < 2 ^ 32) {v : UInt32}
    {T : Tag → Option Bytes} (hT : IsFont input v T) :
    ∃ gs flat T1 T', GlyfIs T gs ∧ flattenTable gs = .ok flat ∧ NewGlyphs (fmt R) flat T T1 ∧ SameBut T1 T' ∧ IsFont out v T' := by
  obtain ⟨v0, T0, gs, flat, T1, l, h1, h2, h3, h4, h5, h6, h7, h8⟩ := (flatten_spec R _ _).mp h
  obtain ⟨rfl, rfl⟩ := hT.unique h1
  obtain ⟨hv, hver⟩ := loads_sorted h1
  have hs : Saved v T1 out := by
    refine saved_of hver (fun t ht => ?_) h6 h7 h8 hl
    by_cases e : t ≠ tagGlyf ∧ t ≠ tagLoca ∧ t ≠ tagHead ∧ t ≠ tagHhea
    · rw [NewGlyphs.other h5 e] at ht
      exact hv t ht
    · have : t = tagGlyf ∨ t = tagLoca ∨ t = tagHead ∨ t = tagHhea := by tauto
      rcases this with rfl | rfl | rfl | rfl <;> decide
  obtain ⟨T', i1, i2, i3⟩ := hs.font
  exact ⟨gs, flat, T1, T', h3, h4, h5, ⟨i2, i3⟩, i1⟩

/-- **C86.** In the new file, every glyph consists of the components that remain when nested ones are replaced by what they
consist of; none of these has components of its own; box, outline and instructions are the same. For a font whose glyphs are
nested at most 64 deep, have at most 32767 points in a contour, and whose flattened components can be stored. -/
theorem C86_glyphs (R : Rest X) {input out : Bytes} (h : flattenComponents R input = .ok out) (hl : out.length < 2 ^ 32) {v : UInt32}
    {T : Tag → Option Bytes} {gs : List Glyph} (hT : IsFont input v T) (hgs : GlyfIs T gs)
    (hn : ∀ g ∈ gs, NestedAtMost gs 64 g.components) (hp : ∀ g ∈ gs, ∀ c ∈ g.contours, c.length ≤ 32767)
    (hs : ∀ g ∈ gs, ∀ cs, Expands gs g.components cs → ∀ c ∈ cs, StorableComponent c) :
    ∃ T' gs', IsFont out v T' ∧ GlyfIs T' gs' ∧ gs'.length = gs.length ∧
      (∀ (i : Nat) (g g' : Glyph), gs[i]? = some g → gs'[i]? = some g' →
        ∃ cs, Expands gs g.components cs ∧ KeptGlyph { g with components := cs } g') ∧
      ∀ g' ∈ gs', ∀ c ∈ g'.components, ∃ b, gs'[c.glyphIndex.toNat]? = some b ∧ b.components = [] := by
  obtain ⟨gs0, flat, T1, T', h3, h4, h5, h6, h7⟩ := flatten_writes R h hl hT
  obtain rfl := hgs.unique h3
  have hd := flatten_noDangling h4
  obtain ⟨hlen, hflat⟩ := flatten_glyphs hd h4
  obtain ⟨_, e0, _, _, hno⟩ := C32_table gs hd
  rw [h4] at e0
  cases e0
  -- what a flattened glyph is
  have hwhat : ∀ f ∈ flat, ∃ g ∈ gs, ∃ cs, Expands gs g.components cs ∧ f = { g with components := cs } := by
    intro f hf
    obtain ⟨i, hi⟩ := List.mem_iff_getElem?.mp hf
    have hi' : i < gs.length := by rw [← hlen]; exact (List.getElem?_eq_some_iff.mp hi).1
    obtain ⟨cs, e1, e2⟩ := hflat i _ f (List.getElem?_eq_getElem hi') hi
    have hm := List.getElem_mem hi'
    obtain ⟨cs', e1', e3⟩ := C32_flat gs _ (hn _ hm)
    rw [e1] at e1'
    cases e1'
    exact ⟨_, hm, cs, e3, e2⟩
  obtain ⟨back, hb1, hb2⟩ := newGlyphs_read h5 (by
    intro f hf he hb
    obtain ⟨g, hg, cs, e1, rfl⟩ := hwhat f hf
    exact kept_of (glyf_each hgs g hg) (expands_nil e1) he hb (hp g hg) (hs g hg cs e1)) (by
    intro f hf he
    obtain ⟨g, hg, cs, e1, rfl⟩ := hwhat f hf
    unfold Glyph.isEmpty at he
    simp only [Bool.and_eq_true, List.isEmpty_iff] at he
    have hc := (expands_nil e1).mp he.1
    rcases glyf_each hgs g hg with rfl | ⟨q, q', hr⟩
    · rw [he.1]; rfl
    · obtain ⟨_, ⟨_, k, _⟩ | ⟨_, k, _⟩⟩ := read_glyph hr
      · exact absurd he.2 k
      · exact absurd hc k)
  refine ⟨T', flat.map back, h7, h6.glyf hb1, by simp [hlen], ?_, ?_⟩
  · intro i g g' hg hg'
    rw [List.getElem?_map, Option.map_eq_some_iff] at hg'
    obtain ⟨f, hf, rfl⟩ := hg'
    obtain ⟨cs, e1, e2⟩ := hflat i g f hg hf
    obtain ⟨cs', e1', e3⟩ := C32_flat gs g (hn g (List.mem_of_getElem? hg))
    rw [e1] at e1'
    cases e1'
    exact ⟨cs, e3, e2 ▸ hb2 f (List.mem_of_getElem? hf)⟩
  · have hidx : ∀ f ∈ flat, (back f).components.map (fun c => c.glyphIndex) = f.components.map (fun c => c.glyphIndex) := by
      intro f hf
      have := congrArg (List.map (fun x => x.1)) (hb2 f hf).components
      simpa [List.map_map, Function.comp_def, componentContent] using this
    intro g' hg' c hc
    obtain ⟨f, hf, rfl⟩ := List.mem_map.mp hg'
    have : c.glyphIndex ∈ f.components.map (fun c => c.glyphIndex) := by
      rw [← hidx f hf]
      exact List.mem_map.mpr ⟨c, hc, rfl⟩
    obtain ⟨c0, hc0, e0⟩ := List.mem_map.mp this
    obtain ⟨b, hb, hbc⟩ := hno f hf c0 hc0
    rw [e0] at hb
    refine ⟨back b, by rw [List.getElem?_map, hb]; rfl, ?_⟩
    have := (hb2 b (List.mem_of_getElem? hb)).components
    rw [hbc] at this
    simpa using this

/-- **C86.** The tables that are not about glyphs stay as they are. In `head` only the offset format and the checksum adjustment
change, and a revision outside of ±128, which is rounded. Without metrics `hhea` stays as it is. -/
theorem C86_tables (R : Rest X) {input out : Bytes} (h : flattenComponents R input = .ok out) (hl : out.length < 2 ^ 32) {v : UInt32}
    {T : Tag → Option Bytes} (hT : IsFont input v T) : ∃ T', IsFont out v T' ∧
    (∀ t, t ≠ tagGlyf → t ≠ tagLoca → t ≠ tagHead → t ≠ tagHhea → T' t = T t) ∧
    (T tagHmtx = none → T' tagHhea = T tagHhea) ∧
    ∃ hd adjustment format revision, HeadIs T hd ∧
      HeadIs T' { hd with checksumAdjustment := adjustment, indexToLocFormat := format, fontRevision := revision } ∧
      ∀ p : Int32, |p.toInt| ≤ 2 ^ 23 → hd.fontRevision = F32.fixedFromPacked p.toInt → revision = hd.fontRevision := by
  obtain ⟨gs, flat, T1, T', _, _, h5, h6, h7⟩ := flatten_writes R h hl hT
  refine ⟨T', h7, fun t h1 h2 h3 h4 => ?_, fun hn => ?_, ?_⟩
  · rw [h6.1 t h3, NewGlyphs.other h5 ⟨h1, h2, h3, h4⟩]
  · rw [h6.1 _ (by decide)]
    obtain ⟨_, _, _, _, _, x, _, _, _, _, hx, rfl⟩ := h5
    unfold put
    rw [if_pos rfl]
    rcases hx with ⟨_, rfl⟩ | ⟨_, _, _, _, ⟨_, _, _, e, _⟩, _⟩
    · rfl
    · rw [hn] at e; cases e
  · obtain ⟨_, _, is32, hd, _, x, _, _, _, hhd, hx, rfl⟩ := h5
    obtain ⟨bh, k1, k2⟩ := id hhd
    obtain ⟨d1, d2⟩ := head_dates k2
    obtain ⟨c, hc⟩ := h6.head (x := { hd with indexToLocFormat := if is32 then 1 else 0, fontRevision := rewritten hd.fontRevision })
      ⟨_, by unfold put; rw [if_neg (by decide), if_pos rfl],
        runAll_reads (head_again { hd with indexToLocFormat := if is32 then 1 else 0 } d1 d2)⟩
    refine ⟨hd, c, _, _, hhd, hc, fun p hp e => ?_⟩
    rw [e]
    exact rewritten_small p hp

/-- **C86.** The metrics. The number of full metrics in `hhea` is replaced by the smallest possible one, but `hmtx` stays as it is.
If the number was not the smallest possible one, there are too many metrics in the new file. -/
theorem C86_metrics (R : Rest X) {input out : Bytes} (h : flattenComponents R input = .ok out) (hl : out.length < 2 ^ 32) {v : UInt32}
    {T : Tag → Option Bytes} (hT : IsFont input v T) {hh : Hhea} {l : List Hmtx.Metric} (hhh : HheaIs T hh) (hm : HmtxIs T l) :
    ∃ T' n l', IsFont out v T' ∧ Hmtx.numberOfHMetrics l = .ok n ∧ HheaIs T' { hh with numberOfHMetrics := n } ∧
      T' tagHmtx = T tagHmtx ∧ HmtxIs T' l' ∧ l'.length = l.length + (hh.numberOfHMetrics.toNat - n.toNat) ∧
      (l' = l ↔ n = hh.numberOfHMetrics) := by
  obtain ⟨gs, flat, T1, T', _, _, h5, h6, h7⟩ := flatten_writes R h hl hT
  have hmt : T' tagHmtx = T tagHmtx := by rw [h6.1 _ (by decide), NewGlyphs.other h5 (by decide)]
  obtain ⟨_, _, is32, hd, _, x, _, _, _, hhd, hx, rfl⟩ := h5
  rcases hx with ⟨hn, _⟩ | ⟨h', l', n, e1, e2, e3, rfl⟩
  · obtain ⟨_, _, _, e, _⟩ := hm
    rw [hn] at e; cases e
  obtain rfl := hhh.unique e1
  obtain rfl := hm.unique e2
  obtain ⟨h0, b, g1, g2, g3⟩ := hm
  obtain rfl := g1.unique hhh
  obtain ⟨c1, c2, l2, c3, c4, c5⟩ := reread_length _ n b l g3 e3
  have hH : HheaIs T' { h0 with numberOfHMetrics := n } := by
    refine ⟨_, ?_, runAll_reads (C52_hhea _).1⟩
    rw [h6.1 _ (by decide)]
    unfold put
    rw [if_pos rfl]
  exact ⟨T', n, l2, h7, e3, hH, hmt, ⟨_, b, hH, by rw [hmt]; exact g2, c3⟩, c4, c5⟩

/-- **C86.** What a glyph looks like stays the same. When all components are decomposed, a glyph of the new file has its own
contours and those of every outline it was built from in the old file, each moved by all transformations on the way to it. -/
theorem C86_drawn (R : Rest X) {input out : Bytes} (h : flattenComponents R input = .ok out) (hl : out.length < 2 ^ 32) {v : UInt32}
    {T : Tag → Option Bytes} {gs : List Glyph} (hT : IsFont input v T) (hgs : GlyfIs T gs)
    (hn : ∀ g ∈ gs, NestedAtMost gs 64 g.components) (hp : ∀ g ∈ gs, ∀ c ∈ g.contours, c.length ≤ 32767)
    (hs : ∀ g ∈ gs, ∀ cs, Expands gs g.components cs → ∀ c ∈ cs, StorableComponent c) :
    ∃ T' gs', IsFont out v T' ∧ GlyfIs T' gs' ∧ gs'.length = gs.length ∧
      ∀ (i : Nat) (g g' : Glyph), gs[i]? = some g → gs'[i]? = some g' →
        ∃ cs cts, Expands gs g.components cs ∧ Drawn gs cs cts ∧ (decompose gs' g').contours = g.contours ++ cts ∧
          (decompose gs' g').components = [] := by
  obtain ⟨T', gs', h1, h2, h3, h4, _⟩ := C86_glyphs R h hl hT hgs hn hp hs
  refine ⟨T', gs', h1, h2, h3, fun i g g' hg hg' => ?_⟩
  have hsame : ∀ i : Nat, (gs'[i]?).map Glyph.contours = (gs[i]?).map Glyph.contours := by
    intro i
    by_cases hi : i < gs.length
    · obtain ⟨cs, _, k⟩ := h4 i _ _ (List.getElem?_eq_getElem hi) (List.getElem?_eq_getElem (h3 ▸ hi))
      rw [List.getElem?_eq_getElem hi, List.getElem?_eq_getElem (h3 ▸ hi)]
      exact congrArg some k.contours
    · rw [List.getElem?_eq_none (by omega), List.getElem?_eq_none (by omega)]
  obtain ⟨cs, e1, k⟩ := h4 i g g' hg hg'
  refine ⟨cs, cs.flatMap (componentContours gs'), e1, drawn_same hsame (drawn_contours gs' cs), ?_, rfl⟩
  have hc : ∀ (a b : List Component), b.map componentContent = a.map componentContent →
      b.flatMap (componentContours gs') = a.flatMap (componentContours gs') := by
    intro a
    induction a with
    | nil => intro b hb; rw [List.map_eq_nil_iff.mp hb]
    | cons x a ih =>
      intro b hb
      cases b with
      | nil => cases hb
      | cons y b =>
        simp only [List.map_cons, List.cons.injEq] at hb
        rw [List.flatMap_cons, List.flatMap_cons, ih b hb.2]
        congr 1
        have h0 := hb.1
        simp only [componentContent, Prod.mk.injEq] at h0
        simp only [componentContours, h0]
  show g'.contours ++ g'.components.flatMap (componentContours gs') = _
  rw [hc cs _ k.components, k.contours]

/-! ### Three fonts -/

/-- Three glyphs. -/
def demoTables (glyf loca hmtx : Bytes) (metrics : UInt8) : List (Tag × Bytes) :=
  [(tagGlyf, glyf), (tagHead, toyHead), (tagHhea, List.replicate 35 0 ++ [metrics]), (tagHmtx, hmtx), (tagLoca, loca),
   (tagMaxp, [0, 0, 0x50, 0, 0, 3])]

theorem demo_sorted (glyf loca hmtx : Bytes) (n : UInt8) : BMap.Sorted (demoTables glyf loca hmtx n) := by
  refine sorted_tags (m := demoTables [] [] [] 0) rfl ?_
  unfold BMap.Sorted demoTables; decide

theorem small_file {v : UInt32} {l : List (Tag × Bytes)} {out : Bytes} (hs : BMap.Sorted l) (h : Font.toBytes v l = .ok out)
    (B : Nat) (hB : ∀ x ∈ l, x.2.length ≤ B) : out.length ≤ 12 + 16 * l.length + l.length * (B + 3) := by
  rw [saved_length hs h]
  have : Font.sumPad l ≤ l.length * (B + 3) := by
    clear h hs
    induction l with
    | nil => simp [Font.sumPad]
    | cons x l ih =>
      have h1 := ih (fun y hy => hB y (.tail _ hy))
      have h2 := hB x (.head _)
      simp only [Font.sumPad, List.map_cons, List.sum_cons, List.length_cons, Font.pad4, Nat.add_mul] at *
      omega
  omega

/-- If the tool has everything it needs, it runs. -/
theorem demo_runs (R : Rest X) {glyf loca hmtx o lc : Bytes} {n : UInt8} {is32 : Bool} {gs flat : List Glyph} {l : List Hmtx.Metric}
    (hs : glyf.length ≤ 100 ∧ loca.length ≤ 100 ∧ hmtx.length ≤ 100 ∧ o.length ≤ 100 ∧ lc.length ≤ 100)
    (hgs : GlyfIs (fun t => BMap.get? (demoTables glyf loca hmtx n) t) gs) (hx : HmtxIs (fun t => BMap.get? (demoTables glyf loca hmtx n) t) l)
    (hf : flattenTable gs = .ok flat) (hn : flat.length ≤ 65535) (hc : compile Glyph.isEmpty encGlyph flat = .ok (o, lc, is32)) :
    ∃ input out T, flattenComponents R input = .ok out ∧ out.length < 2 ^ 32 ∧ IsFont input 0x00010000 T ∧
      SameBut (fun t => BMap.get? (demoTables glyf loca hmtx n) t) T := by
  have hopen : Openable (fun t => BMap.get? (demoTables glyf loca hmtx n) t) := by
    obtain ⟨l, _, ⟨h, b', e1, e2, e3⟩, _⟩ := hgs
    exact ⟨.inr ⟨h, e1⟩, .inr ⟨h, b', l, e1, e2, e3⟩⟩
  have hsort := demo_sorted glyf loca hmtx n
  obtain ⟨file, e⟩ := (C18_saving_succeeds_iff 0x00010000 _ (sorted_ascending hsort)).1.mpr
    ⟨by simp [demoTables], fun t c hc ht => by
      obtain rfl : t = tagHead := by rw [(isHead_iff t).mp ht]; rfl
      exact openable_long hopen c ((BMap.get?_eq_some hsort).mpr hc)⟩
  have hm : ∀ x ∈ demoTables glyf loca hmtx n, x.2.length ≤ 100 := by
    intro x hx
    simp only [demoTables, List.mem_cons, List.not_mem_nil, or_false] at hx
    rcases hx with rfl | rfl | rfl | rfl | rfl | rfl
    · exact hs.1
    · decide
    · simp
    · exact hs.2.2.1
    · exact hs.2.1
    · decide
  have hl : file.length < 2 ^ 32 := by
    have := small_file hsort e 100 hm
    simp only [demoTables, List.length_cons, List.length_nil] at this
    omega
  obtain ⟨T, h1, h2, h3⟩ := (saved_of (T := fun t => BMap.get? (demoTables glyf loca hmtx n) t) (.inl rfl) (by
    intro t ht
    obtain ⟨b, hb⟩ := Option.ne_none_iff_exists'.mp ht
    have hm := (BMap.get?_eq_some hsort).mp hb
    simp only [demoTables, List.mem_cons, Prod.mk.injEq, List.not_mem_nil, or_false] at hm
    rcases hm with ⟨rfl, _⟩ | ⟨rfl, _⟩ | ⟨rfl, _⟩ | ⟨rfl, _⟩ | ⟨rfl, _⟩ | ⟨rfl, _⟩ <;> decide) hsort (fun _ => rfl) e hl).font
  have hsame : SameBut (fun t => BMap.get? (demoTables glyf loca hmtx n) t) T := ⟨h2, h3⟩
  have hx' : HmtxIs T l := by
    obtain ⟨h, b, ⟨c, g1, g2⟩, g3, g4⟩ := hx
    exact ⟨h, b, ⟨c, by rw [h2 _ (by decide)]; exact g1, g2⟩, by rw [h2 _ (by decide)]; exact g3, g4⟩
  have hmaxp : MaxpIs (fun t => BMap.get? (demoTables glyf loca hmtx n) t) ⟨0x8000, .v05 ⟨3⟩⟩ :=
    ⟨[0,0,0x50,0,0,3], (BMap.get?_eq_some hsort).mpr (by simp [demoTables]), okIs_eq (by decide +kernel)⟩
  have hfew : FewTables T := by
    refine ⟨[tagGlyf, tagHead, tagHhea, tagHmtx, tagLoca, tagMaxp], by decide, fun t ht => ?_⟩
    by_cases e : t = tagHead
    · rw [e]; decide
    · rw [h2 t e] at ht
      obtain ⟨b, hb⟩ := Option.ne_none_iff_exists'.mp ht
      have hm := (BMap.get?_eq_some hsort).mp hb
      simp only [demoTables, List.mem_cons, Prod.mk.injEq, List.not_mem_nil, or_false] at hm
      rcases hm with ⟨rfl, _⟩ | ⟨rfl, _⟩ | ⟨rfl, _⟩ | ⟨rfl, _⟩ | ⟨rfl, _⟩ | ⟨rfl, _⟩ <;> decide
  obtain ⟨out, hrun⟩ := (C86_accepts R file).mpr ⟨_, T, h1, hsame.openable hopen, hfew, ⟨_, hsame.maxp hmaxp⟩, .inr ⟨l, hx'⟩, gs, hsame.glyf hgs,
    flatten_noDangling hf, flat, hf, hn, compile_iff.mp ⟨_, hc⟩⟩
  refine ⟨file, out, T, hrun, ?_, h1, hsame⟩
  obtain ⟨v0, T0, gs0, flat0, T1, l2, j1, _, j3, j4, j5, j6, j7, j8⟩ := (flatten_spec R _ _).mp hrun
  obtain ⟨rfl, rfl⟩ := h1.unique j1
  obtain rfl := (hsame.glyf hgs).unique j3
  rw [hf] at j4
  cases j4
  obtain ⟨hlen, _⟩ := ok_inv (sorted_ascending j6) j8
  have := small_file j6 j8 100 (by
    rintro ⟨t, b⟩ hb
    have hb := (BMap.get?_eq_some j6).mpr hb
    rw [j7] at hb
    by_cases e : t ≠ tagGlyf ∧ t ≠ tagLoca ∧ t ≠ tagHead ∧ t ≠ tagHhea
    · rw [NewGlyphs.other j5 e, h2 t e.2.2.1] at hb
      exact hm _ ((BMap.get?_eq_some hsort).mp hb)
    · obtain ⟨_, _, _, hd, _, x, hc', _, _, _, hx, rfl⟩ := j5
      have hc2 := hc.symm.trans hc'
      simp only [Res.ok.injEq, Prod.mk.injEq] at hc2
      obtain ⟨rfl, rfl, rfl⟩ := hc2
      unfold put at hb
      have : t = tagGlyf ∨ t = tagLoca ∨ t = tagHead ∨ t = tagHhea := by
        by_contra hh
        simp only [not_or] at hh
        exact e hh
      rcases this with rfl | rfl | rfl | rfl
      · rw [if_neg (by decide), if_neg (by decide), if_neg (by decide), if_pos rfl] at hb
        cases hb
        exact hs.2.2.2.1
      · rw [if_neg (by decide), if_neg (by decide), if_pos rfl] at hb
        cases hb
        exact hs.2.2.2.2
      · rw [if_neg (by decide), if_pos rfl] at hb
        cases hb
        show (encHead _).length ≤ 100
        rw [encHead_length]
        decide
      · rw [if_pos rfl] at hb
        subst hb
        rcases hx with ⟨_, hx⟩ | ⟨_, _, _, _, _, _, hx⟩
        · rw [h2 _ (by decide)] at hx
          exact hm _ ((BMap.get?_eq_some hsort).mp hx.symm)
        · cases hx
          show (encHhea _).length ≤ 100
          rw [(C52_hhea _).2]
          decide)
  have h3 : l2.length * (100 + 3) ≤ 4096 * 103 := Nat.mul_le_mul (by omega) (by omega)
  omega

/-- The glyphs of the new file. -/
theorem demo_result (R : Rest X) {input out o lc : Bytes} {is32 : Bool} (h : flattenComponents R input = .ok out) (hl : out.length < 2 ^ 32)
    {v : UInt32} {T : Tag → Option Bytes} {gs flat gs' : List Glyph} {idx : List (Option UInt32)} (hT : IsFont input v T) (hgs : GlyfIs T gs)
    (hf : flattenTable gs = .ok flat) (hc : compile Glyph.isEmpty encGlyph flat = .ok (o, lc, is32))
    (h1 : runAll (Loca.fromBytes is32) lc = .ok idx) (h2 : runAll (Loca.readGlyphs emptyGlyph readGlyph idx) o = .ok gs') :
    ∃ T', IsFont out v T' ∧ GlyfIs T' gs' := by
  obtain ⟨gs0, flat0, T1, T', h3, h4, h5, h6, h7⟩ := flatten_writes R h hl hT
  obtain rfl := hgs.unique h3
  rw [hf] at h4
  cases h4
  refine ⟨T', h7, h6.glyf ?_⟩
  obtain ⟨_, _, _, hd, _, x, hc', _, _, hhd, _, rfl⟩ := h5
  have hc2 := hc.symm.trans hc'
  simp only [Res.ok.injEq, Prod.mk.injEq] at hc2
  obtain ⟨rfl, rfl, rfl⟩ := hc2
  obtain ⟨bh, k1, k2⟩ := hhd
  obtain ⟨d1, d2⟩ := head_dates k2
  refine ⟨idx, o, ⟨_, lc, ⟨_, ?_, runAll_reads (head_again { hd with indexToLocFormat := if is32 then 1 else 0 } d1 d2)⟩, ?_, ?_⟩, ?_, h2⟩
  · unfold put; rw [if_neg (by decide), if_pos rfl]
  · unfold put; rw [if_neg (by decide), if_neg (by decide), if_pos rfl]
  · have : ((if is32 then (1 : Int16) else 0) == 1) = is32 := by cases is32 <;> decide
    simp only [this]
    exact h1
  · unfold put; rw [if_neg (by decide), if_neg (by decide), if_neg (by decide), if_pos rfl]

/-! #### Nesting -/

def triangle : Glyph := ⟨0, 100, 0, 80, [[⟨0, 0, true⟩, ⟨100, 0, true⟩, ⟨50, 80, true⟩]], [], [], false⟩
/-- A triangle; the triangle moved to the right; the latter moved up. -/
def demoNested : List Glyph :=
  [triangle, ⟨10, 110, 0, 80, [], [], [⟨0, ⟨1, 0, 0, 1, 10, 0⟩, none, 2⟩], false⟩,
    ⟨10, 110, 5, 85, [], [], [⟨1, ⟨1, 0, 0, 1, 0, 5⟩, none, 2⟩], false⟩]
def demoFlat : List Glyph :=
  [triangle, ⟨10, 110, 0, 80, [], [], [⟨0, ⟨1, 0, 0, 1, 10, 0⟩, none, 2⟩], false⟩,
    ⟨10, 110, 5, 85, [], [], [⟨0, ⟨1, 0, 0, 1, 10, 5⟩, none, 2⟩], false⟩]
def nestedGlyf : Bytes := [0, 1, 0, 0, 0, 0, 0, 100, 0, 80, 0, 2, 0, 0, 49, 51, 39, 100, 50, 80,
  255, 255, 0, 10, 0, 0, 0, 110, 0, 80, 0, 2, 0, 0, 10, 0, 255, 255, 0, 10, 0, 5, 0, 110, 0, 85, 0, 2, 0, 1, 0, 5]
def nestedLoca : Bytes := [0, 0, 0, 10, 0, 18, 0, 26]

theorem nested_glyf (hmtx : Bytes) (n : UInt8) :
    GlyfIs (fun t => BMap.get? (demoTables nestedGlyf nestedLoca hmtx n) t) demoNested :=
  ⟨[some 0, some 20, some 36], nestedGlyf, ⟨_, nestedLoca, ⟨toyHead, (BMap.get?_eq_some (demo_sorted _ _ _ _)).mpr (by simp [demoTables]), rfl⟩,
    (BMap.get?_eq_some (demo_sorted _ _ _ _)).mpr (by simp [demoTables]), okIs_eq (by decide +kernel)⟩,
    (BMap.get?_eq_some (demo_sorted _ _ _ _)).mpr (by simp [demoTables]), okIs_eq (by decide +kernel)⟩

theorem nested_flat : flattenTable demoNested = .ok demoFlat := okIs_eq (by decide +kernel)

theorem nested_compiled : compile Glyph.isEmpty encGlyph demoFlat = .ok ([0, 1, 0, 0, 0, 0, 0, 100, 0, 80, 0, 2, 0, 0, 49, 51, 39, 100, 50, 80,
    255, 255, 0, 10, 0, 0, 0, 110, 0, 80, 0, 2, 0, 0, 10, 0, 255, 255, 0, 10, 0, 5, 0, 110, 0, 85, 0, 2, 0, 0, 10, 5], nestedLoca, false) :=
  okIs_eq (by decide +kernel)

def demoHhea (n : UInt16) : Hhea := ⟨0, 0, 0, 0, 0, 0, 0, 0, 0, 0, 0, 0, 0, 0, 0, 0, 0, n⟩

theorem demo_hhea (glyf loca hmtx : Bytes) {n : UInt8} (hn : n = 1 ∨ n = 3) :
    HheaIs (fun t => BMap.get? (demoTables glyf loca hmtx n) t) (demoHhea n.toUInt16) :=
  ⟨List.replicate 35 0 ++ [n], (BMap.get?_eq_some (demo_sorted _ _ _ _)).mpr (by simp [demoTables]),
    by rcases hn with rfl | rfl <;> exact okIs_eq (by decide +kernel)⟩

theorem demo_hmtx (glyf loca hmtx : Bytes) {n : UInt8} (hn : n = 1 ∨ n = 3) {l : List Hmtx.Metric}
    (h : runAll (Hmtx.fromBytes n.toUInt16) hmtx = .ok l) : HmtxIs (fun t => BMap.get? (demoTables glyf loca hmtx n) t) l :=
  ⟨_, _, demo_hhea _ _ _ hn, (BMap.get?_eq_some (demo_sorted _ _ _ _)).mpr (by simp only [demoTables, List.mem_cons]; tauto), h⟩

/-- The tool flattens the three glyphs. -/
theorem demo_nested (R : Rest X) : ∃ input out T T', flattenComponents R input = .ok out ∧ out.length < 2 ^ 32 ∧ IsFont input 0x00010000 T ∧
    GlyfIs T demoNested ∧ IsFont out 0x00010000 T' ∧ GlyfIs T' demoFlat := by
  obtain ⟨input, out, T, h1, h2, h3, h4⟩ := demo_runs R (l := [⟨9, 1⟩, ⟨9, 2⟩, ⟨9, 3⟩]) (by decide) (nested_glyf [0, 9, 0, 1, 0, 2, 0, 3] 1)
    (demo_hmtx _ _ _ (.inl rfl) (okIs_eq (by decide +kernel)))
    nested_flat (by decide) nested_compiled
  have hg := h4.glyf (nested_glyf [0, 9, 0, 1, 0, 2, 0, 3] 1)
  obtain ⟨T', g1, g2⟩ := demo_result R (gs' := demoFlat) (idx := [some 0, some 20, some 36]) h1 h2 h3 hg nested_flat nested_compiled
    (okIs_eq (by decide +kernel)) (okIs_eq (by decide +kernel))
  exact ⟨input, out, T, T', h1, h2, h3, hg, g1, g2⟩

theorem seen_unique {c f f1 f2 : Component} (h1 : SeenThrough c f f1) (h2 : SeenThrough c f f2) : f1 = f2 := by
  obtain ⟨i1, m1, b1, a1⟩ := h1
  obtain ⟨i2, m2, b2, a2⟩ := h2
  have h : ∀ x y, f1.transformation.apply x y = f2.transformation.apply x y := fun x y => (a1 x y).trans (a2 x y).symm
  cases f1 with
  | mk g1 t1 _ _ =>
  cases f2 with
  | mk g2 t2 _ _ =>
  cases t1
  cases t2
  have h00 := h 0 0
  have h10 := h 1 0
  have h01 := h 0 1
  simp only [Affine.apply, Prod.mk.injEq] at h00 h10 h01
  simp only [Component.mk.injEq, Affine.mk.injEq]
  refine ⟨i1.trans i2.symm, ⟨?_, ?_, ?_, ?_, ?_, ?_⟩, m1.trans m2.symm, b1.trans b2.symm⟩ <;> linarith [h00.1, h00.2, h10.1, h10.2, h01.1, h01.2]

theorem allSeen_unique {c : Component} {l l1 l2 : List Component} (h1 : AllSeenThrough c l l1) (h2 : AllSeenThrough c l l2) : l1 = l2 := by
  induction h1 generalizing l2 with
  | nil => cases h2; rfl
  | cons f f' fs fs' hf _ ih =>
    cases h2 with
    | cons _ f2 _ fs2 hf2 h2 => rw [seen_unique hf hf2, ih h2]

/-- What remains is determined by the glyphs. -/
theorem expands_unique {gs : List Glyph} {cs out out' : List Component} (h : Expands gs cs out) (h' : Expands gs cs out') : out = out' := by
  induction h generalizing out' with
  | nil => cases h'; rfl
  | leaf c g cs out hg hc _ ih =>
    cases h' with
    | leaf _ g' _ out' hg' hc' h' => rw [ih h']
    | nested _ g' _ inner placed out' hg' hc' => rw [hg] at hg'; cases hg'; exact absurd hc hc'
  | nested c g cs inner placed out hg hc _ hs _ ih1 ih2 =>
    cases h' with
    | leaf _ g' _ out' hg' hc' h' => rw [hg] at hg'; cases hg'; exact absurd hc' hc
    | nested _ g' _ inner' placed' out' hg' hc' h1 hs' h2 =>
      rw [hg] at hg'
      cases hg'
      obtain rfl := ih1 h1
      rw [allSeen_unique hs hs', ih2 h2]

theorem nested_depth : ∀ g ∈ demoNested, NestedAtMost demoNested 64 g.components := by
  have h1 : NestedAtMost demoNested 63 [⟨0, ⟨1, 0, 0, 1, 10, 0⟩, none, 2⟩] := .leaf _ _ triangle _ rfl rfl (.nil _)
  intro g hg
  simp only [demoNested, List.mem_cons, List.not_mem_nil, or_false] at hg
  rcases hg with rfl | rfl | rfl
  · exact .nil _
  · exact .leaf _ _ triangle _ rfl rfl (.nil _)
  · exact .nested 63 _ ⟨10, 110, 0, 80, [], [], [⟨0, ⟨1, 0, 0, 1, 10, 0⟩, none, 2⟩], false⟩ _ rfl (by simp) h1 (.nil _)

theorem moved_storable (x y : Int16) (g f : UInt16) : StorableComponent ⟨g, ⟨1, 0, 0, 1, x.toInt, y.toInt⟩, none, f⟩ := by
  have z : fixed14 0 = 0 := by unfold fixed14; simp
  exact ⟨.inl ⟨rfl, x, y, rfl, rfl⟩, 16384, 0, 0, 16384, fixed14_one.symm, z.symm, z.symm, fixed14_one.symm⟩

/-- The conditions of `C86_glyphs` hold for this font. -/
example : (∀ g ∈ demoNested, NestedAtMost demoNested 64 g.components) ∧ (∀ g ∈ demoNested, ∀ c ∈ g.contours, c.length ≤ 32767) ∧
    ∀ g ∈ demoNested, ∀ cs, Expands demoNested g.components cs → ∀ c ∈ cs, StorableComponent c := by
  refine ⟨nested_depth, by decide, fun g hg cs h => ?_⟩
  obtain ⟨hl, h1⟩ := flatten_glyphs (flatten_noDangling nested_flat) nested_flat
  obtain ⟨i, hi⟩ := List.mem_iff_getElem?.mp hg
  have hi' : i < demoFlat.length := by rw [hl]; exact (List.getElem?_eq_some_iff.mp hi).1
  obtain ⟨cs1, e1, e2⟩ := h1 i g _ hi (List.getElem?_eq_getElem hi')
  obtain ⟨cs2, e3, e4⟩ := C32_flat demoNested g (nested_depth g hg)
  rw [e1] at e3
  cases e3
  obtain rfl := expands_unique h e4
  have hcs : cs = (demoFlat[i]).components := by rw [e2]
  rw [hcs]
  have hm := List.getElem_mem hi'
  generalize demoFlat[i] = f at hm
  simp only [demoFlat, List.mem_cons, List.not_mem_nil, or_false] at hm
  intro c hc
  rcases hm with rfl | rfl | rfl
  · cases hc
  · simp only [List.mem_cons, List.not_mem_nil, or_false] at hc
    subst hc
    exact moved_storable 10 0 0 2
  · simp only [List.mem_cons, List.not_mem_nil, or_false] at hc
    subst hc
    exact moved_storable 10 5 0 2

/-- **C86, witness**: three metrics become five, and the second glyph has another side bearing. -/
theorem C86_metrics_grow (R : Rest X) : ∃ input out T T', flattenComponents R input = .ok out ∧ IsFont input 0x00010000 T ∧
    HmtxIs T [⟨9, 1⟩, ⟨9, 2⟩, ⟨9, 3⟩] ∧ IsFont out 0x00010000 T' ∧ HmtxIs T' [⟨9, 1⟩, ⟨9, 9⟩, ⟨9, 2⟩, ⟨9, 9⟩, ⟨9, 3⟩] := by
  have hh := demo_hhea nestedGlyf nestedLoca [0, 9, 0, 1, 0, 9, 0, 2, 0, 9, 0, 3] (n := 3) (.inr rfl)
  have hm := demo_hmtx nestedGlyf nestedLoca [0, 9, 0, 1, 0, 9, 0, 2, 0, 9, 0, 3] (n := 3) (l := [⟨9, 1⟩, ⟨9, 2⟩, ⟨9, 3⟩]) (.inr rfl)
    (okIs_eq (by decide +kernel))
  obtain ⟨input, out, T, h1, h2, h3, h4⟩ := demo_runs R (by decide) (nested_glyf [0, 9, 0, 1, 0, 9, 0, 2, 0, 9, 0, 3] 3) hm nested_flat
    (by decide) nested_compiled
  have hx : T tagHmtx = some [0, 9, 0, 1, 0, 9, 0, 2, 0, 9, 0, 3] := by
    rw [h4.1 _ (by decide)]
    exact (BMap.get?_eq_some (demo_sorted _ _ _ _)).mpr (by simp [demoTables])
  have hh' : HheaIs T (demoHhea 3) := by
    obtain ⟨b, g1, g2⟩ := hh
    exact ⟨b, by rw [h4.1 _ (by decide)]; exact g1, g2⟩
  have hm' : HmtxIs T [⟨9, 1⟩, ⟨9, 2⟩, ⟨9, 3⟩] := ⟨_, _, hh', hx, okIs_eq (by decide +kernel)⟩
  obtain ⟨T', n, l', g1, g2, g3, g4, _⟩ := C86_metrics R h1 h2 h3 hh' hm'
  rw [show Hmtx.numberOfHMetrics [⟨9, 1⟩, ⟨9, 2⟩, ⟨9, 3⟩] = .ok 1 by decide] at g2
  cases g2
  exact ⟨input, out, T, T', h1, h3, hm', g1, _, _, g3, by rw [g4]; exact hx, okIs_eq (by decide +kernel)⟩

/-! #### Fractions -/

/-- A triangle; the triangle moved by one unit; half the size of the latter. -/
def demoHalf : List Glyph :=
  [triangle, ⟨1, 101, 1, 81, [], [], [⟨0, ⟨1, 0, 0, 1, 1, 1⟩, none, 2⟩], false⟩,
    ⟨0, 50, 0, 40, [], [], [⟨1, ⟨1/2, 0, 0, 1/2, 0, 0⟩, none, 10⟩], false⟩]
def halfGlyf : Bytes := [0, 1, 0, 0, 0, 0, 0, 100, 0, 80, 0, 2, 0, 0, 49, 51, 39, 100, 50, 80, 255, 255, 0, 1, 0, 1, 0, 101, 0, 81, 0, 2, 0, 0,
  1, 1, 255, 255, 0, 0, 0, 0, 0, 50, 0, 40, 0, 10, 0, 1, 0, 0, 32, 0, 0, 0]
def halfLoca : Bytes := [0, 0, 0, 10, 0, 18, 0, 28]

/-- **C86, witness**: without the condition that flattened components can be stored, glyphs move. The third glyph was the
triangle in half size, moved by half a unit to the right and up. It ends up moved by one unit to the right, and not at all up. -/
theorem C86_fraction_refuted (R : Rest X) : ∃ input out T T' gs', flattenComponents R input = .ok out ∧ out.length < 2 ^ 32 ∧
    IsFont input 0x00010000 T ∧ GlyfIs T demoHalf ∧ IsFont out 0x00010000 T' ∧ GlyfIs T' gs' ∧
    flattenTable demoHalf = .ok (demoHalf.take 2 ++ [⟨0, 50, 0, 40, [], [], [⟨0, ⟨1/2, 0, 0, 1/2, 1/2, 1/2⟩, none, 2⟩], false⟩]) ∧
    (gs'[2]?).map (fun g => g.components.map (fun c => (c.glyphIndex, c.transformation))) = some [(0, ⟨1/2, 0, 0, 1/2, 1, 0⟩)] := by
  have hg : GlyfIs (fun t => BMap.get? (demoTables halfGlyf halfLoca [0, 9, 0, 1, 0, 2, 0, 3] 1) t) demoHalf :=
    ⟨[some 0, some 20, some 36], halfGlyf, ⟨_, halfLoca, ⟨toyHead, (BMap.get?_eq_some (demo_sorted _ _ _ _)).mpr (by simp [demoTables]), rfl⟩,
      (BMap.get?_eq_some (demo_sorted _ _ _ _)).mpr (by simp [demoTables]), okIs_eq (by decide +kernel)⟩,
      (BMap.get?_eq_some (demo_sorted _ _ _ _)).mpr (by simp [demoTables]), okIs_eq (by decide +kernel)⟩
  have hf : flattenTable demoHalf = .ok (demoHalf.take 2 ++ [⟨0, 50, 0, 40, [], [], [⟨0, ⟨1/2, 0, 0, 1/2, 1/2, 1/2⟩, none, 2⟩], false⟩]) :=
    okIs_eq (by decide +kernel)
  have hc : compile Glyph.isEmpty encGlyph (demoHalf.take 2 ++ [⟨0, 50, 0, 40, [], [], [⟨0, ⟨1/2, 0, 0, 1/2, 1/2, 1/2⟩, none, 2⟩], false⟩]) =
    .ok ([0, 1, 0, 0, 0, 0, 0, 100, 0, 80, 0, 2, 0, 0, 49, 51, 39, 100, 50, 80, 255, 255, 0, 1, 0, 1, 0, 101, 0, 81, 0, 2, 0, 0,
      1, 1, 255, 255, 0, 0, 0, 0, 0, 50, 0, 40, 0, 10, 0, 0, 1, 0, 32, 0, 0, 0], halfLoca, false) := okIs_eq (by decide +kernel)
  obtain ⟨input, out, T, h1, h2, h3, h4⟩ := demo_runs R (l := [⟨9, 1⟩, ⟨9, 2⟩, ⟨9, 3⟩]) (by decide) hg
    (demo_hmtx _ _ _ (.inl rfl) (okIs_eq (by decide +kernel))) hf (by decide) hc
  have hg' := h4.glyf hg
  obtain ⟨T', g1, g2⟩ := demo_result R (gs' := demoHalf.take 2 ++ [⟨0, 50, 0, 40, [], [], [⟨0, ⟨1/2, 0, 0, 1/2, 1, 0⟩, none, 10⟩], false⟩])
    (idx := [some 0, some 20, some 36]) h1 h2 h3 hg' hf hc (okIs_eq (by decide +kernel)) (okIs_eq (by decide +kernel))
  exact ⟨input, out, T, T', _, h1, h2, h3, hg', g1, g2, hf, rfl⟩

end FT.Props
