import Verif.Lemmas.CliGlyphs
import Verif.Props.CliFlatten
import Verif.Props.Overlap

/-!
C99: `ttf-remove-overlap`, from the bytes of the input file to the bytes of the output file.
-/

namespace FT.Props
open FT FT.Cli FT.Tables FT.Save FT.Store FT.Glyf FT.Loca

variable {X : Type}

/-! ### Tools which replace the glyphs -/

theorem glyphTool_accepts (R : Rest X) (f : List Glyph → Res (List Glyph)) : Accepts (tool R (glyphBody f (storeMachine (fmt R))))
    (fun T => Openable T ∧ FewTables T ∧ (∃ m, MaxpIs T m) ∧
      (T tagHmtx = none ∨ ∃ l, HmtxIs T l) ∧ ∃ gs, GlyfIs T gs ∧ ∃ new, f gs = .ok new ∧ CanWrite new) := by
  intro input
  constructor
  · rintro ⟨out, e⟩
    obtain ⟨v, T, gs, flat, T', l, h1, h2, h3, h4, h5, h6, h7, h8⟩ := (glyph_spec R f _ _).mp e
    obtain ⟨g1, g2⟩ := glyf_there h3
    refine ⟨v, T, h1, h2, (NewGlyphs.few h5 g1 g2).mp ((toBytes_iff (NewGlyphs.long h5)).mp ⟨l, out, h6, h7, h8⟩), ?_, ?_, gs, h3,
      flat, h4, ?_⟩
    · obtain ⟨_, _, _, _, m, _, _, _, hm, _⟩ := h5
      exact ⟨m, hm⟩
    · obtain ⟨_, _, _, _, m, x, _, _, _, _, hx, _⟩ := h5
      rcases hx with ⟨h, _⟩ | ⟨_, l, _, _, h, _⟩
      · exact .inl h
      · exact .inr ⟨l, h⟩
    · obtain ⟨_, _, _, _, m, x, hc, hn, _⟩ := h5
      exact ⟨hn, compile_iff.mp ⟨_, hc⟩⟩
  · rintro ⟨v, T, h1, h2, h3, ⟨m, hm⟩, hx, gs, h5, flat, h6, hn, hc⟩
    obtain ⟨⟨o, lc, is32⟩, hc⟩ := compile_iff.mpr hc
    obtain ⟨hd, hhd⟩ : ∃ h, HeadIs T h := by
      obtain ⟨_, _, ⟨h, _, e, _⟩, _⟩ := h5
      exact ⟨h, e⟩
    obtain ⟨x, hx⟩ : ∃ x, NewHhea T x := by
      rcases hx with h | ⟨l, hl⟩
      · exact ⟨_, .inl ⟨h, rfl⟩⟩
      · obtain ⟨n, e⟩ := hmtx_count hl
        obtain ⟨h, _, e1, _⟩ := id hl
        exact ⟨_, .inr ⟨h, l, n, e1, hl, e, rfl⟩⟩
    have hT : NewGlyphs (fmt R) flat T _ := ⟨o, lc, is32, hd, m, x, hc, hn, hm, hhd, hx, rfl⟩
    obtain ⟨g1, g2⟩ := glyf_there h5
    obtain ⟨l, out, e1, e2, e3⟩ := (toBytes_iff (v := v) (NewGlyphs.long hT)).mpr ((NewGlyphs.few hT g1 g2).mpr h3)
    exact ⟨out, (glyph_spec R f _ _).mpr ⟨v, T, gs, flat, _, l, h1, h2, h5, h6, hT, e1, e2, e3⟩⟩

/-- The file that is written. -/
theorem glyphTool_writes (R : Rest X) (f : List Glyph → Res (List Glyph)) {input out : Bytes}
    (h : tool R (glyphBody f (storeMachine (fmt R))) input = .ok out) (hl : out.length < 2 ^ 32) {v : UInt32}
    {T : Tag → Option Bytes} (hT : IsFont input v T) :
    ∃ gs new T1 T', GlyfIs T gs ∧ f gs = .ok new ∧ NewGlyphs (fmt R) new T T1 ∧ SameBut T1 T' ∧ IsFont out v T' := by
  obtain ⟨v0, T0, gs, flat, T1, l, h1, h2, h3, h4, h5, h6, h7, h8⟩ := (glyph_spec R f _ _).mp h
  obtain ⟨rfl, rfl⟩ := hT.unique h1
  obtain ⟨hv, hver⟩ := loads_sorted h1
  have hs : Saved v T1 out := by
    refine saved_of hver (fun t ht => ?_) h6 h7 h8 hl
    by_cases e : t ≠ tagGlyf ∧ t ≠ tagLoca ∧ t ≠ tagHead ∧ t ≠ tagHhea
    · rw [NewGlyphs.other h5 e] at ht
      exact hv t ht
    · have : t = tagGlyf ∨ t = tagLoca ∨ t = tagHead ∨ t = tagHhea := by tauto
      rcases this with rfl | rfl | rfl | rfl <;> decide
  obtain ⟨T', i1, i2, i3⟩ := hs.font
  exact ⟨gs, flat, T1, T', h3, h4, h5, ⟨i2, i3⟩, i1⟩

/-- The new tables give the new glyphs, empty ones as empty glyphs. -/
theorem newGlyphs_back {R : Rest X} {new : List Glyph} {T T' : Tag → Option Bytes} (h : NewGlyphs (fmt R) new T T')
    (hk : ∀ g ∈ new, g.isEmpty = false → (∃ b, encGlyph g = .ok b) →
      ∃ b g', encGlyph g = .ok b ∧ Reads readGlyph b g' ∧ KeptGlyph g g' ∧ b ≠ []) :
    ∃ back : Glyph → Glyph, GlyfIs T' (new.map back) ∧ (∀ g ∈ new, g.isEmpty = false → KeptGlyph g (back g)) ∧
      ∀ g ∈ new, g.isEmpty = true → back g = emptyGlyph := by
  obtain ⟨out, loca, is32, hd, m, x, hc, _, _, hhd, hx, rfl⟩ := h
  obtain ⟨bytesOf, hb, hfit⟩ := compile_iff.mp ⟨_, hc⟩
  have : ∀ g : Glyph, ∃ g', g ∈ new → g.isEmpty = false → Reads readGlyph (bytesOf g) g' ∧ KeptGlyph g g' ∧ bytesOf g ≠ [] := by
    intro g
    by_cases hg : g ∈ new ∧ g.isEmpty = false
    · have e := hb g hg.1 hg.2
      obtain ⟨b, g', e1, e2, e3, e4⟩ := hk g hg.1 hg.2 ⟨_, e⟩
      rw [e] at e1
      cases e1
      exact ⟨g', fun _ _ => ⟨e2, e3, e4⟩⟩
    · exact ⟨g, fun h1 h2 => absurd ⟨h1, h2⟩ hg⟩
  choose back hback using this
  obtain ⟨out', loca', is32', idx, r1, r2, e1, e2, e3⟩ := C26_reload_as Glyph.isEmpty encGlyph bytesOf back emptyGlyph readGlyph new hb
    (fun g hg h => ⟨(hback g hg h).1, (hback g hg h).2.2⟩) hfit
  have hc2 := e1.symm.trans hc
  simp only [Res.ok.injEq, Prod.mk.injEq] at hc2
  obtain ⟨rfl, rfl, rfl⟩ := hc2
  refine ⟨fun g => if g.isEmpty then emptyGlyph else back g, ?_, fun g hg he => ?_, fun g _ he => by simp [he]⟩
  · obtain ⟨bh, k1, k2⟩ := hhd
    obtain ⟨d1, d2⟩ := head_dates k2
    refine ⟨idx, out', ⟨_, loca', ⟨_, ?_, runAll_reads (head_again { hd with indexToLocFormat := if is32' then 1 else 0 } d1 d2)⟩, ?_, ?_⟩,
      ?_, ?_⟩
    · unfold put; rw [if_neg (by decide), if_pos rfl]
    · unfold put; rw [if_neg (by decide), if_neg (by decide), if_pos rfl]
    · unfold runAll
      have : ((if is32' then (1 : Int16) else 0) == 1) = is32' := by cases is32' <;> decide
      simp only [this]
      rw [e2]
    · unfold put; rw [if_neg (by decide), if_neg (by decide), if_neg (by decide), if_pos rfl]
    · unfold runAll
      rw [e3]
  · simp only [he]
    exact (hback g hg he).2.1

theorem newGlyphs_tables {F : Fmt Glyph (Other X)} {new : List Glyph} {T T1 T' : Tag → Option Bytes} {v : UInt32} {out : Bytes}
    (h5 : NewGlyphs F new T T1) (h6 : SameBut T1 T') (h7 : IsFont out v T') : ∃ T', IsFont out v T' ∧
    (∀ t, t ≠ tagGlyf → t ≠ tagLoca → t ≠ tagHead → t ≠ tagHhea → T' t = T t) ∧
    (T tagHmtx = none → T' tagHhea = T tagHhea) ∧
    ∃ hd adjustment format revision, HeadIs T hd ∧
      HeadIs T' { hd with checksumAdjustment := adjustment, indexToLocFormat := format, fontRevision := revision } ∧
      ∀ p : Int32, |p.toInt| ≤ 2 ^ 23 → hd.fontRevision = F32.fixedFromPacked p.toInt → revision = hd.fontRevision := by
  refine ⟨T', h7, fun t h1 h2 h3 h4 => ?_, fun hn => ?_, ?_⟩
  · rw [h6.1 t h3, NewGlyphs.other h5 ⟨h1, h2, h3, h4⟩]
  · rw [h6.1 _ (by decide)]
    obtain ⟨_, _, _, _, _, x, _, _, _, _, hx, rfl⟩ := h5
    unfold put
    rw [if_pos rfl]
    rcases hx with ⟨_, rfl⟩ | ⟨_, _, _, _, ⟨_, _, _, e, _⟩, _⟩
    · rfl
    · rw [hn] at e; cases e
  · obtain ⟨_, _, is32, hd, _, x, _, _, _, hhd, hx, rfl⟩ := h5
    obtain ⟨bh, k1, k2⟩ := id hhd
    obtain ⟨d1, d2⟩ := head_dates k2
    obtain ⟨c, hc⟩ := h6.head (x := { hd with indexToLocFormat := if is32 then 1 else 0, fontRevision := rewritten hd.fontRevision })
      ⟨_, by unfold put; rw [if_neg (by decide), if_pos rfl],
        runAll_reads (head_again { hd with indexToLocFormat := if is32 then 1 else 0 } d1 d2)⟩
    refine ⟨hd, c, _, _, hhd, hc, fun p hp e => ?_⟩
    rw [e]
    exact rewritten_small p hp

/-- What stays besides the glyphs. -/
theorem glyphTool_tables (R : Rest X) (f : List Glyph → Res (List Glyph)) {input out : Bytes}
    (h : tool R (glyphBody f (storeMachine (fmt R))) input = .ok out) (hl : out.length < 2 ^ 32) {v : UInt32}
    {T : Tag → Option Bytes} (hT : IsFont input v T) : ∃ T', IsFont out v T' ∧
    (∀ t, t ≠ tagGlyf → t ≠ tagLoca → t ≠ tagHead → t ≠ tagHhea → T' t = T t) ∧
    (T tagHmtx = none → T' tagHhea = T tagHhea) ∧
    ∃ hd adjustment format revision, HeadIs T hd ∧
      HeadIs T' { hd with checksumAdjustment := adjustment, indexToLocFormat := format, fontRevision := revision } ∧
      ∀ p : Int32, |p.toInt| ≤ 2 ^ 23 → hd.fontRevision = F32.fixedFromPacked p.toInt → revision = hd.fontRevision := by
  obtain ⟨gs, flat, T1, T', _, _, h5, h6, h7⟩ := glyphTool_writes R f h hl hT
  exact newGlyphs_tables h5 h6 h7

/-! ### Removing overlaps -/

/-- Specification: the contours can be counted by the format, and the first one has a point. -/
def CountsFit (cs : List (List Point)) : Prop :=
  (∀ c, cs.head? = some c → c ≠ []) ∧ cs.length ≤ 32767 ∧ ∀ c ∈ cs, c.length ≤ 32767

theorem encGlyph_ne {g : Glyph} {b : Bytes} (he : g.isEmpty = false) (e : encGlyph g = .ok b) : b ≠ [] := by
  unfold encGlyph at e
  rw [he] at e
  simp only [Bool.false_eq_true, if_false] at e
  split at e
  · obtain ⟨_, _, e⟩ := bind_eq_ok e
    cases e
    intro e0
    have := congrArg List.length e0
    simp at this
  · obtain ⟨_, _, e⟩ := bind_eq_ok e
    cases e
    intro e0
    have := congrArg List.length e0
    simp at this

/-- A simple glyph that can be written is read back. -/
theorem simple_back {g : Glyph} (hc : g.components = []) (hn : g.contours ≠ []) (hf : CountsFit g.contours) (hi : g.instructions.length ≤ 32767)
    (hb : ∃ b, encGlyph g = .ok b) : ∃ b g', encGlyph g = .ok b ∧ Reads readGlyph b g' ∧ KeptGlyph g g' ∧ b ≠ [] := by
  obtain ⟨h1, h2, h3⟩ := hf
  have hp : g.contours.flatten.length ≤ 32768 := by
    by_contra hp
    obtain ⟨b, hb⟩ := hb
    rw [C28_too_many_points g hc h3 (by simpa using hp)] at hb
    cases hb
  have hs : StepsFit 0 0 g.contours.flatten := by
    by_contra hs
    obtain ⟨b, hb⟩ := hb
    rw [C28_step_overflow g hc hs] at hb
    cases hb
  obtain ⟨b, e1, e2⟩ := C28_roundtrip g hc hn h1 h2 h3 hp hi hs
  refine ⟨b, _, e1, e2, ⟨⟨rfl, rfl, rfl, rfl⟩, rfl, rfl, rfl⟩, encGlyph_ne ?_ e1⟩
  unfold Glyph.isEmpty
  simp [hn]

theorem removeOverlap_rest {simplify : List SkEl → Option (List SkEl)} {g g' : Glyph} (h : removeOverlap simplify g = .ok g') :
    g'.components = g.components ∧ g'.instructions = g.instructions ∧ (g.components ≠ [] → g' = g) := by
  unfold removeOverlap at h
  split at h
  · cases h; exact ⟨rfl, rfl, fun _ => rfl⟩
  · next hn =>
    obtain ⟨cs, _, h⟩ := bind_eq_ok h
    obtain ⟨path, _, h⟩ := bind_eq_ok h
    have hc : g.components = [] := by
      have : g.hasComponents = false := by
        cases e : g.hasComponents with
        | false => rfl
        | true => rw [e] at hn; simp at hn
      simpa [Glyph.hasComponents] using this
    split at h
    · obtain ⟨cs, _, h⟩ := bind_eq_ok h
      cases h
      exact ⟨rfl, rfl, fun e => absurd hc e⟩
    · cases h
      exact ⟨rfl, rfl, fun e => absurd hc e⟩

theorem expands_same {gs hs : List Glyph} (h : ∀ i : Nat, (hs[i]?).map Glyph.components = (gs[i]?).map Glyph.components) {cs out : List Component}
    (he : Expands hs cs out) : Expands gs cs out := by
  have get : ∀ (i : Nat) (g : Glyph), hs[i]? = some g → ∃ g' : Glyph, gs[i]? = some g' ∧ g'.components = g.components := by
    intro i g hg
    have := h i
    rw [hg, Option.map_some, eq_comm, Option.map_eq_some_iff] at this
    exact this
  induction he with
  | nil => exact .nil
  | leaf c g cs out hg hc _ ih =>
    obtain ⟨g', k1, k2⟩ := get _ _ hg
    exact .leaf c g' cs out k1 (by rw [k2]; exact hc) ih
  | nested c g cs inner placed out hg hc _ hs _ ih1 ih2 =>
    obtain ⟨g', k1, k2⟩ := get _ _ hg
    exact .nested c g' cs inner placed out k1 (by rw [k2]; exact hc) (by rw [k2]; exact ih1) hs ih2

theorem nested_same {gs hs : List Glyph} (h : ∀ i : Nat, (hs[i]?).map Glyph.components = (gs[i]?).map Glyph.components) {n : Nat} {cs : List Component}
    (he : NestedAtMost gs n cs) : NestedAtMost hs n cs := by
  have get : ∀ (i : Nat) (g : Glyph), gs[i]? = some g → ∃ g' : Glyph, hs[i]? = some g' ∧ g'.components = g.components := by
    intro i g hg
    have := h i
    rw [hg, Option.map_some, Option.map_eq_some_iff] at this
    exact this
  induction he with
  | nil n => exact .nil n
  | leaf n c g cs hg hc _ ih =>
    obtain ⟨g', k1, k2⟩ := get _ _ hg
    exact .leaf n c g' cs k1 (by rw [k2]; exact hc) ih
  | nested n c g cs hg hc _ _ ih1 ih2 =>
    obtain ⟨g', k1, k2⟩ := get _ _ hg
    exact .nested n c g' cs k1 (by rw [k2]; exact hc) (by rw [k2]; exact ih1) ih2

theorem recalc_noDangling {gs new : List Glyph} (h : recalcBounds gs = .ok new) : NoDangling gs := by
  unfold recalcBounds at h
  obtain ⟨fl, h1, _⟩ := bind_eq_ok h
  exact flatten_noDangling h1

/-- **C99** (which fonts are accepted). The tool writes a file exactly if the font can be opened, `maxp`, the glyphs and, if present,
the metrics can be read, there are fewer than 4096 tables, removing the overlaps succeeds for every glyph, every component refers
to a glyph, and the new glyphs can be written. -/
theorem C99_accepts (R : Rest X) (simplify : List SkEl → Option (List SkEl)) : Accepts (removeOverlaps R simplify) (fun T => Openable T ∧ FewTables T ∧
    (∃ m, MaxpIs T m) ∧ (T tagHmtx = none ∨ ∃ l, HmtxIs T l) ∧ ∃ gs, GlyfIs T gs ∧ NoDangling gs ∧
      ∃ mid new, List.Forall₂ (fun g g' => removeOverlap simplify g = .ok g') gs mid ∧ recalcBounds mid = .ok new ∧ CanWrite new) := by
  intro input
  unfold removeOverlaps
  rw [glyphTool_accepts R _ input]
  have key : ∀ gs new, withoutOverlap simplify gs = .ok new ↔ ∃ mid, List.Forall₂ (fun g g' => removeOverlap simplify g = .ok g') gs mid ∧ recalcBounds mid = .ok new := by
    intro gs new
    unfold withoutOverlap
    constructor
    · intro h
      obtain ⟨mid, h1, h2⟩ := bind_eq_ok h
      exact ⟨mid, mapL_inv _ _ h1, h2⟩
    · rintro ⟨mid, h1, h2⟩
      have : Res.mapL (removeOverlap simplify) gs = .ok mid := by
        clear h2
        induction h1 with
        | nil => rfl
        | cons h _ ih => unfold Res.mapL; rw [h, ih]
      rw [this, Res.ok_bind, h2]
  have dang : ∀ gs mid new, List.Forall₂ (fun g g' => removeOverlap simplify g = .ok g') gs mid → recalcBounds mid = .ok new → NoDangling gs := by
    intro gs mid new h1 h2 g hg c hc
    have h3 := recalc_noDangling h2
    obtain ⟨i, hi⟩ := List.mem_iff_getElem?.mp hg
    have hlen := h1.length_eq
    have hi' : i < mid.length := by rw [← hlen]; exact (List.getElem?_eq_some_iff.mp hi).1
    have hr := (List.forall₂_iff_get.mp h1).2 i (by omega) hi'
    have e : gs.get ⟨i, by omega⟩ = g := by
      rw [List.getElem?_eq_getElem (by omega)] at hi
      exact Option.some.inj hi
    rw [e] at hr
    have := h3 _ (List.get_mem mid ⟨i, hi'⟩) c (by rw [(removeOverlap_rest hr).1]; exact hc)
    omega
  constructor
  · rintro ⟨v, T, h1, h2, h3, h4, h5, gs, h6, new, h7, h8⟩
    obtain ⟨mid, k1, k2⟩ := (key gs new).mp h7
    exact ⟨v, T, h1, h2, h3, h4, h5, gs, h6, dang gs mid new k1 k2, mid, new, k1, k2, h8⟩
  · rintro ⟨v, T, h1, h2, h3, h4, h5, gs, h6, _, mid, new, k1, k2, h8⟩
    exact ⟨v, T, h1, h2, h3, h4, h5, gs, h6, new, (key gs new).mpr ⟨mid, k1, k2⟩, h8⟩

/-- **C99** (other tables). The tables that are not about glyphs stay as they are, among them `gvar`. In `head` only the offset format and the
checksum adjustment change, and a revision outside of ±128, which is rounded. Without metrics `hhea` stays as it is. -/
theorem C99_tables (R : Rest X) (simplify : List SkEl → Option (List SkEl)) {input out : Bytes} (h : removeOverlaps R simplify input = .ok out)
    (hl : out.length < 2 ^ 32) {v : UInt32} {T : Tag → Option Bytes} (hT : IsFont input v T) : ∃ T', IsFont out v T' ∧
    (∀ t, t ≠ tagGlyf → t ≠ tagLoca → t ≠ tagHead → t ≠ tagHhea → T' t = T t) ∧
    (T tagHmtx = none → T' tagHhea = T tagHhea) ∧
    ∃ hd adjustment format revision, HeadIs T hd ∧
      HeadIs T' { hd with checksumAdjustment := adjustment, indexToLocFormat := format, fontRevision := revision } ∧
      ∀ p : Int32, |p.toInt| ≤ 2 ^ 23 → hd.fontRevision = F32.fixedFromPacked p.toInt → revision = hd.fontRevision :=
  glyphTool_tables R _ h hl hT

/-- **C99** (the new file). Every glyph of the new file without components has the contours that are left without overlaps, with a box
that fits them tightly, and its instructions, unless nothing is left of it. Every glyph with components has the same ones, nested ones replaced by what they consist of. -/
theorem C99_file (R : Rest X) (simplify : List SkEl → Option (List SkEl)) {input out : Bytes} (h : removeOverlaps R simplify input = .ok out)
    (hl : out.length < 2 ^ 32) {v : UInt32} {T : Tag → Option Bytes} {gs : List Glyph} (hT : IsFont input v T) (hgs : GlyfIs T gs)
    (hn : ∀ g ∈ gs, NestedAtMost gs 64 g.components)
    (hp : ∀ g ∈ gs, g.components = [] → ∀ g1, removeOverlap simplify g = .ok g1 → CountsFit g1.contours)
    (hs : ∀ g ∈ gs, ∀ cs, Expands gs g.components cs → ∀ c ∈ cs, StorableComponent c) :
    ∃ T' gs', IsFont out v T' ∧ GlyfIs T' gs' ∧ gs'.length = gs.length ∧
      ∀ (i : Nat) (g g' : Glyph), gs[i]? = some g → gs'[i]? = some g' →
        (g.components = [] → ∃ g1, removeOverlap simplify g = .ok g1 ∧ g'.contours = g1.contours ∧ g'.components = [] ∧ TightBox g' ∧
          (g1.contours ≠ [] → g'.instructions = g.instructions)) ∧
        (g.components ≠ [] → g'.contours = [] ∧ g'.instructions = g.instructions ∧
          ∃ cs, Expands gs g.components cs ∧ g'.components.map componentContent = cs.map componentContent) := by
  obtain ⟨gs0, new, T1, T', h3, h4, h5, h6, h7⟩ := glyphTool_writes R _ h hl hT
  obtain rfl := hgs.unique h3
  unfold withoutOverlap at h4
  obtain ⟨mid, h8, h9⟩ := bind_eq_ok h4
  have hmid := mapL_inv _ _ h8
  have hlen := hmid.length_eq
  have hmidAt : ∀ (i : Nat) (g : Glyph), gs[i]? = some g → ∃ m, mid[i]? = some m ∧ removeOverlap simplify g = .ok m := by
    intro i g hg
    have hi : i < gs.length := (List.getElem?_eq_some_iff.mp hg).1
    have hr := (List.forall₂_iff_get.mp hmid).2 i hi (by omega)
    have e : gs.get ⟨i, hi⟩ = g := by
      rw [List.getElem?_eq_getElem hi] at hg
      exact Option.some.inj hg
    rw [e] at hr
    exact ⟨_, List.getElem?_eq_getElem (by omega), hr⟩
  have hsame : ∀ i : Nat, (mid[i]?).map Glyph.components = (gs[i]?).map Glyph.components := by
    intro i
    by_cases hi : i < gs.length
    · obtain ⟨m, e1, e2⟩ := hmidAt i _ (List.getElem?_eq_getElem hi)
      rw [e1, List.getElem?_eq_getElem hi]
      exact congrArg some (removeOverlap_rest e2).1
    · rw [List.getElem?_eq_none (by omega), List.getElem?_eq_none (by omega)]
  obtain ⟨new', e1, e2, e3, e4⟩ := C31_simple mid (recalc_noDangling h9)
  rw [h9] at e1
  cases e1
  -- what a new glyph is
  have hwhat : ∀ (i : Nat) (g f : Glyph), gs[i]? = some g → new[i]? = some f → ∃ m cs, removeOverlap simplify g = .ok m ∧
      Expands gs g.components cs ∧ f.components = cs ∧ f.contours = m.contours ∧ f.instructions = g.instructions := by
    intro i g f hg hf
    obtain ⟨m, k1, k2⟩ := hmidAt i g hg
    obtain ⟨c1, c2, _, cs, c4, c5⟩ := e3 i m f k1 hf
    obtain ⟨r1, r2, r3⟩ := removeOverlap_rest k2
    obtain ⟨cs', k3, k4⟩ := C32_flat mid m (nested_same hsame (by rw [r1]; exact hn g (List.mem_of_getElem? hg)))
    rw [c4] at k3
    cases k3
    rw [r1] at k4
    exact ⟨m, cs, k2, expands_same hsame k4, c5, c1, by rw [c2, r2]⟩
  have hinst : ∀ g ∈ gs, g.instructions.length ≤ 32767 := by
    intro g hg
    rcases glyf_each hgs g hg with rfl | ⟨q, q', hr⟩
    · decide
    · exact (read_glyph hr).1
  have hnewlen : new.length = gs.length := by omega
  obtain ⟨back, hb1, hb2, hb3⟩ := newGlyphs_back h5 (by
    intro f hf he hb
    obtain ⟨i, hi⟩ := List.mem_iff_getElem?.mp hf
    have hi' : i < gs.length := by rw [← hnewlen]; exact (List.getElem?_eq_some_iff.mp hi).1
    obtain ⟨m, cs, k1, k2, k3, k4, k5⟩ := hwhat i _ f (List.getElem?_eq_getElem hi') hi
    have hg := List.getElem_mem hi'
    by_cases hc : gs[i].components = []
    · have hfc : f.components = [] := by rw [k3]; exact (expands_nil k2).mpr hc
      refine simple_back hfc ?_ (by rw [k4]; exact hp _ hg hc m k1) (by rw [k5]; exact hinst _ hg) hb
      intro e
      unfold Glyph.isEmpty at he
      simp [hfc, e] at he
    · have hfc : f.components ≠ [] := by rw [k3]; exact fun e => hc ((expands_nil k2).mp e)
      obtain ⟨b, g', e1, e2, e3, e4, e5, e6, _⟩ := C29_roundtrip f hfc (by rw [k3]; exact hs _ hg cs k2) (by rw [k5]; exact hinst _ hg)
      have hcon : f.contours = [] := by
        rw [k4, (removeOverlap_rest k1).2.2 hc]
        rcases glyf_each hgs _ hg with e | ⟨q, q', hr⟩
        · rw [e]; rfl
        · obtain ⟨_, ⟨k, _⟩ | ⟨k, _, _⟩⟩ := read_glyph hr
          · exact absurd k hc
          · exact k
      exact ⟨b, g', e1, e2, ⟨e3, by rw [e6, hcon], e4, e5⟩, encGlyph_ne he e1⟩)
  refine ⟨T', new.map back, h7, h6.glyf hb1, by simp [hnewlen], ?_⟩
  intro i g g' hg hg'
  rw [List.getElem?_map, Option.map_eq_some_iff] at hg'
  obtain ⟨f, hf, rfl⟩ := hg'
  have hmf := List.mem_of_getElem? hf
  obtain ⟨m, cs, k1, k2, k3, k4, k5⟩ := hwhat i g f hg hf
  constructor
  · intro hc
    have hfc : f.components = [] := by rw [k3]; exact (expands_nil k2).mpr hc
    have htight := e4 f hmf hfc
    refine ⟨m, k1, ?_⟩
    cases he : f.isEmpty with
    | false =>
      obtain ⟨⟨b1, b2, b3, b4⟩, q2, q3, q4⟩ := hb2 f hmf he
      refine ⟨by rw [q2, k4], ?_, ?_, fun _ => by rw [q3, k5]⟩
      · rw [hfc] at q4
        simpa using q4
      · unfold TightBox at htight ⊢
        rw [b1, b2, b3, b4, q2]
        exact htight
    | true =>
      rw [hb3 f hmf he]
      have hfe : f.contours = [] := by
        unfold Glyph.isEmpty at he
        simp only [Bool.and_eq_true, List.isEmpty_iff] at he
        exact he.2
      rw [hfe] at k4
      refine ⟨k4, rfl, ?_, fun hne => absurd k4.symm hne⟩
      unfold TightBox emptyGlyph
      simp
  · intro hc
    have hfc : f.components ≠ [] := by rw [k3]; exact fun e => hc ((expands_nil k2).mp e)
    have he : f.isEmpty = false := by unfold Glyph.isEmpty; simp [hfc]
    obtain ⟨_, q2, q3, q4⟩ := hb2 f hmf he
    refine ⟨?_, by rw [q3, k5], cs, k2, by rw [q4, k3]⟩
    rw [q2, k4, (removeOverlap_rest k1).2.2 hc]
    rcases glyf_each hgs _ (List.mem_of_getElem? hg) with e | ⟨q, q', hr⟩
    · rw [e]; rfl
    · obtain ⟨_, ⟨k, _⟩ | ⟨k, _, _⟩⟩ := read_glyph hr
      · exact absurd k hc
      · exact k

/-! ### A font -/

/-- If the tool has everything it needs, it runs. -/
theorem glyphTool_runs (R : Rest X) (f : List Glyph → Res (List Glyph)) {glyf loca hmtx o lc : Bytes} {n : UInt8} {is32 : Bool} {gs flat : List Glyph} {l : List Hmtx.Metric}
    (hs : glyf.length ≤ 100 ∧ loca.length ≤ 100 ∧ hmtx.length ≤ 100 ∧ o.length ≤ 100 ∧ lc.length ≤ 100)
    (hgs : GlyfIs (fun t => BMap.get? (demoTables glyf loca hmtx n) t) gs) (hx : HmtxIs (fun t => BMap.get? (demoTables glyf loca hmtx n) t) l)
    (hf : f gs = .ok flat) (hn : flat.length ≤ 65535) (hc : compile Glyph.isEmpty encGlyph flat = .ok (o, lc, is32)) :
    ∃ input out T, tool R (glyphBody f (storeMachine (fmt R))) input = .ok out ∧ out.length < 2 ^ 32 ∧ IsFont input 0x00010000 T ∧
      SameBut (fun t => BMap.get? (demoTables glyf loca hmtx n) t) T := by
  have hopen : Openable (fun t => BMap.get? (demoTables glyf loca hmtx n) t) := by
    obtain ⟨l, _, ⟨h, b', e1, e2, e3⟩, _⟩ := hgs
    exact ⟨.inr ⟨h, e1⟩, .inr ⟨h, b', l, e1, e2, e3⟩⟩
  have hsort := demo_sorted glyf loca hmtx n
  obtain ⟨file, e⟩ := (C18_saving_succeeds_iff 0x00010000 _ (sorted_ascending hsort)).1.mpr
    ⟨by simp [demoTables], fun t c hc ht => by
      obtain rfl : t = tagHead := by rw [(isHead_iff t).mp ht]; rfl
      exact openable_long hopen c ((BMap.get?_eq_some hsort).mpr hc)⟩
  have hm : ∀ x ∈ demoTables glyf loca hmtx n, x.2.length ≤ 100 := by
    intro x hx
    simp only [demoTables, List.mem_cons, List.not_mem_nil, or_false] at hx
    rcases hx with rfl | rfl | rfl | rfl | rfl | rfl
    · exact hs.1
    · decide
    · simp
    · exact hs.2.2.1
    · exact hs.2.1
    · decide
  have hl : file.length < 2 ^ 32 := by
    have := small_file hsort e 100 hm
    simp only [demoTables, List.length_cons, List.length_nil] at this
    omega
  obtain ⟨T, h1, h2, h3⟩ := (saved_of (T := fun t => BMap.get? (demoTables glyf loca hmtx n) t) (.inl rfl) (by
    intro t ht
    obtain ⟨b, hb⟩ := Option.ne_none_iff_exists'.mp ht
    have hm := (BMap.get?_eq_some hsort).mp hb
    simp only [demoTables, List.mem_cons, Prod.mk.injEq, List.not_mem_nil, or_false] at hm
    rcases hm with ⟨rfl, _⟩ | ⟨rfl, _⟩ | ⟨rfl, _⟩ | ⟨rfl, _⟩ | ⟨rfl, _⟩ | ⟨rfl, _⟩ <;> decide) hsort (fun _ => rfl) e hl).font
  have hsame : SameBut (fun t => BMap.get? (demoTables glyf loca hmtx n) t) T := ⟨h2, h3⟩
  have hx' : HmtxIs T l := by
    obtain ⟨h, b, ⟨c, g1, g2⟩, g3, g4⟩ := hx
    exact ⟨h, b, ⟨c, by rw [h2 _ (by decide)]; exact g1, g2⟩, by rw [h2 _ (by decide)]; exact g3, g4⟩
  have hmaxp : MaxpIs (fun t => BMap.get? (demoTables glyf loca hmtx n) t) ⟨0x8000, .v05 ⟨3⟩⟩ :=
    ⟨[0,0,0x50,0,0,3], (BMap.get?_eq_some hsort).mpr (by simp [demoTables]), okIs_eq (by decide +kernel)⟩
  have hfew : FewTables T := by
    refine ⟨[tagGlyf, tagHead, tagHhea, tagHmtx, tagLoca, tagMaxp], by decide, fun t ht => ?_⟩
    by_cases e : t = tagHead
    · rw [e]; decide
    · rw [h2 t e] at ht
      obtain ⟨b, hb⟩ := Option.ne_none_iff_exists'.mp ht
      have hm := (BMap.get?_eq_some hsort).mp hb
      simp only [demoTables, List.mem_cons, Prod.mk.injEq, List.not_mem_nil, or_false] at hm
      rcases hm with ⟨rfl, _⟩ | ⟨rfl, _⟩ | ⟨rfl, _⟩ | ⟨rfl, _⟩ | ⟨rfl, _⟩ | ⟨rfl, _⟩ <;> decide
  obtain ⟨out, hrun⟩ := (glyphTool_accepts R f file).mpr ⟨_, T, h1, hsame.openable hopen, hfew, ⟨_, hsame.maxp hmaxp⟩, .inr ⟨l, hx'⟩, gs, hsame.glyf hgs,
    flat, hf, hn, compile_iff.mp ⟨_, hc⟩⟩
  refine ⟨file, out, T, hrun, ?_, h1, hsame⟩
  obtain ⟨v0, T0, gs0, flat0, T1, l2, j1, _, j3, j4, j5, j6, j7, j8⟩ := (glyph_spec R f _ _).mp hrun
  obtain ⟨rfl, rfl⟩ := h1.unique j1
  obtain rfl := (hsame.glyf hgs).unique j3
  rw [hf] at j4
  cases j4
  obtain ⟨hlen, _⟩ := ok_inv (sorted_ascending j6) j8
  have := small_file j6 j8 100 (by
    rintro ⟨t, b⟩ hb
    have hb := (BMap.get?_eq_some j6).mpr hb
    rw [j7] at hb
    by_cases e : t ≠ tagGlyf ∧ t ≠ tagLoca ∧ t ≠ tagHead ∧ t ≠ tagHhea
    · rw [NewGlyphs.other j5 e, h2 t e.2.2.1] at hb
      exact hm _ ((BMap.get?_eq_some hsort).mp hb)
    · obtain ⟨_, _, _, hd, _, x, hc', _, _, _, hx, rfl⟩ := j5
      have hc2 := hc.symm.trans hc'
      simp only [Res.ok.injEq, Prod.mk.injEq] at hc2
      obtain ⟨rfl, rfl, rfl⟩ := hc2
      unfold put at hb
      have : t = tagGlyf ∨ t = tagLoca ∨ t = tagHead ∨ t = tagHhea := by
        by_contra hh
        simp only [not_or] at hh
        exact e hh
      rcases this with rfl | rfl | rfl | rfl
      · rw [if_neg (by decide), if_neg (by decide), if_neg (by decide), if_pos rfl] at hb
        cases hb
        exact hs.2.2.2.1
      · rw [if_neg (by decide), if_neg (by decide), if_pos rfl] at hb
        cases hb
        exact hs.2.2.2.2
      · rw [if_neg (by decide), if_pos rfl] at hb
        cases hb
        show (encHead _).length ≤ 100
        rw [encHead_length]
        decide
      · rw [if_pos rfl] at hb
        subst hb
        rcases hx with ⟨_, hx⟩ | ⟨_, _, _, _, _, _, hx⟩
        · rw [h2 _ (by decide)] at hx
          exact hm _ ((BMap.get?_eq_some hsort).mp hx.symm)
        · cases hx
          show (encHhea _).length ≤ 100
          rw [(C52_hhea _).2]
          decide)
  have h3 : l2.length * (100 + 3) ≤ 4096 * 103 := Nat.mul_le_mul (by omega) (by omega)
  omega

/-- The demonstration glyphs with their bounds, the triangle run the other way. -/
def demoTurned : List Glyph :=
  [{ triangle with contours := [[⟨50, 80, true⟩, ⟨100, 0, true⟩, ⟨0, 0, true⟩]] },
    ⟨10, 110, 0, 80, [], [], [⟨0, ⟨1, 0, 0, 1, 10, 0⟩, none, 2⟩], false⟩,
    ⟨10, 110, 5, 85, [], [], [⟨0, ⟨1, 0, 0, 1, 10, 5⟩, none, 2⟩], false⟩]

theorem demo_turned : withoutOverlap some demoNested = .ok demoTurned := okIs_eq (by decide +kernel)

theorem demo_turned_compiled : ∃ o lc is32, compile Glyph.isEmpty encGlyph demoTurned = .ok (o, lc, is32) ∧ o.length ≤ 100 ∧ lc.length ≤ 100 :=
  have h : (match compile Glyph.isEmpty encGlyph demoTurned with
    | .ok (o, lc, _) => decide (o.length ≤ 100 ∧ lc.length ≤ 100)
    | _ => false) = true := by decide +kernel
  match e : compile Glyph.isEmpty encGlyph demoTurned with
  | .ok (o, lc, is32) => by
      rw [e] at h
      exact ⟨o, lc, is32, rfl, of_decide_eq_true h⟩
  | .err => by rw [e] at h; cases h
  | .panic => by rw [e] at h; cases h

/-- A font which meets the hypotheses of `C99_file`. -/
example (R : Rest X) : ∃ input out T, removeOverlaps R some input = .ok out ∧ out.length < 2 ^ 32 ∧ IsFont input 0x00010000 T ∧ GlyfIs T demoNested ∧
    ∀ g ∈ demoNested, g.components = [] → ∀ g1, removeOverlap some g = .ok g1 → CountsFit g1.contours := by
  obtain ⟨o, lc, is32, hc, ho, hlc⟩ := demo_turned_compiled
  obtain ⟨input, out, T, h1, h2, h3, h4⟩ := glyphTool_runs R (withoutOverlap some) (l := [⟨9, 1⟩, ⟨9, 2⟩, ⟨9, 3⟩]) ⟨by decide, by decide, by decide, ho, hlc⟩
    (nested_glyf [0, 9, 0, 1, 0, 2, 0, 3] 1) (demo_hmtx _ _ _ (.inl rfl) (okIs_eq (by decide +kernel))) demo_turned (by decide) hc
  refine ⟨input, out, T, h1, h2, h3, h4.glyf (nested_glyf [0, 9, 0, 1, 0, 2, 0, 3] 1), ?_⟩
  intro g hg hcomp g1 e
  simp only [demoNested, List.mem_cons, List.not_mem_nil, or_false] at hg
  rcases hg with rfl | rfl | rfl
  · have : removeOverlap some triangle = .ok { triangle with contours := [[⟨50, 80, true⟩, ⟨100, 0, true⟩, ⟨0, 0, true⟩]] } := okIs_eq (by decide +kernel)
    rw [this] at e
    cases e
    refine ⟨?_, by decide, by decide⟩
    intro c hc
    cases hc
    simp
  · cases hcomp
  · cases hcomp

end FT.Props
