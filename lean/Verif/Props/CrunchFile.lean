import Verif.Lemmas.CliCrunch
import Verif.Props.Crunch
import Verif.Props.OverlapFile

/-!
C100: `fontcrunch`, from the bytes of the input file to the bytes of the output file.
-/

namespace FT.Props
open FT FT.Cli FT.Tables FT.Save FT.Store FT.Glyf FT.Loca FT.Crunch

variable {X : Type}

/-- Specification: the glyph with its contours crunched, everything else as it was. -/
def CrunchedGlyph (opt : Optimiser) (quads : Pt → Pt → Pt → Pt → List (Pt × Pt)) (g g' : Glyph) : Prop :=
  ∃ cs, List.Forall₂ (fun c c' => crunchContour opt quads c = .ok c') g.contours cs ∧ g' = { g with contours := cs }

/-- Specification: there are no names, or a name for every glyph with contours. -/
def NamesReach (names : Option (List String)) (gs : List Glyph) : Prop :=
  ∀ l, names = some l → ∀ (i : Nat) (g : Glyph), gs[i]? = some g → g.contours ≠ [] → i < l.length

theorem nameAt_ok (names : Option (List String)) (i : Nat) : (∃ n, nameAt names i = .ok n) ↔ ∀ l, names = some l → i < l.length := by
  unfold nameAt
  cases names with
  | none => simp
  | some l =>
    simp only [Option.some.injEq, forall_eq']
    cases h : l[i]? with
    | none =>
      rw [List.getElem?_eq_none_iff] at h
      simp
      omega
    | some n =>
      have := (List.getElem?_eq_some_iff.mp h).1
      simp [this]

theorem crunchGlyph_iff (opt : Optimiser) (quads : Pt → Pt → Pt → Pt → List (Pt × Pt)) (g g' : Glyph) :
    crunchGlyph opt quads g = .ok g' ↔ CrunchedGlyph opt quads g g' := by
  unfold crunchGlyph CrunchedGlyph
  constructor
  · intro h
    obtain ⟨cs, h1, h2⟩ := bind_eq_ok h
    cases h2
    exact ⟨cs, mapL_inv _ _ h1, rfl⟩
  · rintro ⟨cs, h1, rfl⟩
    rw [FT.Cli.mapL_forall₂ h1]
    rfl

theorem crunchFrom_iff (opt : Optimiser) (quads : Pt → Pt → Pt → Pt → List (Pt × Pt)) (names : Option (List String)) : ∀ (gs : List Glyph) (k : Nat) (new : List Glyph),
    crunchFrom opt quads names k gs = .ok new ↔ List.Forall₂ (CrunchedGlyph opt quads) gs new ∧
      ∀ l, names = some l → ∀ (i : Nat) (g : Glyph), gs[i]? = some g → g.contours ≠ [] → k + i < l.length
  | [], k, new => by
    unfold crunchFrom
    constructor
    · intro h
      cases h
      exact ⟨.nil, fun l _ i g h => by simp at h⟩
    · rintro ⟨h, _⟩
      cases h
      rfl
  | g :: gs, k, new => by
    have ih := crunchFrom_iff opt quads names gs (k + 1)
    unfold crunchFrom
    have hone : ∀ g', crunchOne opt quads names k g = .ok g' ↔ CrunchedGlyph opt quads g g' ∧ (g.contours ≠ [] → ∀ l, names = some l → k < l.length) := by
      intro g'
      unfold crunchOne
      by_cases hc : g.contours = []
      · have : g.contours.isEmpty = true := by simp [hc]
        rw [if_pos this]
        constructor
        · intro h
          cases h
          refine ⟨⟨[], by rw [hc]; exact .nil, ?_⟩, fun h => absurd hc h⟩
          cases g
          cases hc
          rfl
        · rintro ⟨⟨cs, h1, rfl⟩, _⟩
          rw [hc] at h1
          cases h1
          cases g
          cases hc
          rfl
      · have : ¬ g.contours.isEmpty = true := by simp [hc]
        rw [if_neg this]
        constructor
        · intro h
          obtain ⟨n, h1, h2⟩ := bind_eq_ok h
          exact ⟨(crunchGlyph_iff ..).mp h2, fun _ => (nameAt_ok names k).mp ⟨n, h1⟩⟩
        · rintro ⟨h1, h2⟩
          obtain ⟨n, e⟩ := (nameAt_ok names k).mpr (h2 hc)
          rw [e, Res.ok_bind]
          exact (crunchGlyph_iff ..).mpr h1
    constructor
    · intro h
      obtain ⟨g', h1, h⟩ := bind_eq_ok h
      obtain ⟨rest, h2, h⟩ := bind_eq_ok h
      cases h
      obtain ⟨a1, a2⟩ := (hone g').mp h1
      obtain ⟨b1, b2⟩ := (ih rest).mp h2
      refine ⟨.cons a1 b1, fun l hl i x hx hne => ?_⟩
      cases i with
      | zero =>
        simp only [List.getElem?_cons_zero, Option.some.injEq] at hx
        subst hx
        simpa using a2 hne l hl
      | succ i =>
        have := b2 l hl i x (by simpa using hx) hne
        omega
    · rintro ⟨h1, h2⟩
      cases h1 with
      | cons a1 b1 =>
        rename_i g' rest
        have e1 := (hone g').mpr ⟨a1, fun hne l hl => by simpa using h2 l hl 0 g rfl hne⟩
        have e2 := (ih rest).mpr ⟨b1, fun l hl i x hx hne => by
          have := h2 l hl (i + 1) x (by simpa using hx) hne
          omega⟩
        rw [e1, Res.ok_bind, e2]
        rfl

/-- **C100** (variable fonts). Of a font with variations no file is written, and only of such. -/
theorem C100_variable (R : Rest X) (opt : Optimiser) (quads : Pt → Pt → Pt → Pt → List (Pt × Pt)) (input : Bytes) :
    crunchFile R opt quads input = .ok none ↔ ∃ v T, IsFont input v T ∧ Openable T ∧ T tagGvar ≠ none :=
  crunchFile_none R input

/-- **C100** (which fonts are accepted). The tool writes a file exactly if the font can be opened and has no variations, `maxp` and,
if present, `post` can be read, there are fewer than 4096 tables, and either there are no glyphs, or the glyphs and, if present, the metrics can
be read, every glyph with contours has a name unless none has, every glyph can be crunched, and the new glyphs can be written. -/
theorem C100_accepts (R : Rest X) (opt : Optimiser) (quads : Pt → Pt → Pt → Pt → List (Pt × Pt)) (input : Bytes) :
    (∃ out, crunchFile R opt quads input = .ok (some out)) ↔ ∃ v T names, IsFont input v T ∧ Openable T ∧ FewTables T ∧ T tagGvar = none ∧
      (∃ m, MaxpIs T m) ∧ NamesAre T names ∧ (T tagGlyf = none ∨ ((T tagHmtx = none ∨ ∃ l, HmtxIs T l) ∧ ∃ gs, GlyfIs T gs ∧
        NamesReach names gs ∧ ∃ new, List.Forall₂ (CrunchedGlyph opt quads) gs new ∧ CanWrite new)) := by
  have hlong : ∀ {T : Tag → Option Bytes}, Openable T → ∀ b, T tagHead = some b → 12 ≤ b.length := by
    intro T ho b hb
    rcases ho.1 with h | ⟨x, b', h1, h2⟩
    · rw [h] at hb; cases hb
    · rw [h1] at hb; cases hb; exact head_long h2
  constructor
  · rintro ⟨out, e⟩
    obtain ⟨v, T, names, h1, h2, h3, h4, h5⟩ := (crunch_spec R opt quads _ _).mp e
    rcases h5 with ⟨h5, h6, l, h7, h8, h9⟩ | ⟨gs, new, T', l, h5, h6, h7, h8, h9, h10⟩
    · exact ⟨v, T, names, h1, h2, (toBytes_iff (hlong h2)).mp ⟨l, out, h7, h8, h9⟩, h3, h6, h4, .inl h5⟩
    · obtain ⟨g1, g2⟩ := glyf_there h5
      obtain ⟨k1, k2⟩ := (crunchFrom_iff ..).mp h6
      refine ⟨v, T, names, h1, h2, (NewGlyphs.few h7 g1 g2).mp ((toBytes_iff (NewGlyphs.long h7)).mp ⟨l, out, h8, h9, h10⟩), h3, ?_, h4,
        .inr ⟨?_, gs, h5, fun l hl i g hg hne => by simpa using k2 l hl i g hg hne, new, k1, ?_⟩⟩
      · obtain ⟨_, _, _, _, m, _, _, _, hm, _⟩ := h7
        exact ⟨m, hm⟩
      · obtain ⟨_, _, _, _, m, x, _, _, _, _, hx, _⟩ := h7
        rcases hx with ⟨hx, _⟩ | ⟨_, l, _, _, hx, _⟩
        · exact .inl hx
        · exact .inr ⟨l, hx⟩
      · obtain ⟨_, _, _, _, _, _, hc, hn, _⟩ := h7
        exact ⟨hn, compile_iff.mp ⟨_, hc⟩⟩
  · rintro ⟨v, T, names, h1, h2, h3, h4, ⟨m, hm⟩, h6, h7⟩
    rcases h7 with h7 | ⟨hx, gs, h7, h8, new, h9, h10⟩
    · obtain ⟨l, out, e1, e2, e3⟩ := (toBytes_iff (v := v) (hlong h2)).mpr h3
      exact ⟨out, (crunch_spec R opt quads _ _).mpr ⟨v, T, names, h1, h2, h4, h6, .inl ⟨h7, ⟨m, hm⟩, l, e1, e2, e3⟩⟩⟩
    · obtain ⟨hn, hc⟩ := h10
      obtain ⟨⟨o, lc, is32⟩, hc⟩ := compile_iff.mpr hc
      obtain ⟨hd, hhd⟩ : ∃ h, HeadIs T h := by
        obtain ⟨_, _, ⟨h, _, e, _⟩, _⟩ := h7
        exact ⟨h, e⟩
      obtain ⟨x, hx⟩ : ∃ x, NewHhea T x := by
        rcases hx with h | ⟨l, hl⟩
        · exact ⟨_, .inl ⟨h, rfl⟩⟩
        · obtain ⟨n, e⟩ := hmtx_count hl
          obtain ⟨h, _, e1, _⟩ := id hl
          exact ⟨_, .inr ⟨h, l, n, e1, hl, e, rfl⟩⟩
      have hT : NewGlyphs (fmt R) new T _ := ⟨o, lc, is32, hd, m, x, hc, hn, hm, hhd, hx, rfl⟩
      obtain ⟨g1, g2⟩ := glyf_there h7
      obtain ⟨l, out, e1, e2, e3⟩ := (toBytes_iff (v := v) (NewGlyphs.long hT)).mpr ((NewGlyphs.few hT g1 g2).mpr h3)
      refine ⟨out, (crunch_spec R opt quads _ _).mpr ⟨v, T, names, h1, h2, h4, h6, .inr ⟨gs, new, _, l, h7, ?_, hT, e1, e2, e3⟩⟩⟩
      exact (crunchFrom_iff ..).mpr ⟨h9, fun l hl i g hg hne => by simpa using h8 l hl i g hg hne⟩

/-- The file that is written for a font with glyphs. -/
theorem crunch_writes (R : Rest X) {opt : Optimiser} {quads : Pt → Pt → Pt → Pt → List (Pt × Pt)} {input out : Bytes}
    (h : crunchFile R opt quads input = .ok (some out)) (hl : out.length < 2 ^ 32) {v : UInt32}
    {T : Tag → Option Bytes} (hT : IsFont input v T) :
    (T tagGlyf = none ∧ Saved v T out) ∨
    ∃ gs new T1 T', GlyfIs T gs ∧ List.Forall₂ (CrunchedGlyph opt quads) gs new ∧ NewGlyphs (fmt R) new T T1 ∧ SameBut T1 T' ∧ IsFont out v T' := by
  obtain ⟨v0, T0, names, h1, _, _, _, h5⟩ := (crunch_spec R opt quads _ _).mp h
  obtain ⟨rfl, rfl⟩ := hT.unique h1
  obtain ⟨hv, hver⟩ := loads_sorted h1
  rcases h5 with ⟨h5, _, l, h7, h8, h9⟩ | ⟨gs, new, T1, l, h5, h6, h7, h8, h9, h10⟩
  · exact .inl ⟨h5, saved_of hver hv h7 h8 h9 hl⟩
  right
  have hs : Saved v T1 out := by
    refine saved_of hver (fun t ht => ?_) h8 h9 h10 hl
    by_cases e : t ≠ tagGlyf ∧ t ≠ tagLoca ∧ t ≠ tagHead ∧ t ≠ tagHhea
    · rw [NewGlyphs.other h7 e] at ht
      exact hv t ht
    · have : t = tagGlyf ∨ t = tagLoca ∨ t = tagHead ∨ t = tagHhea := by tauto
      rcases this with rfl | rfl | rfl | rfl <;> decide
  obtain ⟨T', i1, i2, i3⟩ := hs.font
  exact ⟨gs, new, T1, T', h5, ((crunchFrom_iff ..).mp h6).1, h7, ⟨i2, i3⟩, i1⟩

/-- **C100** (no glyphs). A font without a glyph table is saved as it is. -/
theorem C100_no_glyphs (R : Rest X) (opt : Optimiser) (quads : Pt → Pt → Pt → Pt → List (Pt × Pt)) {input out : Bytes}
    (h : crunchFile R opt quads input = .ok (some out)) (hl : out.length < 2 ^ 32) {v : UInt32} {T : Tag → Option Bytes} (hT : IsFont input v T)
    (hg : T tagGlyf = none) : Saved v T out := by
  rcases crunch_writes R h hl hT with ⟨_, h⟩ | ⟨_, _, _, _, ⟨_, _, _, h, _⟩, _⟩
  · exact h
  · rw [hg] at h; cases h

/-- **C100** (the other tables). Of a font with glyphs, all tables but the glyphs, their locations, `head` and `hhea` stay as they are; in
`head` only the checksum, the format of the locations and the rounding of the revision change. -/
theorem C100_tables (R : Rest X) (opt : Optimiser) (quads : Pt → Pt → Pt → Pt → List (Pt × Pt)) {input out : Bytes}
    (h : crunchFile R opt quads input = .ok (some out)) (hl : out.length < 2 ^ 32) {v : UInt32} {T : Tag → Option Bytes} (hT : IsFont input v T)
    (hg : T tagGlyf ≠ none) : ∃ T', IsFont out v T' ∧
    (∀ t, t ≠ tagGlyf → t ≠ tagLoca → t ≠ tagHead → t ≠ tagHhea → T' t = T t) ∧
    (T tagHmtx = none → T' tagHhea = T tagHhea) ∧
    ∃ hd adjustment format revision, HeadIs T hd ∧
      HeadIs T' { hd with checksumAdjustment := adjustment, indexToLocFormat := format, fontRevision := revision } ∧
      ∀ p : Int32, |p.toInt| ≤ 2 ^ 23 → hd.fontRevision = F32.fixedFromPacked p.toInt → revision = hd.fontRevision := by
  rcases crunch_writes R h hl hT with ⟨h, _⟩ | ⟨gs, new, T1, T', _, _, h5, h6, h7⟩
  · exact absurd h hg
  exact newGlyphs_tables h5 h6 h7

/-- **C100** (the new file). Every glyph of the new file has as many contours as before, each crunched, and otherwise what it had,
the box included, which thus need not fit any more. -/
theorem C100_file (R : Rest X) (opt : Optimiser) (quads : Pt → Pt → Pt → Pt → List (Pt × Pt)) {input out : Bytes}
    (h : crunchFile R opt quads input = .ok (some out)) (hl : out.length < 2 ^ 32) {v : UInt32} {T : Tag → Option Bytes} {gs : List Glyph}
    (hT : IsFont input v T) (hgs : GlyfIs T gs) (hp : ∀ g ∈ gs, ∀ g1, CrunchedGlyph opt quads g g1 → CountsFit g1.contours) :
    ∃ T' gs', IsFont out v T' ∧ GlyfIs T' gs' ∧ gs'.length = gs.length ∧
      ∀ (i : Nat) (g g' : Glyph), gs[i]? = some g → gs'[i]? = some g' →
        List.Forall₂ (fun c c' => crunchContour opt quads c = .ok c') g.contours g'.contours ∧
        (g'.xMin = g.xMin ∧ g'.xMax = g.xMax ∧ g'.yMin = g.yMin ∧ g'.yMax = g.yMax) ∧ g'.instructions = g.instructions ∧
        g'.components.map componentContent = g.components.map componentContent := by
  rcases crunch_writes R h hl hT with ⟨h, _⟩ | ⟨gs0, new, T1, T', h3, h4, h5, h6, h7⟩
  · obtain ⟨_, _, _, e, _⟩ := hgs
    rw [h] at e; cases e
  obtain rfl := hgs.unique h3
  have hlen := h4.length_eq
  have hat : ∀ (i : Nat) (f : Glyph), new[i]? = some f → ∃ g, gs[i]? = some g ∧ CrunchedGlyph opt quads g f := by
    intro i f hf
    have hi : i < new.length := (List.getElem?_eq_some_iff.mp hf).1
    have hr := (List.forall₂_iff_get.mp h4).2 i (by omega) hi
    have e : new.get ⟨i, hi⟩ = f := by
      rw [List.getElem?_eq_getElem hi] at hf
      exact Option.some.inj hf
    rw [e] at hr
    exact ⟨_, List.getElem?_eq_getElem (by omega), hr⟩
  have hwhat : ∀ g ∈ gs, g = emptyGlyph ∨ (g.instructions.length ≤ 32767 ∧ ((g.components = [] ∧ g.contours ≠ []) ∨
      (g.contours = [] ∧ g.components ≠ [] ∧ ∀ c ∈ g.components, StorableComponent c))) := by
    intro g hg
    rcases glyf_each hgs g hg with e | ⟨q, q', hr⟩
    · exact .inl e
    · obtain ⟨k1, ⟨k2, k3, _⟩ | k2⟩ := read_glyph hr
      · exact .inr ⟨k1, .inl ⟨k2, k3⟩⟩
      · exact .inr ⟨k1, .inr k2⟩
  obtain ⟨back, hb1, hb2, hb3⟩ := newGlyphs_back h5 (by
    intro f hf he hb
    obtain ⟨i, hi⟩ := List.mem_iff_getElem?.mp hf
    obtain ⟨g, hg, cs, k1, rfl⟩ := hat i f hi
    have hm := List.mem_of_getElem? hg
    rcases hwhat g hm with rfl | ⟨hi, ⟨hc, hn⟩ | ⟨hc, hn, hst⟩⟩
    · cases k1
      cases he
    · refine simple_back hc ?_ (hp g hm _ ⟨cs, k1, rfl⟩) hi hb
      intro e
      simp only at e
      rw [e] at k1
      generalize hgc : g.contours = l at k1
      cases k1
      exact hn hgc
    · obtain ⟨b, g', e1, e2, e3, e4, e5, e6, _⟩ := C29_roundtrip { g with contours := cs } hn hst hi
      rw [hc] at k1
      cases k1
      exact ⟨b, g', e1, e2, ⟨e3, by rw [e6], e4, e5⟩, encGlyph_ne he e1⟩)
  refine ⟨T', new.map back, h7, h6.glyf hb1, by simp [hlen], ?_⟩
  intro i g g' hg hg'
  rw [List.getElem?_map, Option.map_eq_some_iff] at hg'
  obtain ⟨f, hf, rfl⟩ := hg'
  have hmf := List.mem_of_getElem? hf
  obtain ⟨g0, hg0, cs, k1, rfl⟩ := hat i f hf
  rw [hg] at hg0
  cases hg0
  cases he : Glyph.isEmpty { g with contours := cs } with
  | false =>
    obtain ⟨⟨b1, b2, b3, b4⟩, q2, q3, q4⟩ := hb2 _ hmf he
    exact ⟨by rw [q2]; exact k1, ⟨b1, b2, b3, b4⟩, q3, q4⟩
  | true =>
    rw [hb3 _ hmf he]
    unfold Glyph.isEmpty at he
    simp only [Bool.and_eq_true, List.isEmpty_iff] at he
    obtain ⟨he1, rfl⟩ := he
    have hgc : g.contours = [] := by
      generalize hgc : g.contours = l at k1
      cases k1
      rfl
    rcases hwhat g (List.mem_of_getElem? hg) with rfl | ⟨_, ⟨_, hn⟩ | ⟨_, hn, _⟩⟩
    · exact ⟨.nil, ⟨rfl, rfl, rfl, rfl⟩, rfl, rfl⟩
    · exact absurd hgc hn
    · exact absurd he1 hn

/-! ### A font -/

theorem triangle_polygon : Polygon [⟨0, 0, true⟩, ⟨100, 0, true⟩, ⟨50, 80, true⟩] := by
  refine ⟨by simp, by simp, ?_⟩
  intro i a b d h1 h2 h3
  have hi : i < 3 := (List.getElem?_eq_some_iff.mp h1).1
  have : i = 0 ∨ i = 1 ∨ i = 2 := by omega
  rcases this with rfl | rfl | rfl <;> (cases h1; cases h2; cases h3; right; right; decide +kernel)

/-- The demonstration glyphs, the triangle run the other way. -/
def demoCrunched : List Glyph := { triangle with contours := [[⟨50, 80, true⟩, ⟨100, 0, true⟩, ⟨0, 0, true⟩]] } :: demoNested.tail

theorem crunched_alone (opt : Optimiser) (quads : Pt → Pt → Pt → Pt → List (Pt × Pt)) {g : Glyph} (h : g.contours = []) : CrunchedGlyph opt quads g g := by
  refine ⟨[], by rw [h]; exact .nil, ?_⟩
  cases g
  cases h
  rfl

theorem demo_crunched (opt : Optimiser) (quads : Pt → Pt → Pt → Pt → List (Pt × Pt)) : crunchFrom opt quads none 0 demoNested = .ok demoCrunched :=
  (crunchFrom_iff ..).mpr ⟨.cons ⟨_, .cons (C100_polygon opt quads _ triangle_polygon) .nil, rfl⟩
    (.cons (crunched_alone opt quads rfl) (.cons (crunched_alone opt quads rfl) .nil)), fun l h => by cases h⟩

theorem demo_crunched_compiled : ∃ o lc is32, compile Glyph.isEmpty encGlyph demoCrunched = .ok (o, lc, is32) ∧ o.length ≤ 100 ∧ lc.length ≤ 100 :=
  have h : (match compile Glyph.isEmpty encGlyph demoCrunched with
    | .ok (o, lc, _) => decide (o.length ≤ 100 ∧ lc.length ≤ 100)
    | _ => false) = true := by decide +kernel
  match e : compile Glyph.isEmpty encGlyph demoCrunched with
  | .ok (o, lc, is32) => by
      rw [e] at h
      exact ⟨o, lc, is32, rfl, of_decide_eq_true h⟩
  | .err => by rw [e] at h; cases h
  | .panic => by rw [e] at h; cases h

/-- A font which meets the hypotheses of `C100_file`, whatever the optimiser does. -/
example (R : Rest X) (opt : Optimiser) (quads : Pt → Pt → Pt → Pt → List (Pt × Pt)) : ∃ input out T, crunchFile R opt quads input = .ok (some out) ∧
    out.length < 2 ^ 32 ∧ IsFont input 0x00010000 T ∧ GlyfIs T demoNested ∧
    ∀ g ∈ demoNested, ∀ g1, CrunchedGlyph opt quads g g1 → CountsFit g1.contours := by
  obtain ⟨o, lc, is32, hc, ho, hlc⟩ := demo_crunched_compiled
  obtain ⟨input, out, T, h1, h2, h3, h4⟩ := glyphTool_runs R (crunchFrom opt quads none 0) (l := [⟨9, 1⟩, ⟨9, 2⟩, ⟨9, 3⟩]) ⟨by decide, by decide, by decide, ho, hlc⟩
    (nested_glyf [0, 9, 0, 1, 0, 2, 0, 3] 1) (demo_hmtx _ _ _ (.inl rfl) (okIs_eq (by decide +kernel))) (demo_crunched opt quads) (by decide) hc
  obtain ⟨v, T0, gs, new, T', l, k1, k2, k3, k4, k5, k6, k7, k8⟩ := (glyph_spec R _ _ _).mp h1
  obtain ⟨rfl, rfl⟩ := h3.unique k1
  have hpost : T tagPost = none := by
    rw [h4.1 _ (by decide)]
    exact (BMap.get?_eq_none (demo_sorted ..)).mpr (by simp only [demoTables, List.forall_mem_cons]; decide)
  have hgvar : T tagGvar = none := by
    rw [h4.1 _ (by decide)]
    exact (BMap.get?_eq_none (demo_sorted ..)).mpr (by simp only [demoTables, List.forall_mem_cons]; decide)
  refine ⟨input, out, T, (crunch_spec R opt quads _ _).mpr ⟨_, T, none, h3, k2, hgvar, .inl ⟨hpost, rfl⟩, .inr ⟨gs, new, T', l, k3, k4, k5, k6, k7, k8⟩⟩,
    h2, h3, h4.glyf (nested_glyf [0, 9, 0, 1, 0, 2, 0, 3] 1), ?_⟩
  rintro g hg g1 ⟨cs, hcs, rfl⟩
  simp only [demoNested, List.mem_cons, List.not_mem_nil, or_false] at hg
  rcases hg with rfl | rfl | rfl
  · cases hcs with
    | cons a b =>
      cases b
      rw [C100_polygon opt quads _ triangle_polygon] at a
      cases a
      refine ⟨?_, by simp, by simp⟩
      intro c hc
      cases hc
      simp
  · cases hcs
    exact ⟨by simp, by simp, by simp⟩
  · cases hcs
    exact ⟨by simp, by simp, by simp⟩

end FT.Props
