import Verif.Lemmas.CliInstSpec
import Verif.Props.CliFlatten
import Verif.Props.InstancerFont
import Verif.Props.InstancerAvar
import Verif.Props.InstancerStat
import Verif.Props.Stat

/-!
C87: `ttf-instantiate`, from the bytes of the input file to the bytes of the output file.

Vocabulary (in Lemmas/CliInstance, Lemmas/CliInstFont): `FvarIs T f`, `AvarIs T m`, `StatIs T t`, the table can be read and is
this; `FontIs T f`, all tables that the instancer looks at can be read and are those of `f`. In Props/Instancer and
Props/InstancerFont: `Normalised`, the normalised location of the given axis values; `GlyphAt`, what becomes of a glyph there.
-/

namespace FT.Props
open FT FT.Cli FT.Tables FT.Save FT.Store FT.Glyf FT.Loca FT.AxisMaps FT.Instancer FT.Gvar FT.TupleVar FT.F32

variable {X : Type}

/-! ### The regions of a gvar table -/

theorem fixed14_grid (p : Int16) : OnGrid (fixed14 p) :=
  ⟨p.toInt, p.le_toInt, by have := p.toInt_lt; omega, rfl⟩

theorem tuple_grid {n : ℕ} {r r' : Rd} {l : List ℚ} (h : readTuple n r = .ok (l, r')) : l.length = n ∧ ∀ x ∈ l, OnGrid x := by
  unfold readTuple at h
  obtain ⟨ps, r1, h1, h⟩ := reader_bind_ok h
  cases h
  refine ⟨by rw [List.length_map]; exact deCounted_length h1, fun x hx => ?_⟩
  obtain ⟨p, _, rfl⟩ := List.mem_map.mp hx
  rw [C04_f2dot14_value]
  exact fixed14_grid p

theorem optTuple_grid {n : ℕ} {b : Bool} {r r' : Rd} {o : Option (List ℚ)} (h : readOptTuple b n r = .ok (o, r')) :
    ∀ l, o = some l → l.length = n ∧ ∀ x ∈ l, OnGrid x := by
  unfold readOptTuple at h
  cases b with
  | false => cases h; intro l e; cases e
  | true =>
    rw [if_pos rfl] at h
    obtain ⟨l, r1, h1, h⟩ := reader_bind_ok h
    cases h
    intro l' e
    cases e
    exact tuple_grid h1

/-- The tuples of a header. -/
def HeaderOn (n : ℕ) (h : Header) : Prop :=
  (∀ l, h.peakTuple = some l → l.length = n ∧ ∀ x ∈ l, OnGrid x) ∧ (∀ l, h.startTuple = some l → l.length = n ∧ ∀ x ∈ l, OnGrid x) ∧
  (∀ l, h.endTuple = some l → l.length = n ∧ ∀ x ∈ l, OnGrid x)

theorem header_on {n : ℕ} {r r' : Rd} {h : Header} (e : readHeader n r = .ok (h, r')) : HeaderOn n h := by
  unfold readHeader at e
  obtain ⟨_, _, _, e⟩ := reader_bind_ok e
  obtain ⟨_, _, _, e⟩ := reader_bind_ok e
  obtain ⟨_, _, e1, e⟩ := reader_bind_ok e
  obtain ⟨_, _, e2, e⟩ := reader_bind_ok e
  obtain ⟨_, _, e3, e⟩ := reader_bind_ok e
  cases e
  exact ⟨optTuple_grid e1, optTuple_grid e2, optTuple_grid e3⟩

theorem variations_headers {g : Bool} {n : UInt16} {sh : List UInt16} : ∀ (hs : List Header) (r r' : Rd) (vs : List Variation),
    readVariations g n sh hs r = .ok (vs, r') → ∀ v ∈ vs, v.header ∈ hs
  | [], r, r', vs, h => by cases h; intro v hv; cases hv
  | a :: hs, r, r', vs, h => by
    unfold readVariations at h
    obtain ⟨v, r1, h1, h⟩ := reader_bind_ok h
    obtain ⟨vs', r2, h2, h⟩ := reader_bind_ok h
    cases h
    intro w hw
    rcases List.mem_cons.mp hw with rfl | hw
    · unfold readVariation at h1
      obtain ⟨_, _, _, h1⟩ := reader_bind_ok h1
      obtain ⟨_, _, _, h1⟩ := reader_bind_ok h1
      obtain ⟨_, _, _, h1⟩ := reader_bind_ok h1
      cases h1
      exact List.mem_cons_self
    · exact List.mem_cons_of_mem _ (variations_headers hs _ _ _ h2 w hw)

theorem store_on {axes n : UInt16} {g : Bool} {r r' : Rd} {vs : List Variation} (h : readStore axes g n r = .ok (vs, r')) :
    ∀ v ∈ vs, HeaderOn axes.toNat v.header := by
  unfold readStore at h
  obtain ⟨p, _, _, h⟩ := reader_bind_ok h
  obtain ⟨_, _, _, h⟩ := reader_bind_ok h
  obtain ⟨hs, _, e, h⟩ := reader_bind_ok h
  obtain ⟨_, _, _, h⟩ := reader_bind_ok h
  intro v hv
  exact deCounted_all (fun _ _ _ => header_on) e _ (variations_headers hs _ _ _ h v hv)

theorem unit_grid : OnGrid 0 ∧ OnGrid 1 ∧ OnGrid (-1) :=
  ⟨⟨0, by omega, by omega, by norm_num⟩, ⟨16384, by omega, by omega, by norm_num⟩, ⟨-16384, by omega, by omega, by norm_num⟩⟩

theorem deltaSet_on {n : ℕ} {shared : List (List ℚ)} (hsh : ∀ l ∈ shared, l.length = n ∧ ∀ x ∈ l, OnGrid x) {cs : List Iup.Pt} {es : List ℕ}
    {v : Variation} (hv : HeaderOn n v.header) {d : DeltaSet} (h : toDeltaSet shared cs es v = .ok d) : OnAxes n d := by
  unfold toDeltaSet at h
  obtain ⟨ds, _, h⟩ := bind_eq_ok h
  simp only at h
  split at h
  · cases h
  have h : ∃ peak, (match v.header.peakTuple with
      | some p => Res.ok p
      | none => Res.unwrap shared[v.header.sharedTupleIndex.toNat]?) = .ok peak ∧
      d = ⟨peak, v.header.startTuple.getD (defaultStart peak), v.header.endTuple.getD (defaultStop peak), ds⟩ := by
    split at h
    · rename_i heq
      obtain ⟨peak, hp, h⟩ := bind_eq_ok h
      cases h
      exact ⟨_, by rw [heq]; exact hp, rfl⟩
    · rename_i heq
      obtain ⟨peak, hp, h⟩ := bind_eq_ok h
      cases h
      exact ⟨_, by rw [heq]; exact hp, rfl⟩
  obtain ⟨peak, hp, h⟩ := h
  have hpk : peak.length = n ∧ ∀ x ∈ peak, OnGrid x := by
    cases e : v.header.peakTuple with
    | some p => rw [e] at hp; cases hp; exact hv.1 _ e
    | none =>
      rw [e] at hp
      cases hx : shared[v.header.sharedTupleIndex.toNat]? with
      | none => rw [hx] at hp; cases hp
      | some p => rw [hx] at hp; cases hp; exact hsh _ (List.mem_of_getElem? hx)
  have hstart : (v.header.startTuple.getD (defaultStart peak)).length = n ∧ ∀ x ∈ v.header.startTuple.getD (defaultStart peak), OnGrid x := by
    cases e : v.header.startTuple with
    | some l => exact hv.2.1 _ e
    | none =>
      refine ⟨by simp [defaultStart, hpk.1], fun x hx => ?_⟩
      simp only [Option.getD_none, defaultStart, List.mem_map] at hx
      obtain ⟨y, _, rfl⟩ := hx
      split
      · exact unit_grid.1
      · exact unit_grid.2.2
  have hstop : (v.header.endTuple.getD (defaultStop peak)).length = n ∧ ∀ x ∈ v.header.endTuple.getD (defaultStop peak), OnGrid x := by
    cases e : v.header.endTuple with
    | some l => exact hv.2.2 _ e
    | none =>
      refine ⟨by simp [defaultStop, hpk.1], fun x hx => ?_⟩
      simp only [Option.getD_none, defaultStop, List.mem_map] at hx
      obtain ⟨y, _, rfl⟩ := hx
      split
      · exact unit_grid.2.1
      · exact unit_grid.1
  subst h
  refine ⟨hstart.1, hpk.1, hstop.1, fun x hx => ?_⟩
  rcases List.mem_append.mp hx with hx | hx
  · rcases List.mem_append.mp hx with hx | hx
    · exact hstart.2 x hx
    · exact hpk.2 x hx
  · exact hstop.2 x hx

theorem glyphSets_on {axes : UInt16} {shared : List (List ℚ)} (hsh : ∀ l ∈ shared, l.length = axes.toNat ∧ ∀ x ∈ l, OnGrid x)
    {cs : List Iup.Pt} {es : List ℕ} {o : ℕ} {r r' : Rd} {ds : List DeltaSet} (h : readGlyphSets axes shared cs es o r = .ok (ds, r')) :
    ∀ d ∈ ds, OnAxes axes.toNat d := by
  unfold readGlyphSets at h
  obtain ⟨_, _, _, h⟩ := reader_bind_ok h
  obtain ⟨_, _, _, h⟩ := reader_bind_ok h
  obtain ⟨vs, _, e, h⟩ := reader_bind_ok h
  have hst := store_on e
  have h2 := mapL_inv _ _ (lift_ok h).1
  intro d hd
  obtain ⟨i, hi⟩ := List.mem_iff_getElem?.mp hd
  have hl := h2.length_eq
  have hlt : i < vs.length := by rw [hl]; exact (List.getElem?_eq_some_iff.mp hi).1
  obtain ⟨hlt', e'⟩ := List.getElem?_eq_some_iff.mp hi
  have := h2.get (i := i) hlt hlt'
  rw [List.get_eq_getElem, List.get_eq_getElem, e'] at this
  exact deltaSet_on hsh (hst _ (List.getElem_mem hlt)) this

theorem gvarGlyphs_on {axes : UInt16} {shared : List (List ℚ)} (hsh : ∀ l ∈ shared, l.length = axes.toNat ∧ ∀ x ∈ l, OnGrid x)
    {base : ℕ} {offs : List ℕ} {ce : List (List Iup.Pt × List ℕ)} : ∀ (n i : ℕ) (r r' : Rd) (g : Gvar),
    Gvar.readGlyphs axes shared base offs ce n i r = .ok (g, r') → g.length = n ∧ ∀ ds, some ds ∈ g → ∀ d ∈ ds, OnAxes axes.toNat d
  | 0, _, _, _, _, h => by cases h; simp
  | n + 1, i, r, r', g, h => by
    unfold Gvar.readGlyphs at h
    obtain ⟨_, _, _, h⟩ := reader_bind_ok h
    obtain ⟨_, _, _, h⟩ := reader_bind_ok h
    obtain ⟨_, _, _, h⟩ := reader_bind_ok h
    obtain ⟨_, _, _, h⟩ := reader_bind_ok h
    split at h
    · cases h
    split at h
    · obtain ⟨g', r1, h1, h⟩ := reader_bind_ok h
      cases h
      obtain ⟨i1, i2⟩ := gvarGlyphs_on hsh n (i + 1) _ _ _ h1
      refine ⟨by simp [i1], fun ds hds => ?_⟩
      rcases List.mem_cons.mp hds with e | e
      · cases e
      · exact i2 ds e
    · obtain ⟨c, _, _, h⟩ := reader_bind_ok h
      obtain ⟨ds, _, h0, h⟩ := reader_bind_ok h
      obtain ⟨g', r1, h1, h⟩ := reader_bind_ok h
      cases h
      obtain ⟨i1, i2⟩ := gvarGlyphs_on hsh n (i + 1) _ _ _ h1
      refine ⟨by simp [i1], fun ds' hds => ?_⟩
      rcases List.mem_cons.mp hds with e | e
      · cases e; exact glyphSets_on hsh h0
      · exact i2 ds' e

/-- Specification: the header of the gvar table gives these numbers of axes (bytes 4 and 5) and glyphs (bytes 12 and 13). -/
def GvarHeader (T : Tag → Option Bytes) (axes glyphs : ℕ) : Prop :=
  ∃ b, T tagGvar = some b ∧ field b 4 2 = axes ∧ field b 12 2 = glyphs

theorem u16_inv {r r' : Rd} {v : UInt16} (h : readU16 r = .ok (v, r')) : v.toNat = field r.inp r.ptr 2 ∧ r' = { r with ptr := r.ptr + 2 } := by
  rcases Nat.lt_or_ge r.inp.length (r.ptr + 2) with hl | hl
  · rw [readU16_err hl] at h; cases h
  · obtain ⟨v', e1, e2⟩ := readU16_ok hl
    rw [e2] at h
    cases h
    exact ⟨e1, rfl⟩

theorem u32_inv {r r' : Rd} {v : UInt32} (h : readU32 r = .ok (v, r')) : v.toNat = field r.inp r.ptr 4 ∧ r' = { r with ptr := r.ptr + 4 } := by
  rcases Nat.lt_or_ge r.inp.length (r.ptr + 4) with hl | hl
  · rw [readU32_err hl] at h; cases h
  · obtain ⟨v', e1, e2⟩ := readU32_ok hl
    rw [e2] at h
    cases h
    exact ⟨e1, rfl⟩

theorem core_fields {r r' : Rd} {c : GvarCore} (h : readGvarCore r = .ok (c, r')) :
    c.axisCount.toNat = field r.inp (r.ptr + 4) 2 ∧ c.glyphCount.toNat = field r.inp (r.ptr + 12) 2 := by
  unfold readGvarCore at h
  obtain ⟨_, _, e1, h⟩ := reader_bind_ok h
  obtain ⟨_, _, e2, h⟩ := reader_bind_ok h
  obtain ⟨_, _, e3, h⟩ := reader_bind_ok h
  obtain ⟨_, _, e4, h⟩ := reader_bind_ok h
  obtain ⟨_, _, e5, h⟩ := reader_bind_ok h
  obtain ⟨_, _, e6, h⟩ := reader_bind_ok h
  obtain ⟨_, _, e7, h⟩ := reader_bind_ok h
  obtain ⟨_, _, e8, h⟩ := reader_bind_ok h
  cases h
  obtain ⟨_, rfl⟩ := u16_inv e1
  obtain ⟨_, rfl⟩ := u16_inv e2
  obtain ⟨a, rfl⟩ := u16_inv e3
  obtain ⟨_, rfl⟩ := u16_inv e4
  obtain ⟨_, rfl⟩ := u32_inv e5
  obtain ⟨b, rfl⟩ := u16_inv e6
  exact ⟨a, b⟩

theorem gvar_on {T : Tag → Option Bytes} {gs : List Glyph} {g : Gvar} (h : GvarIs T gs g) {axes glyphs : ℕ} (hh : GvarHeader T axes glyphs) :
    g.length = glyphs ∧ ∀ ds, some ds ∈ g → ∀ d ∈ ds, OnAxes axes d := by
  obtain ⟨ce, b, _, e1, e2⟩ := h
  obtain ⟨b', f1, rfl, rfl⟩ := hh
  rw [e1] at f1
  cases f1
  unfold runAll at e2
  cases hr : Gvar.readGvar ce (Rd.new b) with
  | err => rw [hr] at e2; cases e2
  | panic => rw [hr] at e2; cases e2
  | ok x =>
    obtain ⟨g', r'⟩ := x
    rw [hr] at e2
    cases e2
    unfold Gvar.readGvar at hr
    obtain ⟨_, r0, h0, hr⟩ := reader_bind_ok hr
    cases h0
    obtain ⟨core, r1, h1, hr⟩ := reader_bind_ok hr
    obtain ⟨c1, c2⟩ := core_fields h1
    change _ = field b 4 2 at c1
    change _ = field b 12 2 at c2
    rw [← c1, ← c2]
    split at hr
    · cases hr
    obtain ⟨offs, _, _, hr⟩ := reader_bind_ok hr
    obtain ⟨_, _, _, hr⟩ := reader_bind_ok hr
    obtain ⟨_, _, _, hr⟩ := reader_bind_ok hr
    split at hr
    · cases hr
    obtain ⟨shared, _, hs, hr⟩ := reader_bind_ok hr
    refine gvarGlyphs_on ?_ _ _ _ _ _ hr
    intro l hl
    refine deCounted_all (P := fun l => l.length = core.axisCount.toNat ∧ ∀ x ∈ l, OnGrid x) ?_ hs l hl
    intro r a r' ha
    refine ⟨deCounted_length ha, deCounted_all (P := OnGrid) ?_ ha⟩
    intro r a r' ha
    obtain ⟨p, rfl⟩ := f14_read ha
    exact fixed14_grid p

/-! ### Writing moved outlines -/

/-- What comes back of a glyph whose points were moved. -/
theorem kept_moved {g g' : Glyph} (hg : g = emptyGlyph ∨ ∃ q q', readGlyph q = .ok (g, q')) (hr : g' = { g with contours := g'.contours })
    (hc : g'.contours.map List.length = g.contours.map List.length) (he : g'.isEmpty = false) (hb : ∃ b, encGlyph g' = .ok b)
    (hl : ∀ c ∈ g.contours, c.length ≤ 32767) :
    ∃ b g2, encGlyph g' = .ok b ∧ Reads readGlyph b g2 ∧ KeptGlyph g' g2 ∧ b ≠ [] := by
  have hcomp : g'.components = g.components := by rw [hr]
  have hsame : g.contours = [] → g' = g := by
    intro e
    rw [e, List.map_nil, List.map_eq_nil_iff] at hc
    rw [hr, hc, ← e]
  have hempty : g.contours ≠ [] → g'.contours ≠ [] := by
    intro h e
    rw [e, List.map_nil] at hc
    exact h (List.map_eq_nil_iff.mp hc.symm)
  rcases hg with rfl | ⟨q, q', hg⟩
  · rw [hsame rfl] at he
    exact absurd he (by decide)
  · obtain ⟨hi, ⟨h0, h1, h2, h3, h4⟩ | ⟨h0, h1, h2⟩⟩ := read_glyph hg
    · have hlen : g'.contours.length = g.contours.length := by simpa using congrArg List.length hc
      have hl' : ∀ c ∈ g'.contours, c.length ≤ 32767 := by
        intro c hcc
        have : c.length ∈ g.contours.map List.length := by rw [← hc]; exact List.mem_map.mpr ⟨c, hcc, rfl⟩
        obtain ⟨d, hd, e⟩ := List.mem_map.mp this
        rw [← e]; exact hl d hd
      have hfirst : ∀ c, g'.contours.head? = some c → c ≠ [] := by
        intro c hcc e
        subst e
        have h5 := congrArg List.head? hc
        rw [List.head?_map, List.head?_map, hcc] at h5
        cases h6 : g.contours.head? with
        | none => rw [h6] at h5; cases h5
        | some d =>
          rw [h6] at h5
          simp only [Option.map_some, Option.some.injEq, List.length_nil] at h5
          exact h2 d h6 (List.length_eq_zero_iff.mp h5.symm)
      obtain ⟨b, hb⟩ := hb
      have hp : g'.contours.flatten.length ≤ 32768 := by
        by_contra hp
        rw [C28_too_many_points g' (hcomp.trans h0) hl' (by omega)] at hb
        cases hb
      have hst : StepsFit 0 0 g'.contours.flatten := by
        by_contra hst
        rw [C28_step_overflow g' (hcomp.trans h0) hst] at hb
        cases hb
      have hi' : g'.instructions.length ≤ 32767 := by rw [hr]; exact hi
      obtain ⟨b', e1, e2⟩ := C28_roundtrip g' (hcomp.trans h0) (hempty h1) hfirst (by omega) hl' hp hi' hst
      have := C28_writes g' (hcomp.trans h0) (hempty h1) hfirst (by omega) hl' hp hi' hst
      refine ⟨b', _, e1, e2, ⟨⟨rfl, rfl, rfl, rfl⟩, rfl, rfl, rfl⟩, ?_⟩
      rintro rfl
      have := e2 [] [] [0]
      simp only [List.nil_append, List.length_nil] at this
      cases this
    · obtain rfl := hsame h0
      exact kept_of (.inr ⟨q, q', hg⟩) (cs := g'.components) Iff.rfl he hb hl h2

/-! ### The file that is written -/

theorem instance_writes (R : Rest X) {limits : UserLimits} {input out : Bytes} (h : instantiateFile R limits input = .ok (some out))
    (hl : out.length < 2 ^ 32) {v : UInt32} {T : Tag → Option Bytes} (hT : IsFont input v T) :
    ∃ f f' U T1 T', FontIs T f ∧ T tagCFF2 = none ∧ instantiate rne limits f = .ok f' ∧ Instanced T f f' U ∧ NewOutlines R f f' U T1 ∧
      SameBut T1 T' ∧ IsFont out v T' := by
  obtain ⟨v0, T0, f, f', U, T1, l, h1, h2, h3, h4, h5, h6, h7, h8, h9, h10⟩ := (instance_spec R limits _ _).mp ((instantiateFile_some R _ _ _).mp h)
  obtain ⟨rfl, rfl⟩ := hT.unique h1
  obtain ⟨hv, hver⟩ := loads_sorted h1
  have hU : ∀ t, U t ≠ none → t.Valid := by
    intro t ht
    by_cases e1 : t = tagFvar
    · rw [e1]; decide
    by_cases e2 : t = tagAvar
    · rw [e2]; decide
    by_cases e3 : t = tagSTAT
    · rw [e3]; decide
    by_cases e4 : t = tagGvar
    · rw [e4]; decide
    rw [h6.other t e1 e2 e3 e4] at ht
    exact hv t ht
  have hs : Saved v T1 out := by
    refine saved_of hver (fun t ht => ?_) h8 h9 h10 hl
    rcases h7 with ⟨_, rfl, _⟩ | ⟨_, gs', _, _, h7⟩
    · exact hU t ht
    by_cases e : t ≠ tagGlyf ∧ t ≠ tagLoca ∧ t ≠ tagHead ∧ t ≠ tagHhea
    · rw [NewGlyphs.other h7 e] at ht
      exact hU t ht
    · have : t = tagGlyf ∨ t = tagLoca ∨ t = tagHead ∨ t = tagHhea := by
        by_contra hh
        simp only [not_or] at hh
        exact e hh
      rcases this with rfl | rfl | rfl | rfl <;> decide
  obtain ⟨T', i1, i2, i3⟩ := hs.font
  exact ⟨f, f', U, T1, T', h3, h4, h5, h6, h7, ⟨i2, i3⟩, i1⟩

theorem outlines_other {R : Rest X} {f f' : VarFont} {U T1 : Tag → Option Bytes} (h : NewOutlines R f f' U T1) {t : Tag}
    (ht : t ≠ tagGlyf ∧ t ≠ tagLoca ∧ t ≠ tagHead ∧ t ≠ tagHhea) : T1 t = U t := by
  rcases h with ⟨_, rfl, _⟩ | ⟨_, _, _, _, h⟩
  · rfl
  · exact NewGlyphs.other h ht

/-- **C87.** A font without an `fvar` table gives no file, and only such a font (of those for which the program ends normally). -/
theorem C87_not_variable (R : Rest X) (limits : UserLimits) (input : Bytes) : instantiateFile R limits input = .ok none ↔
    ∃ v T, IsFont input v T ∧ Openable T ∧ T tagFvar = none := instantiateFile_none R limits input

/-- **C87.** A new font has no `gvar` table, whatever was asked for. All tables but `fvar`, `avar`, `STAT`, `gvar` and those that
hold glyphs (`glyf`, `loca`, `head`, `hhea`) are the same as before: also `HVAR`, `MVAR`, `cvar` and `hmtx`. If nothing varied,
those that hold glyphs too are the same, but for the checksum adjustment in `head`. -/
theorem C87_tables (R : Rest X) {limits : UserLimits} {input out : Bytes} (h : instantiateFile R limits input = .ok (some out))
    (hl : out.length < 2 ^ 32) {v : UInt32} {T : Tag → Option Bytes} (hT : IsFont input v T) :
    ∃ T', IsFont out v T' ∧ T' tagGvar = none ∧
      (∀ t, t ≠ tagFvar → t ≠ tagAvar → t ≠ tagSTAT → t ≠ tagGvar → t ≠ tagGlyf → t ≠ tagLoca → t ≠ tagHead → t ≠ tagHhea → T' t = T t) ∧
      (T tagGvar = none → ∀ t, t ≠ tagFvar → t ≠ tagAvar → t ≠ tagSTAT → t ≠ tagHead → T' t = T t) ∧
      (T tagHmtx = none → T' tagHhea = T tagHhea) ∧
      (T tagSTAT = none → T' tagSTAT = none) := by
  obtain ⟨f, f', U, T1, T', h1, h2, h3, h4, h5, h6, h7⟩ := instance_writes R h hl hT
  refine ⟨T', h7, ?_, fun t a1 a2 a3 a4 a5 a6 a7 a8 => ?_, fun hn t a1 a2 a3 a7 => ?_, fun hn => ?_, fun hn => ?_⟩
  · rw [h6.1 _ (by decide), outlines_other h5 (by decide), h4.gvar.2]
  · rw [h6.1 t a7, outlines_other h5 ⟨a5, a6, a7, a8⟩, h4.other t a1 a2 a3 a4]
  · rw [h6.1 t a7]
    rcases h5 with ⟨_, rfl, _⟩ | ⟨gv, _, e, _⟩
    · by_cases a4 : t = tagGvar
      · rw [a4, h4.gvar.2, hn]
      · exact h4.other t a1 a2 a3 a4
    · exfalso
      rcases h1.gvar with ⟨_, e'⟩ | ⟨w, _, gs, _, hw⟩
      · rw [e] at e'; cases e'
      · exact gvarIs_there hw hn
  · rw [h6.1 _ (by decide)]
    have hk : U tagHhea = T tagHhea := h4.other _ (by decide) (by decide) (by decide) (by decide)
    have hm : U tagHmtx = T tagHmtx := h4.other _ (by decide) (by decide) (by decide) (by decide)
    rcases h5 with ⟨_, rfl, _⟩ | ⟨_, _, _, _, _, _, _, _, _, x, _, _, _, _, hx, rfl⟩
    · exact hk
    · unfold put
      rw [if_pos rfl]
      rcases hx with ⟨_, rfl⟩ | ⟨_, _, _, _, ⟨_, _, _, e, _⟩, _⟩
      · exact hk
      · rw [hm, hn] at e; cases e
  · rw [h6.1 _ (by decide), outlines_other h5 (by decide)]
    rcases h4.stat with ⟨_, e⟩ | ⟨t, e, _⟩ | ⟨t, _, _, e, _⟩
    · exact e
    all_goals
      exfalso
      rcases h1.stat with ⟨_, e'⟩ | ⟨w, _, hw⟩
      · rw [e] at e'; cases e'
      · exact statIs_there hw hn

/-- **C87.** Every axis is given a value or dropped. The new font has no `fvar`, `avar` and `gvar` tables. Each of its glyphs has
the instructions, bounding box and components it had before, and each point is at its place for the location to which the given values are
normalised (with the error of C46). For a font whose gvar table is about the axes of `fvar` and the glyphs of `glyf`,
and contours of at most 32767 points. -/
theorem C87_pinned (R : Rest X) {limits : UserLimits} {input out : Bytes} (h : instantiateFile R limits input = .ok (some out))
    (hl : out.length < 2 ^ 32) {v : UInt32} {T : Tag → Option Bytes} (hT : IsFont input v T) (hs : BMap.Sorted limits)
    {fv : Fvar} (hfv : FvarIs T fv) (hn : (fv.axes.map AxisRecord.axisTag).Nodup) (hne : fv.axes ≠ []) (hall : AllPinned fv.axes limits)
    {gs : List Glyph} {gv : Gvar} (hgs : GlyfIs T gs) (hgv : GvarIs T gs gv) (hh : GvarHeader T fv.axes.length gs.length)
    (hp : ∀ g ∈ gs, ∀ c ∈ g.contours, c.length ≤ 32767) :
    ∃ T' maps loc gs', IsFont out v T' ∧ T' tagFvar = none ∧ T' tagAvar = none ∧ T' tagGvar = none ∧
      Maybe T tagAvar (AvarIs T) maps ∧ Normalised fv.axes maps limits loc ∧ GlyfIs T' gs' ∧ gs'.length = gs.length ∧
      ∀ (i : ℕ) (g : Glyph) (ds : Option (List DeltaSet)), gs[i]? = some g → gv[i]? = some ds →
        ∃ g1 g', gs'[i]? = some g' ∧ GlyphAt (fv.axes.map AxisRecord.axisTag) loc ds g g1 ∧ KeptGlyph g1 g' := by
  obtain ⟨f, f', U, T1, T', h1, h2, h3, h4, h5, h6, h7⟩ := instance_writes R h hl hT
  obtain ⟨hglen, hon⟩ := gvar_on hgv hh
  have ef : f.fvar = some fv := by
    obtain ⟨fv', e, h⟩ := h1.fvar
    rw [e, h.unique hfv]
  have eg : f.glyf = some gs := by
    rcases h1.glyf with ⟨e, _⟩ | ⟨gs', e, h⟩
    · exact absurd e (glyf_there hgs).1
    · rw [e, h.unique hgs]
  have ev : f.gvar = some gv := by
    rcases h1.gvar with ⟨e, _⟩ | ⟨w, e, gs2, e2, h⟩
    · exact absurd e (gvarIs_there hgv)
    · rw [eg] at e2; cases e2
      rw [e, h.unique hgv]
  obtain ⟨f1, f2, f3, loc, glyf', f4, f5, f6, f7⟩ := C46_font h3 hs ef hn hne hall eg ev hglen hon
  have hU1 := h4.fvar
  have hU2 := h4.avar
  rw [f1] at hU1
  rw [f2] at hU2
  rcases h5 with ⟨e, _⟩ | ⟨_, gs2, _, e, hN⟩
  · rw [ev] at e; cases e
  rw [f5] at e
  cases e
  have hwhat : ∀ g' ∈ glyf', ∃ g ∈ gs, g' = { g with contours := g'.contours } ∧ g'.contours.map List.length = g.contours.map List.length := by
    intro g' hg'
    obtain ⟨i, hi⟩ := List.mem_iff_getElem?.mp hg'
    have hlt : i < gs.length := by rw [← f6]; exact (List.getElem?_eq_some_iff.mp hi).1
    obtain ⟨g2, e1, e2⟩ := f7 i _ _ (List.getElem?_eq_getElem hlt) (List.getElem?_eq_getElem (hglen ▸ hlt))
    rw [hi] at e1
    cases e1
    refine ⟨_, List.getElem_mem hlt, ?_⟩
    cases hds : gv[i]'(hglen ▸ hlt) with
    | none =>
      rw [hds] at e2
      have e2 : g' = gs[i] := e2
      rw [← e2]
      exact ⟨rfl, rfl⟩
    | some ds =>
      rw [hds] at e2
      have e2 : Moved _ _ ds _ _ := e2
      exact ⟨e2.rest, e2.counts⟩
  obtain ⟨back, hb1, hb2⟩ := newGlyphs_read hN (by
    intro g' hg' he hb
    obtain ⟨g, hg, r1, r2⟩ := hwhat g' hg'
    exact kept_moved (glyf_each hgs g hg) r1 r2 he hb (hp g hg)) (by
    intro g' hg' he
    obtain ⟨g, hg, r1, r2⟩ := hwhat g' hg'
    unfold Glyph.isEmpty at he
    simp only [Bool.and_eq_true, List.isEmpty_iff] at he
    rw [he.2, List.map_nil] at r2
    have r2 := List.map_eq_nil_iff.mp r2.symm
    have : g.components = [] := by rw [r1] at he; exact he.1
    rcases glyf_each hgs g hg with rfl | ⟨q, q', hr⟩
    · rw [r1, he.2]; rfl
    · obtain ⟨_, ⟨_, k, _⟩ | ⟨_, k, _⟩⟩ := read_glyph hr
      · exact absurd r2 k
      · exact absurd this k)
  refine ⟨T', f.avar, loc, glyf'.map back, h7, ?_, ?_, ?_, h1.avar, f4, h6.glyf hb1, by simp [f6], ?_⟩
  · rw [h6.1 _ (by decide), NewGlyphs.other hN (by decide)]; exact hU1
  · rw [h6.1 _ (by decide), NewGlyphs.other hN (by decide)]; exact hU2
  · rw [h6.1 _ (by decide), NewGlyphs.other hN (by decide)]; exact h4.gvar.2
  · intro i g ds hg hds
    obtain ⟨g1, e1, e2⟩ := f7 i g ds hg hds
    exact ⟨g1, back g1, by rw [List.getElem?_map, e1]; rfl, e2, hb2 g1 (List.mem_of_getElem? e1)⟩

/-- **C87.** Of the axis values in the `STAT` table those remain whose coordinates are within the limits. For a table that names a
fallback, with valid axis tags, whose numbers can be stored and which is not too big. -/
theorem C87_stat (R : Rest X) {limits : UserLimits} {input out : Bytes} (h : instantiateFile R limits input = .ok (some out))
    (hl : out.length < 2 ^ 32) {v : UInt32} {T : Tag → Option Bytes} (hT : IsFont input v T) (hs : BMap.Sorted limits)
    {fv : Fvar} (hfv : FvarIs T fv) (hn : (fv.axes.map AxisRecord.axisTag).Nodup)
    (hlim : ∀ x ∈ limits, ∀ v, x.2 = .full v → On16 v) (hd : ∀ a ∈ fv.axes, On16 a.defaultValue)
    {t : Stat.Table} (ht : StatIs T t) (ok : StatOk t) (he : t.elided.isSome) (htok : Stat.TableOk t) :
    ∃ T' limits', IsFont out v T' ∧ WithDefaults fv.axes limits limits' ∧
      StatIs T' { t with values := t.values.filter (inLimits limits' t.axes) } := by
  obtain ⟨f, f', U, T1, T', h1, h2, h3, h4, h5, h6, h7⟩ := instance_writes R h hl hT
  have ef : f.fvar = some fv := by
    obtain ⟨fv', e, h⟩ := h1.fvar
    rw [e, h.unique hfv]
  have es : f.stat = some t := by
    rcases h1.stat with ⟨e, _⟩ | ⟨t', e, h⟩
    · exact absurd e (statIs_there ht)
    · rw [e, h.unique ht]
  obtain ⟨limits', k1, k2⟩ := C72_font h3 hs ef hn hlim hd es ok
  have hTS : T' tagSTAT = U tagSTAT := by rw [h6.1 _ (by decide), outlines_other h5 (by decide)]
  obtain ⟨b0, hb0, hr0⟩ := ht
  have hplain : ∀ x ∈ t.values, Stat.Plain x := by
    unfold runAll at hr0
    split at hr0
    · next e => cases hr0; exact fun x hx => (Stat.C71_read_plain e x hx).1
    · cases hr0
    · cases hr0
  refine ⟨T', limits', h7, k1, ?_⟩
  rcases h4.stat with ⟨e, _⟩ | ⟨t', e, e2, e3⟩ | ⟨t', t2, b, e, e2, e3, e4, e5⟩
  · rw [es] at e; cases e
  · rw [es] at e; cases e
    have : t.values.filter (inLimits limits' t.axes) = t.values := by
      rw [List.filter_eq_self]
      intro x hx
      unfold statEmpty at e2
      rw [Bool.or_eq_true, List.isEmpty_iff, List.isEmpty_iff] at e2
      rcases e2 with e2 | e2
      · unfold inLimits
        rw [List.all_eq_true]
        intro c hcc
        have := ok.index x hx c hcc
        rw [e2] at this
        simp at this
      · rw [e2] at hx; cases hx
    rw [this]
    exact ⟨b0, by rw [hTS, e3]; exact hb0, hr0⟩
  · rw [k2] at e3
    cases e3
    have hsum : ∀ (l : List Stat.AxisValue) (p : Stat.AxisValue → Bool),
        2 * (l.filter p).length + ((l.filter p).map Stat.size).sum ≤ 2 * l.length + (l.map Stat.size).sum := by
      intro l p
      induction l with
      | nil => simp
      | cons x l ih =>
        rw [List.filter_cons]
        split
        · simp only [List.length_cons, List.map_cons, List.sum_cons]; omega
        · simp only [List.length_cons, List.map_cons, List.sum_cons]; omega
    obtain ⟨b', w1, _, w2⟩ := Stat.C71_roundtrip (t := { t with values := t.values.filter (inLimits limits' t.axes) })
      ⟨htok.axisCount, htok.tags, fun x hx => htok.values x (List.mem_filter.mp hx).1, le_trans (hsum _ _) htok.fits⟩
    rw [e4] at w1
    cases w1
    refine ⟨b, by rw [hTS, e5], ?_⟩
    obtain ⟨ptr, w2⟩ := w2 [] [] [0]
    simp only [List.nil_append, List.append_nil, List.length_nil] at w2
    unfold runAll Rd.new
    rw [w2]
    simp only [Stat.keptTable, Res.ok.injEq, Stat.Table.mk.injEq, true_and]
    constructor
    · obtain ⟨x, hx⟩ := Option.isSome_iff_exists.1 he
      rw [hx]; rfl
    · conv_rhs => rw [← List.map_id (t.values.filter _)]
      refine List.map_congr_left fun x hx => ?_
      have hx := (List.mem_filter.mp hx).1
      exact (Stat.C71_plain (fun hloc => (htok.values x hx).axis hloc)).2 (hplain x hx)

/-! ### When no file is written -/

/-- The steps of the instancer that concern outlines. -/
theorem instantiate_outlines {f f' : VarFont} {limits : UserLimits} (h : instantiate rne limits f = .ok f') {fv : Fvar} (hfv : f.fvar = some fv)
    {gs : List Glyph} {gv : Gvar} (hgs : f.glyf = some gs) (hgv : f.gvar = some gv) : ∃ limits' norm r, populate fv.axes limits = .ok limits' ∧
      normLimits rne fv.axes f.avar limits' = .ok norm ∧
      instantiateGlyphs rne (fv.axes.map AxisRecord.axisTag) norm gs gv = .ok r := by
  unfold instantiate at h
  rw [hfv] at h
  simp only [Res.unwrap, Res.ok_bind] at h
  obtain ⟨limits', hp, h⟩ := Res.bind_inv h
  obtain ⟨norm, hnorm, h⟩ := Res.bind_inv h
  obtain ⟨f1, h1, h⟩ := Res.bind_inv h
  unfold gvarStep at h1
  rw [hgv, hgs] at h1
  simp only [Res.unwrap, Res.ok_bind] at h1
  obtain ⟨r, hr, h1⟩ := Res.bind_inv h1
  unfold instantiateGvar at hr
  obtain ⟨r', hr', hr⟩ := Res.bind_inv hr
  exact ⟨limits', norm, r', hp, hnorm, hr'⟩

theorem mapL_gives {α β : Type} {f : α → Res β} {l : List α} {m : List β} (h : Res.mapL f l = .ok m) {a : α} {b : β} (ha : a ∈ l)
    (hab : f a = .ok b) : b ∈ m := by
  have hf := mapL_inv _ _ h
  clear h
  induction hf with
  | nil => cases ha
  | cons h1 _ ih =>
    rcases List.mem_cons.mp ha with rfl | ha
    · rw [hab] at h1; cases h1; exact List.mem_cons_self
    · exact List.mem_cons_of_mem _ (ih ha)

/-- An axis without a limit has no normalised limit; a range stays a range. -/
theorem normLimits_kinds {axes : List AxisRecord} (hn : (axes.map AxisRecord.axisTag).Nodup) {maps : Option (List (List (ℚ × ℚ)))}
    {limits limits' : UserLimits} (hs : BMap.Sorted limits) (hp : populate axes limits = .ok limits') {norm : Limits}
    (h : normLimits rne axes maps limits' = .ok norm) :
    (∀ t, t ∉ limits.map Prod.fst → BMap.get? norm.full t = none) ∧
    (∀ t lo hi, (t, UserLimit.range lo hi) ∈ limits → ∃ lo' hi', (t, Limit.range lo' hi') ∈ norm) := by
  obtain ⟨pk, pv⟩ := populate_spec hn hp
  have hs' : BMap.Sorted limits' := sorted_same_keys pk hs
  unfold normLimits at h
  split_ifs at h with h1
  simp only at h
  split_ifs at h with h2
  have hseln : (((axes.filter fun a => (BMap.get? limits' a.axisTag).isSome).map fun a =>
      (a.axisTag, a.minValue, a.defaultValue, a.maxValue)).map Prod.fst).Nodup := by
    rw [List.map_map]
    exact hn.sublist (List.filter_sublist.map _)
  have hf := mapL_inv _ _ h
  have hone : ∀ segs x y, normOne rne segs limits' x = .ok y → y.1 = x.1 ∧
      ∀ lo hi, BMap.get? limits' x.1 = some (.range lo hi) → ∃ lo' hi', y.2 = .range lo' hi' := by
    intro segs x y hxy
    unfold normOne at hxy
    simp only at hxy
    obtain ⟨u, hu, hxy⟩ := Res.bind_inv hxy
    cases e : BMap.get? limits' x.1 with
    | none => rw [e] at hu; cases hu
    | some u' =>
      rw [e] at hu
      cases hu
      cases u with
      | drop => cases hxy
      | full v =>
        obtain ⟨_, _, hxy⟩ := Res.bind_inv hxy
        cases hxy
        exact ⟨rfl, fun lo hi e => by cases e⟩
      | range lo hi =>
        obtain ⟨a, _, hxy⟩ := Res.bind_inv hxy
        obtain ⟨b, _, hxy⟩ := Res.bind_inv hxy
        cases hxy
        exact ⟨rfl, fun _ _ _ => ⟨a, b, rfl⟩⟩
  constructor
  · intro t ht
    cases e : BMap.get? norm.full t with
    | none => rfl
    | some v =>
      exfalso
      have hm : (t, v) ∈ norm.full := FT.Props.get?_mem (κ := Tag) (α := ℚ) (m := norm.full) e
      unfold Limits.full at hm
      obtain ⟨y, hy, e2⟩ := List.mem_filterMap.mp hm
      have hyt : y.1 = t := by
        split at e2
        · cases e2; rfl
        · cases e2
      obtain ⟨x, hx, hxy⟩ := forall2_mem_left hf y hy
      rw [mem_collect hseln] at hx
      obtain ⟨a, ha, rfl⟩ := List.mem_map.1 hx
      have ha := (List.mem_filter.1 ha).2
      obtain ⟨u, hu⟩ := Option.isSome_iff_exists.mp ha
      apply ht
      rw [← pk, ← hyt, (hone _ _ _ hxy).1]
      exact List.mem_map.mpr ⟨_, (BMap.get?_eq_some hs').mp hu, rfl⟩
  · intro t lo hi hm
    have hm' : (t, UserLimit.range lo hi) ∈ limits' := by
      have : t ∈ limits'.map Prod.fst := by rw [pk]; exact List.mem_map.mpr ⟨_, hm, rfl⟩
      obtain ⟨y, hy, rfl⟩ := List.mem_map.mp this
      obtain ⟨x, hx, e1, e2⟩ := pv y hy
      have e3 := (BMap.get?_eq_some hs).mpr hm
      rw [e1] at e3
      rw [(BMap.get?_eq_some hs (v := x.2)).mpr hx] at e3
      simp only [Option.some.injEq] at e3
      rcases e2 with ⟨_, _, _, e4, _⟩ | ⟨_, e4⟩
      · rw [e3] at e4; cases e4
      · rw [e3] at e4
        rw [← e4]; exact hy
    have hg := (BMap.get?_eq_some hs').mpr hm'
    rw [List.all_eq_true] at h1
    have h1 := h1 _ hm'
    rw [List.any_eq_true] at h1
    obtain ⟨a, ha, e⟩ := h1
    have e : a.axisTag = t := by simpa using e
    have hx : (a.axisTag, a.minValue, a.defaultValue, a.maxValue) ∈ BMap.collect ((axes.filter fun a => (BMap.get? limits' a.axisTag).isSome).map fun a =>
      (a.axisTag, a.minValue, a.defaultValue, a.maxValue)) := by
      rw [mem_collect hseln]
      exact List.mem_map.mpr ⟨a, List.mem_filter.mpr ⟨ha, by rw [e, hg]; rfl⟩, rfl⟩
    obtain ⟨y, hxy⟩ := mapL_item h hx
    have hy : y ∈ norm := mapL_gives h hx hxy
    obtain ⟨k1, k2⟩ := hone _ _ _ hxy
    obtain ⟨lo', hi', k2⟩ := k2 lo hi (by simp only [e]; exact hg)
    refine ⟨lo', hi', ?_⟩
    have hy' : (y.1, y.2) ∈ norm := hy
    rw [k2, k1] at hy'
    simp only [e] at hy'
    exact hy'

section
variable (R : Rest X) {limits : UserLimits} {input out : Bytes} {v : UInt32} {T : Tag → Option Bytes} {fv : Fvar} {gs : List Glyph} {gv : Gvar}

/-- A written file, seen from the tables that concern outlines. -/
theorem instance_outlines (h : instantiateFile R limits input = .ok (some out)) (hT : IsFont input v T) (hfv : FvarIs T fv)
    (hgs : GlyfIs T gs) (hgv : GvarIs T gs gv) : ∃ maps limits' norm r, Maybe T tagAvar (AvarIs T) maps ∧ populate fv.axes limits = .ok limits' ∧
      normLimits rne fv.axes maps limits' = .ok norm ∧ instantiateGlyphs rne (fv.axes.map AxisRecord.axisTag) norm gs gv = .ok r := by
  obtain ⟨v0, T0, f, f', U, T1, l, h0, h2, h1, h4, h5, _⟩ := (instance_spec R limits _ _).mp ((instantiateFile_some R _ _ _).mp h)
  obtain ⟨rfl, rfl⟩ := hT.unique h0
  have ef : f.fvar = some fv := by
    obtain ⟨fv', e, h⟩ := h1.fvar
    rw [e, h.unique hfv]
  have eg : f.glyf = some gs := by
    rcases h1.glyf with ⟨e, _⟩ | ⟨gs', e, h⟩
    · exact absurd e (glyf_there hgs).1
    · rw [e, h.unique hgs]
  have ev : f.gvar = some gv := by
    rcases h1.gvar with ⟨e, _⟩ | ⟨w, e, gs2, e2, h⟩
    · exact absurd e (gvarIs_there hgv)
    · rw [eg] at e2; cases e2
      rw [e, h.unique hgv]
  obtain ⟨limits', norm, r, q1, q2, q3⟩ := instantiate_outlines h5 ef eg ev
  exact ⟨f.avar, limits', norm, r, h1.avar, q1, q2, q3⟩

/-- **C87.** Partial instances of fonts whose outlines vary are not made. If a file is written although a glyph with an outline has
variations, then every axis was given a value, none a range. -/
theorem C87_all_pinned (h : instantiateFile R limits input = .ok (some out)) (hT : IsFont input v T) (hs : BMap.Sorted limits)
    (hfv : FvarIs T fv) (hn : (fv.axes.map AxisRecord.axisTag).Nodup) (hgs : GlyfIs T gs) (hgv : GvarIs T gs gv)
    (hvar : ∃ (i : ℕ) (g : Glyph) (ds : List DeltaSet), gs[i]? = some g ∧ gv[i]? = some (some ds) ∧ g.contours.flatten ≠ []) :
    AllPinned fv.axes limits := by
  obtain ⟨maps, limits', norm, r, _, h1, h2, h3⟩ := instance_outlines R h hT hfv hgs hgv
  obtain ⟨k1, k2⟩ := normLimits_kinds hn hs h1 h2
  obtain ⟨i, g, ds, e1, e2, e3⟩ := hvar
  obtain ⟨_, _, _, h4⟩ := instantiateGlyphs_inv h3
  obtain ⟨g', w, w', _, e4, _, h5⟩ := h4 i g e1
  rw [e2] at e4
  cases e4
  refine ⟨fun a ha => ?_, fun x hx lo hi e => ?_⟩
  · by_contra hno
    rw [C46_free_axis ⟨a.axisTag, List.mem_map.mpr ⟨a, ha, rfl⟩, k1 _ hno⟩ e3] at h5
    cases h5
  · obtain ⟨t, u⟩ := x
    simp only at e
    subst e
    obtain ⟨lo', hi', hm⟩ := k2 t lo hi hx
    rw [C46_range hm] at h5
    cases h5

/-- **C87.** And if a file is written, every glyph which has an outline and variations is influenced by one of these at the given
location. In particular there is no file for the default location of most fonts. -/
theorem C87_influenced (h : instantiateFile R limits input = .ok (some out)) (hT : IsFont input v T) (hs : BMap.Sorted limits)
    (hfv : FvarIs T fv) (hn : (fv.axes.map AxisRecord.axisTag).Nodup) (hne : fv.axes ≠ []) (hall : AllPinned fv.axes limits)
    (hgs : GlyfIs T gs) (hgv : GvarIs T gs gv) (hh : GvarHeader T fv.axes.length gs.length) :
    ∃ maps loc, Maybe T tagAvar (AvarIs T) maps ∧ Normalised fv.axes maps limits loc ∧
      ∀ (i : ℕ) (g : Glyph) (ds : List DeltaSet), gs[i]? = some g → gv[i]? = some (some ds) → g.contours.flatten ≠ [] →
        ∃ d ∈ ds, influence loc (setRegion (fv.axes.map AxisRecord.axisTag) d) ≠ 0 := by
  obtain ⟨maps, limits', norm, r, h0, h1, h2, h3⟩ := instance_outlines R h hT hfv hgs hgv
  obtain ⟨_, hon⟩ := gvar_on hgv hh
  obtain ⟨loc, rfl, hl⟩ := normLimits_pinned hn hs hall h1 h2
  refine ⟨maps, loc, h0, hl, fun i g ds e1 e2 e3 => ?_⟩
  by_contra hno
  push Not at hno
  obtain ⟨_, _, _, h4⟩ := instantiateGlyphs_inv h3
  obtain ⟨g', w, w', _, e4, _, h5⟩ := h4 i g e1
  rw [e2] at e4
  cases e4
  rw [C46_no_influence hn (by simpa using hne) hl.sorted hl.tags hl.grid
    (fun d hd => by rw [List.length_map]; exact hon ds (List.mem_of_getElem? e2) d hd) hno e3] at h5
  cases h5

end

/-! ### Arguments -/

/-- Two parts with a character between. -/
theorem cutAt_some {c : Char} : ∀ {s a b : List Char}, cutAt c s = (a, some b) ↔ s = a ++ c :: b ∧ c ∉ a
  | [], a, b => by simp [cutAt]
  | x :: s, a, b => by
    unfold cutAt
    split
    · next e =>
      subst e
      constructor
      · intro h; cases h; simp
      · rintro ⟨h1, h2⟩
        cases a with
        | nil => simp at h1; rw [h1]
        | cons y a => simp at h1 h2; exact absurd h1.1 h2.1
    · next e =>
      cases hc : cutAt c s with
      | mk p q =>
        simp only [Prod.mk.injEq]
        constructor
        · rintro ⟨rfl, rfl⟩
          obtain ⟨h1, h2⟩ := cutAt_some.mp hc
          refine ⟨by rw [h1]; rfl, ?_⟩
          simp only [List.mem_cons, not_or]
          exact ⟨fun h => e h.symm, h2⟩
        · rintro ⟨h1, h2⟩
          cases a with
          | nil => simp at h1; exact absurd h1.1 e
          | cons y a =>
            simp only [List.cons_append, List.cons.injEq, List.mem_cons, not_or] at h1 h2
            obtain ⟨rfl, h1⟩ := h1
            have := cutAt_some.mpr ⟨h1, h2.2⟩
            rw [hc] at this
            cases this
            exact ⟨rfl, rfl⟩

theorem cutAt_none {c : Char} : ∀ {s a : List Char}, cutAt c s = (a, none) ↔ s = a ∧ c ∉ s
  | [], a => by simp [cutAt, eq_comm]
  | x :: s, a => by
    unfold cutAt
    split
    · next e => subst e; simp
    · next e =>
      cases hc : cutAt c s with
      | mk p q =>
        simp only [Prod.mk.injEq, List.mem_cons, not_or]
        constructor
        · rintro ⟨rfl, rfl⟩
          obtain ⟨rfl, h2⟩ := cutAt_none.mp hc
          exact ⟨rfl, fun h => e h.symm, h2⟩
        · rintro ⟨rfl, _, h2⟩
          have := cutAt_none.mpr ⟨rfl, h2⟩
          rw [hc] at this
          cases this
          exact ⟨rfl, rfl⟩

/-- Specification: what is asked for after the `=`: `drop`, a number, or two numbers with a colon between. Two equal numbers are one;
the first may not be greater. Numbers are rounded to multiples of 1/65536. -/
inductive Asks (num : List Char → Option ℚ) : List Char → UserLimit → Prop
  | drop : Asks num "drop".toList .drop
  | value (s : List Char) (v : ℚ) : s ≠ [] → s ≠ "drop".toList → ':' ∉ s → num s = some v →
      Asks num s (.full (F32.fixedFromPacked (F32.fixedAsPacked v)))
  | same (a b : List Char) (v w : ℚ) : a ≠ [] → ':' ∉ a → b ≠ [] → '\n' ∉ b → num a = some v → num b = some w →
      F32.fixedFromPacked (F32.fixedAsPacked w) = F32.fixedFromPacked (F32.fixedAsPacked v) →
      Asks num (a ++ ':' :: b) (.full (F32.fixedFromPacked (F32.fixedAsPacked v)))
  | range (a b : List Char) (v w : ℚ) : a ≠ [] → ':' ∉ a → b ≠ [] → '\n' ∉ b → num a = some v → num b = some w →
      F32.fixedFromPacked (F32.fixedAsPacked v) < F32.fixedFromPacked (F32.fixedAsPacked w) →
      Asks num (a ++ ':' :: b) (.range (F32.fixedFromPacked (F32.fixedAsPacked v)) (F32.fixedFromPacked (F32.fixedAsPacked w)))

theorem readNumber_ok {num : List Char → Option ℚ} {s : List Char} {x : ℚ} :
    readNumber num s = .ok x ↔ ∃ v, num s = some v ∧ x = F32.fixedFromPacked (F32.fixedAsPacked v) := by
  unfold readNumber
  cases h : num s with
  | none => exact ⟨(fun e => by cases e), (fun ⟨_, e, _⟩ => by cases e)⟩
  | some v =>
    constructor
    · intro e; cases e; exact ⟨v, rfl, rfl⟩
    · rintro ⟨_, e, rfl⟩; cases e; rfl

theorem readLimit_ok {num : List Char → Option ℚ} {s : List Char} {l : UserLimit} : readLimit num s = .ok l ↔ Asks num s l := by
  constructor
  · intro h
    unfold readLimit at h
    split at h
    · next e => cases h; rw [e]; exact .drop
    next hd =>
    split at h
    · cases h
    · next lo h0 hc =>
      obtain ⟨a, ha, h⟩ := bind_eq_ok h
      cases h
      obtain ⟨v, hv, rfl⟩ := readNumber_ok.mp ha
      obtain ⟨rfl, hc2⟩ := cutAt_none.mp hc
      exact .value _ v h0 hd hc2 hv
    · next lo hi h0 hc =>
      obtain ⟨rfl, hc2⟩ := cutAt_some.mp hc
      have hlo : lo ≠ [] := h0
      split at h
      · cases h
      next hb =>
      simp only [Bool.or_eq_true, not_or, List.isEmpty_iff, List.contains_iff_mem] at hb
      obtain ⟨a, ha, h⟩ := bind_eq_ok h
      obtain ⟨b, hb', h⟩ := bind_eq_ok h
      obtain ⟨v, hv, rfl⟩ := readNumber_ok.mp ha
      obtain ⟨w, hw, rfl⟩ := readNumber_ok.mp hb'
      split at h
      · next e => cases h; exact .same _ _ v w hlo hc2 hb.1 hb.2 hv hw e
      split at h
      · cases h
      · next e1 e2 =>
        cases h
        exact .range _ _ v w hlo hc2 hb.1 hb.2 hv hw (lt_of_le_of_ne (not_lt.mp e2) (fun e => e1 e.symm))
  · intro h
    have hcolon : ∀ a b : List Char, a ≠ [] → ':' ∉ a → a ++ ':' :: b ≠ "drop".toList := by
      intro a b _ _ e
      have : ':' ∈ "drop".toList := by rw [← e]; simp
      revert this; decide
    cases h with
    | drop => rfl
    | value _ v h1 h2 h3 h4 =>
      unfold readLimit
      rw [if_neg h2, cutAt_none.mpr ⟨rfl, h3⟩]
      cases s with
      | nil => exact absurd rfl h1
      | cons x s =>
        simp only
        rw [readNumber_ok.mpr ⟨v, h4, rfl⟩]
        rfl
    | same a b v w h1 h2 h3 h4 h5 h6 h7 =>
      unfold readLimit
      rw [if_neg (hcolon a b h1 h2), cutAt_some.mpr ⟨rfl, h2⟩]
      cases a with
      | nil => exact absurd rfl h1
      | cons x a =>
        simp only
        rw [if_neg (by simp [h3, h4]), readNumber_ok.mpr ⟨v, h5, rfl⟩, readNumber_ok.mpr ⟨w, h6, rfl⟩, Res.ok_bind, Res.ok_bind, if_pos h7]
        rfl
    | range a b v w h1 h2 h3 h4 h5 h6 h7 =>
      unfold readLimit
      rw [if_neg (hcolon a b h1 h2), cutAt_some.mpr ⟨rfl, h2⟩]
      cases a with
      | nil => exact absurd rfl h1
      | cons x a =>
        simp only
        rw [if_neg (by simp [h3, h4]), readNumber_ok.mpr ⟨v, h5, rfl⟩, readNumber_ok.mpr ⟨w, h6, rfl⟩, Res.ok_bind, Res.ok_bind,
          if_neg (ne_of_gt h7), if_neg (not_lt.mpr (le_of_lt h7))]
        rfl

/-- **C87.** An argument is understood exactly if it is a tag of letters, digits and underscores, an `=`, and something that
can be asked for. -/
theorem C87_argument (num : List Char → Option ℚ) (s : List Char) (t : Tag) (l : UserLimit) : readArg num s = .ok (t, l) ↔
    ∃ name rest, s = name ++ '=' :: rest ∧ (∀ c ∈ name, c.isAlphanum = true ∨ c = '_') ∧
      Tag.fromRaw (name.map fun c => UInt8.ofNat c.toNat) = .ok t ∧ Asks num rest l := by
  have heq : isWord '=' = false := by decide
  constructor
  · intro h
    unfold readArg at h
    split at h
    · next name rest hc =>
      obtain ⟨rfl, hc2⟩ := cutAt_some.mp hc
      split at h
      · next hw =>
        obtain ⟨t', ht, h⟩ := bind_eq_ok h
        obtain ⟨l', hl, h⟩ := bind_eq_ok h
        cases h
        refine ⟨name, rest, rfl, fun c hcc => ?_, ?_, readLimit_ok.mp hl⟩
        · have := List.all_eq_true.mp hw c hcc
          unfold isWord at this
          simpa using this
        · unfold Cmap.orPanic at ht
          split at ht
          · next e => cases ht; exact e
          · cases ht
      · cases h
    · cases h
  · rintro ⟨name, rest, rfl, hw, ht, hl⟩
    have hall : name.all isWord = true := by
      rw [List.all_eq_true]
      intro c hc
      unfold isWord
      simpa using hw c hc
    have hno : '=' ∉ name := by
      intro hm
      have := List.all_eq_true.mp hall _ hm
      rw [heq] at this
      cases this
    unfold readArg
    rw [cutAt_some.mpr ⟨rfl, hno⟩]
    simp only
    rw [if_pos hall, ht]
    simp only [Cmap.orPanic, Res.ok_bind]
    rw [readLimit_ok.mpr hl]
    rfl

theorem collect_keys {α : Type} : ∀ (l m : List (Tag × α)), ∀ x ∈ (l.foldl (fun m x => BMap.insert m x.1 x.2) m).map Prod.fst,
    x ∈ l.map Prod.fst ∨ x ∈ m.map Prod.fst
  | [], m, x, h => .inr h
  | y :: l, m, x, h => by
    rcases collect_keys l _ x h with h | h
    · exact .inl (List.mem_cons_of_mem _ h)
    · obtain ⟨z, hz, rfl⟩ := List.mem_map.mp h
      rcases BMap.mem_insert hz with h | h
      · exact .inl (by rw [h]; simp)
      · exact .inr (List.mem_map.mpr ⟨z, h, rfl⟩)

theorem sorted_nodup {α : Type} {l : List (Tag × α)} (h : BMap.Sorted l) : (l.map Prod.fst).Nodup := by
  unfold BMap.Sorted at h
  rw [List.nodup_iff_pairwise_ne, List.pairwise_map]
  refine h.imp fun {a b} hab e => ?_
  rw [e, Key.irrefl] at hab
  cases hab

theorem collect_length {α : Type} (l : List (Tag × α)) : (BMap.collect l).length = l.length ↔ (l.map Prod.fst).Nodup := by
  have hs := sorted_nodup (BMap.collect_sorted l)
  constructor
  · intro h
    have hsub : (BMap.collect l).map Prod.fst ⊆ l.map Prod.fst := by
      intro x hx
      rcases collect_keys l [] x hx with h | h
      · exact h
      · cases h
    have hp := hs.subperm hsub
    exact (hp.perm_of_length_le (by simp [h])).nodup_iff.mp hs
  · intro h
    refine List.Perm.length_eq ((List.perm_ext_iff_of_nodup (List.Nodup.of_map _ hs) (List.Nodup.of_map _ h)).mpr fun x => ?_)
    exact mem_collect h x

theorem mapL_of {α β : Type} {f : α → Res β} {l : List α} {m : List β} (h : List.Forall₂ (fun a b => f a = .ok b) l m) : Res.mapL f l = .ok m := by
  induction h with
  | nil => rfl
  | cons h1 _ ih => rw [mapL_cons', h1, ih]; rfl

theorem readArgs_of {num : List Char → Option ℚ} {args : List (List Char)} {l : List (Tag × UserLimit)}
    (h : List.Forall₂ (fun s x => readArg num s = .ok x) args l) : Cli.readArgs num args = .ok (BMap.collect l) := by
  unfold Cli.readArgs
  rw [mapL_of h]
  rfl

/-- **C87.** If two arguments are about one axis, no file is written. -/
theorem C87_duplicate (R : Rest X) {num : List Char → Option ℚ} {args : List (List Char)} {l : List (Tag × UserLimit)}
    (h : List.Forall₂ (fun s x => readArg num s = .ok x) args l) (hd : ¬ (l.map Prod.fst).Nodup) (input : Bytes) :
    instantiateTool R num args input = .ok none := by
  unfold instantiateTool
  rw [readArgs_of h, Res.ok_bind, if_neg]
  · rfl
  · rw [h.length_eq, collect_length]
    exact hd

/-- **C87.** Otherwise the limits are those of the arguments. -/
theorem C87_limits (R : Rest X) {num : List Char → Option ℚ} {args : List (List Char)} {l : List (Tag × UserLimit)}
    (h : List.Forall₂ (fun s x => readArg num s = .ok x) args l) (hd : (l.map Prod.fst).Nodup) (input : Bytes) :
    ∃ limits, BMap.Sorted limits ∧ (∀ x, x ∈ limits ↔ x ∈ l) ∧ instantiateTool R num args input = instantiateFile R limits input := by
  refine ⟨BMap.collect l, BMap.collect_sorted l, mem_collect hd, ?_⟩
  unfold instantiateTool
  rw [readArgs_of h, Res.ok_bind, if_pos]
  rw [h.length_eq, collect_length]
  exact hd

theorem readArg_noErr (num : List Char → Option ℚ) (s : List Char) : readArg num s ≠ .err := by
  have hn : ∀ s, readNumber num s ≠ .err := by
    intro s
    unfold readNumber
    cases num s <;> (intro e; cases e)
  have hl : ∀ s, readLimit num s ≠ .err := by
    intro s
    unfold readLimit
    split
    · intro e; cases e
    split
    · intro e; cases e
    · exact bind_noErr (hn _) fun _ => pure_noErr _
    · split
      · intro e; cases e
      · refine bind_noErr (hn _) fun _ => bind_noErr (hn _) fun _ => ?_
        split
        · exact pure_noErr _
        split
        · intro e; cases e
        · exact pure_noErr _
  unfold readArg
  split
  · split
    · refine bind_noErr ?_ fun _ => bind_noErr (hl _) fun _ => pure_noErr _
      unfold Cmap.orPanic
      split <;> (intro e; cases e)
    · intro e; cases e
  · intro e; cases e

/-- **C87.** An argument that is not understood is a panic. -/
theorem C87_bad_argument (R : Rest X) {num : List Char → Option ℚ} {args : List (List Char)}
    (h : ∃ s ∈ args, ∀ t l, readArg num s ≠ .ok (t, l)) (input : Bytes) : instantiateTool R num args input = .panic := by
  have key : ∀ args : List (List Char), (∃ s ∈ args, ∀ t l, readArg num s ≠ .ok (t, l)) → Res.mapL (readArg num) args = .panic := by
    intro args
    induction args with
    | nil => rintro ⟨_, hs, _⟩; cases hs
    | cons a args ih =>
      rintro ⟨s, hs, h⟩
      rw [mapL_cons']
      cases e : readArg num a with
      | err => exact absurd e (readArg_noErr num a)
      | panic => rfl
      | ok x =>
        rcases List.mem_cons.mp hs with rfl | hs
        · exact absurd e (h x.1 x.2)
        · rw [ih ⟨s, hs, h⟩]; rfl
  unfold instantiateTool Cli.readArgs
  rw [key args h]
  rfl

/-! ### A variable font

One glyph of one point, and a weight axis from 100 to 900 with default 400. -/

def varFvar : Bytes :=
  [0, 1, 0, 0, 0, 16, 0, 2, 0, 1, 0, 20, 0, 0, 0, 8, 0x77, 0x67, 0x68, 0x74, 0, 100, 0, 0, 1, 144, 0, 0, 3, 132, 0, 0, 0, 0, 1, 0]
def varGlyf : Bytes := [0, 1, 0, 100, 0, 0, 0, 100, 0, 0, 0, 0, 0, 0, 0x33, 100]
def varGvar : Bytes := [0, 1, 0, 0, 0, 1, 0, 1, 0, 0, 0, 28, 0, 1, 0, 1, 0, 0, 0, 30, 0, 0, 0, 0, 0, 0, 0, 18, 64, 0,
  0, 1, 0, 12, 0, 6, 0x60, 0, 0, 0, 64, 0, 0, 0x40, 3, 232, 0x83, 0x84]
def varTables : List (Tag × Bytes) :=
  [(tagFvar, varFvar), (tagGlyf, varGlyf), (tagGvar, varGvar), (tagHead, toyHead), (tagLoca, [0, 0, 0, 8]), (tagMaxp, [0, 0, 0x50, 0, 0, 1])]

theorem var_sorted : BMap.Sorted varTables := by unfold BMap.Sorted varTables; decide

def varFile (t : Tag) : Option Bytes := BMap.get? varTables t

deriving instance DecidableEq for AxisRecord, Instance, Fvar

theorem var_fvar : FvarIs varFile ⟨[exAxis], []⟩ := ⟨varFvar, by decide +kernel, okIs_eq (by decide +kernel)⟩

theorem var_glyf : GlyfIs varFile [exVarGlyph] :=
  ⟨[some 0], varGlyf, ⟨_, [0, 0, 0, 8], ⟨toyHead, by decide +kernel, rfl⟩, by decide +kernel, okIs_eq (by decide +kernel)⟩,
    by decide +kernel, okIs_eq (by decide +kernel)⟩

theorem var_gvar : GvarIs varFile [exVarGlyph] [some [exSet]] :=
  ⟨[([(100, 0), (0, 0), (0, 0), (0, 0), (0, 0)], [0, 1, 2, 3, 4])], varGvar, okIs_eq (by decide +kernel), by decide +kernel, okIs_eq (by decide +kernel)⟩

/-- A glyph of one point can be written. -/
theorem one_point (g : Glyph) (p : Point) (hc : g.components = []) (hi : g.instructions = []) (hp : g.contours = [[p]]) :
    ∃ b, encGlyph g = .ok b ∧ b.length ≤ 20 := by
  have hs : ∀ a : Int16, subI16 a 0 = .ok a := by
    intro a
    unfold subI16
    have h0 : (0 : Int16).toInt = 0 := by decide
    simp only [h0, Int.sub_zero]
    rw [if_pos ⟨a.le_toInt, by have := a.toInt_lt; omega⟩, Int16.ofInt_toInt]
  have hcoord : ∀ s m a, (compileCoord s m a).2.length ≤ 2 := by
    intro s m a
    unfold compileCoord
    repeat' split
    all_goals simp [encI16, encU16]
  obtain ⟨fs, hd⟩ : ∃ fs, compileDeltas 0 0 [p] = .ok ([fs], (compileCoord X_SHORT_VECTOR X_SAME p.x).2 ++ [],
      (compileCoord Y_SHORT_VECTOR Y_SAME p.y).2 ++ []) := by
    refine ⟨(if p.onCurve then ON_CURVE_POINT else 0) ||| (compileCoord X_SHORT_VECTOR X_SAME p.x).1 |||
      (compileCoord Y_SHORT_VECTOR Y_SAME p.y).1, ?_⟩
    unfold compileDeltas
    simp only [hs, Res.ok_bind, compileDeltas, Res.pure_eq]
  have he : endPoints (-1) [[p]] = .ok [0] := by rfl
  refine ⟨encI16 (Int16.ofInt g.contours.length) ++ (encCore g ++ (encVec encU16 [0] ++ (encU16 0 ++ ([fs] ++
    (((compileCoord X_SHORT_VECTOR X_SAME p.x).2 ++ []) ++ ((compileCoord Y_SHORT_VECTOR Y_SAME p.y).2 ++ [])))))), ?_, ?_⟩
  · unfold encGlyph
    rw [if_neg (by simp [Glyph.isEmpty, hp]), if_neg (by simp [Glyph.hasComponents, hc])]
    unfold encSimple
    rw [hp, he, List.flatten_cons, List.flatten_nil, List.append_nil, hd, hi]
    rfl
  · have hx := hcoord X_SHORT_VECTOR X_SAME p.x
    have hy := hcoord Y_SHORT_VECTOR Y_SAME p.y
    simp [encI16, encU16, encCore, encVec]
    omega

theorem one_compiles {g : Glyph} {b : Bytes} (he : g.isEmpty = false) (h : encGlyph g = .ok b) (hb : b.length ≤ 20) :
    ∃ o lc, Loca.compile Glyph.isEmpty encGlyph [g] = .ok (o, lc, false) ∧ o.length ≤ 100 ∧ lc.length ≤ 100 := by
  have hloop : compileLoop Glyph.isEmpty encGlyph [g] [] = .ok ([0], Loca.pad4 b) := by
    unfold compileLoop
    rw [if_neg (by simp), he]
    simp only [Bool.false_eq_true, if_false, h, List.nil_append, compileLoop]
    rfl
  have hpad : (Loca.pad4 b).length ≤ 23 := by
    unfold Loca.pad4
    simp
    omega
  have hlen : (if (Loca.pad4 b).isEmpty then [0] else Loca.pad4 b).length ≤ 23 := by
    split
    · simp
    · exact hpad
  unfold Loca.compile
  simp only [hloop]
  rw [if_neg (by omega), if_neg (by rw [decide_eq_true_iff]; omega)]
  exact ⟨_, _, rfl, by omega, by simp [encVec, encU16]⟩

theorem var_mem {t : Tag} {b : Bytes} (h : varFile t = some b) : b.length ≤ 100 ∧
    t ∈ [tagFvar, tagGlyf, tagGvar, tagHead, tagLoca, tagMaxp] := by
  have hm := (BMap.get?_eq_some var_sorted).mp h
  simp only [varTables, List.mem_cons, Prod.mk.injEq, List.not_mem_nil, or_false] at hm
  rcases hm with ⟨rfl, rfl⟩ | ⟨rfl, rfl⟩ | ⟨rfl, rfl⟩ | ⟨rfl, rfl⟩ | ⟨rfl, rfl⟩ | ⟨rfl, rfl⟩ <;> exact ⟨by decide, by decide⟩

/-- The tool writes a file. -/
theorem var_runs (R : Rest X) : ∃ input out T, instantiateFile R [(wght, .drop)] input = .ok (some out) ∧ out.length < 2 ^ 32 ∧
    IsFont input 0x00010000 T ∧ SameBut varFile T ∧
    ∃ T' g p, IsFont out 0x00010000 T' ∧ GlyfIs T' [g] ∧ g.contours = [[p]] ∧ 470 < p.x.toInt := by
  have hopen : Openable varFile := by
    obtain ⟨l, _, ⟨h, b', e1, e2, e3⟩, _⟩ := var_glyf
    exact ⟨.inr ⟨h, e1⟩, .inr ⟨h, b', l, e1, e2, e3⟩⟩
  obtain ⟨file, e⟩ := (C18_saving_succeeds_iff 0x00010000 _ (sorted_ascending var_sorted)).1.mpr
    ⟨by simp [varTables], fun t c hc ht => by
      obtain rfl : t = tagHead := by rw [(isHead_iff t).mp ht]; rfl
      exact openable_long hopen c ((BMap.get?_eq_some var_sorted).mpr hc)⟩
  have hl : file.length < 2 ^ 32 := by
    have := small_file var_sorted e 100 (fun x hx => (var_mem ((BMap.get?_eq_some var_sorted).mpr hx)).1)
    simp only [varTables, List.length_cons, List.length_nil] at this
    omega
  have hvalid : ∀ t ∈ [tagFvar, tagGlyf, tagGvar, tagHead, tagLoca, tagMaxp], t.Valid := by decide
  obtain ⟨T, h1, h2, h3⟩ := (saved_of (T := varFile) (.inl rfl) (fun t ht => by
    obtain ⟨b, hb⟩ := Option.ne_none_iff_exists'.mp ht
    exact hvalid t (var_mem hb).2) var_sorted (fun _ => rfl) e hl).font
  have hsame : SameBut varFile T := ⟨h2, h3⟩
  have hnone : ∀ t, t ≠ tagHead → varFile t = none → T t = none := fun t ht h => by rw [h2 t ht]; exact h
  have hfont : FontIs T exVarFont := by
    refine ⟨⟨_, rfl, ?_⟩, .inl ⟨hnone _ (by decide) (by decide +kernel), rfl⟩, .inl ⟨hnone _ (by decide) (by decide +kernel), rfl⟩,
      .inr ⟨_, rfl, hsame.glyf var_glyf⟩, .inr ⟨_, rfl, _, rfl, ?_⟩⟩
    · obtain ⟨b, g1, g2⟩ := var_fvar
      exact ⟨b, by rw [h2 _ (by decide)]; exact g1, g2⟩
    · obtain ⟨ce, b, g1, g2, g3⟩ := var_gvar
      exact ⟨ce, b, g1, by rw [h2 _ (by decide)]; exact g2, g3⟩
  obtain ⟨g', p, hi, hr, hp, hp470⟩ := exInstance
  obtain ⟨b, hb, hbl⟩ := one_point g' p (by rw [hr]; rfl) (by rw [hr]; rfl) hp
  obtain ⟨o, lc, hc, hol, hlcl⟩ := one_compiles (by simp [Glyph.isEmpty, hp]) hb hbl
  obtain ⟨hd, hhd⟩ : ∃ h, HeadIs T h := by
    obtain ⟨_, _, ⟨h, _, e, _⟩, _⟩ := hsame.glyf var_glyf
    exact ⟨h, e⟩
  have hmaxp : MaxpIs T ⟨0x8000, .v05 ⟨1⟩⟩ :=
    hsame.maxp ⟨[0, 0, 0x50, 0, 0, 1], by decide +kernel, okIs_eq (by decide +kernel)⟩
  let U : Tag → Option Bytes := fun t => if t = tagFvar ∨ t = tagGvar then none else T t
  have hU : ∀ t, t ≠ tagFvar → t ≠ tagGvar → U t = T t := fun t a b => if_neg (by simp [a, b])
  have hinst : Instanced T exVarFont ⟨none, none, none, some [g'], none⟩ U := by
    refine ⟨fun t a1 a2 a3 a4 => hU t a1 a4, if_pos (.inl rfl), ?_, .inl ⟨rfl, ?_⟩, rfl, if_pos (.inr rfl)⟩
    · show U tagAvar = none
      rw [hU _ (by decide) (by decide)]; exact hnone _ (by decide) (by decide +kernel)
    · rw [hU _ (by decide) (by decide)]; exact hnone _ (by decide) (by decide +kernel)
  have hnew : NewGlyphs (fmt R) [g'] U _ := ⟨o, lc, false, hd, ⟨0x8000, .v05 ⟨1⟩⟩, U tagHhea, hc, by simp,
    by unfold MaxpIs; rw [hU _ (by decide) (by decide)]; exact hmaxp,
    by unfold HeadIs; rw [hU _ (by decide) (by decide)]; exact hhd,
    .inl ⟨by rw [hU _ (by decide) (by decide)]; exact hnone _ (by decide) (by decide +kernel), rfl⟩, rfl⟩
  have hgl := glyf_there (hsame.glyf var_glyf)
  have hfew : FewTables U := by
    refine ⟨[tagFvar, tagGlyf, tagGvar, tagHead, tagLoca, tagMaxp], by decide, fun t ht => ?_⟩
    by_cases e1 : t = tagFvar
    · rw [e1]; decide
    by_cases e2 : t = tagGvar
    · rw [e2]; decide
    rw [hU t e1 e2] at ht
    by_cases e : t = tagHead
    · rw [e]; decide
    rw [h2 t e] at ht
    obtain ⟨b, hb⟩ := Option.ne_none_iff_exists'.mp ht
    exact (var_mem hb).2
  obtain ⟨l, out, e1, e2, e3⟩ := (toBytes_iff (v := 0x00010000) (NewGlyphs.long hnew)).mpr ((NewGlyphs.few hnew
    (by rw [hU _ (by decide) (by decide)]; exact hgl.1) (by rw [hU _ (by decide) (by decide)]; exact hgl.2)).mpr hfew)
  have hout : out.length < 2 ^ 32 := by
    obtain ⟨hlen, _⟩ := ok_inv (sorted_ascending e1) e3
    have := small_file e1 e3 100 (by
      rintro ⟨t, b⟩ hb
      have hb := (BMap.get?_eq_some e1).mpr hb
      rw [e2] at hb
      unfold put at hb
      split at hb
      · have : U tagHhea = none := by rw [hU _ (by decide) (by decide)]; exact hnone _ (by decide) (by decide +kernel)
        rw [this] at hb
        cases hb
      split at hb
      · cases hb
        show (encHead _).length ≤ 100
        rw [encHead_length]
        decide
      split at hb
      · cases hb; exact hlcl
      split at hb
      · cases hb; exact hol
      next hne _ _ =>
      have ht1 : t ≠ tagFvar := by
        rintro rfl
        rw [hinst.fvar] at hb
        cases hb
      have ht2 : t ≠ tagGvar := by
        rintro rfl
        rw [hinst.gvar.2] at hb
        cases hb
      rw [hU t ht1 ht2, h2 t hne] at hb
      exact (var_mem hb).1)
    have h3 : l.length * (100 + 3) ≤ 4096 * 103 := Nat.mul_le_mul (by omega) (by omega)
    omega
  refine ⟨file, out, T, (instantiateFile_some R _ _ _).mpr ((instance_spec R _ _ _).mpr ⟨_, T, exVarFont, _, U, _, l, h1, hsame.openable hopen,
    hfont, hnone _ (by decide) (by decide +kernel), hi, hinst, .inr ⟨_, [g'], rfl, rfl, hnew⟩, e1, e2, e3⟩), hout, h1, hsame, ?_⟩
  obtain ⟨T', i1, i2, i3⟩ := (saved_of (.inl rfl) (fun t ht => by
    by_contra hno
    have h5 : ∀ t', t'.Valid → t ≠ t' := by rintro t' h rfl; exact hno h
    rw [NewGlyphs.other hnew ⟨h5 _ (by decide), h5 _ (by decide), h5 _ (by decide), h5 _ (by decide)⟩,
      hU _ (h5 _ (by decide)) (h5 _ (by decide)), h2 _ (h5 _ (by decide))] at ht
    obtain ⟨b, hb⟩ := Option.ne_none_iff_exists'.mp ht
    exact hno (hvalid t (var_mem hb).2)) e1 e2 e3 hout).font
  obtain ⟨back, j1, j2⟩ := newGlyphs_read hnew (fun g hg he hb => by
    rw [List.mem_singleton.mp hg] at *
    refine kept_moved (g := exVarGlyph) ?_ hr (by rw [hp]; rfl) he hb (by decide)
    exact glyf_each var_glyf _ (by simp)) (fun g hg he => by
      rw [List.mem_singleton.mp hg] at he
      simp [Glyph.isEmpty, hp] at he)
  have hg : GlyfIs T' [back g'] := SameBut.glyf ⟨i2, i3⟩ j1
  exact ⟨T', back g', p, i1, hg, by rw [(j2 g' (by simp)).contours, hp], hp470⟩

/-- **C87** (what the default location gives). As values are normalised without the axis default (C49), a file is written in which a
point of the font is moved from 100 to beyond 470 when only the default location was asked for. -/
theorem C87_default_moves (R : Rest X) : ∃ input out v T T' g g' p q, instantiateFile R [(wght, .drop)] input = .ok (some out) ∧
    IsFont input v T ∧ IsFont out v T' ∧ GlyfIs T [g] ∧ GlyfIs T' [g'] ∧ g.contours = [[p]] ∧ g'.contours = [[q]] ∧
    p.x.toInt = 100 ∧ 470 < q.x.toInt := by
  obtain ⟨input, out, T, h1, h2, h3, h4, T', g', q, h5, h6, h7, h8⟩ := var_runs R
  exact ⟨input, out, _, T, T', exVarGlyph, g', ⟨100, 0, true⟩, q, h1, h3, h5, h4.glyf var_glyf, h6, rfl, h7, by decide, h8⟩

/-! The hypotheses of the theorems can be met. -/

theorem var_header {T : Tag → Option Bytes} (h : SameBut varFile T) : GvarHeader T [exAxis].length [exVarGlyph].length :=
  ⟨varGvar, by rw [h.1 _ (by decide)]; decide +kernel, by decide +kernel, by decide +kernel⟩

example (R : Rest X) : ∃ input out v T fv gs gv, instantiateFile R [(wght, .drop)] input = .ok (some out) ∧ out.length < 2 ^ 32 ∧
    IsFont input v T ∧ BMap.Sorted [(wght, UserLimit.drop)] ∧ FvarIs T fv ∧ (fv.axes.map AxisRecord.axisTag).Nodup ∧ fv.axes ≠ [] ∧
    AllPinned fv.axes [(wght, .drop)] ∧ GlyfIs T gs ∧ GvarIs T gs gv ∧ GvarHeader T fv.axes.length gs.length ∧
    (∀ g ∈ gs, ∀ c ∈ g.contours, c.length ≤ 32767) ∧
    ∃ (i : ℕ) (g : Glyph) (ds : List DeltaSet), gs[i]? = some g ∧ gv[i]? = some (some ds) ∧ g.contours.flatten ≠ [] := by
  obtain ⟨input, out, T, h1, h2, h3, h4, _⟩ := var_runs R
  refine ⟨input, out, _, T, ⟨[exAxis], []⟩, [exVarGlyph], [some [exSet]], h1, h2, h3, by simp [BMap.Sorted], ?_, by simp, by simp,
    ⟨by simp [exAxis], by simp⟩, h4.glyf var_glyf, ?_, var_header h4, by decide, 0, exVarGlyph, [exSet], rfl, rfl, by decide⟩
  · obtain ⟨b, g1, g2⟩ := var_fvar
    exact ⟨b, by rw [h4.1 _ (by decide)]; exact g1, g2⟩
  · obtain ⟨ce, b, g1, g2, g3⟩ := var_gvar
    exact ⟨ce, b, g1, by rw [h4.1 _ (by decide)]; exact g2, g3⟩

/-! The same font without `gvar` and with style attributes. -/

def statTable : Stat.Table := ⟨some 2, [⟨wght, 256, 0⟩],
  [⟨some 0, 2, 258, some 400, none, some 700, none⟩, ⟨some 0, 0, 259, some 700, none, none, none⟩]⟩
def statBytes : Bytes := [0, 1, 0, 1, 0, 8, 0, 1, 0, 0, 0, 20, 0, 2, 0, 0, 0, 28, 0, 2, 119, 103, 104, 116, 1, 0, 0, 0, 0, 4, 0, 20,
  0, 3, 0, 0, 0, 2, 1, 2, 1, 144, 0, 0, 2, 188, 0, 0, 0, 1, 0, 0, 0, 0, 1, 3, 2, 188, 0, 0]
def statFont : VarFont := ⟨some ⟨[exAxis], []⟩, none, none, some [exVarGlyph], some statTable⟩
def statTables : List (Tag × Bytes) :=
  [(tagSTAT, statBytes), (tagFvar, varFvar), (tagGlyf, varGlyf), (tagHead, toyHead), (tagLoca, [0, 0, 0, 8]), (tagMaxp, [0, 0, 0x50, 0, 0, 1])]
def statFile (t : Tag) : Option Bytes := BMap.get? statTables t

deriving instance DecidableEq for VarFont

theorem statFont_runs : instantiate rne [(wght, .drop)] statFont =
    .ok ⟨none, none, none, some [exVarGlyph], some { statTable with values := statTable.values.take 1 }⟩ := okIs_eq (by decide +kernel)

theorem stat_sorted : BMap.Sorted statTables := by unfold BMap.Sorted statTables; decide

theorem stat_mem {t : Tag} {b : Bytes} (h : statFile t = some b) : b.length ≤ 100 ∧
    t ∈ [tagSTAT, tagFvar, tagGlyf, tagHead, tagLoca, tagMaxp] := by
  have hm := (BMap.get?_eq_some stat_sorted).mp h
  simp only [statTables, List.mem_cons, Prod.mk.injEq, List.not_mem_nil, or_false] at hm
  rcases hm with ⟨rfl, rfl⟩ | ⟨rfl, rfl⟩ | ⟨rfl, rfl⟩ | ⟨rfl, rfl⟩ | ⟨rfl, rfl⟩ | ⟨rfl, rfl⟩ <;> exact ⟨by decide, by decide⟩

theorem stat_ok : StatOk statTable := by
  have f : ∀ n : ℤ, On16 (n : ℚ) := fun n => ⟨n * 65536, by push_cast; ring⟩
  have h4 := f 400
  have h7 := f 700
  norm_num at h4 h7
  refine ⟨by simp [statTable], by simp [statTable, coords], fun v hv c hc => ?_⟩
  simp only [statTable, List.mem_cons, List.not_mem_nil, or_false] at hv
  rcases hv with rfl | rfl <;> simp [coords] at hc <;> subst hc <;> assumption

theorem stat_tableOk : Stat.TableOk statTable := by
  have f := Stat.fixedNat
  refine ⟨by decide, by decide, ?_, by decide⟩
  intro v hv
  simp only [statTable, List.mem_cons, List.not_mem_nil, or_false] at hv
  rcases hv with rfl | rfl
  · exact ⟨by simp, by decide, by simpa using f 400 (by norm_num), by simp, by simpa using f 700 (by norm_num), by simp⟩
  · exact ⟨by simp, by decide, by simpa using f 700 (by norm_num), by simp, by simp, by simp⟩

theorem stat_runs (R : Rest X) : ∃ input out T, instantiateFile R [(wght, .drop)] input = .ok (some out) ∧ out.length < 2 ^ 32 ∧
    IsFont input 0x00010000 T ∧ SameBut statFile T := by
  have hglyf : GlyfIs statFile [exVarGlyph] :=
    ⟨[some 0], varGlyf, ⟨_, [0, 0, 0, 8], ⟨toyHead, by decide +kernel, rfl⟩, by decide +kernel, okIs_eq (by decide +kernel)⟩,
      by decide +kernel, okIs_eq (by decide +kernel)⟩
  have hopen : Openable statFile := by
    obtain ⟨l, _, ⟨h, b', e1, e2, e3⟩, _⟩ := hglyf
    exact ⟨.inr ⟨h, e1⟩, .inr ⟨h, b', l, e1, e2, e3⟩⟩
  obtain ⟨file, e⟩ := (C18_saving_succeeds_iff 0x00010000 _ (sorted_ascending stat_sorted)).1.mpr
    ⟨by simp [statTables], fun t c hc ht => by
      obtain rfl : t = tagHead := by rw [(isHead_iff t).mp ht]; rfl
      exact openable_long hopen c ((BMap.get?_eq_some stat_sorted).mpr hc)⟩
  have hl : file.length < 2 ^ 32 := by
    have := small_file stat_sorted e 100 (fun x hx => (stat_mem ((BMap.get?_eq_some stat_sorted).mpr hx)).1)
    simp only [statTables, List.length_cons, List.length_nil] at this
    omega
  have hvalid : ∀ t ∈ [tagSTAT, tagFvar, tagGlyf, tagHead, tagLoca, tagMaxp], t.Valid := by decide
  obtain ⟨T, h1, h2, h3⟩ := (saved_of (T := statFile) (.inl rfl) (fun t ht => by
    obtain ⟨b, hb⟩ := Option.ne_none_iff_exists'.mp ht
    exact hvalid t (stat_mem hb).2) stat_sorted (fun _ => rfl) e hl).font
  have hsame : SameBut statFile T := ⟨h2, h3⟩
  have hnone : ∀ t, t ≠ tagHead → statFile t = none → T t = none := fun t ht h => by rw [h2 t ht]; exact h
  have hfont : FontIs T statFont := by
    refine ⟨⟨_, rfl, varFvar, ?_, okIs_eq (by decide +kernel)⟩, .inl ⟨hnone _ (by decide) (by decide +kernel), rfl⟩,
      .inr ⟨_, rfl, statBytes, ?_, okIs_eq (by decide +kernel)⟩, .inr ⟨_, rfl, hsame.glyf hglyf⟩,
      .inl ⟨hnone _ (by decide) (by decide +kernel), rfl⟩⟩
    · rw [h2 _ (by decide)]; decide +kernel
    · rw [h2 _ (by decide)]; decide +kernel
  have hmaxp : MaxpIs T ⟨0x8000, .v05 ⟨1⟩⟩ :=
    hsame.maxp ⟨[0, 0, 0x50, 0, 0, 1], by decide +kernel, okIs_eq (by decide +kernel)⟩
  obtain ⟨b, hb, hbl⟩ : ∃ b, Stat.encStat { statTable with values := statTable.values.take 1 } = .ok b ∧ b.length ≤ 100 :=
    ⟨[0, 1, 0, 1, 0, 8, 0, 1, 0, 0, 0, 20, 0, 1, 0, 0, 0, 28, 0, 2, 119, 103, 104, 116, 1, 0, 0, 0, 0, 2,
      0, 3, 0, 0, 0, 2, 1, 2, 1, 144, 0, 0, 2, 188, 0, 0], okIs_eq (by decide +kernel), by decide⟩
  let U : Tag → Option Bytes := fun t => if t = tagFvar then none else if t = tagSTAT then some b else T t
  have hU : ∀ t, t ≠ tagFvar → t ≠ tagSTAT → U t = T t := fun t a b => by simp only [U]; rw [if_neg a, if_neg b]
  have hUs : U tagSTAT = some b := by simp only [U]; rw [if_neg (by decide), if_pos trivial]
  have hinst : Instanced T statFont ⟨none, none, none, some [exVarGlyph], some { statTable with values := statTable.values.take 1 }⟩ U := by
    refine ⟨fun t a1 a2 a3 a4 => hU t a1 a3, if_pos rfl, ?_, .inr (.inr ⟨_, _, b, rfl, by decide, rfl, hb, hUs⟩), rfl, ?_⟩
    · show U tagAvar = none
      rw [hU _ (by decide) (by decide)]; exact hnone _ (by decide) (by decide +kernel)
    · rw [hU _ (by decide) (by decide)]; exact hnone _ (by decide) (by decide +kernel)
  have hhead : U tagHead = T tagHead := hU _ (by decide) (by decide)
  have hlong : ∀ c, U tagHead = some c → 12 ≤ c.length := by
    rw [hhead]; exact openable_long (hsame.openable hopen)
  have hfew : FewTables U := by
    refine ⟨[tagSTAT, tagFvar, tagGlyf, tagHead, tagLoca, tagMaxp], by decide, fun t ht => ?_⟩
    by_cases e1 : t = tagFvar
    · rw [e1]; decide
    by_cases e2 : t = tagSTAT
    · rw [e2]; decide
    rw [hU t e1 e2] at ht
    by_cases e : t = tagHead
    · rw [e]; decide
    rw [h2 t e] at ht
    obtain ⟨b, hb⟩ := Option.ne_none_iff_exists'.mp ht
    exact (stat_mem hb).2
  obtain ⟨l, out, e1, e2, e3⟩ := (toBytes_iff (v := 0x00010000) hlong).mpr hfew
  refine ⟨file, out, T, (instantiateFile_some R _ _ _).mpr ((instance_spec R _ _ _).mpr ⟨_, T, statFont, _, U, U, l, h1, hsame.openable hopen,
    hfont, hnone _ (by decide) (by decide +kernel), statFont_runs, hinst, .inl ⟨rfl, rfl, ⟨0x8000, .v05 ⟨1⟩⟩,
      by unfold MaxpIs; rw [hU _ (by decide) (by decide)]; exact hmaxp⟩, e1, e2, e3⟩), ?_, h1, hsame⟩
  obtain ⟨hlen, _⟩ := ok_inv (sorted_ascending e1) e3
  have := small_file e1 e3 100 (by
    rintro ⟨t, c⟩ hc
    have hc := (BMap.get?_eq_some e1).mpr hc
    rw [e2] at hc
    by_cases ht1 : t = tagFvar
    · rw [ht1, hinst.fvar] at hc
      cases hc
    by_cases ht2 : t = tagSTAT
    · rw [ht2, hUs] at hc
      cases hc
      exact hbl
    rw [hU t ht1 ht2] at hc
    by_cases ht3 : t = tagHead
    · rw [ht3] at hc
      rcases h3 with ⟨_, h3⟩ | ⟨b1, b2, i1, i2, i3⟩
      · rw [h3] at hc; cases hc
      · rw [hc] at i2
        cases i2
        have := (stat_mem i1).1
        obtain ⟨adj, a1, rfl⟩ := i3
        simp
        omega
    · rw [h2 t ht3] at hc
      exact (stat_mem hc).1)
  have h3 : l.length * (100 + 3) ≤ 4096 * 103 := Nat.mul_le_mul (by omega) (by omega)
  omega

example (R : Rest X) : ∃ input out v T fv t, instantiateFile R [(wght, .drop)] input = .ok (some out) ∧ out.length < 2 ^ 32 ∧
    IsFont input v T ∧ BMap.Sorted [(wght, UserLimit.drop)] ∧ FvarIs T fv ∧ (fv.axes.map AxisRecord.axisTag).Nodup ∧
    (∀ x ∈ [(wght, UserLimit.drop)], ∀ v, x.2 = .full v → On16 v) ∧ (∀ a ∈ fv.axes, On16 a.defaultValue) ∧
    StatIs T t ∧ StatOk t ∧ t.elided.isSome ∧ Stat.TableOk t := by
  obtain ⟨input, out, T, h1, h2, h3, h4⟩ := stat_runs R
  have f : On16 (400 : ℚ) := ⟨400 * 65536, by norm_num⟩
  refine ⟨input, out, _, T, ⟨[exAxis], []⟩, statTable, h1, h2, h3, by simp [BMap.Sorted], ⟨varFvar, ?_, okIs_eq (by decide +kernel)⟩, by simp,
    by simp, by simpa [exAxis] using f, ⟨statBytes, ?_, okIs_eq (by decide +kernel)⟩, stat_ok, rfl, stat_tableOk⟩
  · rw [h4.1 _ (by decide)]; decide +kernel
  · rw [h4.1 _ (by decide)]; decide +kernel

/-! Arguments. -/

/-- Numbers of up to three digits. -/
def digits (s : List Char) : Option ℚ :=
  if s.length ≤ 3 ∧ s.all Char.isDigit then some (s.foldl (fun n c => n * 10 + (c.toNat - 48)) 0 : ℕ) else none

example : readArg digits "wght=400".toList = .ok (wght, .full 400) := okIs_eq (by decide +kernel)
example : readArg digits "wght=drop".toList = .ok (wght, .drop) := okIs_eq (by decide +kernel)
example : readArg digits "wght=100:900".toList = .ok (wght, .range 100 900) := okIs_eq (by decide +kernel)
example : readArg digits "wght=900:100".toList = .panic := by decide +kernel
example : readArg digits "wght".toList = .panic := by decide +kernel
example : readArg digits "wght==4".toList = .panic := by decide +kernel
example : List.Forall₂ (fun s x => readArg digits s = .ok x) ["wght=400".toList, "wght=drop".toList] [(wght, .full 400), (wght, .drop)] :=
  .cons (okIs_eq (by decide +kernel)) (.cons (okIs_eq (by decide +kernel)) .nil)

end FT.Props
