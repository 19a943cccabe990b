import Verif.Lemmas.CliGvar
import Verif.Props.CliRename
import Verif.Props.GvarShort

/-!
C85: `ttf-optimize-gvar`, from the bytes of the input file to the bytes of the output file.

Vocabulary (in Lemmas/CliGvar): `GlyfIs T gs`, the glyphs of a font with the tables `T` can be read and are `gs`;
`GvarIs T gs g`, its variations, which belong to the glyphs `gs`, can be read and are `g`.
-/

namespace FT.Props
open FT FT.Cli FT.Tables FT.Save FT.Store FT.Glyf FT.Iup FT.Gvar

variable {X : Type}

/-- Specification: a possible outcome of `most_common` for every list of keys. -/
def MostCommonFirst (order : List Bytes → List Bytes) : Prop := ∀ keys, MostCommon keys (order keys)

/-- Specification: `gvar`, if there is one, is written anew from what it is read as, with the outlines. -/
def OptimizesGvar (T T' : Tag → Option Bytes) : Prop :=
  (∀ t, t ≠ tagGvar → T' t = T t) ∧
  ((T tagGvar = none ∧ T' tagGvar = none) ∨
    ∃ gs g b, GlyfIs T gs ∧ GvarIs T gs g ∧ MayWrite (some gs) g b ∧ T' tagGvar = some b)

theorem mayWrite_of {order : List Bytes → List Bytes} (ho : MostCommonFirst order) {glyf : Option (List Glyph)} {g : Gvar} {b : Bytes}
    (h : encGvarWith order glyf g = .ok b) : MayWrite glyf g b := by
  unfold encGvarWith at h
  obtain ⟨keys, h1, h2⟩ := bind_eq_ok h
  exact ⟨keys, order keys, h1, ho keys, h2⟩

theorem optimizes_of {order : List Bytes → List Bytes} (ho : MostCommonFirst order) {T T' : Tag → Option Bytes}
    (h : Optimizes order T T') : OptimizesGvar T T' := by
  rcases h with ⟨h, rfl⟩ | ⟨m, gs, g, b, _, h1, h2, h3, rfl⟩
  · exact ⟨fun _ _ => rfl, .inl ⟨h, h⟩⟩
  · exact ⟨fun t ht => if_neg ht, .inr ⟨gs, g, b, h1, h2, mayWrite_of ho h3, if_pos rfl⟩⟩

theorem _root_.FT.Cli.Optimizes.other {order : List Bytes → List Bytes} {T T' : Tag → Option Bytes} (h : Optimizes order T T') {t : Tag}
    (ht : t ≠ tagGvar) : T' t = T t := by
  rcases h with ⟨_, rfl⟩ | ⟨_, _, _, _, _, _, _, _, rfl⟩
  · rfl
  · exact if_neg ht

theorem _root_.FT.Cli.Optimizes.few {order : List Bytes → List Bytes} {T T' : Tag → Option Bytes} (h : Optimizes order T T') :
    FewTables T' ↔ FewTables T := by
  have hn : ∀ t, T' t = none ↔ T t = none := by
    intro t
    rcases h with ⟨_, rfl⟩ | ⟨_, _, _, _, _, _, ⟨_, _, _, hT, _⟩, _, rfl⟩
    · rfl
    · dsimp only
      split
      · next e => rw [e, hT]; simp
      · rfl
  unfold FewTables
  simp only [ne_eq, hn]

theorem gvar_spec (R : Rest X) (order : List Bytes → List Bytes) (input out : Bytes) : optimizeGvar R order input = .ok out ↔
    ∃ v T T' l, IsFont input v T ∧ Openable T ∧ Optimizes order T T' ∧ (∃ m, MaxpIs T m) ∧
      BMap.Sorted l ∧ (∀ t, BMap.get? l t = T' t) ∧ Font.toBytes v l = .ok out :=
  tool_spec (bodyA := gvarBody order (indepMachine (fmt R))) (sim_gvar order)
    (fun _ _ _ _ _ _ hs hb _ _ => gvar_fwd hs hb) (fun _ _ _ hs h => gvar_bwd hs h) input out

/-- **C85.** The tool writes a file exactly if the font can be opened, `maxp` can be read, there are fewer than 4096 tables,
and, if there is a `gvar` table, it and the glyphs can be read, and it can be written. -/
theorem C85_gvar_accepts (R : Rest X) (order : List Bytes → List Bytes) : Accepts (optimizeGvar R order) (fun T =>
    Openable T ∧ FewTables T ∧ (∃ m, MaxpIs T m) ∧ (T tagGvar = none ∨
      ∃ gs g b, GlyfIs T gs ∧ GvarIs T gs g ∧ encGvarWith order (some gs) g = .ok b)) := by
  intro input
  constructor
  · rintro ⟨out, e⟩
    obtain ⟨v, T, T', l, h1, h2, h3, h4, h5, h6, h7⟩ := (gvar_spec R order _ _).mp e
    have hl := (toBytes_iff (by rw [h3.other (by decide)]; exact openable_long h2)).mp ⟨l, out, h5, h6, h7⟩
    refine ⟨v, T, h1, h2, h3.few.mp hl, h4, ?_⟩
    rcases h3 with ⟨h, _⟩ | ⟨m, gs, g, b, _, g1, g2, g3, _⟩
    · exact .inl h
    · exact .inr ⟨gs, g, b, g1, g2, g3⟩
  · rintro ⟨v, T, h1, h2, h3, ⟨m, h4⟩, h5⟩
    obtain ⟨T', hT⟩ : ∃ T', Optimizes order T T' := by
      rcases h5 with h | ⟨gs, g, b, g1, g2, g3⟩
      · exact ⟨T, .inl ⟨h, rfl⟩⟩
      · exact ⟨_, .inr ⟨m, gs, g, b, h4, g1, g2, g3, rfl⟩⟩
    obtain ⟨l, out, e1, e2, e3⟩ := (toBytes_iff (v := v) (by rw [hT.other (by decide)]; exact openable_long h2)).mpr (hT.few.mpr h3)
    exact ⟨out, (gvar_spec R order _ _).mpr ⟨v, T, T', l, h1, h2, hT, ⟨m, h4⟩, e1, e2, e3⟩⟩

/-- **C85.** The file it writes has a `gvar` table written anew, if there was one, and all other tables as they were. -/
theorem C85_gvar_writes (R : Rest X) (order : List Bytes → List Bytes) (ho : MostCommonFirst order) {input out : Bytes}
    (h : optimizeGvar R order input = .ok out) (hl : out.length < 2 ^ 32) :
    ∃ v T T', IsFont input v T ∧ OptimizesGvar T T' ∧ Saved v T' out := by
  obtain ⟨v, T, T', l, h1, h2, h3, _, h4, h5, h6⟩ := (gvar_spec R order _ _).mp h
  obtain ⟨hv, hver⟩ := loads_sorted h1
  refine ⟨v, T, T', h1, optimizes_of ho h3, saved_of hver (fun t ht => ?_) h4 h5 h6 hl⟩
  by_cases e : t = tagGvar
  · rw [e]; decide
  · rw [h3.other e] at ht
    exact hv t ht

/-! ### The same variations -/

theorem slice_short (inp : Bytes) : ∀ (l : List Font.Rec) (acc T : List (Tag × Bytes)), (∀ x ∈ acc, x.2.length ≤ inp.length) →
    Font.sliceTables inp l acc = .ok T → ∀ x ∈ T, x.2.length ≤ inp.length
  | [], acc, T, ha, h => by cases h; exact ha
  | r :: l, acc, T, ha, h => by
    unfold Font.sliceTables at h
    split at h
    · cases h
    · refine slice_short inp l _ T ?_ h
      intro x hx
      rw [insertTable_eq] at hx
      rcases BMap.mem_insert hx with rfl | hx
      · simp only [List.length_take, List.length_drop]
        omega
      · exact ha x hx

/-- Reading does not change the file. -/
def KeepsFile {α : Type} (p : Reader α) : Prop := ∀ r a r', p r = .ok (a, r') → r'.inp = r.inp

theorem KeepsFile.bind {α β : Type} {p : Reader α} {q : α → Reader β} (h : KeepsFile p) (h' : ∀ a, KeepsFile (q a)) :
    KeepsFile (p >>= q) := by
  intro r b r' e
  obtain ⟨a, r1, e1, e2⟩ := reader_bind_ok e
  rw [h' a _ _ _ e2, h _ _ _ e1]

theorem KeepsFile.pure {α : Type} (a : α) : KeepsFile (Pure.pure a : Reader α) := by
  intro r b r' e
  cases e
  rfl

theorem KeepsFile.of_bounded {α : Type} {p : Reader α} {w : Nat} (h : BoundedRead p w) : KeepsFile p := by
  intro r a r' e
  rw [(bounded_step h e).2]

theorem KeepsFile.tag : KeepsFile readTag := by
  intro r a r' e
  unfold readTag at e
  obtain ⟨bs, r1, e1, e2⟩ := reader_bind_ok e
  unfold consume at e1
  split at e1
  · cases e1
  · cases e1
    unfold Reader.lift at e2
    split at e2
    · cases e2; rfl
    · cases e2
    · cases e2

theorem KeepsFile.counted {α : Type} {p : Reader α} (h : KeepsFile p) : ∀ n, KeepsFile (deCounted p n)
  | 0 => KeepsFile.pure _
  | n + 1 => h.bind fun _ => (KeepsFile.counted h n).bind fun _ => KeepsFile.pure _

theorem keeps_directory : KeepsFile Font.readDirectory := by
  refine (KeepsFile.of_bounded C03_u32).bind fun v => (KeepsFile.of_bounded C03_u16).bind fun n =>
    (KeepsFile.of_bounded C03_u16).bind fun _ => (KeepsFile.of_bounded C03_u16).bind fun _ =>
    (KeepsFile.of_bounded C03_u16).bind fun _ => ?_
  split
  · refine (KeepsFile.counted ?_ _).bind fun _ => KeepsFile.pure _
    exact KeepsFile.tag.bind fun _ => (KeepsFile.of_bounded C03_u32).bind fun _ => (KeepsFile.of_bounded C03_u32).bind fun _ =>
      (KeepsFile.of_bounded C03_u32).bind fun _ => KeepsFile.pure _
  · intro r a r' e; cases e

theorem table_short {file : Bytes} {v : UInt32} {T : Tag → Option Bytes} (h : IsFont file v T) {t : Tag} {b : Bytes}
    (hb : T t = some b) : b.length ≤ file.length := by
  obtain ⟨tables, r, h, hT⟩ := h
  have hs := (loads_facts h).1
  rw [← hT] at hb
  have hm := (BMap.get?_eq_some hs).mp hb
  unfold Font.readTables at h
  obtain ⟨⟨v', recs⟩, r1, h1, h⟩ := reader_bind_ok h
  obtain ⟨inp, r2, h2, h⟩ := reader_bind_ok h
  obtain ⟨T', r3, h3, h⟩ := reader_bind_ok h
  cases h
  have hi : inp = file := by
    have := keeps_directory _ _ _ h1
    unfold getInp at h2
    cases h2
    exact this
  subst hi
  refine slice_short inp (recs.mergeSort (fun a b => a.offset.toNat ≤ b.offset.toNat)) [] tables (by simp) ?_ _ hm
  revert h3
  cases Font.sliceTables inp (recs.mergeSort (fun a b => a.offset.toNat ≤ b.offset.toNat)) [] with
  | ok x => intro h; simp [Reader.lift] at h; rw [h.1]
  | err => intro h; cases h
  | panic => intro h; cases h

theorem _root_.FT.Cli.SameBut.glyf {T T' : Tag → Option Bytes} (h : SameBut T T') {gs : List Glyph} (hg : GlyfIs T gs) : GlyfIs T' gs := by
  obtain ⟨l, b, ⟨x, c, e1, e2, e3⟩, e4, e5⟩ := hg
  obtain ⟨k, e1'⟩ := h.head e1
  exact ⟨l, b, ⟨_, c, e1', by rw [h.1 _ (by decide)]; exact e2, e3⟩, by rw [h.1 _ (by decide)]; exact e4, e5⟩

theorem glyf_other {T T' : Tag → Option Bytes} (h : ∀ t, t ≠ tagGvar → T' t = T t) {gs : List Glyph} (hg : GlyfIs T gs) : GlyfIs T' gs := by
  obtain ⟨l, b, ⟨x, c, ⟨d, e0, e1⟩, e2, e3⟩, e4, e5⟩ := hg
  exact ⟨l, b, ⟨x, c, ⟨d, by rw [h _ (by decide)]; exact e0, e1⟩, by rw [h _ (by decide)]; exact e2, e3⟩,
    by rw [h _ (by decide)]; exact e4, e5⟩

/-- Specification: the conditions of C53 for a table with the given number of axes, for glyphs with these outlines. -/
structure Storable (axes : Nat) (gs : List Glyph) (g : Gvar) : Prop where
  few : axes ≤ 65535
  fits : ∀ ce, Res.mapL gvarCoordsAndEnds gs = .ok ce → GvarFits axes (some gs) ce g
  glyphs : g.length ≤ 65534
  peaks : (peaksOf g).length ≤ 4096
  room : axes ≤ 3 ∨ ∃ d ∈ allSets g, Moves d ∧ ¬ (d.start = d.peak ∧ d.stop = d.peak)

/-- **C85.** Opening the new file gives the same glyphs, and under the conditions of C53 the same variations, without those
that move nothing. The new table is not longer than one with all deltas. -/
theorem C85_gvar_same (R : Rest X) (order : List Bytes → List Bytes) (ho : MostCommonFirst order) {input out : Bytes}
    (h : optimizeGvar R order input = .ok out) (hl : out.length < 2 ^ 32) {v : UInt32} {T : Tag → Option Bytes} {gs : List Glyph}
    {g : Gvar} (hT : IsFont input v T) (hgs : GlyfIs T gs) (hg : GvarIs T gs g) :
    ∃ T' b, IsFont out v T' ∧ GlyfIs T' gs ∧ T' tagGvar = some b ∧ (∀ b', MayWrite none g b' → b.length ≤ b'.length) ∧
      ∀ axes, Storable axes gs g → GvarIs T' gs (g.map (Option.map glyphBack)) := by
  obtain ⟨v0, T0, T1, h1, ⟨h2, h3⟩, hs⟩ := C85_gvar_writes R order ho h hl
  obtain ⟨rfl, rfl⟩ := hT.unique h1
  obtain ⟨T', i1, i2, i3⟩ := hs.font
  have hsame : SameBut T1 T' := ⟨i2, i3⟩
  rcases h3 with ⟨h3, _⟩ | ⟨gs', g', b, g1, g2, g3, g4⟩
  · obtain ⟨_, _, _, e, _⟩ := hg
    rw [h3] at e; cases e
  · obtain rfl := hgs.unique g1
    obtain rfl := hg.unique g2
    have hb : T' tagGvar = some b := by rw [i2 _ (by decide)]; exact g4
    refine ⟨T', b, i1, hsame.glyf (glyf_other h2 hgs), hb, fun b' hb' => C53_never_longer _ _ _ _ g3 hb', fun axes st => ?_⟩
    obtain ⟨ce, _, c1, _, _⟩ := hg
    have hlen := table_short i1 hb
    obtain ⟨r, e⟩ := C53_roundtrip axes st.few (some gs) ce g b g3 (st.fits ce c1) st.glyphs st.peaks (by omega)
      (C53_room axes st.few _ _ _ b g3 (st.fits ce c1) st.peaks st.room)
    exact ⟨ce, b, c1, hb, by unfold runAll; rw [e]⟩

/-! ### Example -/

theorem saved_length {v : UInt32} {l : List (Tag × Bytes)} {out : Bytes} (hs : BMap.Sorted l) (h : Font.toBytes v l = .ok out) :
    out.length = 12 + 16 * l.length + Font.sumPad l := by
  have hasc := sorted_ascending hs
  obtain ⟨hn, hh⟩ := ok_inv hasc h
  obtain ⟨⟨sr, mp, rs⟩, e⟩ := Font.getSearchRange_any l.length hn
  obtain ⟨w, hw, e, _⟩ := Font.toBytes_ok v l sr mp rs (by omega) hh ((ascending_iff _).mp hasc) e
  rw [h] at e
  cases e
  simp only [List.length_append, Font.recBytes_length, Font.dataOf_length l (fun x hx => Font.setAdj_length hw (hh x hx)),
    Font.dataOf_len]
  rfl

theorem boldPeak : encVecR F32.encF2dot14 [1] = .ok [64, 0] := by
  have := encVecR_fixed14 [16384]
  have e : ([16384] : List Int16).map fixed14 = [1] := by simp [fixed14]
  rw [e] at this; rw [this]; rfl

theorem boldStart : encVecR F32.encF2dot14 [0] = .ok [0, 0] := by
  have := encVecR_fixed14 [0]
  have e : ([0] : List Int16).map fixed14 = [0] := by simp [fixed14]
  rw [e] at this; rw [this]; rfl

/-- One triangle and a bold weight. -/
def boldGvar : Gvar := [some [exBold]]
def boldTable : Bytes := [0, 1, 0, 0, 0, 1, 0, 1, 0, 0, 0, 28, 0, 1, 0, 1, 0, 0, 0, 30, 0, 0, 0, 0, 0, 0, 0, 24, 64, 0,
  128, 1, 0, 12, 0, 11, 64, 0, 0, 0, 64, 0, 0, 128, 3, 10, 5, 0, 15, 129, 129, 0, 3, 131]
def boldTables (b : Bytes) : List (Tag × Bytes) :=
  [(tagGlyf, [0,1,0,0,0,0,0,100,0,80,0,2,0,0,49,51,39,100,50,80]), (tagGvar, b), (tagHead, toyHead), (tagLoca, [0,0,0,10]),
   (tagMaxp, [0,0,0x50,0,0,1])]

theorem boldKey : Res.mapL peakBytes (allSets boldGvar) = .ok [[64, 0]] := by
  have hp : peakBytes exBold = .ok [64, 0] := by
    unfold peakBytes exBold
    rw [boldPeak]; rfl
  simp only [boldGvar, allSets, List.filterMap_cons, List.filterMap_nil, id, List.flatten_cons, List.flatten_nil, List.append_nil, Res.mapL, hp]

/-- `boldTable` is what is written without outlines. -/
theorem boldTable_written : MayWrite none boldGvar boldTable := by
  refine ⟨_, [[64, 0]], boldKey, ⟨by decide, by simp, by simp⟩, ?_⟩
  have hp : peakBytes exBold = .ok [64, 0] := by
    unfold peakBytes exBold
    rw [boldPeak]; rfl
  have ht : tupleHeader exBold (some 0) = ⟨0, 0x4000, 0, none, some [0], some [1]⟩ := by
    unfold tupleHeader exBold
    simp
    decide
  have hh : TupleVar.encHeader ⟨11, 0x4000, 0, none, some [0], some [1]⟩ = .ok ([0, 11, 64, 0, 0, 0, 64, 0]) := by
    unfold TupleVar.encHeader
    have e1 : TupleVar.encOptTuple (TupleVar.has 0x4000 TupleVar.EMBEDDED_PEAK_TUPLE) none = .ok [] := rfl
    have e2 : TupleVar.encOptTuple (TupleVar.has 0x4000 TupleVar.INTERMEDIATE_REGION) (some [0]) = .ok [0, 0] := boldStart
    have e3 : TupleVar.encOptTuple (TupleVar.has 0x4000 TupleVar.INTERMEDIATE_REGION) (some [1]) = .ok [64, 0] := boldPeak
    simp only [e1, e2, e3, Res.ok_bind]
    rfl
  have hv : TupleVar.encVariation ⟨⟨0, 0x4000, 0, none, some [0], some [1]⟩, fullDeltas exBold⟩ =
      .ok ([0,11,64,0,0,0,64,0],[128, 3, 10, 5, 0, 15, 129, 129, 0, 3, 131]) := by
    unfold TupleVar.encVariation
    have e : TupleVar.encData ⟨⟨0, 0x4000, 0, none, some [0], some [1]⟩, fullDeltas exBold⟩ =
      .ok [128, 3, 10, 5, 0, 15, 129, 129, 0, 3, 131] := okIs_eq (by decide +kernel)
    rw [e]
    simp only [Res.ok_bind]
    have e2 : TupleVar.finalHeader ⟨⟨0, 0x4000, 0, none, some [0], some [1]⟩, fullDeltas exBold⟩ 11 =
      ⟨11, 0x4000, 0, none, some [0], some [1]⟩ := by
      unfold TupleVar.finalHeader; decide
    simp only [List.length_cons, List.length_nil, Nat.zero_add, Nat.reduceAdd]
    rw [e2, hh]
    rfl
  have hg : glyphData [[64, 0]] none [exBold] =
      .ok [128, 1, 0, 12, 0, 11, 64, 0, 0, 0, 64, 0, 0, 128, 3, 10, 5, 0, 15, 129, 129, 0, 3, 131] := by
    unfold glyphData
    have e : toTupleVariation [[64, 0]] none exBold = .ok ⟨⟨0, 0x4000, 0, none, some [0], some [1]⟩, fullDeltas exBold⟩ := by
      unfold toTupleVariation
      rw [hp, Res.ok_bind]
      show Res.ok (⟨tupleHeader exBold (some 0), fullDeltas exBold⟩ : TupleVar.Variation) = _
      rw [ht]
    simp only [Res.mapL, e, Res.ok_bind]
    have e2 : List.filter hasEffect [(⟨⟨0, 0x4000, 0, none, some [0], some [1]⟩, fullDeltas exBold⟩ : TupleVar.Variation)] =
      [⟨⟨0, 0x4000, 0, none, some [0], some [1]⟩, fullDeltas exBold⟩] := rfl
    rw [e2]
    unfold TupleVar.encStore
    simp only [Res.mapL, hv, Res.ok_bind]
    rfl
  unfold encGvar boldGvar
  simp only [allSets, List.filterMap_cons, List.filterMap_nil, id, List.flatten_cons, List.flatten_nil, List.append_nil, Res.mapL, hp,
      glyphLoop, hg, Res.ok_bind, outlineAt]
  rfl

theorem bold_ce : Res.mapL gvarCoordsAndEnds [exGlyph] = .ok [exCe] := by decide

theorem bold_fits : GvarFits 1 (some [exGlyph]) [exCe] boldGvar := by
  have hce : gvarCoordsAndEnds exGlyph = .ok exCe := by decide
  have one : ∀ x, OnGrid x → GridTuple 1 [x] := fun x h => ⟨rfl, by simpa using h⟩
  intro i ds hi
  match i, hi with
  | 0, hi =>
    simp only [boldGvar, List.getElem?_cons_zero, Option.some.injEq] at hi
    subst hi
    have hgl : ∀ gl, outlineOf (some [exGlyph]) 0 = some gl → gvarCoordsAndEnds gl = .ok exCe := by
      intro gl hg
      injection hg with hg
      rw [← hg]
      exact hce
    refine ⟨exCe, rfl, by decide, hgl, by decide, by decide, ?_⟩
    intro d hd
    simp only [List.mem_cons, List.not_mem_nil, or_false] at hd
    subst hd
    exact C53_small_glyph 1 _ exCe _ (one _ grid_one) (one _ grid_zero) (one _ grid_one) rfl (by decide) hgl
  | i + 1, hi => simp [boldGvar] at hi

theorem bold_outlines : OutlinesFit (some [exGlyph]) [exCe] boldGvar := by
  refine ⟨by intro l h; injection h with h; rw [← h]; decide, ?_⟩
  intro i ds gl c hi hg hc d hd
  match i, hi with
  | 0, hi =>
    injection hg with hg
    subst hg
    injection hc with hc
    subst hc
    simp only [boldGvar, List.getElem?_cons_zero, Option.some.injEq] at hi
    subst hi
    refine ⟨by decide, by unfold Fits15; decide, ?_⟩
    simp only [List.mem_cons, List.not_mem_nil, or_false] at hd
    subst hd
    unfold Fits15; decide
  | i + 1, hi => simp [boldGvar] at hi

theorem bold_storable : Storable 1 [exGlyph] boldGvar where
  few := by decide
  fits := by intro ce h; rw [bold_ce] at h; cases h; exact bold_fits
  glyphs := by decide
  peaks := by decide
  room := .inl (by decide)

theorem boldTables_sorted (b : Bytes) : BMap.Sorted (boldTables b) := by
  refine sorted_tags (m := boldTables []) rfl ?_
  unfold BMap.Sorted boldTables; decide

theorem boldTables_get (b : Bytes) (t : Tag) :
    BMap.get? (boldTables b) t = if t = tagGvar then some b else BMap.get? (boldTables boldTable) t := by
  rw [show boldTables b = BMap.insert (boldTables boldTable) tagGvar b by
    simp only [boldTables, BMap.insert, show Key.lt tagGvar tagGlyf = false by decide, show Key.lt tagGlyf tagGvar = true by decide,
      show Key.lt tagGvar tagGvar = false by decide, if_true, Bool.false_eq_true, if_false], BMap.get?_insert]

/-- The font with the bold weight is optimised; the weight can still be read. -/
theorem bold_runs {X : Type} (R : Rest X) (order : List Bytes → List Bytes) (ho : MostCommonFirst order) :
    ∃ input out, optimizeGvar R order input = .ok out ∧ out.length < 2 ^ 32 ∧
      ∃ T, IsFont out 0x00010000 T ∧ GlyfIs T [exGlyph] ∧ GvarIs T [exGlyph] boldGvar := by
  obtain ⟨file, e, hl⟩ := okLength_some (r := Font.toBytes 0x00010000 (boldTables boldTable)) (n := 236) (by decide +kernel)
  obtain ⟨T, h1, h2, h3⟩ := (saved_of (T := fun t => BMap.get? (boldTables boldTable) t) (.inl rfl) (by
    intro t ht
    obtain ⟨b, hb⟩ := Option.ne_none_iff_exists'.mp ht
    have hm := (BMap.get?_eq_some (boldTables_sorted _)).mp hb
    simp only [boldTables, List.mem_cons, Prod.mk.injEq, List.not_mem_nil, or_false] at hm
    rcases hm with ⟨rfl, _⟩ | ⟨rfl, _⟩ | ⟨rfl, _⟩ | ⟨rfl, _⟩ | ⟨rfl, _⟩ <;> decide) (boldTables_sorted _) (fun _ => rfl) e (by omega)).font
  have hsame : SameBut (fun t => BMap.get? (boldTables boldTable) t) T := ⟨h2, h3⟩
  obtain ⟨keys, k1, _, k3⟩ := C53_writes 1 (by decide) (some [exGlyph]) [exCe] boldGvar bold_fits bold_outlines (by decide) (by decide) (by decide)
  rw [boldKey] at k1
  cases k1
  obtain ⟨b, hb⟩ := k3 _ (ho [[64, 0]])
  have hw : encGvarWith order (some [exGlyph]) boldGvar = .ok b := by
    unfold encGvarWith
    rw [boldKey, Res.ok_bind, hb]
  have hshort : b.length ≤ 54 := C53_never_longer _ _ _ _ (mayWrite_of ho hw) boldTable_written
  have hglyf : GlyfIs (fun t => BMap.get? (boldTables boldTable) t) [exGlyph] :=
    ⟨[some 0], [0,1,0,0,0,0,0,100,0,80,0,2,0,0,49,51,39,100,50,80], ⟨_, [0,0,0,10], ⟨toyHead, by decide +kernel, rfl⟩, by decide +kernel,
      okIs_eq (by decide +kernel)⟩, by decide +kernel, okIs_eq (by decide +kernel)⟩
  have hgvar : GvarIs T [exGlyph] boldGvar :=
    ⟨[exCe], boldTable, bold_ce, by rw [h2 _ (by decide)]; decide +kernel, okIs_eq (by decide +kernel)⟩
  have hopen : Openable (fun t => BMap.get? (boldTables boldTable) t) := by
    obtain ⟨l, _, ⟨h, b', e1, e2, e3⟩, _⟩ := hglyf
    exact ⟨.inr ⟨h, e1⟩, .inr ⟨h, b', l, e1, e2, e3⟩⟩
  have hm : MaxpIs (fun t => BMap.get? (boldTables boldTable) t) ⟨0x8000, .v05 ⟨1⟩⟩ := ⟨[0,0,0x50,0,0,1], by decide +kernel, okIs_eq (by decide +kernel)⟩
  have hsame' : SameBut (fun t => BMap.get? (boldTables b) t) (fun t => if t = tagGvar then some b else T t) := by
    refine ⟨fun t ht => ?_, ?_⟩
    · show _ = BMap.get? (boldTables b) t
      rw [boldTables_get]
      simp only [h2 t ht]
    · show (BMap.get? (boldTables b) tagHead = none ∧ _) ∨ _
      dsimp only
      rw [boldTables_get]
      simp only [show ¬ tagHead = tagGvar by decide, if_false]
      exact h3
  have hlong : ∀ c, BMap.get? (boldTables b) tagHead = some c → 12 ≤ c.length := by
    rw [boldTables_get, if_neg (by decide)]; exact openable_long hopen
  obtain ⟨out, e'⟩ := (C18_saving_succeeds_iff 0x00010000 (boldTables b) (sorted_ascending (boldTables_sorted b))).1.mpr
    ⟨by simp [boldTables], fun t c hc ht => by
      obtain rfl : t = tagHead := by rw [(isHead_iff t).mp ht]; rfl
      exact hlong c ((BMap.get?_eq_some (boldTables_sorted b)).mpr hc)⟩
  have hl' : out.length < 2 ^ 32 := by
    rw [saved_length (boldTables_sorted b) e']
    simp only [Font.sumPad, boldTables, List.map_cons, List.map_nil, List.sum_cons, List.sum_nil, List.length_cons, List.length_nil, Font.pad4]
    rw [show toyHead.length = 54 by decide]
    omega
  obtain ⟨l', j1, j2, j3⟩ := toBytes_sameBut hsame' hlong (boldTables_sorted b) (fun _ => rfl) e'
  have hrun : optimizeGvar R order file = .ok out :=
    (gvar_spec R order _ _).mpr ⟨_, T, _, l', h1, hsame.openable hopen,
      .inr ⟨_, _, _, b, hsame.maxp hm, hsame.glyf hglyf, hgvar, hw, rfl⟩, ⟨_, hsame.maxp hm⟩, j1, j2, j3⟩
  obtain ⟨T', b', i1, i2, _, _, i3⟩ := C85_gvar_same R order ho hrun hl' h1 (hsame.glyf hglyf) hgvar
  refine ⟨file, out, hrun, hl', T', i1, i2, ?_⟩
  have := i3 1 bold_storable
  rwa [show boldGvar.map (Option.map glyphBack) = boldGvar by decide] at this

example {X : Type} (R : Rest X) : ∃ order, MostCommonFirst order ∧ ∃ input out, optimizeGvar R order input = .ok out ∧ out.length < 2 ^ 32 := by
  refine ⟨fun keys => Classical.choose (mostCommon_exists keys), fun keys => Classical.choose_spec (mostCommon_exists keys), ?_⟩
  obtain ⟨i, o, h1, h2, _⟩ := bold_runs R _ (fun keys => Classical.choose_spec (mostCommon_exists keys))
  exact ⟨i, o, h1, h2⟩

end FT.Props
