import Verif.Lemmas.CliRename
import Verif.Lemmas.CliAgain

/-! `ttf-optimize-gvar`. -/

namespace FT.Cli
open FT FT.Store FT.Save FT.Tables FT.Glyf FT.Props

variable {X : Type} {R : Rest X} {T : Tag → Option Bytes}

/-- The locations of the glyphs can be read. -/
def LocaIs (T : Tag → Option Bytes) (l : List (Option UInt32)) : Prop :=
  ∃ h b, HeadIs T h ∧ T tagLoca = some b ∧ runAll (Loca.fromBytes (h.indexToLocFormat == 1)) b = .ok l

/-- The glyphs can be read. -/
def GlyfIs (T : Tag → Option Bytes) (gs : List Glyph) : Prop :=
  ∃ l b, LocaIs T l ∧ T tagGlyf = some b ∧ runAll (Loca.readGlyphs emptyGlyph readGlyph l) b = .ok gs

/-- The variations of these glyphs can be read. -/
def GvarIs (T : Tag → Option Bytes) (gs : List Glyph) (g : Gvar.Gvar) : Prop :=
  ∃ ce b, Res.mapL gvarCoordsAndEnds gs = .ok ce ∧ T tagGvar = some b ∧ runAll (Gvar.readGvar ce) b = .ok g

theorem means_glyf {v : Val X} : Means (fmt R) T tagGlyf v ↔ ∃ gs, GlyfIs T gs ∧ v = .glyf gs := by
  have hd : dep tagGlyf = some tagLoca := by decide
  have hp : ∀ b l, Save.parse (fmt R) tagGlyf b (some (.loca l)) =
      (do return .glyf (← runAll (Loca.readGlyphs emptyGlyph readGlyph l) b)) := by
    intro b l
    unfold Save.parse
    rw [if_neg (by decide), if_neg (by decide), if_neg (by decide), if_neg (by decide), if_neg (by decide), if_pos rfl]
    rfl
  constructor
  · intro h
    cases h with
    | plain _ h2 => rw [hd] at h2; cases h2
    | after h h2 h3 h4 =>
      rw [hd] at h2
      cases h2
      obtain ⟨hh, b, l, e1, e2, e3, rfl⟩ := means_loca.mp h3
      rw [hp] at h4
      obtain ⟨gs, h5, h6⟩ := bind_eq_ok h4
      exact ⟨gs, ⟨l, _, ⟨hh, b, e1, e2, e3⟩, h, h5⟩, (Res.ok.inj h6).symm⟩
  · rintro ⟨gs, ⟨l, b, ⟨hh, b', e1, e2, e3⟩, h1, h2⟩, rfl⟩
    refine .after h1 hd (means_loca.mpr ⟨hh, b', l, e1, e2, e3, rfl⟩) ?_
    rw [hp, h2]
    rfl

theorem means_gvar {v : Val X} : Means (fmt R) T tagGvar v ↔
    ∃ gs g, GlyfIs T gs ∧ GvarIs T gs g ∧ v = .other tagGvar (.gvar g) := by
  have hd : dep tagGvar = some tagGlyf := by decide
  have hp : ∀ b gs, Save.parse (fmt R) tagGvar b (some (.glyf gs)) = (do
      return Loaded.other tagGvar (.gvar (← parseGvar b (some (.glyf gs : Val X))))) := by
    intro b gs
    unfold Save.parse
    rw [if_neg (by decide), if_neg (by decide), if_neg (by decide), if_neg (by decide), if_neg (by decide), if_neg (by decide)]
    show (do return Loaded.other tagGvar (← parseRest R tagGvar b (some (.glyf gs)))) = _
    unfold parseRest
    rw [if_neg (by decide), if_neg (by decide), if_neg (by decide), if_pos rfl]
    cases parseGvar b (some (.glyf gs : Val X)) <;> rfl
  constructor
  · intro h
    cases h with
    | plain _ h2 => rw [hd] at h2; cases h2
    | after h h2 h3 h4 =>
      rw [hd] at h2
      cases h2
      obtain ⟨gs, e, rfl⟩ := means_glyf.mp h3
      rw [hp] at h4
      obtain ⟨g, h4, h7⟩ := bind_eq_ok h4
      unfold parseGvar at h4
      obtain ⟨ce, h5, h6⟩ := bind_eq_ok h4
      exact ⟨gs, g, e, ⟨ce, _, h5, h, h6⟩, (Res.ok.inj h7).symm⟩
  · rintro ⟨gs, g, e, ⟨ce, b, h1, h2, h3⟩, rfl⟩
    refine .after h2 hd (means_glyf.mpr ⟨gs, e, rfl⟩) ?_
    have : parseGvar b (some (.glyf gs : Val X)) = .ok g := by
      unfold parseGvar
      simp only
      rw [h1, Res.ok_bind, h3]
    rw [hp, this]
    rfl

theorem GlyfIs.unique {gs gs' : List Glyph} (h : GlyfIs T gs) (h' : GlyfIs T gs') : gs = gs' := by
  obtain ⟨l, b, ⟨x, c, ⟨d, e1, e2⟩, e3, e4⟩, e5, e6⟩ := h
  obtain ⟨l', b', ⟨x', c', ⟨d', f1, f2⟩, f3, f4⟩, f5, f6⟩ := h'
  rw [e1] at f1; cases f1
  rw [e2] at f2; cases f2
  rw [e3] at f3; cases f3
  rw [e4] at f4; cases f4
  rw [e5] at f5; cases f5
  rw [e6] at f6; cases f6
  rfl

theorem GvarIs.unique {gs : List Glyph} {g g' : Gvar.Gvar} (h : GvarIs T gs g) (h' : GvarIs T gs g') : g = g' := by
  obtain ⟨ce, b, e0, e1, e2⟩ := h
  obtain ⟨ce', b', f0, f1, f2⟩ := h'
  rw [e0] at f0; cases f0
  rw [e1] at f1; cases f1
  rw [e2] at f2; cases f2
  rfl

theorem var_kept {a a' : AStore X} {i : Nat} {x : Option (Indep.Var (Val X))} {y : Indep.Var (Val X)} (h : a'.vars = a.vars ++ [x])
    (hi : a.var i = some y) : a'.var i = some y := by
  have hlt : i < a.vars.length := by
    rcases Nat.lt_or_ge i a.vars.length with h | h
    · exact h
    · simp [Indep.St.var, List.getElem?_eq_none h] at hi
  simp only [Indep.St.var, h, List.getElem?_append_left hlt] at hi ⊢
  exact hi

/-- Specification of the tool's effect. -/
def Optimizes (order : List Bytes → List Bytes) (T T' : Tag → Option Bytes) : Prop :=
  (T tagGvar = none ∧ T' = T) ∨
  ∃ m gs g b, MaxpIs T m ∧ GlyfIs T gs ∧ GvarIs T gs g ∧ encGvarWith order (some gs) g = .ok b ∧
    T' = fun t => if t = tagGvar then some b else T t

theorem contains_iff {a : AStore X} (h : Stands (fmt R) T a) (t : Tag) :
    contains (indepMachine (fmt R)) a t = (T t).isSome := by
  unfold contains
  simp only [indepMachine, isSerializedA]
  rcases h t with ⟨h1, h2⟩ | ⟨b, h1, h2 | ⟨v, h2, _⟩⟩
  · rw [h1, h2]; rfl
  · rw [h1, h2]; rfl
  · rw [h1, h2]; rfl

theorem gvar_fwd {order : List Bytes → List Bytes} {a a' : AStore X} (ha : Stands (fmt R) T a)
    (h : gvarBody order (indepMachine (fmt R)) a = .ok a') : ∃ T', Optimizes order T T' ∧ Left (fmt R) T T' a' := by
  unfold gvarBody at h
  rw [contains_iff ha] at h
  cases hT : T tagGvar with
  | none =>
    rw [hT] at h
    cases h
    exact ⟨T, .inl ⟨hT, rfl⟩, ha.left⟩
  | some b0 =>
    rw [hT] at h
    simp only [Option.isSome_some, if_true] at h
    obtain ⟨⟨i1, a1⟩, h1, h⟩ := bind_eq_ok h
    obtain ⟨g1, v1, m1, w1, rfl⟩ := require_stands ha h1
    obtain ⟨⟨i2, a2⟩, h2, h⟩ := bind_eq_ok h
    obtain ⟨g2, v2, m2, w2, rfl⟩ := require_stands g1 h2
    obtain ⟨⟨i3, a3⟩, h3, h⟩ := bind_eq_ok h
    obtain ⟨g3, v3, m3, w3, rfl⟩ := require_stands g2 h3
    obtain ⟨⟨i4, a4⟩, h4, h⟩ := bind_eq_ok h
    obtain ⟨g4, v4, m4, w4, rfl⟩ := require_stands g3 h4
    obtain ⟨⟨i5, a5⟩, h5, h⟩ := bind_eq_ok h
    obtain ⟨g5, v5, m5, w5, rfl⟩ := require_stands g4 h5
    obtain ⟨bm, m, em1, em2, _⟩ := means_maxp.mp m2
    obtain ⟨gs, eg, rfl⟩ := means_glyf.mp m4
    obtain ⟨gs', g, eg', ev, rfl⟩ := means_gvar.mp m5
    obtain rfl := eg.unique eg'
    obtain ⟨x, h6, h⟩ := bind_eq_ok h
    unfold glyphsOf at h6
    rw [valueOf_last (var_kept w5 (var_last w4))] at h6
    cases h6
    obtain ⟨y, h7, h⟩ := bind_eq_ok h
    unfold gvarOf at h7
    rw [valueOf_last (var_last w5)] at h7
    cases h7
    obtain ⟨b, h8, h9⟩ := bind_eq_ok h
    have hb : encGvarWith order (some gs) g = .ok b := by
      cases he : encGvarWith order (some gs) g <;> rw [he] at h8 <;> first | cases h8; rfl | cases h8
    exact ⟨_, .inr ⟨m, gs, g, b, ⟨bm, em1, em2⟩, eg, ev, hb, rfl⟩, g5.left.raw_insert (by unfold Compiled; decide) h9⟩

theorem gvar_bwd {order : List Bytes → List Bytes} {a : AStore X} (ha : Stands (fmt R) T a) {T' : Tag → Option Bytes}
    (h : Optimizes order T T') : ∃ a', gvarBody order (indepMachine (fmt R)) a = .ok a' ∧ Left (fmt R) T T' a' := by
  rcases h with ⟨hT, rfl⟩ | ⟨m, gs, g, b, hm, hg, hv, hb, rfl⟩
  · refine ⟨a, ?_, ha.left⟩
    unfold gvarBody
    rw [contains_iff ha, hT]
    rfl
  · obtain ⟨ce, b0, _, hT, _⟩ := id hv
    obtain ⟨l, bg, ⟨hh, bl, e1, e2, e3⟩, e4, e5⟩ := id hg
    obtain ⟨bm, em1, em2⟩ := hm
    obtain ⟨a1, h1, g1, w1⟩ := require_means (R := R) ha (means_head.mpr ⟨hh, e1, rfl⟩)
    obtain ⟨a2, h2, g2, w2⟩ := require_means (R := R) g1 (means_maxp.mpr ⟨bm, m, em1, em2, rfl⟩)
    obtain ⟨a3, h3, g3, w3⟩ := require_means (R := R) g2 (means_loca.mpr ⟨hh, bl, l, e1, e2, e3, rfl⟩)
    obtain ⟨a4, h4, g4, w4⟩ := require_means (R := R) g3 (means_glyf.mpr ⟨gs, hg, rfl⟩)
    obtain ⟨a5, h5, g5, w5⟩ := require_means (R := R) g4 (means_gvar.mpr ⟨gs, g, hg, hv, rfl⟩)
    have h9 : ∃ a', exec (indepMachine (fmt R)) (.insertRaw tagGvar b) a5 = .ok a' := ⟨_, rfl⟩
    obtain ⟨a', h9⟩ := h9
    refine ⟨a', ?_, g5.left.raw_insert (by unfold Compiled; decide) h9⟩
    have v4 : glyphsOf (indepMachine (fmt R)) a3.vars.length a5 = .ok gs := by
      unfold glyphsOf
      rw [valueOf_last (var_kept w5 (var_last w4))]
      rfl
    have v5 : gvarOf (indepMachine (fmt R)) a4.vars.length a5 = .ok g := by
      unfold gvarOf
      rw [valueOf_last (var_last w5)]
      rfl
    have hb' : Cmap.orPanic (encGvarWith order (some gs) g) = .ok b := by rw [hb]; rfl
    unfold gvarBody
    rw [contains_iff ha, hT]
    simp only [Option.isSome_some, if_true]
    rw [h1, Res.ok_bind]
    simp only
    rw [h2, Res.ok_bind]
    simp only
    rw [h3, Res.ok_bind]
    simp only
    rw [h4, Res.ok_bind]
    simp only
    rw [h5, Res.ok_bind]
    simp only
    rw [v4, Res.ok_bind, v5, Res.ok_bind, hb', Res.ok_bind, h9]

theorem sim_gvar (order : List Bytes → List Bytes) (s : Store.St (Val X)) (a : AStore X) (h : Rep s a) :
    RelR Rep (gvarBody order (storeMachine (fmt R)) s) (gvarBody order (indepMachine (fmt R)) a) := by
  have hS := sim_indep (fmt R)
  unfold gvarBody
  rw [sim_contains hS h]
  split
  · refine (sim_require hS _ h).bind ?_
    rintro ⟨i1, s1⟩ ⟨j1, a1⟩ ⟨_, k1⟩
    refine (sim_require hS _ k1).bind ?_
    rintro ⟨i2, s2⟩ ⟨j2, a2⟩ ⟨_, k2⟩
    refine (sim_require hS _ k2).bind ?_
    rintro ⟨i3, s3⟩ ⟨j3, a3⟩ ⟨_, k3⟩
    refine (sim_require hS _ k3).bind ?_
    rintro ⟨i4, s4⟩ ⟨j4, a4⟩ ⟨e4, k4⟩
    obtain rfl : i4 = j4 := e4
    refine (sim_require hS _ k4).bind ?_
    rintro ⟨i5, s5⟩ ⟨j5, a5⟩ ⟨e5, k5⟩
    obtain rfl : i5 = j5 := e5
    refine RelR.bind (R := fun x y => x = y) ?_ ?_
    · unfold glyphsOf
      refine (sim_valueOf hS i4 k5).bind ?_
      rintro v _ rfl
      exact RelR.eq _
    rintro gs _ rfl
    refine RelR.bind (R := fun x y => x = y) ?_ ?_
    · unfold gvarOf
      refine (sim_valueOf hS i5 k5).bind ?_
      rintro v _ rfl
      exact RelR.eq _
    rintro g _ rfl
    refine (RelR.eq _).bind ?_
    rintro b _ rfl
    exact sim_exec hS _ k5
  · exact h

end FT.Cli
