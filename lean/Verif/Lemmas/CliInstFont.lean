import Verif.Lemmas.CliInstance

/-! `ttf-instantiate`: from the tables that are read to the tables that are written. -/

namespace FT.Cli
open FT FT.Store FT.Save FT.Tables FT.Glyf FT.Props FT.AxisMaps FT.Instancer

/-- The tables of the font that the instancer works on can be read. -/
structure FontIs (T : Tag → Option Bytes) (f : VarFont) : Prop where
  fvar : ∃ fv, f.fvar = some fv ∧ FvarIs T fv
  avar : Maybe T tagAvar (AvarIs T) f.avar
  stat : Maybe T tagSTAT (StatIs T) f.stat
  glyf : Maybe T tagGlyf (GlyfIs T) f.glyf
  gvar : Maybe T tagGvar (fun v => ∃ gs, f.glyf = some gs ∧ GvarIs T gs v) f.gvar

section
variable {X : Type}

/-- Changes of the glyphs and their variations. -/
def addGvar (v v' : Option Gvar.Gvar) (g' : Option (List Glyph)) (c : Tag → Edit (Val X)) : Tag → Edit (Val X) := match v with
  | none => c
  | some _ => upd (upd c tagGvar (.ofOption (v'.map fun g => .other tagGvar (.gvar g)))) tagGlyf (.ofOption (g'.map .glyf))

def addAvar (m m' : Option (List (List (ℚ × ℚ)))) (c : Tag → Edit (Val X)) : Tag → Edit (Val X) := match m with
  | none => c
  | some _ => upd c tagAvar (.ofOption (m'.map fun l => .other tagAvar (.avar l)))

def addStat (m m' : Option Stat.Table) (c : Tag → Edit (Val X)) : Tag → Edit (Val X) := match m with
  | none => c
  | some t => if statEmpty t then c else upd c tagSTAT (.ofOption (m'.map fun s => .other tagSTAT (.stat s)))

def addFvar (f : Option Fvar) (c : Tag → Edit (Val X)) : Tag → Edit (Val X) :=
  upd c tagFvar (.ofOption (f.map fun x => .other tagFvar (.fvar x)))

/-- All changes. -/
def changes (f f' : VarFont) : Tag → Edit (Val X) :=
  addFvar f'.fvar (addStat f.stat f'.stat (addAvar f.avar f'.avar (addGvar f.gvar f'.gvar f'.glyf (fun _ => .keep))))

theorem upd_other {c : Tag → Edit (Val X)} {t t' : Tag} {x : Edit (Val X)} (h : t' ≠ t) : upd c t x t' = c t' := by
  unfold upd; rw [if_neg h]

theorem upd_self {c : Tag → Edit (Val X)} {t : Tag} {x : Edit (Val X)} : upd c t x t = x := by
  unfold upd; rw [if_pos rfl]

theorem addGvar_other {v v' : Option Gvar.Gvar} {g' : Option (List Glyph)} {c : Tag → Edit (Val X)} {t : Tag} (h : t ≠ tagGvar ∧ t ≠ tagGlyf) :
    addGvar v v' g' c t = c t := by
  cases v with
  | none => rfl
  | some _ => exact (upd_other h.2).trans (upd_other h.1)

theorem addAvar_other {m m' : Option (List (List (ℚ × ℚ)))} {c : Tag → Edit (Val X)} {t : Tag} (h : t ≠ tagAvar) : addAvar m m' c t = c t := by
  cases m with
  | none => rfl
  | some _ => exact upd_other h

theorem addStat_other {m m' : Option Stat.Table} {c : Tag → Edit (Val X)} {t : Tag} (h : t ≠ tagSTAT) : addStat m m' c t = c t := by
  cases m with
  | none => rfl
  | some s =>
    unfold addStat
    simp only
    by_cases e : statEmpty s = true
    · rw [if_pos e]
    · rw [if_neg e]; exact upd_other h

theorem addFvar_other {f : Option Fvar} {c : Tag → Edit (Val X)} {t : Tag} (h : t ≠ tagFvar) : addFvar f c t = c t := upd_other h

theorem changes_keep {f f' : VarFont} {t : Tag} (h1 : t ≠ tagGvar ∧ t ≠ tagGlyf) (h3 : t ≠ tagAvar) (h4 : t ≠ tagSTAT)
    (h5 : t ≠ tagFvar) : changes (X := X) f f' t = .keep := by
  unfold changes
  rw [addFvar_other h5, addStat_other h4, addAvar_other h3, addGvar_other h1]

theorem changes_quiet (f f' : VarFont) : Quiet (changes (X := X) f f') := by
  refine ⟨?_, ?_, ?_, ?_, ?_, ?_, ?_⟩ <;> exact changes_keep (by decide) (by decide) (by decide) (by decide)

theorem changes_fvar (f f' : VarFont) : changes (X := X) f f' tagFvar =
    .ofOption (f'.fvar.map fun x => .other tagFvar (.fvar x)) := by
  unfold changes addFvar
  exact upd_self

theorem changes_stat (f f' : VarFont) : changes (X := X) f f' tagSTAT = addStat f.stat f'.stat (fun _ => .keep) tagSTAT := by
  unfold changes
  rw [addFvar_other (by decide)]
  cases f.stat with
  | none => exact (addAvar_other (by decide)).trans (addGvar_other (by decide))
  | some t =>
    unfold addStat
    simp only
    by_cases e : statEmpty t = true
    · rw [if_pos e, if_pos e]; exact (addAvar_other (by decide)).trans (addGvar_other (by decide))
    · rw [if_neg e, if_neg e, upd_self, upd_self]

theorem changes_avar (f f' : VarFont) : changes (X := X) f f' tagAvar = addAvar f.avar f'.avar (fun _ => .keep) tagAvar := by
  unfold changes
  rw [addFvar_other (by decide), addStat_other (by decide)]
  cases f.avar with
  | none => exact addGvar_other (by decide)
  | some t =>
    unfold addAvar
    simp only
    rw [upd_self, upd_self]

theorem changes_glyf (f f' : VarFont) : changes (X := X) f f' tagGlyf = addGvar f.gvar f'.gvar f'.glyf (fun _ => .keep) tagGlyf := by
  unfold changes
  rw [addFvar_other (by decide), addStat_other (by decide), addAvar_other (by decide)]

theorem changes_gvar (f f' : VarFont) : changes (X := X) f f' tagGvar = addGvar f.gvar f'.gvar f'.glyf (fun _ => .keep) tagGvar := by
  unfold changes
  rw [addFvar_other (by decide), addStat_other (by decide), addAvar_other (by decide)]

end

section
variable {X : Type} {R : Rest X} {T : Tag → Option Bytes} {a a' : AStore X} {c : Tag → Edit (Val X)}

theorem fvarIs_there {f : Fvar} (h : FvarIs T f) : T tagFvar ≠ none := by
  obtain ⟨b, e, _⟩ := h; rw [e]; simp

theorem avarIs_there {f : List (List (ℚ × ℚ))} (h : AvarIs T f) : T tagAvar ≠ none := by
  obtain ⟨b, e, _⟩ := h; rw [e]; simp

theorem statIs_there {f : Stat.Table} (h : StatIs T f) : T tagSTAT ≠ none := by
  obtain ⟨b, e, _⟩ := h; rw [e]; simp

theorem glyfIs_there {f : List Glyph} (h : GlyfIs T f) : T tagGlyf ≠ none := by
  obtain ⟨_, b, _, e, _⟩ := h; rw [e]; simp

theorem gvarIs_there {gs : List Glyph} {f : Gvar.Gvar} (h : GvarIs T gs f) : T tagGvar ≠ none := by
  obtain ⟨_, b, _, e, _⟩ := h; rw [e]; simp

theorem openGlyf_fwd (h : Stands (fmt R) T a) {j : Option Nat} (he : access (indepMachine (fmt R)) tagGlyf a = .ok (j, a')) :
    Stands (fmt R) T a' ∧ ∃ og, Maybe T tagGlyf (GlyfIs T) og := by
  obtain ⟨g1, ⟨_, _, g2⟩ | ⟨v, _, g2, _⟩⟩ := access_stands h he
  · exact ⟨g1, none, .inl ⟨g2, rfl⟩⟩
  · obtain ⟨gs, e, _⟩ := means_glyf.mp g2
    exact ⟨g1, some gs, .inr ⟨gs, rfl, e⟩⟩

theorem openGlyf_bwd (h : Stands (fmt R) T a) {og : Option (List Glyph)} (hg : Maybe T tagGlyf (GlyfIs T) og) :
    ∃ j a', access (indepMachine (fmt R)) tagGlyf a = .ok (j, a') ∧ Stands (fmt R) T a' := by
  rcases hg with ⟨h1, _⟩ | ⟨v, _, h1⟩
  · exact ⟨_, _, access_absent h h1, h⟩
  · obtain ⟨a', e, g, _⟩ := access_means h (means_glyf.mpr ⟨v, h1, rfl⟩)
    exact ⟨_, _, e, g⟩

theorem openGvar_fwd (h : Stands (fmt R) T a) {og : Option (List Glyph)} (hg : Maybe T tagGlyf (GlyfIs T) og) {j : Option Nat}
    (he : access (indepMachine (fmt R)) tagGvar a = .ok (j, a')) :
    Stands (fmt R) T a' ∧ ∃ ov, Maybe T tagGvar (fun v => ∃ gs, og = some gs ∧ GvarIs T gs v) ov := by
  obtain ⟨g1, ⟨_, _, g2⟩ | ⟨v, _, g2, _⟩⟩ := access_stands h he
  · exact ⟨g1, none, .inl ⟨g2, rfl⟩⟩
  · obtain ⟨gs, v, e1, e2, _⟩ := means_gvar.mp g2
    refine ⟨g1, some v, .inr ⟨v, rfl, gs, ?_, e2⟩⟩
    exact Maybe.unique (fun _ _ => GlyfIs.unique) (fun _ => glyfIs_there) hg (.inr ⟨gs, rfl, e1⟩)

theorem openGvar_bwd (h : Stands (fmt R) T a) {og : Option (List Glyph)} (hg : Maybe T tagGlyf (GlyfIs T) og) {ov : Option Gvar.Gvar}
    (hv : Maybe T tagGvar (fun v => ∃ gs, og = some gs ∧ GvarIs T gs v) ov) :
    ∃ j a', access (indepMachine (fmt R)) tagGvar a = .ok (j, a') ∧ Stands (fmt R) T a' := by
  rcases hv with ⟨h1, _⟩ | ⟨v, _, gs, e, h1⟩
  · exact ⟨_, _, access_absent h h1, h⟩
  · rcases hg with ⟨_, h2⟩ | ⟨gs', h2, h3⟩
    · rw [h2] at e; cases e
    · rw [h2] at e; cases e
      obtain ⟨a', e, g, _⟩ := access_means h (means_gvar.mpr ⟨_, v, h3, h1, rfl⟩)
      exact ⟨_, _, e, g⟩

/-- `instantiate_gvar` on the values. -/
theorem gvar_step (h : Stands (fmt R) T a) {norm : Limits} {fv : Fvar} (hf : FvarIs T fv) {og : Option (List Glyph)}
    (hg : Maybe T tagGlyf (GlyfIs T) og) {ov : Option Gvar.Gvar} (hv : Maybe T tagGvar (fun v => ∃ gs, og = some gs ∧ GvarIs T gs v) ov)
    (he : gvarIn (indepMachine (fmt R)) norm a = .ok a') : ∃ ov' og',
      (∀ x m st, gvarStep F32.rne (fv.axes.map AxisRecord.axisTag) norm ⟨x, m, ov, og, st⟩ = .ok ⟨x, m, ov', og', st⟩) ∧
      Changed (fmt R) T (addGvar ov ov' og' (fun _ => .keep)) a' := by
  rcases gvarIn_fwd h hf he with ⟨h1, rfl⟩ | ⟨gs, v, r, h1, h2, h3, h4⟩
  · rcases hv with ⟨_, rfl⟩ | ⟨v, rfl, gs, _, k⟩
    · exact ⟨none, og, fun _ _ _ => rfl, stands_changed h⟩
    · exact absurd h1 (gvarIs_there k)
  · obtain rfl := Maybe.unique (fun _ _ => GlyfIs.unique) (fun _ => glyfIs_there) hg (.inr ⟨gs, rfl, h1⟩)
    rcases hv with ⟨k, _⟩ | ⟨v', rfl, gs', e, k⟩
    · exact absurd k (gvarIs_there h2)
    · cases e
      obtain rfl := k.unique h2
      refine ⟨r.2, some r.1, fun x m st => ?_, h4⟩
      unfold gvarStep
      simp only
      rw [show (Res.unwrap (some gs) : Res _) = .ok gs from rfl, Res.ok_bind, h3]
      rfl

theorem gvar_step_bwd (h : Stands (fmt R) T a) {norm : Limits} {fv : Fvar} (hf : FvarIs T fv) {f f1 : VarFont}
    (hg : Maybe T tagGlyf (GlyfIs T) f.glyf) (hv : Maybe T tagGvar (fun v => ∃ gs, f.glyf = some gs ∧ GvarIs T gs v) f.gvar)
    (he : gvarStep F32.rne (fv.axes.map AxisRecord.axisTag) norm f = .ok f1) :
    ∃ a', gvarIn (indepMachine (fmt R)) norm a = .ok a' := by
  rcases hv with ⟨h1, _⟩ | ⟨v, e1, gs, e2, k⟩
  · refine ⟨a, ?_⟩
    unfold gvarIn
    rw [contains_iff h, h1]
    rfl
  · rcases hg with ⟨_, h2⟩ | ⟨gs', h2, h3⟩
    · rw [h2] at e2; cases e2
    · rw [h2] at e2; cases e2
      unfold gvarStep at he
      rw [e1] at he
      simp only at he
      rw [h2, show (Res.unwrap (some gs) : Res _) = .ok gs from rfl, Res.ok_bind] at he
      obtain ⟨r, h4, _⟩ := bind_eq_ok he
      exact gvarIn_bwd h hf h3 k h4

theorem avar_step (h : Changed (fmt R) T c a) (hk : c tagAvar = .keep) (hk' : c tagFvar = .keep) {limits : UserLimits} {fv : Fvar}
    (hf : FvarIs T fv) {m : Option (List (List (ℚ × ℚ)))} (hm : Maybe T tagAvar (AvarIs T) m)
    (he : avarIn (indepMachine (fmt R)) limits a = .ok a') : ∃ m',
      (∀ x v g st, avarStep F32.rne fv.axes limits ⟨x, m, v, g, st⟩ = .ok ⟨x, m', v, g, st⟩) ∧ Changed (fmt R) T (addAvar m m' c) a' := by
  rcases avarIn_fwd h hk hk' hf he with ⟨h1, rfl⟩ | ⟨maps, r, h1, h2, h3⟩
  · rcases hm with ⟨_, rfl⟩ | ⟨v, rfl, k⟩
    · exact ⟨none, fun _ _ _ _ => rfl, h⟩
    · exact absurd h1 (avarIs_there k)
  · obtain rfl := Maybe.unique (fun _ _ => AvarIs.unique) (fun _ => avarIs_there) hm (.inr ⟨maps, rfl, h1⟩)
    refine ⟨r, fun x v g st => ?_, h3⟩
    unfold avarStep
    simp only
    rw [h2]
    rfl

theorem avar_step_bwd (h : Changed (fmt R) T c a) (hk : c tagAvar = .keep) (hk' : c tagFvar = .keep) {limits : UserLimits} {fv : Fvar}
    (hf : FvarIs T fv) {f f1 : VarFont} (hm : Maybe T tagAvar (AvarIs T) f.avar) (he : avarStep F32.rne fv.axes limits f = .ok f1) :
    ∃ a', avarIn (indepMachine (fmt R)) limits a = .ok a' := by
  rcases hm with ⟨h1, _⟩ | ⟨v, e1, k⟩
  · refine ⟨a, ?_⟩
    unfold avarIn
    rw [h.contains_keep hk, h1]
    rfl
  · unfold avarStep at he
    rw [e1] at he
    obtain ⟨r, h4, _⟩ := bind_eq_ok he
    exact avarIn_bwd h hk hk' hf k h4

theorem stat_open (h : Changed (fmt R) T c a) (hk : c tagSTAT = .keep) {limits : UserLimits}
    (he : statIn (indepMachine (fmt R)) limits a = .ok a') : ∃ st, Maybe T tagSTAT (StatIs T) st := by
  rcases statIn_fwd h hk he with ⟨h1, _⟩ | ⟨t, _, h1, _⟩
  · exact ⟨none, .inl ⟨h1, rfl⟩⟩
  · exact ⟨some t, .inr ⟨t, rfl, h1⟩⟩

theorem stat_step (h : Changed (fmt R) T c a) (hk : c tagSTAT = .keep) {limits : UserLimits} {st : Option Stat.Table}
    (hm : Maybe T tagSTAT (StatIs T) st) (he : statIn (indepMachine (fmt R)) limits a = .ok a') : ∃ st',
      (∀ x m v g, statStep F32.rne limits ⟨x, m, v, g, st⟩ = .ok ⟨x, m, v, g, st'⟩) ∧ Changed (fmt R) T (addStat st st' c) a' := by
  rcases statIn_fwd h hk he with ⟨h1, rfl⟩ | ⟨t, r, h1, h2, h3⟩
  · rcases hm with ⟨_, rfl⟩ | ⟨v, rfl, k⟩
    · exact ⟨none, fun _ _ _ _ => rfl, h⟩
    · exact absurd h1 (statIs_there k)
  · obtain rfl := Maybe.unique (fun _ _ => StatIs.unique) (fun _ => statIs_there) hm (.inr ⟨t, rfl, h1⟩)
    refine ⟨some r, fun x v g st => ?_, h3⟩
    unfold statStep
    simp only
    rw [h2]
    rfl

theorem stat_step_bwd (h : Changed (fmt R) T c a) (hk : c tagSTAT = .keep) {limits : UserLimits}
    {f f1 : VarFont} (hm : Maybe T tagSTAT (StatIs T) f.stat) (he : statStep F32.rne limits f = .ok f1) :
    ∃ a', statIn (indepMachine (fmt R)) limits a = .ok a' := by
  rcases hm with ⟨h1, _⟩ | ⟨v, e1, k⟩
  · refine ⟨a, ?_⟩
    unfold statIn
    rw [h.contains_keep hk, h1]
    rfl
  · unfold statStep at he
    rw [e1] at he
    obtain ⟨r, h4, _⟩ := bind_eq_ok he
    exact statIn_bwd h hk k h4

/-- The state after all steps. -/
theorem instance_fwd {limits : UserLimits} (h : Stands (fmt R) T a) (he : instanceBody limits (indepMachine (fmt R)) a = .ok a') :
    ∃ f f', FontIs T f ∧ T tagCFF2 = none ∧ instantiate F32.rne limits f = .ok f' ∧ Changed (fmt R) T (changes f f') a' := by
  unfold instanceBody at he
  by_cases hs : sane (indepMachine (fmt R)) a = true
  case neg => rw [if_neg hs] at he; cases he
  rw [if_pos hs] at he
  have hcff : T tagCFF2 = none := by
    unfold sane at hs
    rw [contains_iff h, contains_iff h] at hs
    cases e : T tagCFF2 with
    | none => rfl
    | some _ => rw [e] at hs; simp at hs
  obtain ⟨⟨fv, a1⟩, h1, he⟩ := bind_eq_ok he
  obtain ⟨hf, s1⟩ := lookFvar_fwd (stands_changed h) rfl h1
  obtain ⟨L, hL, he⟩ := bind_eq_ok he
  obtain ⟨⟨norm, a2⟩, h2, he⟩ := bind_eq_ok he
  obtain ⟨s2, m, hm, hn⟩ := normalize_fwd s1 rfl rfl hf h2
  obtain ⟨⟨j3, a3⟩, h3, he⟩ := bind_eq_ok he
  obtain ⟨s3, og, hg⟩ := openGlyf_fwd s2 h3
  obtain ⟨⟨j4, a4⟩, h4, he⟩ := bind_eq_ok he
  obtain ⟨s4, ov, hv⟩ := openGvar_fwd s3 hg h4
  obtain ⟨a5, h5, he⟩ := bind_eq_ok he
  obtain ⟨ov', og', k5, s5⟩ := gvar_step s4 hf hg hv h5
  obtain ⟨a6, h6, he⟩ := bind_eq_ok he
  obtain ⟨m', k6, s6⟩ := avar_step s5 (addGvar_other (by decide)) (addGvar_other (by decide)) hf hm h6
  obtain ⟨a7, h7, he⟩ := bind_eq_ok he
  have e7 : addAvar m m' (addGvar ov ov' og' (fun _ => .keep)) tagSTAT = (.keep : Edit (Val X)) :=
    (addAvar_other (by decide)).trans (addGvar_other (by decide))
  obtain ⟨st, hst⟩ := stat_open s6 e7 h7
  obtain ⟨st', k7, s7⟩ := stat_step s6 e7 hst h7
  obtain ⟨a8, h8, he⟩ := bind_eq_ok he
  obtain ⟨fv', k8, s8⟩ := fvarIn_fwd s7 ((addStat_other (by decide)).trans ((addAvar_other (by decide)).trans (addGvar_other (by decide)))) hf h8
  unfold overlapIn at he
  have hov : ¬ (fv'.isNone && og'.isNone) = true := by
    intro e
    rw [Bool.and_eq_true] at e
    have e1 : fv' = none := by simpa using e.1
    have e2 : og' = none := by simpa using e.2
    subst e1 e2
    have c1 : contains (indepMachine (fmt R)) a8 tagFvar = false := s8.contains_gone upd_self
    have c2 : contains (indepMachine (fmt R)) a8 tagGlyf = false := by
      have hkey : ∀ c : Tag → Edit (Val X), c = addStat st st' (addAvar m m' (addGvar ov ov' none (fun _ => .keep))) →
          upd c tagFvar (.ofOption ((none : Option Fvar).map fun f => Loaded.other tagFvar (.fvar f))) tagGlyf =
            addGvar ov ov' none (fun _ => .keep) tagGlyf := by
        rintro c rfl
        rw [upd_other (by decide), addStat_other (by decide), addAvar_other (by decide)]
      cases ov with
      | none =>
        rw [s8.contains_keep (hkey _ rfl)]
        have hno : og = none := by
          have := k5 none none none
          unfold gvarStep at this
          simp only [Res.ok.injEq, VarFont.mk.injEq] at this
          exact this.2.2.2.1
        subst hno
        rcases hg with ⟨e, _⟩ | ⟨_, e, _⟩
        · rw [e]; rfl
        · cases e
      | some v => exact s8.contains_gone ((hkey _ rfl).trans upd_self)
    rw [c1, c2] at he
    cases he
  have hfin : a' = a8 := by
    by_cases hc : (contains (indepMachine (fmt R)) a8 tagFvar || contains (indepMachine (fmt R)) a8 tagGlyf) = true
    · rw [if_pos hc] at he; exact (Res.ok.inj he).symm
    · rw [if_neg hc] at he; cases he
  subst hfin
  refine ⟨⟨some fv, m, ov, og, st⟩, ⟨fv', m', ov', og', st'⟩, ⟨⟨fv, rfl, hf⟩, hm, hst, hg, hv⟩, hcff, ?_, s8⟩
  unfold instantiate
  rw [show (Res.unwrap (some fv) : Res _) = .ok fv from rfl, Res.ok_bind, hL, Res.ok_bind, hn, Res.ok_bind, k5, Res.ok_bind, k6, Res.ok_bind,
    k7, Res.ok_bind, k8, Res.ok_bind]
  rw [if_neg hov]
  rfl

theorem instance_bwd {limits : UserLimits} (h : Stands (fmt R) T a) {f f' : VarFont} (hf : FontIs T f) (hc : T tagCFF2 = none)
    (hi : instantiate F32.rne limits f = .ok f') : ∃ a', instanceBody limits (indepMachine (fmt R)) a = .ok a' := by
  obtain ⟨fvo, m, ov, og, st⟩ := f
  obtain ⟨⟨fv, e, hfv⟩, hm, hst, hg, hv⟩ := hf
  simp only at e hm hst hg hv
  subst e
  unfold instantiate at hi
  rw [show (Res.unwrap (some fv) : Res _) = .ok fv from rfl, Res.ok_bind] at hi
  obtain ⟨L, hL, hi⟩ := bind_eq_ok hi
  obtain ⟨norm, hn, hi⟩ := bind_eq_ok hi
  obtain ⟨f1, h1, hi⟩ := bind_eq_ok hi
  obtain ⟨f2, h2, hi⟩ := bind_eq_ok hi
  obtain ⟨f3, h3, hi⟩ := bind_eq_ok hi
  obtain ⟨fv', h4, hi⟩ := bind_eq_ok hi
  have hs : sane (indepMachine (fmt R)) a = true := by
    unfold sane
    rw [contains_iff h, contains_iff h, hc]
    obtain ⟨b, e, _⟩ := hfv
    rw [e]
    rfl
  obtain ⟨a1, e1, s1⟩ := lookFvar_bwd (stands_changed h) rfl hfv
  obtain ⟨a2, e2, s2⟩ := normalize_bwd s1 rfl rfl hfv hm hn
  obtain ⟨j3, a3, e3, s3⟩ := openGlyf_bwd s2 hg
  obtain ⟨j4, a4, e4, s4⟩ := openGvar_bwd s3 hg hv
  obtain ⟨a5, e5⟩ := gvar_step_bwd s4 hfv hg hv h1
  obtain ⟨ov', og', k5, s5⟩ := gvar_step s4 hfv hg hv e5
  rw [k5] at h1
  cases h1
  obtain ⟨a6, e6⟩ := avar_step_bwd s5 (addGvar_other (by decide)) (addGvar_other (by decide)) hfv hm h2
  obtain ⟨m', k6, s6⟩ := avar_step s5 (addGvar_other (by decide)) (addGvar_other (by decide)) hfv hm e6
  rw [k6] at h2
  cases h2
  have hk7 : addAvar m m' (addGvar ov ov' og' (fun _ => .keep)) tagSTAT = (.keep : Edit (Val X)) :=
    (addAvar_other (by decide)).trans (addGvar_other (by decide))
  obtain ⟨a7, e7⟩ := stat_step_bwd s6 hk7 hst h3
  obtain ⟨st', k7, s7⟩ := stat_step s6 hk7 hst e7
  rw [k7] at h3
  cases h3
  have hk8 : addStat st st' (addAvar m m' (addGvar ov ov' og' (fun _ => .keep))) tagFvar = (.keep : Edit (Val X)) :=
    (addStat_other (by decide)).trans ((addAvar_other (by decide)).trans (addGvar_other (by decide)))
  obtain ⟨a8, e8⟩ := fvarIn_bwd s7 hk8 hfv h4
  obtain ⟨r, k8, s8⟩ := fvarIn_fwd s7 hk8 hfv e8
  rw [h4] at k8
  cases k8
  by_cases hov : (fv'.isNone && og'.isNone) = true
  · rw [if_pos hov] at hi; cases hi
  refine ⟨a8, ?_⟩
  unfold instanceBody
  rw [if_pos hs, e1]
  simp only [Res.ok_bind]
  rw [hL, Res.ok_bind, e2]
  simp only [Res.ok_bind]
  rw [e3]
  simp only [Res.ok_bind]
  rw [e4]
  simp only [Res.ok_bind]
  rw [e5, Res.ok_bind, e6, Res.ok_bind, e7, Res.ok_bind, e8, Res.ok_bind]
  unfold overlapIn
  rw [if_pos]
  rw [Bool.or_eq_true]
  cases hf8 : fv' with
  | some x =>
    subst hf8
    exact .inl (s8.contains_value upd_self)
  | none =>
    subst hf8
    right
    have hkey : ∀ c : Tag → Edit (Val X), c = addStat st st' (addAvar m m' (addGvar ov ov' og' (fun _ => .keep))) →
        upd c tagFvar (.ofOption ((none : Option Fvar).map fun f => Loaded.other tagFvar (.fvar f))) tagGlyf =
          addGvar ov ov' og' (fun _ => .keep) tagGlyf := by
      rintro c rfl
      rw [upd_other (by decide), addStat_other (by decide), addAvar_other (by decide)]
    cases hog : og' with
    | none => rw [hog] at hov; exact absurd rfl hov
    | some gs' =>
      subst hog
      cases ov with
      | none =>
        rw [s8.contains_keep (hkey _ rfl)]
        have hno : og = some gs' := by
          have := k5 none none none
          unfold gvarStep at this
          simp only [Res.ok.injEq, VarFont.mk.injEq] at this
          exact this.2.2.2.1
        subst hno
        rcases hg with ⟨_, e⟩ | ⟨_, _, e⟩
        · cases e
        · cases hx : T tagGlyf with
          | none => exact absurd hx (glyfIs_there e)
          | some _ => rfl
      | some v => exact s8.contains_value ((hkey _ rfl).trans upd_self)

end

end FT.Cli
