import Verif.Lemmas.CliInstFont

/-! `ttf-instantiate`: the file that is written. -/

namespace FT.Cli
open FT FT.Store FT.Save FT.Tables FT.Glyf FT.Props FT.AxisMaps FT.Instancer

section
variable {X : Type} {R : Rest X}

/-- Same result, related states. -/
def SameRes {α : Type} (x : α × Store.St (Val X)) (y : α × AStore X) : Prop := x.1 = y.1 ∧ Rep x.2 y.2

theorem sim_look (t : Tag) {s : Store.St (Val X)} {a : AStore X} (h : Rep s a) :
    RelR SameRes (look (storeMachine (fmt R)) t s) (look (indepMachine (fmt R)) t a) := by
  have hS := sim_indep (fmt R)
  unfold look
  refine (sim_require hS _ h).bind ?_
  rintro ⟨i1, s1⟩ ⟨j1, a1⟩ ⟨e1, k1⟩
  obtain rfl : i1 = j1 := e1
  refine (sim_valueOf hS i1 k1).bind ?_
  rintro v _ rfl
  exact ⟨rfl, k1⟩

theorem sim_lookFvar {s : Store.St (Val X)} {a : AStore X} (h : Rep s a) :
    RelR SameRes (lookFvar (storeMachine (fmt R)) s) (lookFvar (indepMachine (fmt R)) a) := by
  unfold lookFvar
  refine (sim_look _ h).bind ?_
  rintro ⟨v, s1⟩ ⟨_, a1⟩ ⟨e, k⟩
  obtain rfl : v = _ := e
  simp only
  split
  · exact ⟨rfl, k⟩
  · trivial

theorem sim_lookAvar {s : Store.St (Val X)} {a : AStore X} (h : Rep s a) :
    RelR SameRes (lookAvar (storeMachine (fmt R)) s) (lookAvar (indepMachine (fmt R)) a) := by
  unfold lookAvar
  refine (sim_look _ h).bind ?_
  rintro ⟨v, s1⟩ ⟨_, a1⟩ ⟨e, k⟩
  obtain rfl : v = _ := e
  simp only
  split
  · exact ⟨rfl, k⟩
  · trivial

theorem sim_lookStat {s : Store.St (Val X)} {a : AStore X} (h : Rep s a) :
    RelR SameRes (lookStat (storeMachine (fmt R)) s) (lookStat (indepMachine (fmt R)) a) := by
  unfold lookStat
  refine (sim_look _ h).bind ?_
  rintro ⟨v, s1⟩ ⟨_, a1⟩ ⟨e, k⟩
  obtain rfl : v = _ := e
  simp only
  split
  · exact ⟨rfl, k⟩
  · trivial

theorem sim_lookGlyf {s : Store.St (Val X)} {a : AStore X} (h : Rep s a) :
    RelR SameRes (lookGlyf (storeMachine (fmt R)) s) (lookGlyf (indepMachine (fmt R)) a) := by
  unfold lookGlyf
  refine (sim_look _ h).bind ?_
  rintro ⟨v, s1⟩ ⟨_, a1⟩ ⟨e, k⟩
  obtain rfl : v = _ := e
  simp only
  split
  · exact ⟨rfl, k⟩
  · trivial

theorem sim_lookGvar {s : Store.St (Val X)} {a : AStore X} (h : Rep s a) :
    RelR SameRes (lookGvar (storeMachine (fmt R)) s) (lookGvar (indepMachine (fmt R)) a) := by
  unfold lookGvar
  refine (sim_look _ h).bind ?_
  rintro ⟨v, s1⟩ ⟨_, a1⟩ ⟨e, k⟩
  obtain rfl : v = _ := e
  simp only
  split
  · exact ⟨rfl, k⟩
  · trivial

theorem sim_maybeAvar {s : Store.St (Val X)} {a : AStore X} (h : Rep s a) :
    RelR SameRes (maybeAvar (storeMachine (fmt R)) s) (maybeAvar (indepMachine (fmt R)) a) := by
  have hS := sim_indep (fmt R)
  unfold maybeAvar
  refine (sim_access hS _ h).bind ?_
  rintro ⟨j, s1⟩ ⟨_, a1⟩ ⟨e, k⟩
  obtain rfl : j = _ := e
  cases j with
  | none => exact ⟨rfl, k⟩
  | some i =>
    simp only
    refine (sim_valueOf hS i k).bind ?_
    rintro v _ rfl
    split
    · exact ⟨rfl, k⟩
    · trivial

theorem sim_putOr (t : Tag) (v : Option (Val X)) {s : Store.St (Val X)} {a : AStore X} (h : Rep s a) :
    RelR Rep (putOr (storeMachine (fmt R)) t v s) (putOr (indepMachine (fmt R)) t v a) := by
  cases v with
  | none => exact sim_exec (sim_indep (fmt R)) (.remove t) h
  | some v => exact sim_exec (sim_indep (fmt R)) (.insertNew t v) h

theorem sim_normalize (limits : UserLimits) (b : Bool) {s : Store.St (Val X)} {a : AStore X} (h : Rep s a) :
    RelR SameRes (normalizeIn (storeMachine (fmt R)) limits b s) (normalizeIn (indepMachine (fmt R)) limits b a) := by
  unfold normalizeIn
  refine (sim_lookFvar h).bind ?_
  rintro ⟨v, s1⟩ ⟨_, a1⟩ ⟨e, k⟩
  obtain rfl : v = _ := e
  refine (sim_maybeAvar k).bind ?_
  rintro ⟨m, s2⟩ ⟨_, a2⟩ ⟨e, k⟩
  obtain rfl : m = _ := e
  refine (RelR.eq _).bind ?_
  rintro n _ rfl
  exact ⟨rfl, k⟩

theorem sim_gvarIn (norm : Limits) {s : Store.St (Val X)} {a : AStore X} (h : Rep s a) :
    RelR Rep (gvarIn (storeMachine (fmt R)) norm s) (gvarIn (indepMachine (fmt R)) norm a) := by
  unfold gvarIn
  rw [sim_contains (sim_indep (fmt R)) h]
  split
  · refine (sim_lookFvar h).bind ?_
    rintro ⟨v, s1⟩ ⟨_, a1⟩ ⟨e, k⟩
    obtain rfl : v = _ := e
    refine (sim_lookGvar k).bind ?_
    rintro ⟨g, s2⟩ ⟨_, a2⟩ ⟨e, k⟩
    obtain rfl : g = _ := e
    refine (sim_lookGlyf k).bind ?_
    rintro ⟨gs, s3⟩ ⟨_, a3⟩ ⟨e, k⟩
    obtain rfl : gs = _ := e
    refine (RelR.eq _).bind ?_
    rintro r _ rfl
    refine (sim_putOr _ _ k).bind ?_
    intro s4 a4 k
    exact sim_exec (sim_indep (fmt R)) _ k
  · exact h

theorem sim_avarIn (limits : UserLimits) {s : Store.St (Val X)} {a : AStore X} (h : Rep s a) :
    RelR Rep (avarIn (storeMachine (fmt R)) limits s) (avarIn (indepMachine (fmt R)) limits a) := by
  unfold avarIn
  rw [sim_contains (sim_indep (fmt R)) h]
  split
  · refine (sim_lookAvar h).bind ?_
    rintro ⟨v, s1⟩ ⟨_, a1⟩ ⟨e, k⟩
    obtain rfl : v = _ := e
    refine (sim_lookFvar k).bind ?_
    rintro ⟨g, s2⟩ ⟨_, a2⟩ ⟨e, k⟩
    obtain rfl : g = _ := e
    refine (RelR.eq _).bind ?_
    rintro r _ rfl
    exact sim_putOr _ _ k
  · exact h

theorem sim_statIn (limits : UserLimits) {s : Store.St (Val X)} {a : AStore X} (h : Rep s a) :
    RelR Rep (statIn (storeMachine (fmt R)) limits s) (statIn (indepMachine (fmt R)) limits a) := by
  unfold statIn
  rw [sim_contains (sim_indep (fmt R)) h]
  split
  · refine (sim_lookStat h).bind ?_
    rintro ⟨v, s1⟩ ⟨_, a1⟩ ⟨e, k⟩
    obtain rfl : v = _ := e
    simp only
    split
    · exact k
    · refine (RelR.eq _).bind ?_
      rintro r _ rfl
      exact sim_exec (sim_indep (fmt R)) _ k
  · exact h

theorem sim_fvarIn (limits : UserLimits) {s : Store.St (Val X)} {a : AStore X} (h : Rep s a) :
    RelR Rep (fvarIn (storeMachine (fmt R)) limits s) (fvarIn (indepMachine (fmt R)) limits a) := by
  unfold fvarIn
  refine (sim_lookFvar h).bind ?_
  rintro ⟨v, s1⟩ ⟨_, a1⟩ ⟨e, k⟩
  obtain rfl : v = _ := e
  refine (RelR.eq _).bind ?_
  rintro r _ rfl
  exact sim_putOr _ _ k

theorem sim_instance (limits : UserLimits) (s : Store.St (Val X)) (a : AStore X) (h : Rep s a) :
    RelR Rep (instanceBody limits (storeMachine (fmt R)) s) (instanceBody limits (indepMachine (fmt R)) a) := by
  have hS := sim_indep (fmt R)
  unfold instanceBody sane
  rw [sim_contains hS h, sim_contains hS h]
  split
  · refine (sim_lookFvar h).bind ?_
    rintro ⟨v, s1⟩ ⟨_, a1⟩ ⟨e, k⟩
    obtain rfl : v = _ := e
    refine (RelR.eq _).bind ?_
    rintro L _ rfl
    refine (sim_normalize _ _ k).bind ?_
    rintro ⟨n, s2⟩ ⟨_, a2⟩ ⟨e, k⟩
    obtain rfl : n = _ := e
    refine (sim_access hS _ k).bind ?_
    rintro ⟨j, s3⟩ ⟨_, a3⟩ ⟨_, k⟩
    refine (sim_access hS _ k).bind ?_
    rintro ⟨j, s4⟩ ⟨_, a4⟩ ⟨_, k⟩
    refine (sim_gvarIn _ k).bind ?_
    intro s5 a5 k
    refine (sim_avarIn _ k).bind ?_
    intro s6 a6 k
    refine (sim_statIn _ k).bind ?_
    intro s7 a7 k
    refine (sim_fvarIn _ k).bind ?_
    intro s8 a8 k
    unfold overlapIn
    rw [sim_contains hS k, sim_contains hS k]
    split
    · exact k
    · trivial
  · trivial

/-! ### The tables that are written -/

/-- A table that is written, or missing. -/
def NewTable {α : Type} (enc : α → Res Bytes) (x : Option α) (b : Option Bytes) : Prop := match x with
  | none => b = none
  | some v => ∃ y, enc v = .ok y ∧ b = some y

/-- The tables after the instancer ran, with the glyphs still as they were. -/
structure Instanced (T : Tag → Option Bytes) (f f' : VarFont) (U : Tag → Option Bytes) : Prop where
  other : ∀ t, t ≠ tagFvar → t ≠ tagAvar → t ≠ tagSTAT → t ≠ tagGvar → U t = T t
  fvar : NewTable encFvar f'.fvar (U tagFvar)
  avar : NewTable encAvar f'.avar (U tagAvar)
  stat : (f.stat = none ∧ U tagSTAT = none) ∨ (∃ t, f.stat = some t ∧ statEmpty t = true ∧ U tagSTAT = T tagSTAT) ∨
    ∃ t t' b, f.stat = some t ∧ statEmpty t = false ∧ f'.stat = some t' ∧ Stat.encStat t' = .ok b ∧ U tagSTAT = some b
  gvar : f'.gvar = none ∧ U tagGvar = none

/-- One table of the new font. -/
def WrittenAt (F : Fmt Glyph (Other X)) (x : Edit (Val X)) (old new : Option Bytes) : Prop := match x with
  | .keep => new = old
  | .gone => new = none
  | .value v => ∃ b, ser F v = .ok b ∧ new = some b

theorem written_at {F : Fmt Glyph (Other X)} {T U : Tag → Option Bytes} {c : Tag → Edit (Val X)} :
    Written F T c U ↔ ∀ t, t ≠ tagGlyf → WrittenAt F (c t) (T t) (U t) := by
  unfold Written WrittenAt
  refine forall_congr' fun t => forall_congr' fun _ => ?_
  cases c t <;> exact Iff.rfl

/-- What the instancer does not add or remove. -/
theorem instantiate_shape {rd : ℚ → ℚ} {limits : UserLimits} {f f' : VarFont} (h : instantiate rd limits f = .ok f') :
    (f.avar = none → f'.avar = none) ∧ (f.gvar = none → f'.gvar = none ∧ f'.glyf = f.glyf) ∧
      ((∃ v, f.gvar = some v) → ∃ gs gs', f.glyf = some gs ∧ f'.glyf = some gs') ∧ (f.stat = none → f'.stat = none) ∧
      ∀ t, f.stat = some t → ∃ t', f'.stat = some t' := by
  obtain ⟨x, m, ov, og, st⟩ := f
  unfold instantiate at h
  obtain ⟨fv, _, h⟩ := bind_eq_ok h
  obtain ⟨L, _, h⟩ := bind_eq_ok h
  obtain ⟨n, _, h⟩ := bind_eq_ok h
  obtain ⟨f1, h1, h⟩ := bind_eq_ok h
  obtain ⟨f2, h2, h⟩ := bind_eq_ok h
  obtain ⟨f3, h3, h⟩ := bind_eq_ok h
  obtain ⟨fv', _, h⟩ := bind_eq_ok h
  have hf : f' = { f3 with fvar := fv' } := by
    split at h
    · cases h
    · cases h; rfl
  subst hf
  have g1 : f1.avar = m ∧ f1.stat = st ∧ (ov = none → f1.gvar = none ∧ f1.glyf = og) ∧
      ((∃ v, ov = some v) → ∃ gs gs', og = some gs ∧ f1.glyf = some gs') := by
    unfold gvarStep at h1
    cases ov with
    | none => cases h1; exact ⟨rfl, rfl, fun _ => ⟨rfl, rfl⟩, fun ⟨_, e⟩ => by cases e⟩
    | some v =>
      cases og with
      | none => cases h1
      | some gs =>
        simp only [Res.unwrap, Res.ok_bind] at h1
        obtain ⟨r, _, h1⟩ := bind_eq_ok h1
        cases h1
        exact ⟨rfl, rfl, (fun e => by cases e), fun _ => ⟨gs, r.1, rfl, rfl⟩⟩
  have g2 : (f1.avar = none → f2.avar = none) ∧ f2.stat = f1.stat ∧ f2.gvar = f1.gvar ∧ f2.glyf = f1.glyf := by
    unfold avarStep at h2
    cases e : f1.avar with
    | none => rw [e] at h2; cases h2; exact ⟨fun _ => e, rfl, rfl, rfl⟩
    | some v =>
      rw [e] at h2
      obtain ⟨r, _, h2⟩ := bind_eq_ok h2
      cases h2
      exact ⟨(fun e => by cases e), rfl, rfl, rfl⟩
  have g3 : (f2.stat = none → f3.stat = none) ∧ (∀ t, f2.stat = some t → ∃ t', f3.stat = some t') ∧ f3.avar = f2.avar ∧ f3.gvar = f2.gvar ∧
      f3.glyf = f2.glyf := by
    unfold statStep at h3
    cases e : f2.stat with
    | none => rw [e] at h3; cases h3; exact ⟨fun _ => e, (fun t ht => by cases ht), rfl, rfl, rfl⟩
    | some v =>
      rw [e] at h3
      obtain ⟨r, _, h3⟩ := bind_eq_ok h3
      cases h3
      exact ⟨(fun e => by cases e), fun _ _ => ⟨r, rfl⟩, rfl, rfl, rfl⟩
  obtain ⟨a1, a2, a3, a4⟩ := g1
  obtain ⟨b1, b2, b3, b4⟩ := g2
  obtain ⟨c1, c2, c3, c4, c5⟩ := g3
  simp only
  rw [c3, c4, c5, b3, b4]
  refine ⟨fun e => b1 (by rw [a1]; exact e), a3, a4, fun e => c1 (by rw [b2, a2]; exact e), fun t e => c2 t (by rw [b2, a2]; exact e)⟩

theorem written_iff {T : Tag → Option Bytes} {f f' : VarFont} (hf : FontIs T f) {limits : UserLimits}
    (hi : instantiate F32.rne limits f = .ok f') (U : Tag → Option Bytes) :
    (Written (fmt R) T (changes f f') U ∧ U tagGlyf = T tagGlyf) ↔ Instanced T f f' U := by
  obtain ⟨sa, sv, sg, ss, st⟩ := instantiate_shape hi
  have hfv : WrittenAt (fmt R) (changes f f' tagFvar) (T tagFvar) (U tagFvar) ↔ NewTable encFvar f'.fvar (U tagFvar) := by
    rw [changes_fvar]
    cases f'.fvar <;> exact Iff.rfl
  have hav : WrittenAt (fmt R) (changes f f' tagAvar) (T tagAvar) (U tagAvar) ↔ NewTable encAvar f'.avar (U tagAvar) := by
    rw [changes_avar]
    rcases hf.avar with ⟨e1, e2⟩ | ⟨m, e1, e2⟩
    · rw [e2, sa e2, e1]; exact Iff.rfl
    · rw [e1]
      unfold addAvar
      simp only
      rw [upd_self]
      cases f'.avar <;> exact Iff.rfl
  have hgv : WrittenAt (fmt R) (changes f f' tagGvar) (T tagGvar) (U tagGvar) ↔ f'.gvar = none ∧ U tagGvar = none := by
    rw [changes_gvar]
    rcases hf.gvar with ⟨e1, e2⟩ | ⟨m, e1, e2⟩
    · rw [e2, e1, (sv e2).1]
      exact ⟨fun h => ⟨rfl, h⟩, fun h => h.2⟩
    · rw [e1]
      unfold addGvar
      simp only
      rw [upd_other (by decide), upd_self]
      cases f'.gvar with
      | none => exact ⟨fun h => ⟨rfl, h⟩, fun h => h.2⟩
      | some g =>
        refine ⟨fun h => ?_, fun h => by cases h.1⟩
        obtain ⟨b, h, _⟩ := h
        cases h
  have hst : WrittenAt (fmt R) (changes f f' tagSTAT) (T tagSTAT) (U tagSTAT) ↔
      ((f.stat = none ∧ U tagSTAT = none) ∨ (∃ t, f.stat = some t ∧ statEmpty t = true ∧ U tagSTAT = T tagSTAT) ∨
        ∃ t t' b, f.stat = some t ∧ statEmpty t = false ∧ f'.stat = some t' ∧ Stat.encStat t' = .ok b ∧ U tagSTAT = some b) := by
    rw [changes_stat]
    rcases hf.stat with ⟨e1, e2⟩ | ⟨m, e1, e2⟩
    · rw [e2, e1]
      constructor
      · intro h; exact .inl ⟨rfl, h⟩
      · rintro (h | ⟨t, h, _⟩ | ⟨t, _, _, h, _⟩)
        · exact h.2
        · cases h
        · cases h
    · obtain ⟨t', e3⟩ := st m e1
      rw [e1, e3]
      unfold addStat
      simp only
      by_cases hem : statEmpty m = true
      · rw [if_pos hem]
        constructor
        · intro h; exact .inr (.inl ⟨m, rfl, hem, h⟩)
        · rintro (h | ⟨t, h, _, h'⟩ | ⟨t, _, _, h, h', _⟩)
          · cases h.1
          · exact h'
          · cases h; rw [hem] at h'; cases h'
      · rw [if_neg hem, upd_self]
        constructor
        · rintro ⟨b, h1, h2⟩
          exact .inr (.inr ⟨m, t', b, rfl, by simpa using hem, rfl, h1, h2⟩)
        · rintro (h | ⟨t, h, h', _⟩ | ⟨t, t2, b, h, _, h', h1, h2⟩)
          · cases h.1
          · cases h; exact absurd h' hem
          · cases h'; exact ⟨b, h1, h2⟩
  rw [written_at]
  constructor
  · rintro ⟨h, hg⟩
    refine ⟨fun t h1 h2 h3 h4 => ?_, hfv.mp (h tagFvar (by decide)), hav.mp (h tagAvar (by decide)), hst.mp (h tagSTAT (by decide)),
      hgv.mp (h tagGvar (by decide))⟩
    by_cases e : t = tagGlyf
    · rw [e]; exact hg
    · have := h t e
      rw [changes_keep ⟨h4, e⟩ h2 h3 h1] at this
      exact this
  · intro h
    refine ⟨fun t e => ?_, h.other _ (by decide) (by decide) (by decide) (by decide)⟩
    by_cases e1 : t = tagFvar
    · subst e1; exact hfv.mpr h.fvar
    by_cases e2 : t = tagAvar
    · subst e2; exact hav.mpr h.avar
    by_cases e3 : t = tagSTAT
    · subst e3; exact hst.mpr h.stat
    by_cases e4 : t = tagGvar
    · subst e4; exact hgv.mpr h.gvar
    rw [changes_keep ⟨e4, e⟩ e2 e3 e1]
    exact h.other t e1 e2 e3 e4

/-- The glyphs of the new font: unchanged if nothing varies. -/
def NewOutlines (R : Rest X) (f f' : VarFont) (U T' : Tag → Option Bytes) : Prop :=
  (f.gvar = none ∧ T' = U ∧ ∃ m, MaxpIs U m) ∨ (∃ v gs', f.gvar = some v ∧ f'.glyf = some gs' ∧ NewGlyphs (fmt R) gs' U T')

theorem save_instance {T : Tag → Option Bytes} {f f' : VarFont} (hf : FontIs T f) {limits : UserLimits}
    (hi : instantiate F32.rne limits f = .ok f') {s : Store.St (Val X)} {a : AStore X} (hr : Rep s a)
    (h : Changed (fmt R) T (changes f f') a) (version : UInt32) (out : Bytes) : save (fmt R) version s = .ok out ↔
      ∃ U T' l, Instanced T f f' U ∧ NewOutlines R f f' U T' ∧ BMap.Sorted l ∧ (∀ t, BMap.get? l t = T' t) ∧ Font.toBytes version l = .ok out := by
  obtain ⟨sa, sv, sg, ss, st⟩ := instantiate_shape hi
  have hmx : ∀ U, Instanced T f f' U → U tagMaxp = T tagMaxp := fun U hU => hU.other _ (by decide) (by decide) (by decide) (by decide)
  cases hv : f.gvar with
  | none =>
    have hk : (changes f f' : Tag → Edit (Val X)) tagGlyf = .keep := by rw [changes_glyf, hv]; rfl
    rw [save_changed hr h (changes_quiet f f') hk]
    constructor
    · rintro ⟨⟨m, hm⟩, U, l, h1, h2, h3, h4, h5⟩
      have hU := (written_iff hf hi U).mp ⟨h1, h2⟩
      refine ⟨U, U, l, hU, .inl ⟨hv, rfl, m, ?_⟩, h3, h4, h5⟩
      unfold MaxpIs
      rw [hmx U hU]; exact hm
    · rintro ⟨U, T', l, hU, ⟨_, rfl, m, hm⟩ | ⟨v, _, e, _⟩, h3, h4, h5⟩
      · obtain ⟨h1, h2⟩ := (written_iff (R := R) hf hi _).mpr hU
        refine ⟨⟨m, ?_⟩, _, l, h1, h2, h3, h4, h5⟩
        unfold MaxpIs at hm
        rw [hmx _ hU] at hm; exact hm
      · rw [hv] at e; cases e
  | some v =>
    obtain ⟨gs, gs', _, eg⟩ := sg ⟨v, hv⟩
    have hk : (changes f f' : Tag → Edit (Val X)) tagGlyf = .value (.glyf gs') := by
      rw [changes_glyf, hv, eg]
      exact upd_self
    rw [save_changed_glyf hr h (changes_quiet f f') hk]
    constructor
    · rintro ⟨U, T', l, h1, h2, h3, h4, h5, h6⟩
      exact ⟨U, T', l, (written_iff hf hi U).mp ⟨h1, h2⟩, .inr ⟨v, gs', hv, eg, h3⟩, h4, h5, h6⟩
    · rintro ⟨U, T', l, hU, ⟨e, _⟩ | ⟨_, gs2, _, e, h3⟩, h4, h5, h6⟩
      · rw [hv] at e; cases e
      · rw [eg] at e; cases e
        obtain ⟨h1, h2⟩ := (written_iff (R := R) hf hi U).mpr hU
        exact ⟨U, T', l, h1, h2, h3, h4, h5, h6⟩

theorem FontIs.unique {T : Tag → Option Bytes} {f f' : VarFont} (h : FontIs T f) (h' : FontIs T f') : f = f' := by
  obtain ⟨x, m, v, g, s⟩ := f
  obtain ⟨x', m', v', g', s'⟩ := f'
  obtain ⟨⟨a, a1, a2⟩, b, c, d, e⟩ := h
  obtain ⟨⟨a', a1', a2'⟩, b', c', d', e'⟩ := h'
  simp only at *
  subst a1 a1'
  obtain rfl := a2.unique a2'
  obtain rfl := Maybe.unique (fun _ _ => AvarIs.unique) (fun _ => avarIs_there) b b'
  obtain rfl := Maybe.unique (fun _ _ => StatIs.unique) (fun _ => statIs_there) c c'
  obtain rfl := Maybe.unique (fun _ _ => GlyfIs.unique) (fun _ => glyfIs_there) d d'
  obtain rfl := Maybe.unique (fun v w => by
    rintro ⟨gs, e1, e2⟩ ⟨gs', e1', e2'⟩
    rw [e1] at e1'; cases e1'
    exact e2.unique e2') (fun v => by rintro ⟨_, _, e⟩; exact gvarIs_there e) e e'
  rfl

theorem instance_spec (R : Rest X) (limits : UserLimits) (input out : Bytes) :
    tool R (instanceBody limits (storeMachine (fmt R))) input = .ok out ↔
      ∃ v T f f' U T' l, IsFont input v T ∧ Openable T ∧ FontIs T f ∧ T tagCFF2 = none ∧ instantiate F32.rne limits f = .ok f' ∧
        Instanced T f f' U ∧ NewOutlines R f f' U T' ∧ BMap.Sorted l ∧ (∀ t, BMap.get? l t = T' t) ∧ Font.toBytes v l = .ok out := by
  constructor
  · intro h
    obtain ⟨v, tables, r, a, a', s', e1, e2, e3, e4, e5⟩ := tool_ok (bodyA := instanceBody limits (indepMachine (fmt R))) (sim_instance limits) h
    obtain ⟨g1, g2⟩ := open_stands (T := fun t => BMap.get? tables t) e2 (fun _ => rfl)
    obtain ⟨f, f', g3, g4, g5, g6⟩ := instance_fwd g2 e3
    obtain ⟨U, T', l, k1, k2, k3, k4, k5⟩ := (save_instance g3 g5 e4 g6 v out).mp e5
    exact ⟨v, _, f, f', U, T', l, ⟨tables, r, e1, fun _ => rfl⟩, g1, g3, g4, g5, k1, k2, k3, k4, k5⟩
  · rintro ⟨v, T, f, f', U, T', l, ⟨tables, r, e1, eT⟩, g1, g3, g4, g5, k⟩
    obtain ⟨a, e2, g2⟩ := open_ok (fmt R) g1 eT
    obtain ⟨a', e3⟩ := instance_bwd g2 g3 g4 g5
    obtain ⟨f2, f2', q1, _, q2, q3⟩ := instance_fwd g2 e3
    obtain rfl := g3.unique q1
    rw [g5] at q2
    cases q2
    exact tool_of (bodyA := instanceBody limits (indepMachine (fmt R))) (sim_instance limits) e1 e2 e3
      (fun s' hr => (save_instance g3 g5 hr q3 v out).mpr ⟨U, T', l, k⟩)

/-- The program is a tool, but for fonts which do not vary. -/
theorem instantiateFile_some (R : Rest X) (limits : UserLimits) (input out : Bytes) : instantiateFile R limits input = .ok (some out) ↔
    tool R (instanceBody limits (storeMachine (fmt R))) input = .ok out := by
  unfold instantiateFile tool
  cases Font.readTables (Rd.new input) with
  | err => simp
  | panic => simp
  | ok x =>
    obtain ⟨⟨v, tables⟩, r⟩ := x
    simp only
    cases openTables (storeMachine (fmt R)) (Store.fresh tables) with
    | err => exact ⟨(fun h => by cases h), (fun h => by cases h)⟩
    | panic => exact ⟨(fun h => by cases h), (fun h => by cases h)⟩
    | ok s =>
      rw [Res.ok_bind, Res.ok_bind]
      by_cases hc : contains (storeMachine (fmt R)) s tagFvar = true
      · rw [if_pos hc]
        cases instanceBody limits (storeMachine (fmt R)) s with
        | err => exact ⟨(fun h => by cases h), (fun h => by cases h)⟩
        | panic => exact ⟨(fun h => by cases h), (fun h => by cases h)⟩
        | ok s' =>
          rw [Res.ok_bind, Res.ok_bind]
          cases saveFont R v s' with
          | err => exact ⟨(fun h => by cases h), (fun h => by cases h)⟩
          | panic => exact ⟨(fun h => by cases h), (fun h => by cases h)⟩
          | ok b =>
            rw [Res.ok_bind]
            exact ⟨(fun h => by cases h; rfl), (fun h => by cases h; rfl)⟩
      · rw [if_neg hc]
        refine ⟨(fun h => by cases h), fun h => ?_⟩
        have : instanceBody limits (storeMachine (fmt R)) s = .panic := by
          unfold instanceBody sane
          rw [Bool.not_eq_true] at hc
          rw [hc]
          rfl
        rw [this] at h
        cases h

theorem instantiateFile_none (R : Rest X) (limits : UserLimits) (input : Bytes) : instantiateFile R limits input = .ok none ↔
    ∃ v T, IsFont input v T ∧ Openable T ∧ T tagFvar = none := by
  have hsim : ∀ {tables : List (Tag × Bytes)}, BMap.Sorted tables →
      RelR Rep (openTables (storeMachine (fmt R)) (Store.fresh tables)) (openTables (indepMachine (fmt R)) (Indep.fresh tables)) :=
    fun hs => sim_openTables (sim_indep (fmt R)) (rep_fresh (V := Val X) _ hs)
  constructor
  · intro h
    unfold instantiateFile at h
    cases hr : Font.readTables (Rd.new input) with
    | err => rw [hr] at h; cases h
    | panic => rw [hr] at h; cases h
    | ok x =>
      obtain ⟨⟨v, tables⟩, r⟩ := x
      rw [hr] at h
      obtain ⟨s, h1, h⟩ := bind_eq_ok h
      have g := hsim (loads_facts hr).1
      rw [h1] at g
      cases ha : openTables (indepMachine (fmt R)) (Indep.fresh tables) with
      | err => rw [ha] at g; exact g.elim
      | panic => rw [ha] at g; exact g.elim
      | ok a =>
        rw [ha] at g
        obtain ⟨g1, g2⟩ := open_stands (T := fun t => BMap.get? tables t) ha (fun _ => rfl)
        refine ⟨v, _, ⟨tables, r, hr, fun _ => rfl⟩, g1, ?_⟩
        rw [sim_contains (sim_indep (fmt R)) g, contains_iff g2] at h
        cases hT : BMap.get? tables tagFvar with
        | none => rfl
        | some b =>
          rw [hT] at h
          obtain ⟨_, _, h⟩ := bind_eq_ok h
          obtain ⟨_, _, h⟩ := bind_eq_ok h
          cases h
  · rintro ⟨v, T, ⟨tables, r, hr, eT⟩, g1, hT⟩
    unfold instantiateFile
    rw [hr]
    simp only
    obtain ⟨a, e2, g2⟩ := open_ok (fmt R) g1 eT
    have g := hsim (loads_facts hr).1
    rw [e2] at g
    cases hb : openTables (storeMachine (fmt R)) (Store.fresh tables) with
    | err => rw [hb] at g; exact g.elim
    | panic => rw [hb] at g; exact g.elim
    | ok s =>
      rw [hb] at g
      rw [Res.ok_bind, sim_contains (sim_indep (fmt R)) g, contains_iff g2, hT]
      rfl

end

end FT.Cli
