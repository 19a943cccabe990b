import Verif.Lemmas.CliGvar

/-! Opening tables of a font of which other tables have been replaced. -/

namespace FT.Cli
open FT FT.Store FT.Save FT.Tables FT.Glyf FT.Props

section
variable {G O : Type} {F : Fmt G O} {T : Tag → Option Bytes} {P : Tag → Prop}

/-- The tables in `P` were not replaced. -/
def StandsOn (P : Tag → Prop) (F : Fmt G O) (T : Tag → Option Bytes) (a : ASt G O) : Prop := ∀ t, P t → Entry F T t (a.store t)

/-- Reading these tables needs no others. -/
def Closed (P : Tag → Prop) : Prop := ∀ t d, P t → dep t = some d → P d

theorem on_finish {t : Tag} {b : Bytes} {d : Option (Loaded G O)} {a a' : ASt G O} {c : Bool} (ha : StandsOn P F T a)
    (hm : ∀ v, Save.parse F t b d = .ok v → Means F T t v) (hb : T t = some b)
    (h : Indep.finish (parser F) t b d a = .ok (c, a')) :
    StandsOn P F T a' ∧ (c = true → ∃ v, a'.store t = some (.loaded ⟨t, some b, v⟩) ∧ Means F T t v) := by
  unfold Indep.finish at h
  cases hp : (parser F).parse t b d with
  | err =>
    rw [hp] at h
    obtain ⟨rfl, rfl⟩ := Prod.mk.inj (Res.ok.inj h)
    exact ⟨ha, fun h => by cases h⟩
  | panic => rw [hp] at h; cases h
  | ok v =>
    rw [hp] at h
    obtain ⟨rfl, rfl⟩ := Prod.mk.inj (Res.ok.inj h)
    refine ⟨fun t' hp' => ?_, fun _ => ⟨v, by simp [Indep.set], hm v hp⟩⟩
    simp only [Indep.set]
    split
    · next e => subst e; exact .inr ⟨b, hb, .inr ⟨v, rfl, hm v hp⟩⟩
    · exact ha t' hp'

theorem on_load (hP : Closed P) : ∀ (fuel : Nat) (t : Tag) (a a' : ASt G O) (c : Bool), P t → StandsOn P F T a →
    Indep.load (parser F) fuel t a = .ok (c, a') →
    StandsOn P F T a' ∧ (c = true → a'.store t = none ∨ ∃ b v, a'.store t = some (.loaded ⟨t, some b, v⟩) ∧ Means F T t v)
  | fuel, t, a, a', c, ht, ha, h => by
    unfold Indep.load at h
    cases hs : a.store t with
    | none => rw [hs] at h; obtain ⟨_, rfl⟩ := Prod.mk.inj (Res.ok.inj h); exact ⟨ha, fun _ => .inl hs⟩
    | some x =>
      rw [hs] at h
      have he := ha t ht
      rw [hs] at he
      cases x with
      | loaded tb =>
        obtain ⟨_, rfl⟩ := Prod.mk.inj (Res.ok.inj h)
        rcases he with ⟨_, h⟩ | ⟨b, hb, h | ⟨v, h, hm⟩⟩
        · cases h
        · cases h
        · exact ⟨ha, fun _ => .inr ⟨b, v, by rw [hs, h], hm⟩⟩
      | unloaded b =>
        have hb : T t = some b := by
          rcases he with ⟨_, h⟩ | ⟨b', hb, h | ⟨v, h, hm⟩⟩
          · cases h
          · cases h; exact hb
          · cases h
        simp only at h
        cases hd : (parser F).dep t with
        | none =>
          rw [hd] at h
          obtain ⟨h1, h2⟩ := on_finish ha (fun v hv => .plain hb hd hv) hb h
          exact ⟨h1, fun hc => .inr (by obtain ⟨v, e, hm⟩ := h2 hc; exact ⟨b, v, e, hm⟩)⟩
        | some d =>
          rw [hd] at h
          simp only at h
          cases fuel with
          | zero => cases h
          | succ fuel =>
            simp only at h
            cases hl : Indep.load (parser F) fuel d a with
            | err => rw [hl] at h; cases h
            | panic => rw [hl] at h; cases h
            | ok r =>
              obtain ⟨c1, a1⟩ := r
              rw [hl] at h
              obtain ⟨g1, g2⟩ := on_load hP fuel d a a1 c1 (hP t d ht hd) ha hl
              cases c1 with
              | false =>
                obtain ⟨rfl, rfl⟩ := Prod.mk.inj (Res.ok.inj h)
                exact ⟨g1, fun h => by cases h⟩
              | true =>
                simp only at h
                cases hv : Indep.valueAt a1 d with
                | none =>
                  rw [hv] at h
                  obtain ⟨rfl, rfl⟩ := Prod.mk.inj (Res.ok.inj h)
                  exact ⟨g1, fun h => by cases h⟩
                | some w =>
                  rw [hv] at h
                  have hw : Means F T d w := by
                    rcases g2 rfl with e | ⟨b', v', e, hm⟩
                    · simp [Indep.valueAt, e] at hv
                    · simp only [Indep.valueAt, e, Option.some.injEq] at hv; exact hv ▸ hm
                  obtain ⟨h1, h2⟩ := on_finish g1 (fun v hv => .after hb hd hw hv) hb h
                  exact ⟨h1, fun hc => .inr (by obtain ⟨v, e, hm⟩ := h2 hc; exact ⟨b, v, e, hm⟩)⟩

theorem on_load_ok (hP : Closed P) {t : Tag} {v : Loaded G O} (h : Means F T t v) : ∀ (fuel : Nat) (a : ASt G O), P t → rank t ≤ fuel → StandsOn P F T a →
    ∃ a' b, Indep.load (parser F) fuel t a = .ok (true, a') ∧ a'.store t = some (.loaded ⟨t, some b, v⟩) := by
  have key : ∀ {t : Tag} {v : Loaded G O} (fuel : Nat) (a : ASt G O), Means F T t v → P t → StandsOn P F T a →
      (∃ b, a.store t = some (.unloaded b) ∧ T t = some b) ∨
      ∃ b, Indep.load (parser F) fuel t a = .ok (true, a) ∧ a.store t = some (.loaded ⟨t, some b, v⟩) := by
    intro t v fuel a hm ht ha
    have hn : T t ≠ none := by cases hm <;> simp_all
    rcases ha t ht with ⟨h1, _⟩ | ⟨b, hb, h1 | ⟨w, h1, hw⟩⟩
    · exact absurd h1 hn
    · exact .inl ⟨b, h1, hb⟩
    · obtain rfl := hm.unique hw
      exact .inr ⟨b, by unfold Indep.load; rw [h1], h1⟩
  induction h with
  | @plain t b v h hd hp =>
    intro fuel a ht _ ha
    rcases key fuel a (.plain h hd hp) ht ha with ⟨b', h1, h2⟩ | ⟨b', h1, h2⟩
    · rw [h] at h2; cases h2
      refine ⟨{ a with store := Indep.set a.store t (some (.loaded ⟨t, some b, v⟩)) }, b, ?_, ?_⟩
      · unfold Indep.load
        rw [h1]
        simp only [show (parser F).dep t = none from hd, Indep.finish, show (parser F).parse t b none = .ok v from hp]
      · simp [Indep.set]
    · exact ⟨a, b', h1, h2⟩
  | @after t d b v w h hd hw hp ih =>
    intro fuel a ht hf ha
    rcases key fuel a (.after h hd hw hp) ht ha with ⟨b', h1, h2⟩ | ⟨b', h1, h2⟩
    · rw [h] at h2; cases h2
      have := dep_rank hd
      obtain ⟨k, rfl⟩ : ∃ k, fuel = k + 1 := ⟨fuel - 1, by omega⟩
      obtain ⟨a1, b1, e1, e2⟩ := ih k a (hP t d ht hd) (by omega) ha
      refine ⟨{ a1 with store := Indep.set a1.store t (some (.loaded ⟨t, some b, v⟩)) }, b, ?_, ?_⟩
      · unfold Indep.load
        rw [h1]
        simp only [show (parser F).dep t = some d from hd, e1, Indep.valueAt, e2, Indep.finish,
          show (parser F).parse t b (some w) = .ok v from hp]
      · simp [Indep.set]
    · exact ⟨a, b', h1, h2⟩

/-- What opening a table gives. -/
theorem access_on (hP : Closed P) {t : Tag} (ht : P t) {a a' : ASt G O} {j : Option Nat} (ha : StandsOn P F T a)
    (h : access (indepMachine F) t a = .ok (j, a')) :
    StandsOn P F T a' ∧ ((j = none ∧ a'.vars = a.vars ∧ T t = none) ∨
      ∃ v, j = some a.vars.length ∧ Means F T t v ∧ a'.vars = a.vars ++ [some (.cow t v)]) := by
  have hst : StandsOn P F T a' := by
    unfold access at h
    simp only [indepMachine, Indep.step, Indep.getAs] at h
    cases hl : Indep.load (parser F) 4 t a with
    | err => rw [hl] at h; cases h
    | panic => rw [hl] at h; cases h
    | ok r =>
      obtain ⟨c, a1⟩ := r
      rw [hl] at h
      obtain ⟨g1, _⟩ := on_load hP 4 t a a1 c ht ha hl
      cases c with
      | false => cases h
      | true =>
        simp only at h
        split at h <;> rename_i e <;> cases h' : a1.store t with
        | none => rw [h'] at e; cases e <;> cases h <;> exact g1
        | some x => cases x <;> rw [h'] at e <;> cases e <;> cases h <;> exact g1
  obtain ⟨_, _, h3⟩ := access_ok h
  refine ⟨hst, ?_⟩
  rcases h3 with ⟨rfl, h1, h2, h4⟩ | ⟨rfl, tb, h1, h2⟩
  · exact .inl ⟨rfl, h1, (entry_none (hst t ht)).mp h4⟩
  · obtain ⟨e1, e2, e3⟩ := entry_loaded (hst t ht) h1
    refine .inr ⟨tb.val, rfl, e2, ?_⟩
    rw [h2, Indep.asCow, e1]

theorem access_on_means (hP : Closed P) {t : Tag} (ht : P t) {v : Loaded G O} {a : ASt G O} (ha : StandsOn P F T a) (h : Means F T t v) :
    ∃ a', access (indepMachine F) t a = .ok (some a.vars.length, a') ∧ StandsOn P F T a' ∧
      a'.vars = a.vars ++ [some (.cow t v)] := by
  obtain ⟨a1, b, e1, e2⟩ := on_load_ok hP h 4 a ht (rank_le t) ha
  have : access (indepMachine F) t a = .ok (some a.vars.length, { a1 with vars := a1.vars ++ [some (.cow t v)] }) := by
    unfold access
    simp only [indepMachine, Indep.step, Indep.getAs, e1, e2, Indep.asCow]
  refine ⟨_, this, (access_on hP ht ha this).1, ?_⟩
  simp only [(load_evolves (parser F) t 4 t a a1 true e1).2]

theorem access_on_absent {t : Tag} (ht : P t) {a : ASt G O} (ha : StandsOn P F T a) (h : T t = none) :
    access (indepMachine F) t a = .ok (none, a) := by
  have : a.store t = none := (entry_none (ha t ht)).mpr h
  unfold access
  simp only [indepMachine, Indep.step, Indep.getAs, Indep.load, this]


end

end FT.Cli
