import Verif.Model.Cli
import Verif.Props.FontSave

/-! Opening and saving in the command line tools. -/

namespace FT.Cli
open FT FT.Store FT.Save FT.Tables FT.Props

/-- What the table `t` of a font with the given tables is read as. -/
inductive Means {G O : Type} (F : Fmt G O) (T : Tag → Option Bytes) : Tag → Loaded G O → Prop
  | plain {t : Tag} {b : Bytes} {v : Loaded G O} (h : T t = some b) (hd : dep t = none) (hp : Save.parse F t b none = .ok v) :
      Means F T t v
  | after {t d : Tag} {b : Bytes} {v w : Loaded G O} (h : T t = some b) (hd : dep t = some d) (hw : Means F T d w)
      (hp : Save.parse F t b (some w) = .ok v) : Means F T t v

section
variable {G O : Type} {F : Fmt G O} {T : Tag → Option Bytes}

theorem Means.unique {t : Tag} {v : Loaded G O} (h : Means F T t v) : ∀ {w}, Means F T t w → v = w := by
  induction h with
  | plain h hd hp =>
    intro w h'
    cases h' with
    | plain h2 hd2 hp2 => rw [h] at h2; cases h2; rw [hp] at hp2; exact Res.ok.inj hp2
    | after h2 hd2 _ _ => rw [hd] at hd2; cases hd2
  | after h hd hw hp ih =>
    intro w h'
    cases h' with
    | plain h2 hd2 hp2 => rw [hd] at hd2; cases hd2
    | after h2 hd2 hw2 hp2 =>
      rw [h] at h2; cases h2
      rw [hd] at hd2; cases hd2
      obtain rfl := ih hw2
      rw [hp] at hp2; exact Res.ok.inj hp2

/-- One entry of a font in which nothing was replaced. -/
def Entry (F : Fmt G O) (T : Tag → Option Bytes) (t : Tag) (x : Option (Indep.Item (Loaded G O))) : Prop :=
  (T t = none ∧ x = none) ∨ ∃ b, T t = some b ∧ (x = some (.unloaded b) ∨ ∃ v, x = some (.loaded ⟨t, some b, v⟩) ∧ Means F T t v)

/-- A font in which nothing was replaced. -/
def Stands (F : Fmt G O) (T : Tag → Option Bytes) (a : ASt G O) : Prop := ∀ t, Entry F T t (a.store t)

theorem stands_fresh (tables : List (Tag × Bytes)) : Stands F (fun t => BMap.get? tables t) (Indep.fresh tables) := by
  intro t
  cases h : BMap.get? tables t with
  | none => exact .inl ⟨h, by simp [Indep.fresh, h]⟩
  | some b => exact .inr ⟨b, h, .inl (by simp [Indep.fresh, h])⟩

theorem entry_loaded {t : Tag} {tb : Indep.Table (Loaded G O)} {x : Option (Indep.Item (Loaded G O))} (h : Entry F T t x)
    (e : x = some (.loaded tb)) : tb.tag = t ∧ Means F T t tb.val ∧ T t ≠ none := by
  subst e
  rcases h with ⟨_, h⟩ | ⟨b, hb, h | ⟨v, h, hm⟩⟩
  · cases h
  · cases h
  · cases h; exact ⟨rfl, hm, by simp [hb]⟩

theorem entry_none {t : Tag} {x : Option (Indep.Item (Loaded G O))} (h : Entry F T t x) : x = none ↔ T t = none := by
  rcases h with ⟨h, rfl⟩ | ⟨b, hb, rfl | ⟨v, rfl, hm⟩⟩
  · simp [h]
  · simp [hb]
  · simp [hb]

theorem stands_finish {t : Tag} {b : Bytes} {d : Option (Loaded G O)} {a a' : ASt G O} {c : Bool} (ha : Stands F T a)
    (hm : ∀ v, Save.parse F t b d = .ok v → Means F T t v) (hb : T t = some b)
    (h : Indep.finish (parser F) t b d a = .ok (c, a')) :
    Stands F T a' ∧ (c = true → ∃ v, a'.store t = some (.loaded ⟨t, some b, v⟩) ∧ Means F T t v) := by
  unfold Indep.finish at h
  cases hp : (parser F).parse t b d with
  | err =>
    rw [hp] at h
    obtain ⟨rfl, rfl⟩ := Prod.mk.inj (Res.ok.inj h)
    exact ⟨ha, fun h => by cases h⟩
  | panic => rw [hp] at h; cases h
  | ok v =>
    rw [hp] at h
    obtain ⟨rfl, rfl⟩ := Prod.mk.inj (Res.ok.inj h)
    refine ⟨fun t' => ?_, fun _ => ⟨v, by simp [Indep.set], hm v hp⟩⟩
    simp only [Indep.set]
    split
    · next e => subst e; exact .inr ⟨b, hb, .inr ⟨v, rfl, hm v hp⟩⟩
    · exact ha t'

theorem stands_load : ∀ (fuel : Nat) (t : Tag) (a a' : ASt G O) (c : Bool), Stands F T a →
    Indep.load (parser F) fuel t a = .ok (c, a') →
    Stands F T a' ∧ (c = true → a'.store t = none ∨ ∃ b v, a'.store t = some (.loaded ⟨t, some b, v⟩) ∧ Means F T t v)
  | fuel, t, a, a', c, ha, h => by
    unfold Indep.load at h
    cases hs : a.store t with
    | none => rw [hs] at h; obtain ⟨_, rfl⟩ := Prod.mk.inj (Res.ok.inj h); exact ⟨ha, fun _ => .inl hs⟩
    | some x =>
      rw [hs] at h
      have he := ha t
      rw [hs] at he
      cases x with
      | loaded tb =>
        obtain ⟨_, rfl⟩ := Prod.mk.inj (Res.ok.inj h)
        rcases he with ⟨_, h⟩ | ⟨b, hb, h | ⟨v, h, hm⟩⟩
        · cases h
        · cases h
        · exact ⟨ha, fun _ => .inr ⟨b, v, by rw [hs, h], hm⟩⟩
      | unloaded b =>
        have hb : T t = some b := by
          rcases he with ⟨_, h⟩ | ⟨b', hb, h | ⟨v, h, hm⟩⟩
          · cases h
          · cases h; exact hb
          · cases h
        simp only at h
        cases hd : (parser F).dep t with
        | none =>
          rw [hd] at h
          obtain ⟨h1, h2⟩ := stands_finish ha (fun v hv => .plain hb hd hv) hb h
          exact ⟨h1, fun hc => .inr (by obtain ⟨v, e, hm⟩ := h2 hc; exact ⟨b, v, e, hm⟩)⟩
        | some d =>
          rw [hd] at h
          simp only at h
          cases fuel with
          | zero => cases h
          | succ fuel =>
            simp only at h
            cases hl : Indep.load (parser F) fuel d a with
            | err => rw [hl] at h; cases h
            | panic => rw [hl] at h; cases h
            | ok r =>
              obtain ⟨c1, a1⟩ := r
              rw [hl] at h
              obtain ⟨g1, g2⟩ := stands_load fuel d a a1 c1 ha hl
              cases c1 with
              | false =>
                obtain ⟨rfl, rfl⟩ := Prod.mk.inj (Res.ok.inj h)
                exact ⟨g1, fun h => by cases h⟩
              | true =>
                simp only at h
                cases hv : Indep.valueAt a1 d with
                | none =>
                  rw [hv] at h
                  obtain ⟨rfl, rfl⟩ := Prod.mk.inj (Res.ok.inj h)
                  exact ⟨g1, fun h => by cases h⟩
                | some w =>
                  rw [hv] at h
                  have hw : Means F T d w := by
                    rcases g2 rfl with e | ⟨b', v', e, hm⟩
                    · simp [Indep.valueAt, e] at hv
                    · simp only [Indep.valueAt, e, Option.some.injEq] at hv; exact hv ▸ hm
                  obtain ⟨h1, h2⟩ := stands_finish g1 (fun v hv => .after hb hd hw hv) hb h
                  exact ⟨h1, fun hc => .inr (by obtain ⟨v, e, hm⟩ := h2 hc; exact ⟨b, v, e, hm⟩)⟩

/-- How many tables have to be read before. -/
def rank (t : Tag) : Nat :=
  if t = tagGvar then 3 else if t = tagGlyf then 2
  else if t = tagGPOS ∨ t = tagGSUB ∨ t = tagHmtx ∨ t = tagLoca then 1 else 0

theorem dep_rank {t d : Tag} (h : dep t = some d) : rank d + 1 ≤ rank t := by
  unfold dep at h
  split at h
  · next e => cases h; rcases e with rfl | rfl <;> decide
  · split at h
    · next e => cases h; subst e; decide
    · split at h
      · next e => cases h; subst e; decide
      · split at h
        · next e => cases h; subst e; decide
        · split at h
          · next e => cases h; subst e; decide
          · cases h

theorem load_ok {t : Tag} {v : Loaded G O} (h : Means F T t v) : ∀ (fuel : Nat) (a : ASt G O), rank t ≤ fuel → Stands F T a →
    ∃ a' b, Indep.load (parser F) fuel t a = .ok (true, a') ∧ a'.store t = some (.loaded ⟨t, some b, v⟩) := by
  have key : ∀ {t : Tag} {v : Loaded G O} (fuel : Nat) (a : ASt G O), Means F T t v → Stands F T a →
      (∃ b, a.store t = some (.unloaded b) ∧ T t = some b) ∨
      ∃ b, Indep.load (parser F) fuel t a = .ok (true, a) ∧ a.store t = some (.loaded ⟨t, some b, v⟩) := by
    intro t v fuel a hm ha
    have hn : T t ≠ none := by cases hm <;> simp_all
    rcases ha t with ⟨h1, _⟩ | ⟨b, hb, h1 | ⟨w, h1, hw⟩⟩
    · exact absurd h1 hn
    · exact .inl ⟨b, h1, hb⟩
    · obtain rfl := hm.unique hw
      exact .inr ⟨b, by unfold Indep.load; rw [h1], h1⟩
  induction h with
  | @plain t b v h hd hp =>
    intro fuel a _ ha
    rcases key fuel a (.plain h hd hp) ha with ⟨b', h1, h2⟩ | ⟨b', h1, h2⟩
    · rw [h] at h2; cases h2
      refine ⟨{ a with store := Indep.set a.store t (some (.loaded ⟨t, some b, v⟩)) }, b, ?_, ?_⟩
      · unfold Indep.load
        rw [h1]
        simp only [show (parser F).dep t = none from hd, Indep.finish, show (parser F).parse t b none = .ok v from hp]
      · simp [Indep.set]
    · exact ⟨a, b', h1, h2⟩
  | @after t d b v w h hd hw hp ih =>
    intro fuel a hf ha
    rcases key fuel a (.after h hd hw hp) ha with ⟨b', h1, h2⟩ | ⟨b', h1, h2⟩
    · rw [h] at h2; cases h2
      have := dep_rank hd
      obtain ⟨k, rfl⟩ : ∃ k, fuel = k + 1 := ⟨fuel - 1, by omega⟩
      obtain ⟨a1, b1, e1, e2⟩ := ih k a (by omega) ha
      refine ⟨{ a1 with store := Indep.set a1.store t (some (.loaded ⟨t, some b, v⟩)) }, b, ?_, ?_⟩
      · unfold Indep.load
        rw [h1]
        simp only [show (parser F).dep t = some d from hd, e1, Indep.valueAt, e2, Indep.finish,
          show (parser F).parse t b (some w) = .ok v from hp]
      · simp [Indep.set]
    · exact ⟨a, b', h1, h2⟩

theorem rank_le (t : Tag) : rank t ≤ 4 := by unfold rank; split <;> [omega; (split <;> [omega; (split <;> omega)])]

/-- What opening a table gives. -/
theorem access_stands {t : Tag} {a a' : ASt G O} {j : Option Nat} (ha : Stands F T a)
    (h : access (indepMachine F) t a = .ok (j, a')) :
    Stands F T a' ∧ ((j = none ∧ a'.vars = a.vars ∧ T t = none) ∨
      ∃ v, j = some a.vars.length ∧ Means F T t v ∧ a'.vars = a.vars ++ [some (.cow t v)]) := by
  have hst : Stands F T a' := by
    unfold access at h
    simp only [indepMachine, Indep.step, Indep.getAs] at h
    cases hl : Indep.load (parser F) 4 t a with
    | err => rw [hl] at h; cases h
    | panic => rw [hl] at h; cases h
    | ok r =>
      obtain ⟨c, a1⟩ := r
      rw [hl] at h
      obtain ⟨g1, _⟩ := stands_load 4 t a a1 c ha hl
      cases c with
      | false => cases h
      | true =>
        simp only at h
        split at h <;> rename_i e <;> cases h' : a1.store t with
        | none => rw [h'] at e; cases e <;> cases h <;> exact g1
        | some x => cases x <;> rw [h'] at e <;> cases e <;> cases h <;> exact g1
  obtain ⟨_, _, h3⟩ := access_ok h
  refine ⟨hst, ?_⟩
  rcases h3 with ⟨rfl, h1, h2, h4⟩ | ⟨rfl, tb, h1, h2⟩
  · exact .inl ⟨rfl, h1, (entry_none (hst t)).mp h4⟩
  · obtain ⟨e1, e2, e3⟩ := entry_loaded (hst t) h1
    refine .inr ⟨tb.val, rfl, e2, ?_⟩
    rw [h2, Indep.asCow, e1]

theorem access_means {t : Tag} {v : Loaded G O} {a : ASt G O} (ha : Stands F T a) (h : Means F T t v) :
    ∃ a', access (indepMachine F) t a = .ok (some a.vars.length, a') ∧ Stands F T a' ∧
      a'.vars = a.vars ++ [some (.cow t v)] := by
  obtain ⟨a1, b, e1, e2⟩ := load_ok h 4 a (rank_le t) ha
  have : access (indepMachine F) t a = .ok (some a.vars.length, { a1 with vars := a1.vars ++ [some (.cow t v)] }) := by
    unfold access
    simp only [indepMachine, Indep.step, Indep.getAs, e1, e2, Indep.asCow]
  refine ⟨_, this, (access_stands ha this).1, ?_⟩
  simp only [(load_evolves (parser F) t 4 t a a1 true e1).2]

theorem access_absent {t : Tag} {a : ASt G O} (ha : Stands F T a) (h : T t = none) :
    access (indepMachine F) t a = .ok (none, a) := by
  have : a.store t = none := (entry_none (ha t)).mpr h
  unfold access
  simp only [indepMachine, Indep.step, Indep.getAs, Indep.load, this]

theorem stands_of_store {a a' : ASt G O} (h : a'.store = a.store) (ha : Stands F T a) : Stands F T a' := by
  intro t; rw [h]; exact ha t

theorem preload_stands {t : Tag} {a a' : ASt G O} (ha : Stands F T a) (h : preload (indepMachine F) t a = .ok a') :
    Stands F T a' ∧ (T t = none ∨ ∃ v, Means F T t v) := by
  unfold preload at h
  cases hs : (indepMachine F).step (.get t) a with
  | err => rw [hs] at h; cases h
  | panic => rw [hs] at h; cases h
  | ok r =>
    obtain ⟨o, a1⟩ := r
    rw [hs] at h
    simp only [indepMachine, Indep.step, Indep.getAs] at hs
    cases hl : Indep.load (parser F) 4 t a with
    | err => rw [hl] at hs; cases hs
    | panic => rw [hl] at hs; cases hs
    | ok r =>
      obtain ⟨c, a2⟩ := r
      rw [hl] at hs
      obtain ⟨g1, g2⟩ := stands_load 4 t a a2 c ha hl
      cases c with
      | false => cases hs; cases h
      | true =>
        simp only at hs
        rcases g2 rfl with e | ⟨b, v, e, hm⟩
        · rw [e] at hs
          cases hs
          cases h
          exact ⟨g1, .inl ((entry_none (g1 t)).mp e)⟩
        · rw [e] at hs
          cases hs
          cases h
          exact ⟨stands_of_store rfl g1, .inr ⟨v, hm⟩⟩

theorem preload_ok {t : Tag} {a : ASt G O} (ha : Stands F T a) (h : T t = none ∨ ∃ v, Means F T t v) :
    ∃ a', preload (indepMachine F) t a = .ok a' ∧ Stands F T a' := by
  suffices ∃ a', preload (indepMachine F) t a = .ok a' by
    obtain ⟨a', e⟩ := this
    exact ⟨a', e, (preload_stands ha e).1⟩
  rcases h with h | ⟨v, h⟩
  · have : a.store t = none := (entry_none (ha t)).mpr h
    unfold preload
    simp only [indepMachine, Indep.step, Indep.getAs, Indep.load, this]
    exact ⟨_, rfl⟩
  · obtain ⟨a1, b, e1, e2⟩ := load_ok h 4 a (rank_le t) ha
    unfold preload
    simp only [indepMachine, Indep.step, Indep.getAs, e1, e2]
    exact ⟨_, rfl⟩

end

/-! ### Simulation -/

section
variable {V S U : Type} {M : Machine V S} {N : Machine V U} {R : S → U → Prop} (hS : Sim M N R)
include hS

theorem sim_preload (t : Tag) {s : S} {a : U} (h : R s a) : RelR R (preload M t s) (preload N t a) := by
  have h1 := hS.step (.get t) s a h
  unfold preload
  revert h1
  cases M.step (.get t) s with
  | ok x => cases N.step (.get t) a with
    | ok y =>
      obtain ⟨o, s'⟩ := x
      obtain ⟨o', a'⟩ := y
      rintro ⟨e, h2⟩
      obtain rfl : o = o' := e
      cases o with
      | done => rw [hS.next s a h]; exact sim_exec hS _ h2
      | failed => trivial
      | absent => exact h2
      | value => exact h2
      | wrote => exact h2
    | _ => exact fun h => h.elim
  | err => cases N.step (.get t) a with
    | err => exact fun _ => trivial
    | _ => exact fun h => h.elim
  | panic => cases N.step (.get t) a with
    | panic => exact fun _ => trivial
    | _ => exact fun h => h.elim

theorem sim_openTables {s : S} {a : U} (h : R s a) : RelR R (openTables M s) (openTables N a) :=
  (sim_preload hS _ h).bind fun _ _ h1 => sim_preload hS _ h1

theorem sim_contains {s : S} {a : U} (h : R s a) (t : Tag) : contains M s t = contains N a t := by
  unfold contains
  rw [hS.isSer s a h]

theorem sim_require (t : Tag) {s : S} {a : U} (h : R s a) :
    RelR (fun x y => x.1 = y.1 ∧ R x.2 y.2) (require M t s) (require N t a) := by
  refine (sim_access hS _ h).bind ?_
  rintro ⟨j, s1⟩ ⟨j', a1⟩ ⟨e, h1⟩
  obtain rfl : j = j' := e
  cases j with
  | none => trivial
  | some j => exact ⟨rfl, h1⟩

end

end FT.Cli
