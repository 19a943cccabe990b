import Verif.Model.CliCrunch
import Verif.Lemmas.CliGlyphs
import Verif.Lemmas.CliInstSpec

/-!
`fontcrunch` on a file.
-/

namespace FT.Cli
open FT FT.Store FT.Save FT.Tables FT.Glyf FT.Props FT.Crunch

variable {X : Type} {R : Rest X} {T : Tag → Option Bytes} {opt : Optimiser} {quads : Pt → Pt → Pt → Pt → List (Pt × Pt)}

/-- The names of the glyphs, if there are any. -/
def NamesAre (T : Tag → Option Bytes) (names : Option (List String)) : Prop :=
  (T tagPost = none ∧ names = none) ∨ ∃ p, PostIs T p ∧ names = p.glyphnames

theorem names_fwd {a a' : AStore X} {names : Option (List String)} (ha : Stands (fmt R) T a) (h : namesIn (indepMachine (fmt R)) a = .ok (names, a')) :
    NamesAre T names ∧ Stands (fmt R) T a' := by
  unfold namesIn at h
  obtain ⟨⟨i, a1⟩, h1, h⟩ := bind_eq_ok h
  obtain ⟨g1, g2⟩ := access_stands ha h1
  rcases g2 with ⟨rfl, _, g3⟩ | ⟨v, rfl, g3, g4⟩
  · cases h
    exact ⟨.inl ⟨g3, rfl⟩, g1⟩
  · obtain ⟨p, e, rfl⟩ := means_post.mp g3
    obtain ⟨w, h2, h3⟩ := bind_eq_ok h
    rw [valueOf_last (var_last g4)] at h2
    cases h2
    cases h3
    exact ⟨.inr ⟨p, e, rfl⟩, g1⟩

theorem names_bwd {a : AStore X} {names : Option (List String)} (ha : Stands (fmt R) T a) (h : NamesAre T names) :
    ∃ a', namesIn (indepMachine (fmt R)) a = .ok (names, a') ∧ Stands (fmt R) T a' := by
  rcases h with ⟨h, rfl⟩ | ⟨p, h, rfl⟩
  · refine ⟨a, ?_, ha⟩
    unfold namesIn
    rw [access_absent ha h]
    rfl
  · obtain ⟨a1, e1, e2, e3⟩ := access_means ha (means_post.mpr ⟨p, h, rfl⟩)
    refine ⟨a1, ?_, e2⟩
    unfold namesIn
    rw [e1, Res.ok_bind]
    simp only
    rw [valueOf_last (var_last e3), Res.ok_bind]
    rfl

theorem crunch_fwd {a a' : AStore X} (ha : Stands (fmt R) T a) (h : crunchBody opt quads (indepMachine (fmt R)) a = .ok a') :
    ∃ names, NamesAre T names ∧ ((T tagGlyf = none ∧ Stands (fmt R) T a') ∨
      ∃ gs new, GlyfIs T gs ∧ crunchFrom opt quads names 0 gs = .ok new ∧ OnlyGlyf (fmt R) T new a') := by
  unfold crunchBody at h
  obtain ⟨⟨names, a0⟩, h0, h⟩ := bind_eq_ok h
  obtain ⟨hn, s0⟩ := names_fwd ha h0
  refine ⟨names, hn, ?_⟩
  obtain ⟨⟨i, a1⟩, h1, h⟩ := bind_eq_ok h
  obtain ⟨g1, g2⟩ := access_stands s0 h1
  rcases g2 with ⟨rfl, _, g3⟩ | ⟨v, rfl, m1, w1⟩
  · cases h
    exact .inl ⟨g3, g1⟩
  right
  obtain ⟨gs, eg, rfl⟩ := means_glyf.mp m1
  obtain ⟨x, h2, h⟩ := bind_eq_ok h
  unfold glyphsOf at h2
  rw [valueOf_last (var_last w1)] at h2
  cases h2
  obtain ⟨new, h3, h⟩ := bind_eq_ok h
  obtain ⟨a2, h4, h5⟩ := bind_eq_ok h
  obtain ⟨s4, v4⟩ := exec_modify h4
  have hs := exec_insertHolder (v4 _ _ (var_last w1)) h5
  refine ⟨gs, new, eg, h3, onlyGlyf_of ?_ fun t ht => ?_⟩
  · rw [hs]; simp [Indep.set]
  · rw [hs, Indep.set, if_neg ht, s4]
    exact g1 t

theorem crunch_bwd {a : AStore X} (ha : Stands (fmt R) T a) {names : Option (List String)} (hn : NamesAre T names)
    (h : T tagGlyf = none ∨ ∃ gs new, GlyfIs T gs ∧ crunchFrom opt quads names 0 gs = .ok new) :
    ∃ a', crunchBody opt quads (indepMachine (fmt R)) a = .ok a' := by
  obtain ⟨a0, e0, s0⟩ := names_bwd ha hn
  unfold crunchBody
  rw [e0, Res.ok_bind]
  simp only
  rcases h with h | ⟨gs, new, hg, hf⟩
  · rw [access_absent s0 h]
    exact ⟨_, rfl⟩
  obtain ⟨a1, h1, g1, w1⟩ := access_means (F := fmt R) s0 (means_glyf.mpr ⟨gs, hg, rfl⟩)
  obtain ⟨a2, h2⟩ := exec_modify_cow (fmt R) a1 a0.vars.length (fun _ => .glyf new) (var_last w1)
  obtain ⟨a3, h3⟩ := exec_insert_cow (fmt R) a2 a0.vars.length ((exec_modify h2).2 _ _ (var_last w1))
  refine ⟨a3, ?_⟩
  rw [h1, Res.ok_bind]
  simp only
  have v1 : glyphsOf (indepMachine (fmt R)) a0.vars.length a1 = .ok gs := by
    unfold glyphsOf
    rw [valueOf_last (var_last w1)]
    rfl
  rw [v1, Res.ok_bind, hf, Res.ok_bind, h2, Res.ok_bind, h3]

theorem sim_crunch (s : Store.St (Val X)) (a : AStore X) (h : Rep s a) :
    RelR Rep (crunchBody opt quads (storeMachine (fmt R)) s) (crunchBody opt quads (indepMachine (fmt R)) a) := by
  have hS := sim_indep (fmt R)
  unfold crunchBody
  refine RelR.bind (R := fun x y => x.1 = y.1 ∧ Rep x.2 y.2) ?_ ?_
  · unfold namesIn
    refine (sim_access hS _ h).bind ?_
    rintro ⟨i, s2⟩ ⟨j, a2⟩ ⟨e, h2⟩
    obtain rfl : i = j := e
    cases i with
    | none => exact ⟨rfl, h2⟩
    | some i =>
      refine (sim_valueOf hS i h2).bind ?_
      rintro v _ rfl
      cases v with
      | other t x => cases x <;> first | exact ⟨rfl, h2⟩ | trivial
      | _ => trivial
  · rintro ⟨names, s2⟩ ⟨_, a2⟩ ⟨e, h2⟩
    obtain rfl : names = _ := e
    refine (sim_access hS _ h2).bind ?_
    rintro ⟨i, s1⟩ ⟨j, a1⟩ ⟨e, k1⟩
    obtain rfl : i = j := e
    cases i with
    | none => exact k1
    | some i =>
      refine RelR.bind (R := fun x y => x = y) ?_ ?_
      · unfold glyphsOf
        refine (sim_valueOf hS i k1).bind ?_
        rintro v _ rfl
        exact RelR.eq _
      rintro gs _ rfl
      refine (RelR.eq _).bind ?_
      rintro flat _ rfl
      refine (sim_exec hS _ k1).bind ?_
      intro s2 a2 k2
      exact sim_exec hS _ k2

/-- The body for a font with or without variations. -/
def guardedCrunch (opt : Optimiser) (quads : Pt → Pt → Pt → Pt → List (Pt × Pt)) {S : Type} (M : Machine (Val X) S) (s : S) : Res S :=
  if contains M s tagGvar then .panic else crunchBody opt quads M s

theorem sim_guardedCrunch (s : Store.St (Val X)) (a : AStore X) (h : Rep s a) :
    RelR Rep (guardedCrunch opt quads (storeMachine (fmt R)) s) (guardedCrunch opt quads (indepMachine (fmt R)) a) := by
  unfold guardedCrunch
  rw [sim_contains (sim_indep (fmt R)) h]
  by_cases hc : contains (indepMachine (fmt R)) a tagGvar = true
  · rw [if_pos hc, if_pos hc]
    trivial
  · rw [if_neg hc, if_neg hc]
    exact sim_crunch s a h

theorem crunchFile_some (R : Rest X) (input out : Bytes) : crunchFile R opt quads input = .ok (some out) ↔
    tool R (guardedCrunch opt quads (storeMachine (fmt R))) input = .ok out := by
  unfold crunchFile tool guardedCrunch
  cases Font.readTables (Rd.new input) with
  | err => simp
  | panic => simp
  | ok x =>
    obtain ⟨⟨v, tables⟩, r⟩ := x
    simp only
    cases openTables (storeMachine (fmt R)) (Store.fresh tables) with
    | err => exact ⟨(fun h => by cases h), (fun h => by cases h)⟩
    | panic => exact ⟨(fun h => by cases h), (fun h => by cases h)⟩
    | ok s =>
      rw [Res.ok_bind, Res.ok_bind]
      by_cases hc : contains (storeMachine (fmt R)) s tagGvar = true
      · rw [if_pos hc, if_pos hc]
        exact ⟨(fun h => by cases h), (fun h => by cases h)⟩
      · rw [if_neg hc, if_neg hc]
        cases crunchBody opt quads (storeMachine (fmt R)) s with
        | err => exact ⟨(fun h => by cases h), (fun h => by cases h)⟩
        | panic => exact ⟨(fun h => by cases h), (fun h => by cases h)⟩
        | ok s' =>
          rw [Res.ok_bind, Res.ok_bind]
          cases saveFont R v s' with
          | err => exact ⟨(fun h => by cases h), (fun h => by cases h)⟩
          | panic => exact ⟨(fun h => by cases h), (fun h => by cases h)⟩
          | ok b =>
            rw [Res.ok_bind]
            exact ⟨(fun h => by cases h; rfl), (fun h => by cases h; rfl)⟩

theorem crunchFile_none (R : Rest X) (input : Bytes) : crunchFile R opt quads input = .ok none ↔
    ∃ v T, IsFont input v T ∧ Openable T ∧ T tagGvar ≠ none := by
  have hsim : ∀ {tables : List (Tag × Bytes)}, BMap.Sorted tables →
      RelR Rep (openTables (storeMachine (fmt R)) (Store.fresh tables)) (openTables (indepMachine (fmt R)) (Indep.fresh tables)) :=
    fun hs => sim_openTables (sim_indep (fmt R)) (rep_fresh (V := Val X) _ hs)
  constructor
  · intro h
    unfold crunchFile at h
    cases hr : Font.readTables (Rd.new input) with
    | err => rw [hr] at h; cases h
    | panic => rw [hr] at h; cases h
    | ok x =>
      obtain ⟨⟨v, tables⟩, r⟩ := x
      rw [hr] at h
      obtain ⟨s, h1, h⟩ := bind_eq_ok h
      have g := hsim (loads_facts hr).1
      rw [h1] at g
      cases ha : openTables (indepMachine (fmt R)) (Indep.fresh tables) with
      | err => rw [ha] at g; exact g.elim
      | panic => rw [ha] at g; exact g.elim
      | ok a =>
        rw [ha] at g
        obtain ⟨g1, g2⟩ := open_stands (T := fun t => BMap.get? tables t) ha (fun _ => rfl)
        refine ⟨v, _, ⟨tables, r, hr, fun _ => rfl⟩, g1, fun hT => ?_⟩
        rw [sim_contains (sim_indep (fmt R)) g, contains_iff g2, hT] at h
        obtain ⟨_, _, h⟩ := bind_eq_ok h
        obtain ⟨_, _, h⟩ := bind_eq_ok h
        cases h
  · rintro ⟨v, T, ⟨tables, r, hr, eT⟩, g1, hT⟩
    unfold crunchFile
    rw [hr]
    simp only
    obtain ⟨a, e2, g2⟩ := open_ok (fmt R) g1 eT
    have g := hsim (loads_facts hr).1
    rw [e2] at g
    cases hb : openTables (storeMachine (fmt R)) (Store.fresh tables) with
    | err => rw [hb] at g; exact g.elim
    | panic => rw [hb] at g; exact g.elim
    | ok s =>
      rw [hb] at g
      obtain ⟨b, hT⟩ := Option.ne_none_iff_exists'.mp hT
      rw [Res.ok_bind, sim_contains (sim_indep (fmt R)) g, contains_iff g2, hT]
      rfl

theorem crunch_spec (R : Rest X) (opt : Optimiser) (quads : Pt → Pt → Pt → Pt → List (Pt × Pt)) (input out : Bytes) : crunchFile R opt quads input = .ok (some out) ↔
    ∃ v T names, IsFont input v T ∧ Openable T ∧ T tagGvar = none ∧ NamesAre T names ∧
      ((T tagGlyf = none ∧ (∃ m, MaxpIs T m) ∧ ∃ l, BMap.Sorted l ∧ (∀ t, BMap.get? l t = T t) ∧ Font.toBytes v l = .ok out) ∨
      ∃ gs new T' l, GlyfIs T gs ∧ crunchFrom opt quads names 0 gs = .ok new ∧ NewGlyphs (fmt R) new T T' ∧
        BMap.Sorted l ∧ (∀ t, BMap.get? l t = T' t) ∧ Font.toBytes v l = .ok out) := by
  rw [crunchFile_some]
  constructor
  · intro h
    obtain ⟨v, tables, r, a, a', s', e1, e2, e3, e4, e5⟩ := tool_ok (bodyA := guardedCrunch opt quads (indepMachine (fmt R))) sim_guardedCrunch h
    obtain ⟨g1, g2⟩ := open_stands (T := fun t => BMap.get? tables t) e2 (fun _ => rfl)
    unfold guardedCrunch at e3
    rw [contains_iff g2] at e3
    cases hv : BMap.get? tables tagGvar with
    | some b => rw [hv] at e3; cases e3
    | none =>
      rw [hv] at e3
      obtain ⟨names, hn, g⟩ := crunch_fwd g2 e3
      refine ⟨v, _, names, ⟨tables, r, e1, fun _ => rfl⟩, g1, hv, hn, ?_⟩
      rcases g with ⟨k1, k2⟩ | ⟨gs, new, k1, k2, k3⟩
      · exact .inl ⟨k1, (save_left e4 k2.left v out).mp e5⟩
      · obtain ⟨T', l, g6, g7, g8, g9⟩ := (save_glyphs e4 k3 v out).mp e5
        exact .inr ⟨gs, new, T', l, k1, k2, g6, g7, g8, g9⟩
  · rintro ⟨v, T, names, ⟨tables, r, e1, eT⟩, g1, hv, hn, g⟩
    obtain ⟨a, e2, g2⟩ := open_ok (fmt R) g1 eT
    have hguard : guardedCrunch opt quads (indepMachine (fmt R)) a = crunchBody opt quads (indepMachine (fmt R)) a := by
      unfold guardedCrunch
      rw [contains_iff g2, hv]
      rfl
    have huniq : ∀ {n}, NamesAre T n → n = names := by
      intro n h
      rcases h with ⟨h1, rfl⟩ | ⟨p, ⟨b, h1, h2⟩, rfl⟩
      · rcases hn with ⟨_, rfl⟩ | ⟨p, ⟨b, h3, _⟩, _⟩
        · rfl
        · rw [h1] at h3; cases h3
      · rcases hn with ⟨h3, _⟩ | ⟨p', ⟨b', h3, h4⟩, rfl⟩
        · rw [h1] at h3; cases h3
        · rw [h1] at h3; cases h3
          rw [h2] at h4; cases h4
          rfl
    rcases g with ⟨k1, k2⟩ | ⟨gs, new, T', l, k1, k2, k3, k4, k5, k6⟩
    · obtain ⟨a', e3⟩ := crunch_bwd (R := R) (opt := opt) (quads := quads) g2 hn (.inl k1)
      obtain ⟨n2, hn2, q⟩ := crunch_fwd g2 e3
      have hst : Stands (fmt R) T a' := by
        rcases q with ⟨_, q⟩ | ⟨gs, _, ⟨l, b, _, q, _⟩, _⟩
        · exact q
        · rw [k1] at q; cases q
      exact tool_of (bodyA := guardedCrunch opt quads (indepMachine (fmt R))) sim_guardedCrunch e1 e2 (hguard.trans e3)
        (fun s' hr => (save_left hr hst.left v out).mpr k2)
    · obtain ⟨a', e3⟩ := crunch_bwd (R := R) (opt := opt) (quads := quads) g2 hn (.inr ⟨gs, new, k1, k2⟩)
      obtain ⟨n2, hn2, q⟩ := crunch_fwd g2 e3
      obtain rfl := huniq hn2
      have hst : OnlyGlyf (fmt R) T new a' := by
        rcases q with ⟨q, _⟩ | ⟨gs', new', q1, q2, q3⟩
        · obtain ⟨_, _, _, k1, _⟩ := k1
          rw [q] at k1; cases k1
        · obtain rfl := k1.unique q1
          rw [k2] at q2
          cases q2
          exact q3
      exact tool_of (bodyA := guardedCrunch opt quads (indepMachine (fmt R))) sim_guardedCrunch e1 e2 (hguard.trans e3)
        (fun s' hr => (save_glyphs hr hst v out).mpr ⟨T', l, k3, k4, k5, k6⟩)

end FT.Cli
