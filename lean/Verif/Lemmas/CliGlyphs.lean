import Verif.Model.Overlap
import Verif.Lemmas.CliFlat

/-!
Tools which replace the glyphs of a font: `glyphBody`.
-/

namespace FT.Cli
open FT FT.Store FT.Save FT.Tables FT.Glyf FT.Props

variable {X : Type} {R : Rest X} {T : Tag → Option Bytes} {f : List Glyph → Res (List Glyph)}

theorem glyph_fwd {a a' : AStore X} (ha : Stands (fmt R) T a) (h : glyphBody f (indepMachine (fmt R)) a = .ok a') :
    ∃ gs flat, GlyfIs T gs ∧ f gs = .ok flat ∧ OnlyGlyf (fmt R) T flat a' := by
  unfold glyphBody at h
  obtain ⟨⟨i, a1⟩, h1, h⟩ := bind_eq_ok h
  obtain ⟨g1, v, m1, w1, rfl⟩ := require_stands ha h1
  obtain ⟨gs, eg, rfl⟩ := means_glyf.mp m1
  obtain ⟨x, h2, h⟩ := bind_eq_ok h
  unfold glyphsOf at h2
  rw [valueOf_last (var_last w1)] at h2
  cases h2
  obtain ⟨flat, h3, h⟩ := bind_eq_ok h
  obtain ⟨a2, h4, h5⟩ := bind_eq_ok h
  obtain ⟨s4, v4⟩ := exec_modify h4
  have hs := exec_insertHolder (v4 _ _ (var_last w1)) h5
  refine ⟨gs, flat, eg, h3, onlyGlyf_of ?_ fun t ht => ?_⟩
  · rw [hs]; simp [Indep.set]
  · rw [hs, Indep.set, if_neg ht, s4]
    exact g1 t

theorem glyph_bwd {a : AStore X} (ha : Stands (fmt R) T a) {gs flat : List Glyph} (hg : GlyfIs T gs) (hf : f gs = .ok flat) :
    ∃ a', glyphBody f (indepMachine (fmt R)) a = .ok a' := by
  obtain ⟨a1, h1, g1, w1⟩ := require_means (R := R) ha (means_glyf.mpr ⟨gs, hg, rfl⟩)
  obtain ⟨a2, h2⟩ := exec_modify_cow (fmt R) a1 a.vars.length (fun _ => .glyf flat) (var_last w1)
  obtain ⟨a3, h3⟩ := exec_insert_cow (fmt R) a2 a.vars.length ((exec_modify h2).2 _ _ (var_last w1))
  refine ⟨a3, ?_⟩
  unfold glyphBody
  rw [h1, Res.ok_bind]
  simp only
  have v1 : glyphsOf (indepMachine (fmt R)) a.vars.length a1 = .ok gs := by
    unfold glyphsOf
    rw [valueOf_last (var_last w1)]
    rfl
  rw [v1, Res.ok_bind, hf, Res.ok_bind, h2, Res.ok_bind, h3]

theorem sim_glyphBody (f : List Glyph → Res (List Glyph)) (s : Store.St (Val X)) (a : AStore X) (h : Rep s a) :
    RelR Rep (glyphBody f (storeMachine (fmt R)) s) (glyphBody f (indepMachine (fmt R)) a) := by
  have hS := sim_indep (fmt R)
  unfold glyphBody
  refine (sim_require hS _ h).bind ?_
  rintro ⟨i1, s1⟩ ⟨j1, a1⟩ ⟨e1, k1⟩
  obtain rfl : i1 = j1 := e1
  refine RelR.bind (R := fun x y => x = y) ?_ ?_
  · unfold glyphsOf
    refine (sim_valueOf hS i1 k1).bind ?_
    rintro v _ rfl
    exact RelR.eq _
  rintro gs _ rfl
  refine (RelR.eq _).bind ?_
  rintro flat _ rfl
  refine (sim_exec hS _ k1).bind ?_
  intro s2 a2 k2
  exact sim_exec hS _ k2

theorem glyph_spec (R : Rest X) (f : List Glyph → Res (List Glyph)) (input out : Bytes) : tool R (glyphBody f (storeMachine (fmt R))) input = .ok out ↔
    ∃ v T gs flat T' l, IsFont input v T ∧ Openable T ∧ GlyfIs T gs ∧ f gs = .ok flat ∧ NewGlyphs (fmt R) flat T T' ∧
      BMap.Sorted l ∧ (∀ t, BMap.get? l t = T' t) ∧ Font.toBytes v l = .ok out := by
  constructor
  · intro h
    obtain ⟨v, tables, r, a, a', s', e1, e2, e3, e4, e5⟩ := tool_ok (bodyA := glyphBody f (indepMachine (fmt R))) (sim_glyphBody f) h
    obtain ⟨g1, g2⟩ := open_stands (T := fun t => BMap.get? tables t) e2 (fun _ => rfl)
    obtain ⟨gs, flat, g3, g4, g5⟩ := glyph_fwd g2 e3
    obtain ⟨T', l, g6, g7, g8, g9⟩ := (save_glyphs e4 g5 v out).mp e5
    exact ⟨v, _, gs, flat, T', l, ⟨tables, r, e1, fun _ => rfl⟩, g1, g3, g4, g6, g7, g8, g9⟩
  · rintro ⟨v, T, gs, flat, T', l, ⟨tables, r, e1, eT⟩, g1, g3, g4, g6, g7, g8, g9⟩
    obtain ⟨a, e2, g2⟩ := open_ok (fmt R) g1 eT
    obtain ⟨a', e3⟩ := glyph_bwd g2 g3 g4
    obtain ⟨gs2, flat2, k1, k2, k3⟩ := glyph_fwd g2 e3
    obtain rfl := g3.unique k1
    rw [g4] at k2
    cases k2
    exact tool_of (bodyA := glyphBody f (indepMachine (fmt R))) (sim_glyphBody f) e1 e2 e3
      (fun s' hr => (save_glyphs hr k3 v out).mpr ⟨T', l, g6, g7, g8, g9⟩)

end FT.Cli
