import Verif.Props.GlyfTable

/-!
# C32: what flattening gives for every component graph

`Props/GlyfTable.lean` shows that flattening gives the expansion of components nested at most 64 deep. Here is the outcome for
every graph, deeper and cyclic ones included: what lies more than 64 levels down is left out, and a reference to a missing glyph
makes flattening panic exactly if it is met within 64 levels.
-/

namespace FT.Props
open FT FT.Glyf

/-- `out` are the components which remain when nested ones are replaced by what they consist of, except that what would be more
than `n` levels down is left out. -/
inductive ExpandsWithin (gs : List Glyph) : Nat → List Component → List Component → Prop
  | nil (n : Nat) : ExpandsWithin gs n [] []
  | leaf (n : Nat) (c : Component) (g : Glyph) (cs out : List Component) : gs[c.glyphIndex.toNat]? = some g → g.components = [] →
      ExpandsWithin gs n cs out → ExpandsWithin gs n (c :: cs) (c :: out)
  | tooDeep (c : Component) (g : Glyph) (cs out : List Component) : gs[c.glyphIndex.toNat]? = some g → g.components ≠ [] →
      ExpandsWithin gs 0 cs out → ExpandsWithin gs 0 (c :: cs) out
  | nested (n : Nat) (c : Component) (g : Glyph) (cs inner placed out : List Component) : gs[c.glyphIndex.toNat]? = some g →
      g.components ≠ [] → ExpandsWithin gs n g.components inner → AllSeenThrough c inner placed →
      ExpandsWithin gs (n + 1) cs out → ExpandsWithin gs (n + 1) (c :: cs) (placed ++ out)

/-- A component which refers to a glyph that does not exist is met at most `n` levels below these components. -/
inductive DanglingWithin (gs : List Glyph) : Nat → List Component → Prop
  | here (n : Nat) (c : Component) (cs : List Component) : gs.length ≤ c.glyphIndex.toNat → DanglingWithin gs n (c :: cs)
  | later (n : Nat) (c : Component) (cs : List Component) : DanglingWithin gs n cs → DanglingWithin gs n (c :: cs)
  | within (n : Nat) (c : Component) (g : Glyph) (cs : List Component) : gs[c.glyphIndex.toNat]? = some g →
      DanglingWithin gs n g.components → DanglingWithin gs (n + 1) (c :: cs)

theorem flatLoop_outcome (gs : List Glyph) (rec : Glyph → Res (List Component)) (n : Nat)
    (hrec : ∀ g : Glyph, g.components ≠ [] →
      (rec g = .panic ∧ ∃ m, n = m + 1 ∧ DanglingWithin gs m g.components) ∨
      (∃ inner, rec g = .ok inner ∧ ((n = 0 ∧ inner = []) ∨
        ∃ m, n = m + 1 ∧ ExpandsWithin gs m g.components inner ∧ ¬ DanglingWithin gs m g.components))) :
    ∀ cs : List Component,
      (flatLoop gs rec cs = .panic ∧ DanglingWithin gs n cs) ∨
      (∃ out, flatLoop gs rec cs = .ok out ∧ ExpandsWithin gs n cs out ∧ ¬ DanglingWithin gs n cs)
  | [] => Or.inr ⟨[], rfl, .nil n, fun h => by cases h⟩
  | c :: cs => by
    have ih := flatLoop_outcome gs rec n hrec cs
    unfold flatLoop
    cases hg : gs[c.glyphIndex.toNat]? with
    | none =>
      refine Or.inl ⟨?_, .here n c cs (by simpa using hg)⟩
      unfold glyphAt
      rw [hg]
      rfl
    | some g =>
      rw [glyphAt_some hg]
      simp only [Res.ok_bind]
      have hlt : ¬ gs.length ≤ c.glyphIndex.toNat := by
        have := (List.getElem?_eq_some_iff.mp hg).1
        omega
      by_cases hc : g.components = []
      · rw [if_neg (by rw [hasComponents_iff]; exact fun h => h hc)]
        simp only [Res.pure_eq, Res.ok_bind]
        rcases ih with ⟨e, hd⟩ | ⟨out, e, hx, hd⟩
        · rw [e]; exact Or.inl ⟨rfl, .later n c cs hd⟩
        · rw [e]
          refine Or.inr ⟨c :: out, rfl, .leaf n c g cs out hg hc hx, ?_⟩
          intro h
          cases h with
          | here _ _ _ h => exact hlt h
          | later _ _ _ h => exact hd h
          | within m _ g2 _ h1 h2 =>
            rw [hg] at h1
            cases h1
            rw [hc] at h2
            cases h2
      · rw [if_pos (by rw [hasComponents_iff]; exact hc)]
        rcases hrec g hc with ⟨e1, m, rfl, hd1⟩ | ⟨inner, e1, h1⟩
        · rw [e1]; exact Or.inl ⟨rfl, .within m c g cs hg hd1⟩
        · rw [e1]
          simp only [Res.ok_bind, Res.pure_eq]
          rcases ih with ⟨e, hd⟩ | ⟨out, e, hx, hd⟩
          · rw [e]; exact Or.inl ⟨rfl, .later n c cs hd⟩
          · rw [e]
            refine Or.inr ⟨inner.map (placeIn c) ++ out, rfl, ?_, ?_⟩
            · rcases h1 with ⟨rfl, rfl⟩ | ⟨m, rfl, hx1, _⟩
              · exact .tooDeep c g cs out hg hc hx
              · exact .nested m c g cs inner _ out hg hc hx1 (placeIn_seen c inner) hx
            · intro h
              cases h with
              | here _ _ _ h => exact hlt h
              | later _ _ _ h => exact hd h
              | within m _ g2 _ h3 h2 =>
                rw [hg] at h3
                cases h3
                rcases h1 with ⟨h0, _⟩ | ⟨m', e', _, hn⟩
                · omega
                · cases e'
                  exact hn h2

theorem flatDepth_outcome (gs : List Glyph) : ∀ (n : Nat) (cs : List Component),
    (flatLoop gs (flatDepth gs n) cs = .panic ∧ DanglingWithin gs n cs) ∨
    (∃ out, flatLoop gs (flatDepth gs n) cs = .ok out ∧ ExpandsWithin gs n cs out ∧ ¬ DanglingWithin gs n cs)
  | 0 => flatLoop_outcome gs _ 0 (fun g _ => Or.inr ⟨[], rfl, Or.inl ⟨rfl, rfl⟩⟩)
  | n + 1 => by
    refine flatLoop_outcome gs _ (n + 1) (fun g _ => ?_)
    rcases flatDepth_outcome gs n g.components with ⟨e, hd⟩ | ⟨out, e, hx, hd⟩
    · exact Or.inl ⟨e, n, rfl, hd⟩
    · exact Or.inr ⟨out, e, Or.inr ⟨n, rfl, hx, hd⟩⟩

/-- **C32** (the specification with a depth limit determines the result). -/
theorem C32_within_unique (gs : List Glyph) (n : Nat) (cs out out' : List Component) (h : ExpandsWithin gs n cs out)
    (h' : ExpandsWithin gs n cs out') : out = out' := by
  induction h generalizing out' with
  | nil => cases h'; rfl
  | leaf n c g cs out hg hc _ ih =>
    cases h' with
    | leaf _ _ _ _ out2 _ _ h2 => rw [ih _ h2]
    | tooDeep _ g2 _ _ hg2 hc2 => rw [hg] at hg2; cases hg2; exact absurd hc hc2
    | nested _ _ g2 _ inner placed out2 hg2 hc2 => rw [hg] at hg2; cases hg2; exact absurd hc hc2
  | tooDeep c g cs out hg hc _ ih =>
    cases h' with
    | leaf _ _ g2 _ out2 hg2 hc2 h2 => rw [hg] at hg2; cases hg2; exact absurd hc2 hc
    | tooDeep _ g2 _ _ hg2 hc2 h2 => exact ih _ h2
  | nested n c g cs inner placed out hg hc _ hs _ ih1 ih2 =>
    cases h' with
    | leaf _ _ g2 _ out2 hg2 hc2 h2 => rw [hg] at hg2; cases hg2; exact absurd hc2 hc
    | nested _ _ g2 _ inner2 placed2 out2 hg2 hc2 h1 hs2 h2 =>
      rw [hg] at hg2
      cases hg2
      rw [ih1 _ h1] at hs
      rw [allSeenThrough_unique hs hs2, ih2 _ h2]

/-- **C32** (every component graph). Flattening panics exactly if a component which refers to a missing glyph is met within 64
levels. Otherwise it gives, for each leaf which is at most 64 levels down, in order, the leaf seen through all components on the
way to it, and nothing else: deeper parts, among them those a cycle would lead to, are left out. -/
theorem C32_flat_exact (gs : List Glyph) (g : Glyph) :
    (DanglingWithin gs 64 g.components → flatComponents gs g = .panic) ∧
    (¬ DanglingWithin gs 64 g.components → ∃ out, flatComponents gs g = .ok out ∧ ExpandsWithin gs 64 g.components out) := by
  have e : flatComponents gs g = flatLoop gs (flatDepth gs 64) g.components := rfl
  rw [e]
  rcases flatDepth_outcome gs 64 g.components with ⟨h, hd⟩ | ⟨out, h, hx, hd⟩
  · exact ⟨fun _ => h, fun hn => absurd hd hn⟩
  · exact ⟨fun hd' => absurd hd' hd, fun _ => ⟨out, h, hx⟩⟩

/-- A glyph which consists of itself and of glyph 1. -/
def loopTable : List Glyph :=
  [⟨0, 0, 0, 0, [], [], [⟨1, ⟨1, 0, 0, 1, 0, 0⟩, none, 0⟩, ⟨0, ⟨1, 0, 0, 1, 10, 0⟩, none, 0⟩], false⟩,
   ⟨0, 0, 0, 0, [[⟨0, 0, true⟩]], [], [], false⟩]

/-- The outline is placed once for each of the 65 levels. -/
example : flatComponents loopTable loopTable[0] =
    .ok ((List.range 65).map (fun i => ⟨1, ⟨1, 0, 0, 1, ((10 * i : Nat) : ℚ), 0⟩, none, 0⟩)) := by decide +kernel

example : DanglingWithin loopTable 64 [⟨1, ⟨1, 0, 0, 1, 0, 0⟩, none, 0⟩, ⟨7, ⟨1, 0, 0, 1, 0, 0⟩, none, 0⟩] :=
  .later _ _ _ (.here _ _ _ (by decide))

end FT.Props
