import Verif.Model.Outline
import Verif.Props.GlyphComposite
import Verif.Props.FontSave

/-!
C31, C32: bounds and flattening of the `glyf` table.
-/

namespace FT.Props
open FT FT.Glyf

/-! ### Specification of flattening -/

/-- `f'` is `f` seen through `c`: first the transformation of `f`, then that of `c`. -/
def SeenThrough (c f f' : Component) : Prop :=
  f'.glyphIndex = f.glyphIndex ∧ f'.matchPoints = f.matchPoints ∧ f'.flags = f.flags ∧
  ∀ x y : ℚ, f'.transformation.apply x y = c.transformation.apply (f.transformation.apply x y).1 (f.transformation.apply x y).2

/-- All components of a list seen through `c`, in order. -/
inductive AllSeenThrough (c : Component) : List Component → List Component → Prop
  | nil : AllSeenThrough c [] []
  | cons (f f' : Component) (fs fs' : List Component) : SeenThrough c f f' → AllSeenThrough c fs fs' →
      AllSeenThrough c (f :: fs) (f' :: fs')

/-- `out` are the components which remain when nested ones are replaced by what they consist of. -/
inductive Expands (gs : List Glyph) : List Component → List Component → Prop
  | nil : Expands gs [] []
  | leaf (c : Component) (g : Glyph) (cs out : List Component) : gs[c.glyphIndex.toNat]? = some g → g.components = [] →
      Expands gs cs out → Expands gs (c :: cs) (c :: out)
  | nested (c : Component) (g : Glyph) (cs inner placed out : List Component) : gs[c.glyphIndex.toNat]? = some g → g.components ≠ [] →
      Expands gs g.components inner → AllSeenThrough c inner placed → Expands gs cs out → Expands gs (c :: cs) (placed ++ out)

/-- All components refer to glyphs which exist, nested not deeper than `n`. -/
inductive NestedAtMost (gs : List Glyph) : Nat → List Component → Prop
  | nil (n : Nat) : NestedAtMost gs n []
  | leaf (n : Nat) (c : Component) (g : Glyph) (cs : List Component) : gs[c.glyphIndex.toNat]? = some g → g.components = [] →
      NestedAtMost gs n cs → NestedAtMost gs n (c :: cs)
  | nested (n : Nat) (c : Component) (g : Glyph) (cs : List Component) : gs[c.glyphIndex.toNat]? = some g → g.components ≠ [] →
      NestedAtMost gs n g.components → NestedAtMost gs (n + 1) cs → NestedAtMost gs (n + 1) (c :: cs)

/-! ### Flattening -/

theorem mul_apply (s o : Affine) (x y : ℚ) : (s.mul o).apply x y = s.apply (o.apply x y).1 (o.apply x y).2 := by
  unfold Affine.mul Affine.apply
  simp only [Prod.mk.injEq]
  constructor <;> ring

theorem placeIn_seen (c : Component) : ∀ l, AllSeenThrough c l (l.map (placeIn c))
  | [] => .nil
  | f :: l => .cons _ _ _ _ ⟨rfl, rfl, rfl, mul_apply _ _⟩ (placeIn_seen c l)

theorem affine_ext {s t : Affine} (h : ∀ x y, s.apply x y = t.apply x y) : s = t := by
  have h0 := h 0 0
  have h1 := h 1 0
  have h2 := h 0 1
  unfold Affine.apply at h0 h1 h2
  simp only [Prod.mk.injEq] at h0 h1 h2
  cases s; cases t
  simp only at *
  simp only [Affine.mk.injEq]
  refine ⟨?_, ?_, ?_, ?_, ?_, ?_⟩ <;> linarith [h0.1, h0.2, h1.1, h1.2, h2.1, h2.2]

theorem seenThrough_unique {c f f1 f2 : Component} (h1 : SeenThrough c f f1) (h2 : SeenThrough c f f2) : f1 = f2 := by
  obtain ⟨a1, b1, c1, d1⟩ := h1
  obtain ⟨a2, b2, c2, d2⟩ := h2
  have : f1.transformation = f2.transformation := affine_ext (fun x y => by rw [d1, d2])
  cases f1; cases f2
  simp only at *
  simp_all

theorem allSeenThrough_unique {c : Component} {l l1 l2 : List Component} (h1 : AllSeenThrough c l l1) (h2 : AllSeenThrough c l l2) :
    l1 = l2 := by
  induction h1 generalizing l2 with
  | nil => cases h2; rfl
  | cons f f' fs fs' hs _ ih =>
    cases h2 with
    | cons _ f2 _ fs2 hs2 h2 => rw [seenThrough_unique hs hs2, ih h2]

/-- **C32** (the specification determines the result). -/
theorem C32_expands_unique (gs : List Glyph) (cs out out' : List Component) (h : Expands gs cs out) (h' : Expands gs cs out') :
    out = out' := by
  induction h generalizing out' with
  | nil => cases h'; rfl
  | leaf c g cs out hg hc _ ih =>
    cases h' with
    | leaf _ _ _ out2 _ _ h2 => rw [ih _ h2]
    | nested _ g2 _ inner placed out2 hg2 hc2 => rw [hg] at hg2; cases hg2; exact absurd hc hc2
  | nested c g cs inner placed out hg hc _ hs _ ih1 ih2 =>
    cases h' with
    | leaf _ g2 _ out2 hg2 hc2 h2 => rw [hg] at hg2; cases hg2; exact absurd hc2 hc
    | nested _ g2 _ inner2 placed2 out2 hg2 hc2 hi2 hs2 h2 =>
      rw [hg] at hg2
      cases hg2
      have := ih1 _ hi2
      subst this
      rw [allSeenThrough_unique hs hs2, ih2 _ h2]

theorem glyphAt_some {gs : List Glyph} {i : UInt16} {g : Glyph} (h : gs[i.toNat]? = some g) : glyphAt gs i = .ok g := by
  unfold glyphAt; rw [h]

theorem glyphAt_inv {gs : List Glyph} {i : UInt16} {g : Glyph} (h : glyphAt gs i = .ok g) : gs[i.toNat]? = some g := by
  unfold glyphAt at h
  split at h
  · cases h; assumption
  · cases h

theorem hasComponents_iff (g : Glyph) : g.hasComponents = true ↔ g.components ≠ [] := by
  simp [Glyph.hasComponents]

theorem flat_of_nested {gs : List Glyph} {n : Nat} {cs : List Component} (h : NestedAtMost gs n cs) : ∀ m, n ≤ m →
    ∃ out, flatLoop gs (flatDepth gs m) cs = .ok out ∧ Expands gs cs out := by
  induction h with
  | nil n => intro m _; exact ⟨[], rfl, .nil⟩
  | leaf n c g cs hg hc _ ih =>
    intro m hm
    obtain ⟨out, e, hx⟩ := ih m hm
    refine ⟨c :: out, ?_, .leaf c g cs out hg hc hx⟩
    unfold flatLoop
    rw [glyphAt_some hg]
    simp only [Res.ok_bind]
    rw [if_neg (by rw [hasComponents_iff]; exact fun h => h hc)]
    simp only [Res.pure_eq, Res.ok_bind, e, List.singleton_append]
  | nested n c g cs hg hc _ _ ih1 ih2 =>
    intro m hm
    obtain ⟨out, e, hx⟩ := ih2 m hm
    cases m with
    | zero => omega
    | succ m =>
      obtain ⟨inner, ei, hi⟩ := ih1 m (by omega)
      refine ⟨inner.map (placeIn c) ++ out, ?_, .nested c g cs inner _ out hg hc hi (placeIn_seen c inner) hx⟩
      unfold flatLoop
      rw [glyphAt_some hg]
      simp only [Res.ok_bind]
      rw [if_pos ((hasComponents_iff g).mpr hc)]
      have : flatDepth gs (m + 1) g = .ok inner := ei
      simp only [this, Res.pure_eq, Res.ok_bind, e]

/-- **C32** (flattening). If all components below a glyph refer to existing glyphs and are nested not deeper than 64 levels,
flattening gives exactly the expansion: for each leaf, in order, the leaf seen through all components on the way to it. -/
theorem C32_flat (gs : List Glyph) (g : Glyph) (h : NestedAtMost gs 64 g.components) :
    ∃ out, flatComponents gs g = .ok out ∧ Expands gs g.components out := by
  unfold flatComponents
  exact flat_of_nested h 64 (Nat.le_refl _)

/-- Glyph 0 is an outline, glyph 1 shifts it by (10, 0), glyph 2 doubles glyph 1 and adds glyph 0. -/
def sampleTable : List Glyph :=
  [⟨0, 0, 0, 0, [[⟨0, 0, true⟩, ⟨7, 5, true⟩, ⟨3, -9, true⟩]], [], [], false⟩,
   ⟨0, 0, 0, 0, [], [], [⟨0, ⟨1, 0, 0, 1, 10, 0⟩, none, 0⟩], false⟩,
   ⟨0, 0, 0, 0, [], [], [⟨1, ⟨2, 0, 0, 2, 0, 0⟩, none, 0⟩, ⟨0, ⟨1, 0, 0, 1, 0, 0⟩, none, 0⟩], false⟩]

example : NestedAtMost sampleTable 64 [⟨1, ⟨2, 0, 0, 2, 0, 0⟩, none, 0⟩, ⟨0, ⟨1, 0, 0, 1, 0, 0⟩, none, 0⟩] :=
  .nested _ _ _ _ rfl (by simp) (.leaf _ _ _ _ rfl rfl (.nil _)) (.leaf _ _ _ _ rfl rfl (.nil _))

example : flatComponents sampleTable ⟨0, 0, 0, 0, [], [], [⟨1, ⟨2, 0, 0, 2, 0, 0⟩, none, 0⟩], false⟩ =
    .ok [⟨0, ⟨2, 0, 0, 2, 20, 0⟩, none, 0⟩] := by
  decide +kernel

/-- All components in the table refer to existing glyphs. -/
def NoDangling (gs : List Glyph) : Prop := ∀ g ∈ gs, ∀ c ∈ g.components, c.glyphIndex.toNat < gs.length

instance (gs : List Glyph) : Decidable (NoDangling gs) := by unfold NoDangling; infer_instance

theorem flat_total (gs : List Glyph) (hd : NoDangling gs) : ∀ (n : Nat) (cs : List Component),
    (∀ c ∈ cs, c.glyphIndex.toNat < gs.length) →
    ∃ out, flatLoop gs (flatDepth gs n) cs = .ok out ∧ ∀ c ∈ out, ∃ h, gs[c.glyphIndex.toNat]? = some h ∧ h.components = [] := by
  intro n
  induction n with
  | zero =>
    intro cs
    induction cs with
    | nil => intro _; exact ⟨[], rfl, by simp⟩
    | cons c cs ih =>
      intro h
      obtain ⟨out, e, ho⟩ := ih (fun c' h' => h c' (by simp [h']))
      have hc := h c (by simp)
      have hg := List.getElem?_eq_getElem hc
      unfold flatLoop
      rw [glyphAt_some hg]
      simp only [Res.ok_bind]
      by_cases hh : gs[c.glyphIndex.toNat].hasComponents = true
      · rw [if_pos hh]
        have : flatDepth gs 0 gs[c.glyphIndex.toNat] = .ok [] := rfl
        simp only [this, Res.ok_bind, Res.pure_eq, List.map_nil, e, List.nil_append]
        exact ⟨out, rfl, ho⟩
      · rw [if_neg hh]
        simp only [Res.ok_bind, Res.pure_eq, e, List.singleton_append]
        refine ⟨_, rfl, ?_⟩
        intro c' hc'
        rcases List.mem_cons.mp hc' with rfl | hc'
        · refine ⟨_, hg, ?_⟩
          rw [hasComponents_iff] at hh
          exact Classical.byContradiction hh
        · exact ho c' hc'
  | succ n ihn =>
    intro cs
    induction cs with
    | nil => intro _; exact ⟨[], rfl, by simp⟩
    | cons c cs ih =>
      intro h
      obtain ⟨out, e, ho⟩ := ih (fun c' h' => h c' (by simp [h']))
      have hc := h c (by simp)
      have hg := List.getElem?_eq_getElem hc
      rw [flatLoop, glyphAt_some hg]
      simp only [Res.ok_bind]
      by_cases hh : gs[c.glyphIndex.toNat].hasComponents = true
      · rw [if_pos hh]
        obtain ⟨inner, ei, hi⟩ := ihn gs[c.glyphIndex.toNat].components (hd _ (List.getElem_mem hc))
        have : flatDepth gs (n + 1) gs[c.glyphIndex.toNat] = .ok inner := ei
        simp only [this, Res.ok_bind, Res.pure_eq, e]
        refine ⟨_, rfl, ?_⟩
        intro c' hc'
        rcases List.mem_append.mp hc' with hc' | hc'
        · obtain ⟨f, hf, rfl⟩ := List.mem_map.mp hc'
          exact hi f hf
        · exact ho c' hc'
      · rw [if_neg hh]
        simp only [Res.ok_bind, Res.pure_eq, e, List.singleton_append]
        refine ⟨_, rfl, ?_⟩
        intro c' hc'
        rcases List.mem_cons.mp hc' with rfl | hc'
        · refine ⟨_, hg, ?_⟩
          rw [hasComponents_iff] at hh
          exact Classical.byContradiction hh
        · exact ho c' hc'

/-- **C32** (termination). For every table in which components refer to existing glyphs, cyclic ones included, flattening a
glyph of the table comes to an end without a panic, and the resulting components refer to glyphs without components. -/
theorem C32_flat_total (gs : List Glyph) (hd : NoDangling gs) (g : Glyph) (hg : g ∈ gs) :
    ∃ out, flatComponents gs g = .ok out ∧ ∀ c ∈ out, ∃ h, gs[c.glyphIndex.toNat]? = some h ∧ h.components = [] := by
  unfold flatComponents
  exact flat_total gs hd 64 g.components (hd g hg)

example : NoDangling [⟨0, 0, 0, 0, [], [], [⟨0, ⟨1, 0, 0, 1, 0, 0⟩, none, 0⟩], false⟩] := by decide

/-- **C32** (cycles). What a cyclic reference leads to is dropped: a glyph consisting of itself is left without components. -/
theorem C32_cycle_dropped : ∃ g : Glyph, g.components ≠ [] ∧ flatComponents [g] g = .ok [] := by
  refine ⟨⟨0, 0, 0, 0, [], [], [⟨0, ⟨1, 0, 0, 1, 0, 0⟩, none, 0⟩], false⟩, by simp, ?_⟩
  decide +kernel

/-- **C32** (dangling). A component which refers to a glyph that does not exist makes flattening panic. -/
theorem C32_dangling_panics (gs : List Glyph) (g : Glyph) (c : Component) (cs : List Component) (hc : g.components = c :: cs)
    (hi : gs.length ≤ c.glyphIndex.toNat) : flatComponents gs g = .panic := by
  unfold flatComponents flatDepth
  rw [hc]
  unfold flatLoop glyphAt
  rw [List.getElem?_eq_none hi]
  rfl

example : flatComponents [] ⟨0, 0, 0, 0, [], [], [⟨0, ⟨1, 0, 0, 1, 0, 0⟩, none, 0⟩], false⟩ = .panic :=
  C32_dangling_panics [] _ _ [] rfl (by simp)

theorem flattenOne_ok (gs : List Glyph) (hd : NoDangling gs) (g : Glyph) (hg : g ∈ gs) :
    ∃ out, flattenOne gs g = .ok { g with components := out } ∧
      (∀ c ∈ out, ∃ h, gs[c.glyphIndex.toNat]? = some h ∧ h.components = []) ∧
      (g.components = [] → out = []) ∧
      flatComponents gs g = .ok out := by
  obtain ⟨out, e, ho⟩ := C32_flat_total gs hd g hg
  unfold flattenOne
  by_cases hh : g.hasComponents = true
  · rw [if_pos hh, e]
    simp only [Res.ok_bind, Res.pure_eq]
    refine ⟨out, ?_, ho, ?_, rfl⟩
    · by_cases hc : g.components = out
      · subst hc; simp
      · rw [if_pos hc]
    · intro h
      exact absurd h ((hasComponents_iff g).mp hh)
  · rw [if_neg hh]
    have hc : g.components = [] := by
      rw [hasComponents_iff] at hh
      exact Classical.byContradiction hh
    refine ⟨[], ?_, by simp, fun _ => rfl, ?_⟩
    · cases g; simp only at hc; subst hc; rfl
    · unfold flatComponents flatDepth
      rw [hc]
      rfl

/-- **C32** (whole table). Flattening a table in which components refer to existing glyphs keeps everything but the
components; those become the flattened ones, and afterwards every component refers to a glyph without components. -/
theorem C32_table (gs : List Glyph) (hd : NoDangling gs) :
    ∃ gs', flattenTable gs = .ok gs' ∧ gs'.length = gs.length ∧
      (∀ (i : Nat) (g g' : Glyph), gs[i]? = some g → gs'[i]? = some g' →
        ∃ out, flatComponents gs g = .ok out ∧ g' = { g with components := out }) ∧
      (∀ g' ∈ gs', ∀ c ∈ g'.components, ∃ h, gs'[c.glyphIndex.toNat]? = some h ∧ h.components = []) := by
  have hall : ∀ g ∈ gs, ∃ g', flattenOne gs g = .ok g' := fun g hg => by
    obtain ⟨out, e, _⟩ := flattenOne_ok gs hd g hg
    exact ⟨_, e⟩
  have hmap : ∀ l : List Glyph, (∀ g ∈ l, g ∈ gs) → ∃ l', Res.mapL (flattenOne gs) l = .ok l' ∧ l'.length = l.length ∧
      ∀ (i : Nat) (g : Glyph), l[i]? = some g → ∃ g', l'[i]? = some g' ∧ flattenOne gs g = .ok g' := by
    intro l
    induction l with
    | nil => intro _; exact ⟨[], rfl, rfl, by simp⟩
    | cons g l ih =>
      intro h
      obtain ⟨g', e⟩ := hall g (h g (by simp))
      obtain ⟨l', el, hl, hi⟩ := ih (fun x hx => h x (by simp [hx]))
      refine ⟨g' :: l', by simp only [Res.mapL, e, el, Res.ok_bind, Res.pure_eq], by simp [hl], ?_⟩
      intro i x hx
      cases i with
      | zero => simp at hx; subst hx; exact ⟨g', rfl, e⟩
      | succ i => simpa using hi i x (by simpa using hx)
  obtain ⟨gs', e, hlen, hi⟩ := hmap gs (fun _ h => h)
  refine ⟨gs', e, hlen, ?_, ?_⟩
  · intro i g g' h1 h2
    obtain ⟨g2, hg2, ef⟩ := hi i g h1
    rw [h2] at hg2
    cases hg2
    obtain ⟨out, e2, _, _, e3⟩ := flattenOne_ok gs hd g (List.mem_of_getElem? h1)
    rw [ef] at e2
    cases e2
    exact ⟨out, e3, rfl⟩
  · intro g' hg' c hc
    obtain ⟨i, hi'⟩ := List.mem_iff_getElem?.mp hg'
    have hlt : i < gs.length := by
      rw [← hlen]
      exact (List.getElem?_eq_some_iff.mp hi').1
    obtain ⟨g2, hg2, ef⟩ := hi i _ (List.getElem?_eq_getElem hlt)
    rw [hi'] at hg2
    cases hg2
    obtain ⟨out, e2, ho, _, _⟩ := flattenOne_ok gs hd _ (List.getElem_mem hlt)
    rw [ef] at e2
    cases e2
    obtain ⟨h, hh, hhc⟩ := ho c hc
    obtain ⟨h', hh', ef'⟩ := hi _ h hh
    refine ⟨h', hh', ?_⟩
    obtain ⟨out2, e2, _, hnil, _⟩ := flattenOne_ok gs hd h (List.mem_of_getElem? hh)
    rw [ef'] at e2
    cases e2
    exact hnil hhc

example : NoDangling sampleTable := by decide

end FT.Props
