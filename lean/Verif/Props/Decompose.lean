import Verif.Props.MaxpStats
import Mathlib.Tactic.FinCases

/-!
C80: decomposing composite glyphs into contours, and what flattening does to the statistics of C79.
-/

namespace FT.Props
open FT FT.Glyf FT.Tables

/-! ### Specification -/

/-- The whole number for a coordinate: the fraction is dropped, and what is out of range becomes the limit of the range. -/
structure CutTo (q : ℚ) (x : Int16) : Prop where
  pos : 0 ≤ q → q ≤ 32767 → (x.toInt : ℚ) ≤ q ∧ q < x.toInt + 1
  neg : q ≤ 0 → -32768 ≤ q → q ≤ (x.toInt : ℚ) ∧ (x.toInt : ℚ) - 1 < q
  above : 32767 < q → x = 32767
  below : q < -32768 → x = -32768

/-- The point `p` moved by the transformation. -/
structure MovedPoint (t : Affine) (p p' : Point) : Prop where
  x : CutTo (t.apply p.x.toInt p.y.toInt).1 p'.x
  y : CutTo (t.apply p.x.toInt p.y.toInt).2 p'.y
  onCurve : p'.onCurve = p.onCurve

/-- Contours, moved point by point. -/
def MovedContours (t : Affine) (cts cts' : List (List Point)) : Prop := List.Forall₂ (List.Forall₂ (MovedPoint t)) cts cts'

/-- The contours which the components draw: those of the glyph of each component which is in the table, moved. -/
inductive Drawn (gs : List Glyph) : List Component → List (List Point) → Prop
  | nil : Drawn gs [] []
  | missing (c : Component) (cs : List Component) (cts : List (List Point)) : gs[c.glyphIndex.toNat]? = none → Drawn gs cs cts →
      Drawn gs (c :: cs) cts
  | found (c : Component) (g : Glyph) (cs : List Component) (here cts : List (List Point)) : gs[c.glyphIndex.toNat]? = some g →
      MovedContours c.transformation g.contours here → Drawn gs cs cts → Drawn gs (c :: cs) (here ++ cts)

/-! ### Proofs -/

theorem i16_toInt_sat {z : ℤ} : (satI16 z).toInt = max (-32768) (min z 32767) := by
  unfold satI16
  rw [Int16.toInt_ofInt_of_le (by omega) (by omega)]

theorem cutTo_q (q : ℚ) : CutTo q (qToI16 q) := by
  have key : (qToI16 q).toInt = max (-32768) (min (truncQ q) 32767) := i16_toInt_sat
  constructor
  · intro h0 h1
    have ht : truncQ q = ⌊q⌋ := by unfold truncQ; rw [if_pos h0]
    have hf0 : 0 ≤ ⌊q⌋ := Int.floor_nonneg.mpr h0
    have hf1 : ⌊q⌋ ≤ 32767 := by
      have : (⌊q⌋ : ℚ) ≤ 32767 := le_trans (Int.floor_le q) h1
      exact_mod_cast this
    have : (qToI16 q).toInt = ⌊q⌋ := by rw [key, ht]; omega
    rw [this]
    exact ⟨Int.floor_le q, Int.lt_floor_add_one q⟩
  · intro h0 h1
    have ht : truncQ q = -⌊-q⌋ := by
      unfold truncQ
      split
      · have : q = 0 := le_antisymm h0 (by assumption)
        subst this; simp
      · rfl
    have hf0 : 0 ≤ ⌊-q⌋ := Int.floor_nonneg.mpr (by linarith)
    have hf1 : ⌊-q⌋ ≤ 32768 := by
      have : (⌊-q⌋ : ℚ) ≤ 32768 := le_trans (Int.floor_le (-q)) (by linarith)
      exact_mod_cast this
    have : (qToI16 q).toInt = -⌊-q⌋ := by rw [key, ht]; omega
    rw [this]
    have a := Int.floor_le (-q)
    have b := Int.lt_floor_add_one (-q)
    push_cast
    constructor <;> linarith
  · intro h
    have ht : truncQ q = ⌊q⌋ := by unfold truncQ; rw [if_pos (by linarith)]
    have hf : 32767 ≤ ⌊q⌋ := Int.le_floor.mpr (by push_cast; linarith)
    apply Int16.toInt_inj.mp
    rw [key, ht]
    have : (32767 : Int16).toInt = 32767 := by decide
    omega
  · intro h
    have ht : truncQ q = -⌊-q⌋ := by unfold truncQ; rw [if_neg (by linarith)]
    have hf : 32768 ≤ ⌊-q⌋ := Int.le_floor.mpr (by push_cast; linarith)
    apply Int16.toInt_inj.mp
    rw [key, ht]
    have : (-32768 : Int16).toInt = -32768 := by decide
    omega

theorem cutTo_unique {q : ℚ} {x y : Int16} (hx : CutTo q x) (hy : CutTo q y) : x = y := by
  by_cases h1 : 32767 < q
  · rw [hx.above h1, hy.above h1]
  by_cases h2 : q < -32768
  · rw [hx.below h2, hy.below h2]
  apply Int16.toInt_inj.mp
  rcases le_total 0 q with h | h
  · obtain ⟨a1, a2⟩ := hx.pos h (by linarith)
    obtain ⟨b1, b2⟩ := hy.pos h (by linarith)
    have c1 : (x.toInt : ℚ) < y.toInt + 1 := by linarith
    have c2 : (y.toInt : ℚ) < x.toInt + 1 := by linarith
    have d1 : x.toInt < y.toInt + 1 := by exact_mod_cast c1
    have d2 : y.toInt < x.toInt + 1 := by exact_mod_cast c2
    omega
  · obtain ⟨a1, a2⟩ := hx.neg h (by linarith)
    obtain ⟨b1, b2⟩ := hy.neg h (by linarith)
    have c1 : (x.toInt : ℚ) < y.toInt + 1 := by linarith
    have c2 : (y.toInt : ℚ) < x.toInt + 1 := by linarith
    have d1 : x.toInt < y.toInt + 1 := by exact_mod_cast c1
    have d2 : y.toInt < x.toInt + 1 := by exact_mod_cast c2
    omega

theorem moved_transform (t : Affine) : ∀ ct : List Point, List.Forall₂ (MovedPoint t) ct (ct.map (fun p => p.transform t))
  | [] => .nil
  | p :: ct => .cons ⟨cutTo_q _, cutTo_q _, rfl⟩ (moved_transform t ct)

theorem moved_contours (t : Affine) : ∀ cts : List (List Point), MovedContours t cts (cts.map (fun ct => ct.map (fun p => p.transform t)))
  | [] => .nil
  | ct :: cts => .cons (moved_transform t ct) (moved_contours t cts)

theorem forall₂_unique {α β : Type} {R : α → β → Prop} (hu : ∀ a b b', R a b → R a b' → b = b') {l : List α} {l₁ l₂ : List β}
    (h1 : List.Forall₂ R l l₁) (h2 : List.Forall₂ R l l₂) : l₁ = l₂ := by
  induction h1 generalizing l₂ with
  | nil => cases h2; rfl
  | cons hab _ ih =>
    cases h2 with
    | cons hab2 h2 => rw [hu _ _ _ hab hab2, ih h2]

theorem movedPoint_unique {t : Affine} {p a b : Point} (h1 : MovedPoint t p a) (h2 : MovedPoint t p b) : a = b := by
  have e1 := cutTo_unique h1.x h2.x
  have e2 := cutTo_unique h1.y h2.y
  have e3 := h1.onCurve.trans h2.onCurve.symm
  cases a; cases b
  simp only at e1 e2 e3
  rw [e1, e2, e3]

theorem movedContours_unique {t : Affine} {cts a b : List (List Point)} (h1 : MovedContours t cts a) (h2 : MovedContours t cts b) : a = b :=
  forall₂_unique (R := List.Forall₂ (MovedPoint t)) (fun _ _ _ h h' => forall₂_unique (R := MovedPoint t) (fun _ _ _ x y => movedPoint_unique x y) h h') h1 h2

/-- **C80** (the specification determines the result). -/
theorem C80_drawn_unique (gs : List Glyph) (cs : List Component) (a b : List (List Point)) (h1 : Drawn gs cs a) (h2 : Drawn gs cs b) :
    a = b := by
  induction h1 generalizing b with
  | nil => cases h2; rfl
  | missing c cs cts hg _ ih =>
    cases h2 with
    | missing _ _ _ _ h2 => exact ih _ h2
    | found _ g _ _ _ hg2 => rw [hg] at hg2; cases hg2
  | found c g cs here cts hg hm _ ih =>
    cases h2 with
    | missing _ _ _ hg2 => rw [hg] at hg2; cases hg2
    | found _ g2 _ here2 _ hg2 hm2 h2 =>
      rw [hg] at hg2
      cases hg2
      rw [ih _ h2, movedContours_unique hm hm2]

theorem drawn_contours (gs : List Glyph) : ∀ cs : List Component, Drawn gs cs (cs.flatMap (componentContours gs))
  | [] => .nil
  | c :: cs => by
    rw [List.flatMap_cons]
    unfold componentContours
    split
    · rename_i hg
      exact .missing _ _ _ hg (drawn_contours gs cs)
    · rename_i g hg
      exact .found _ g _ _ _ hg (moved_contours _ _) (drawn_contours gs cs)

/-- **C80** (one level). Decomposing a glyph gives a glyph without components and instructions, whose contours are its own and
then those which its components draw. Bounds are not computed. -/
theorem C80_decompose (gs : List Glyph) (g : Glyph) : ∃ cts, Drawn gs g.components cts ∧
    decompose gs g = ⟨0, 0, 0, 0, g.contours ++ cts, [], [], g.overlap⟩ :=
  ⟨_, drawn_contours gs g.components, rfl⟩

example : (decompose sampleTable ⟨0, 0, 0, 0, [], [], [⟨0, ⟨1/2, 0, 0, -1, 10, 0⟩, none, 0⟩], false⟩).contours =
    [[⟨10, 0, true⟩, ⟨13, -5, true⟩, ⟨11, 9, true⟩]] := by
  decide +kernel

/-- **C80** (nested components are lost). What is inside a component of a component is not drawn. -/
theorem C80_nested_lost : ∃ (gs : List Glyph) (g : Glyph) (out : List Component) (cts : List (List Point)), g ∈ gs ∧
    Expands gs g.components out ∧ Drawn gs out cts ∧ cts.length = 1 ∧ (decompose gs g).contours = [] := by
  refine ⟨sampleTable.take 2 ++ [⟨0, 0, 0, 0, [], [], [⟨1, ⟨2, 0, 0, 2, 0, 0⟩, none, 0⟩], false⟩],
    ⟨0, 0, 0, 0, [], [], [⟨1, ⟨2, 0, 0, 2, 0, 0⟩, none, 0⟩], false⟩, [⟨0, ⟨2, 0, 0, 2, 20, 0⟩, none, 0⟩], _, by decide, ?_,
    drawn_contours _ _, by decide +kernel, by decide +kernel⟩
  refine .nested _ _ _ [⟨0, ⟨1, 0, 0, 1, 10, 0⟩, none, 0⟩] [⟨0, ⟨2, 0, 0, 2, 20, 0⟩, none, 0⟩] [] rfl (by simp)
    (.leaf _ _ _ _ rfl rfl .nil) (.cons _ _ _ _ ⟨rfl, rfl, rfl, ?_⟩ .nil) .nil
  intro x y
  unfold Affine.apply
  simp only [Prod.mk.injEq]
  constructor <;> ring

theorem expands_leaves {gs : List Glyph} {cs out : List Component} (h : Expands gs cs out) :
    ∀ c ∈ out, ∃ g, gs[c.glyphIndex.toNat]? = some g ∧ g.components = [] := by
  induction h with
  | nil => simp
  | leaf c g cs out hg hc _ ih =>
    intro x hx
    rcases List.mem_cons.mp hx with rfl | hx
    · exact ⟨g, hg, hc⟩
    · exact ih x hx
  | nested c g cs inner placed out hg hc _ hs _ ih1 ih2 =>
    intro x hx
    rcases List.mem_append.mp hx with hx | hx
    · have : ∀ {l l'}, AllSeenThrough c l l' → ∀ x ∈ l', ∃ y ∈ l, x.glyphIndex = y.glyphIndex := by
        intro l l' h
        induction h with
        | nil => simp
        | cons f f' fs fs' hf _ ih =>
          intro x hx
          rcases List.mem_cons.mp hx with rfl | hx
          · exact ⟨f, by simp, hf.1⟩
          · obtain ⟨y, hy, e⟩ := ih x hx
            exact ⟨y, by simp [hy], e⟩
      obtain ⟨y, hy, e⟩ := this hs x hx
      rw [e]
      exact ih1 y hy
    · exact ih2 x hx

/-- Two tables with the same contours draw the same. -/
theorem drawn_same {gs gs' : List Glyph} (hs : ∀ i : Nat, (gs'[i]?).map Glyph.contours = (gs[i]?).map Glyph.contours)
    {cs : List Component} {cts : List (List Point)} (h : Drawn gs' cs cts) : Drawn gs cs cts := by
  induction h with
  | nil => exact .nil
  | missing c cs cts hg _ ih =>
    refine .missing _ _ _ ?_ ih
    have := hs c.glyphIndex.toNat
    rw [hg] at this
    cases hx : gs[c.glyphIndex.toNat]? with
    | none => rfl
    | some g => rw [hx] at this; cases this
  | found c g cs here cts hg hm _ ih =>
    have := hs c.glyphIndex.toNat
    rw [hg] at this
    cases hx : gs[c.glyphIndex.toNat]? with
    | none => rw [hx] at this; cases this
    | some g' =>
      rw [hx] at this
      simp only [Option.map_some, Option.some.injEq] at this
      exact .found _ g' _ _ _ hx (this ▸ hm) ih

/-- What flattening a table does, glyph by glyph. -/
theorem flatten_glyphs {gs gs' : List Glyph} (hd : NoDangling gs) (h : flattenTable gs = .ok gs') :
    gs'.length = gs.length ∧ ∀ (i : Nat) (g g' : Glyph), gs[i]? = some g → gs'[i]? = some g' →
      ∃ out, flatComponents gs g = .ok out ∧ g' = { g with components := out } := by
  obtain ⟨x, e, hl, h1, _⟩ := C32_table gs hd
  rw [e] at h
  cases h
  exact ⟨hl, h1⟩

theorem flatten_contours {gs gs' : List Glyph} (hd : NoDangling gs) (h : flattenTable gs = .ok gs') (i : Nat) :
    (gs'[i]?).map Glyph.contours = (gs[i]?).map Glyph.contours := by
  obtain ⟨hl, h1⟩ := flatten_glyphs hd h
  by_cases hi : i < gs.length
  · obtain ⟨out, _, e⟩ := h1 i _ _ (List.getElem?_eq_getElem hi) (List.getElem?_eq_getElem (hl ▸ hi))
    rw [List.getElem?_eq_getElem hi, List.getElem?_eq_getElem (hl ▸ hi), e]
    rfl
  · rw [List.getElem?_eq_none (by omega), List.getElem?_eq_none (by omega)]

/-- **C80** (flatten, then decompose). In a table where components refer to existing glyphs, flattened as a whole, every glyph
whose components are nested at most 64 deep decomposes into its own contours and those of every outline it is built from, each
moved by all transformations on the way to it at once: fractions are dropped only once. -/
theorem C80_flattened (gs gs' : List Glyph) (hd : NoDangling gs) (h : flattenTable gs = .ok gs') (i : Nat) (g g' : Glyph)
    (hg : gs[i]? = some g) (hg' : gs'[i]? = some g') (hn : NestedAtMost gs 64 g.components) :
    ∃ out cts, Expands gs g.components out ∧ Drawn gs out cts ∧ (decompose gs' g').contours = g.contours ++ cts ∧
      (decompose gs' g').components = [] := by
  obtain ⟨_, h1⟩ := flatten_glyphs hd h
  obtain ⟨out, e, rfl⟩ := h1 i g g' hg hg'
  obtain ⟨out', e', hx⟩ := C32_flat gs g hn
  rw [e] at e'
  cases e'
  exact ⟨out, _, hx, drawn_same (flatten_contours hd h) (drawn_contours gs' out), rfl, rfl⟩

example : NoDangling sampleTable ∧ (∃ gs', flattenTable sampleTable = .ok gs') :=
  ⟨by decide, by obtain ⟨x, e, _⟩ := C32_table sampleTable (by decide); exact ⟨x, e⟩⟩

/-! ### Flattening and the statistics -/

theorem seen_indices {c : Component} {l l' : List Component} (h : AllSeenThrough c l l') : l'.map Component.glyphIndex = l.map Component.glyphIndex := by
  induction h with
  | nil => rfl
  | cons f f' fs fs' hf _ ih => simp only [List.map_cons, ih, hf.1]

/-- The outlines are those of the components after expansion. -/
theorem built_expands {gs : List Glyph} {cs out : List Component} (hx : Expands gs cs out) :
    ∃ ls n, BuiltOf gs cs ls n ∧ ls.map some = out.map (fun c => gs[c.glyphIndex.toNat]?) := by
  induction hx with
  | nil => exact ⟨[], 0, .nil, rfl⟩
  | leaf c g cs out hg hc _ ih =>
    obtain ⟨ls, n, hb, e⟩ := ih
    exact ⟨g :: ls, n, .simple _ _ _ _ _ hg hc hb, by simp only [List.map_cons, e, hg]⟩
  | nested c g cs inner placed out hg hc _ hs _ ih1 ih2 =>
    obtain ⟨li, m, hbi, ei⟩ := ih1
    obtain ⟨ls, n, hb, e⟩ := ih2
    refine ⟨li ++ ls, _, .nested _ _ _ _ _ _ _ hg hc hbi hb, ?_⟩
    rw [List.map_append, List.map_append, e, ei]
    congr 1
    have := congrArg (List.map (fun i : UInt16 => gs[i.toNat]?)) (seen_indices hs)
    simpa [List.map_map, Function.comp_def] using this.symm

/-- Components which all refer to outlines are built of those, without further levels. -/
theorem built_flat {gs : List Glyph} : ∀ {out : List Component} {ls : List Glyph}, (∀ c ∈ out, ∃ g, gs[c.glyphIndex.toNat]? = some g ∧ g.components = []) →
    ls.map some = out.map (fun c => gs[c.glyphIndex.toNat]?) → BuiltOf gs out ls 0
  | [], ls, _, e => by
    cases ls with
    | nil => exact .nil
    | cons a l => simp at e
  | c :: out, ls, h, e => by
    obtain ⟨g, hg, hc⟩ := h c (by simp)
    cases ls with
    | nil => simp at e
    | cons a l =>
      simp only [List.map_cons, List.cons.injEq, hg, Option.some.injEq] at e
      obtain ⟨rfl, e⟩ := e
      exact .simple _ _ _ _ _ hg hc (built_flat (fun c hc => h c (by simp [hc])) e)

theorem expands_nonempty {gs : List Glyph} {cs out : List Component} (hx : Expands gs cs out) : cs ≠ [] → out ≠ [] := by
  induction hx with
  | nil => intro h; exact absurd rfl h
  | leaf => intro _; simp
  | nested c g cs inner placed out hg hc _ hs _ ih1 _ =>
    intro _
    have hi := ih1 hc
    have : placed ≠ [] := by
      cases hs with
      | nil => exact absurd rfl hi
      | cons => simp
    simp [this]

/-- **C79** (flattening). Flattening a table whose glyphs are nested at most 64 deep leaves the statistics as they are, except
that the nesting depth becomes 1 (or stays 0, if there are no composite glyphs) and that composite glyphs may have more components. -/
theorem C79_flattened (gs gs' : List Glyph) (m : Maxp10) (hd : NoDangling gs) (hn : ∀ g ∈ gs, NestedAtMost gs 64 g.components)
    (h : flattenTable gs = .ok gs') (hm : Describes gs m) (e : UInt16)
    (he : Largest {n | ∃ g ∈ gs', n = g.components.length} e.toNat) :
    Describes gs' { m with maxComponentElements := e, maxComponentDepth := if m.maxComponentDepth = 0 then 0 else 1 } := by
  obtain ⟨hl, h1⟩ := flatten_glyphs hd h
  -- the glyphs of both tables, side by side
  have go : ∀ g ∈ gs, ∃ g' ∈ gs', ∃ out, Expands gs g.components out ∧ g' = { g with components := out } := by
    intro g hg
    obtain ⟨i, hi⟩ := List.mem_iff_getElem?.mp hg
    have hlt : i < gs.length := (List.getElem?_eq_some_iff.mp hi).1
    have hi' := List.getElem?_eq_getElem (l := gs') (i := i) (by omega)
    obtain ⟨out, eo, e'⟩ := h1 i g _ hi hi'
    obtain ⟨out', eo', hx⟩ := C32_flat gs g (hn g hg)
    rw [eo] at eo'; cases eo'
    exact ⟨_, List.mem_of_getElem? hi', out, hx, e'⟩
  have back : ∀ g' ∈ gs', ∃ g ∈ gs, ∃ out, Expands gs g.components out ∧ g' = { g with components := out } := by
    intro g' hg'
    obtain ⟨i, hi'⟩ := List.mem_iff_getElem?.mp hg'
    have hlt : i < gs'.length := (List.getElem?_eq_some_iff.mp hi').1
    have hi := List.getElem?_eq_getElem (l := gs) (i := i) (by omega)
    obtain ⟨out, eo, e'⟩ := h1 i _ g' hi hi'
    obtain ⟨out', eo', hx⟩ := C32_flat gs _ (hn _ (List.mem_of_getElem? hi))
    rw [eo] at eo'; cases eo'
    exact ⟨_, List.mem_of_getElem? hi, out, hx, e'⟩
  have leaf : ∀ {i : Nat} {g : Glyph}, gs[i]? = some g → g.components = [] → gs'[i]? = some g := by
    intro i g hi hc
    have hlt : i < gs.length := (List.getElem?_eq_some_iff.mp hi).1
    have hi' := List.getElem?_eq_getElem (l := gs') (i := i) (by omega)
    obtain ⟨out, eo, e'⟩ := h1 i g _ hi hi'
    unfold flatComponents flatDepth at eo
    rw [hc] at eo
    cases eo
    rw [hi', e']
    cases g; simp only at hc; subst hc; rfl
  have same : ∀ {cs out : List Component}, Expands gs cs out → ∀ {ls d}, BuiltOf gs cs ls d → BuiltOf gs' out ls 0 := by
    intro cs out hx ls d hb
    obtain ⟨ls', n, hb', e⟩ := built_expands hx
    obtain ⟨rfl, rfl⟩ := built_unique hb hb'
    have hlv := expands_leaves hx
    refine built_flat (fun c hc => ?_) ?_
    · obtain ⟨g, hg, hgc⟩ := hlv c hc
      exact ⟨g, leaf hg hgc, hgc⟩
    · rw [e]
      refine List.map_congr_left (fun c hc => ?_)
      obtain ⟨g, hg, hgc⟩ := hlv c hc
      rw [hg, leaf hg hgc]
  have built : ∀ {cs out : List Component}, Expands gs cs out → ∃ ls d, BuiltOf gs cs ls d ∧ BuiltOf gs' out ls 0 := by
    intro cs out hx
    obtain ⟨ls', n, hb', e⟩ := built_expands hx
    exact ⟨ls', n, hb', same hx hb'⟩
  have hset : ∀ f : List Glyph → Nat,
      {n | ∃ g ∈ gs', g.components ≠ [] ∧ ∃ ls d, BuiltOf gs' g.components ls d ∧ n = f ls} =
      {n | ∃ g ∈ gs, g.components ≠ [] ∧ ∃ ls d, BuiltOf gs g.components ls d ∧ n = f ls} := by
    intro f
    ext n
    constructor
    · rintro ⟨g', hg', hc, ls, d, hb, rfl⟩
      obtain ⟨g, hg, out, hx, rfl⟩ := back g' hg'
      obtain ⟨ls', d', hb1, hb2⟩ := built hx
      obtain ⟨rfl, _⟩ := built_unique hb hb2
      refine ⟨g, hg, ?_, ls, d', hb1, rfl⟩
      intro e0
      rw [e0] at hx
      cases hx
      exact hc rfl
    · rintro ⟨g, hg, hc, ls, d, hb, rfl⟩
      obtain ⟨g', hg', out, hx, rfl⟩ := go g hg
      exact ⟨_, hg', expands_nonempty hx hc, ls, 0, same hx hb, rfl⟩
  constructor
  · rw [hl]; exact hm.numGlyphs
  · have : {n | ∃ g ∈ gs', n = pointCount g} = {n | ∃ g ∈ gs, n = pointCount g} := by
      ext n
      constructor
      · rintro ⟨g', hg', rfl⟩
        obtain ⟨g, hg, out, hx, rfl⟩ := back g' hg'
        exact ⟨g, hg, rfl⟩
      · rintro ⟨g, hg, rfl⟩
        obtain ⟨g', hg', out, hx, rfl⟩ := go g hg
        exact ⟨_, hg', rfl⟩
    rw [this]; exact hm.maxPoints
  · have : {n | ∃ g ∈ gs', n = g.contours.length} = {n | ∃ g ∈ gs, n = g.contours.length} := by
      ext n
      constructor
      · rintro ⟨g', hg', rfl⟩
        obtain ⟨g, hg, out, hx, rfl⟩ := back g' hg'
        exact ⟨g, hg, rfl⟩
      · rintro ⟨g, hg, rfl⟩
        obtain ⟨g', hg', out, hx, rfl⟩ := go g hg
        exact ⟨_, hg', rfl⟩
    rw [this]; exact hm.maxContours
  · exact he
  · intro g' hg'
    obtain ⟨g, hg, out, hx, rfl⟩ := back g' hg'
    obtain ⟨ls, d, _, hb⟩ := built hx
    exact ⟨ls, 0, hb⟩
  · rw [hset]; exact hm.maxCompositePoints
  · rw [hset]; exact hm.maxCompositeContours
  · have hmin : (if m.maxComponentDepth = 0 then (0 : UInt16) else 1).toNat = min m.maxComponentDepth.toNat 1 := by
      by_cases h : m.maxComponentDepth = 0
      · rw [if_pos h, h]; rfl
      · rw [if_neg h]
        have h1 : (1 : UInt16).toNat = 1 := rfl
        have : m.maxComponentDepth.toNat ≠ 0 := fun e => h (UInt16.toNat_inj.mp e)
        omega
    simp only
    rw [hmin]
    have flat1 : ∀ {g' : Glyph}, g' ∈ gs' → ∀ {ls d}, BuiltOf gs' g'.components ls d → d = 0 := by
      intro g' hg' ls d hb
      obtain ⟨g, hg, out, hx, rfl⟩ := back g' hg'
      obtain ⟨_, _, _, hb2⟩ := built hx
      exact (built_unique hb hb2).2
    by_cases hcomp : ∃ g ∈ gs, g.components ≠ []
    · obtain ⟨g, hg, hc⟩ := hcomp
      obtain ⟨g', hg', out, hx, rfl⟩ := go g hg
      obtain ⟨ls, d, hb1, hb2⟩ := built hx
      have hge : d + 1 ≤ m.maxComponentDepth.toNat := hm.maxComponentDepth.2 (Set.mem_insert_of_mem _ ⟨g, hg, hc, ls, d, hb1, rfl⟩)
      rw [show min m.maxComponentDepth.toNat 1 = 1 by omega]
      refine ⟨Set.mem_insert_of_mem _ ⟨_, hg', expands_nonempty hx hc, ls, 0, hb2, rfl⟩, ?_⟩
      rintro n (rfl | ⟨h', hh', _, ls', d', hb', rfl⟩)
      · omega
      · have := flat1 hh' hb'; omega
    · have hz : m.maxComponentDepth.toNat = 0 := by
        rcases hm.maxComponentDepth.1 with h0 | ⟨g, hg, hc, _⟩
        · exact h0
        · exact absurd ⟨g, hg, hc⟩ hcomp
      rw [hz, show min 0 1 = 0 by omega]
      refine ⟨Set.mem_insert _ _, ?_⟩
      rintro n (rfl | ⟨h', hh', hc', _⟩)
      · omega
      · obtain ⟨g, hg, out, hx, rfl⟩ := back h' hh'
        exfalso
        apply hcomp
        refine ⟨g, hg, fun e0 => ?_⟩
        rw [e0] at hx
        cases hx
        exact hc' rfl
  · exact hm.others

example : ∀ g ∈ sampleTable, NestedAtMost sampleTable 64 g.components := by
  intro g hg
  fin_cases hg
  · exact .nil _
  · exact .leaf _ _ _ _ rfl rfl (.nil _)
  · exact .nested _ _ _ _ rfl (by simp) (.leaf _ _ _ _ rfl rfl (.nil _)) (.leaf _ _ _ _ rfl rfl (.nil _))

end FT.Props
