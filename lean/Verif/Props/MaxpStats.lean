import Verif.Model.MaxpStats
import Verif.Props.GlyfTable
import Mathlib.Order.Bounds.Basic

/-!
C79: the statistics in a maxp table made from a glyf table.
-/

namespace FT.Props
open FT FT.Glyf FT.Tables

/-! ### Specification -/

/-- Following `cs` through the table leads to the outlines `ls`, in order, by way of `n` levels of composite glyphs.
Components which are not in the table lead to nothing. -/
inductive BuiltOf (gs : List Glyph) : List Component → List Glyph → Nat → Prop
  | nil : BuiltOf gs [] [] 0
  | missing (c : Component) (cs : List Component) (ls : List Glyph) (n : Nat) : gs[c.glyphIndex.toNat]? = none →
      BuiltOf gs cs ls n → BuiltOf gs (c :: cs) ls n
  | simple (c : Component) (g : Glyph) (cs : List Component) (ls : List Glyph) (n : Nat) : gs[c.glyphIndex.toNat]? = some g →
      g.components = [] → BuiltOf gs cs ls n → BuiltOf gs (c :: cs) (g :: ls) n
  | nested (c : Component) (g : Glyph) (cs : List Component) (inner ls : List Glyph) (m n : Nat) :
      gs[c.glyphIndex.toNat]? = some g → g.components ≠ [] → BuiltOf gs g.components inner m → BuiltOf gs cs ls n →
      BuiltOf gs (c :: cs) (inner ++ ls) (max (m + 1) n)

/-- The number of points in the contours of a glyph. -/
def pointCount (g : Glyph) : Nat := g.contours.flatten.length

/-- The total over a list of outlines. -/
def totalOf (f : Glyph → Nat) : List Glyph → Nat
  | [] => 0
  | g :: ls => f g + totalOf f ls

/-- `n` is the largest number in `s`, or 0 if there is none. -/
def Largest (s : Set Nat) (n : Nat) : Prop := IsGreatest (insert 0 s) n

/-- What the fields of a maxp table should say about the glyphs. -/
structure Describes (gs : List Glyph) (m : Maxp10) : Prop where
  numGlyphs : m.numGlyphs.toNat = gs.length
  maxPoints : Largest {n | ∃ g ∈ gs, n = pointCount g} m.maxPoints.toNat
  maxContours : Largest {n | ∃ g ∈ gs, n = g.contours.length} m.maxContours.toNat
  maxComponentElements : Largest {n | ∃ g ∈ gs, n = g.components.length} m.maxComponentElements.toNat
  /-- No composite glyph contains itself. -/
  acyclic : ∀ g ∈ gs, ∃ ls d, BuiltOf gs g.components ls d
  maxCompositePoints : Largest {n | ∃ g ∈ gs, g.components ≠ [] ∧ ∃ ls d, BuiltOf gs g.components ls d ∧ n = totalOf pointCount ls}
    m.maxCompositePoints.toNat
  maxCompositeContours : Largest {n | ∃ g ∈ gs, g.components ≠ [] ∧ ∃ ls d, BuiltOf gs g.components ls d ∧
    n = totalOf (fun g => g.contours.length) ls} m.maxCompositeContours.toNat
  maxComponentDepth : Largest {n | ∃ g ∈ gs, g.components ≠ [] ∧ ∃ ls d, BuiltOf gs g.components ls d ∧ n = d + 1}
    m.maxComponentDepth.toNat
  /-- Nothing is said about instructions. -/
  others : m.maxZones = 1 ∧ m.maxTwilightPoints = 0 ∧ m.maxStorage = 0 ∧ m.maxFunctionDefs = 0 ∧ m.maxInstructionDefs = 0 ∧
    m.maxStackElements = 0 ∧ m.maxSizeOfInstructions = 0

/-- Everything can be counted in 16 bits, glyph by glyph. -/
def Countable (gs : List Glyph) : Prop :=
  gs.length < 65536 ∧ ∀ g ∈ gs, pointCount g < 65536 ∧ g.contours.length < 65536 ∧ g.components.length < 65536

instance (gs : List Glyph) : Decidable (Countable gs) := by unfold Countable; infer_instance

/-! ### Proofs -/

theorem bindErr {α β : Type} {x : Res α} {f : α → Res β} (h : (x >>= f) = .err) : x = .err ∨ ∃ a, x = .ok a ∧ f a = .err := by
  cases x with
  | ok a => exact .inr ⟨a, rfl, h⟩
  | err => exact .inl rfl
  | panic => cases h

theorem numPoints_eq (g : Glyph) : g.numPoints = pointCount g := by
  unfold Glyph.numPoints pointCount
  rw [List.length_flatten]

theorem totalOf_append (f : Glyph → Nat) (l₁ l₂ : List Glyph) : totalOf f (l₁ ++ l₂) = totalOf f l₁ + totalOf f l₂ := by
  induction l₁ with
  | nil => simp [totalOf]
  | cons a l ih => simp only [List.cons_append, totalOf, ih]; omega

theorem addU16_ok {a b c : UInt16} (h : addU16 a b = .ok c) : c.toNat = a.toNat + b.toNat := by
  unfold addU16 at h
  split at h
  · cases h
    rw [UInt16.toNat_add]
    exact Nat.mod_eq_of_lt (by assumption)
  · cases h

theorem addU16_of {a b : UInt16} (h : a.toNat + b.toNat < 65536) : ∃ c, addU16 a b = .ok c ∧ c.toNat = a.toNat + b.toNat := by
  refine ⟨a + b, by unfold addU16; rw [if_pos h], ?_⟩
  rw [UInt16.toNat_add]
  exact Nat.mod_eq_of_lt h

theorem addU16_ne_err (a b : UInt16) : addU16 a b ≠ .err := by
  unfold addU16; split <;> simp

theorem maxU16_toNat (a b : UInt16) : (maxU16 a b).toNat = max a.toNat b.toNat := by
  unfold maxU16; split <;> omega

theorem toNat_ofNat16 {n : Nat} (h : n < 65536) : (UInt16.ofNat n).toNat = n := by
  rw [UInt16.toNat_ofNat']; exact Nat.mod_eq_of_lt h

/-- A glyph's outlines are unique. -/
theorem built_unique {gs : List Glyph} {cs : List Component} {ls ls' : List Glyph} {n n' : Nat} (h : BuiltOf gs cs ls n)
    (h' : BuiltOf gs cs ls' n') : ls = ls' ∧ n = n' := by
  induction h generalizing ls' n' with
  | nil => cases h'; exact ⟨rfl, rfl⟩
  | missing c cs ls n hg _ ih =>
    cases h' with
    | missing _ _ _ _ _ h2 => exact ih h2
    | simple _ g _ _ _ hg2 => rw [hg] at hg2; cases hg2
    | nested _ g _ _ _ _ _ hg2 => rw [hg] at hg2; cases hg2
  | simple c g cs ls n hg hc _ ih =>
    cases h' with
    | missing _ _ _ _ hg2 => rw [hg] at hg2; cases hg2
    | simple _ g2 _ ls2 _ hg2 _ h2 =>
      rw [hg] at hg2; cases hg2
      obtain ⟨e1, e2⟩ := ih h2
      exact ⟨by rw [e1], e2⟩
    | nested _ g2 _ _ _ _ _ hg2 hc2 => rw [hg] at hg2; cases hg2; exact absurd hc hc2
  | nested c g cs inner ls m n hg hc _ _ ih1 ih2 =>
    cases h' with
    | missing _ _ _ _ hg2 => rw [hg] at hg2; cases hg2
    | simple _ g2 _ _ _ hg2 hc2 => rw [hg] at hg2; cases hg2; exact absurd hc2 hc
    | nested _ g2 _ inner2 ls2 m2 n2 hg2 _ h1 h2 =>
      rw [hg] at hg2; cases hg2
      obtain ⟨e1, e2⟩ := ih1 h1
      obtain ⟨e3, e4⟩ := ih2 h2
      exact ⟨by rw [e1, e3], by rw [e2, e4]⟩

theorem built_mem {gs : List Glyph} {cs : List Component} {ls : List Glyph} {n : Nat} (h : BuiltOf gs cs ls n) : ∀ g ∈ ls, g ∈ gs := by
  induction h with
  | nil => simp
  | missing c cs ls n hg _ ih => exact ih
  | simple c g cs ls n hg hc _ ih =>
    intro x hx
    rcases List.mem_cons.mp hx with rfl | hx
    · exact List.mem_of_getElem? hg
    · exact ih x hx
  | nested c g cs inner ls m n hg hc _ _ ih1 ih2 =>
    intro x hx
    rcases List.mem_append.mp hx with hx | hx
    · exact ih1 x hx
    · exact ih2 x hx

abbrev contourCount (g : Glyph) : Nat := g.contours.length

/-- What a recursive call at depth `d` yields. -/
def RecOk (gs : List Glyph) (d : Nat) (rec : Glyph → Res (Option CompositeValues)) : Prop :=
  ∀ g o, g ∈ gs → g.components ≠ [] → rec g = .ok o → ∃ v ls n, o = some v ∧ BuiltOf gs g.components ls n ∧
    ((∀ g ∈ gs, pointCount g < 65536 ∧ contourCount g < 65536) → v.numPoints.toNat = totalOf pointCount ls ∧ v.numContours.toNat = totalOf contourCount ls) ∧
    v.maxDepth.toNat = d + n

theorem loop_inv {gs : List Glyph} {d : Nat} {rec : Glyph → Res (Option CompositeValues)} (hr : RecOk gs (d + 1) rec) :
    ∀ (cs : List Component) (info v : CompositeValues), d ≤ info.maxDepth.toNat → compositeLoop gs rec info cs = .ok v →
    ∃ ls n, BuiltOf gs cs ls n ∧
      ((∀ g ∈ gs, pointCount g < 65536 ∧ contourCount g < 65536) → v.numPoints.toNat = info.numPoints.toNat + totalOf pointCount ls ∧
      v.numContours.toNat = info.numContours.toNat + totalOf contourCount ls) ∧
      v.maxDepth.toNat = max info.maxDepth.toNat (d + n) := by
  intro cs
  induction cs with
  | nil =>
    intro info v hd h
    cases h
    exact ⟨[], 0, .nil, by simp [totalOf], by omega⟩
  | cons c cs ih =>
    intro info v hd h
    unfold compositeLoop at h
    split at h
    · rename_i hg
      obtain ⟨ls, n, hb, hp, hm⟩ := ih info v hd h
      exact ⟨ls, n, .missing _ _ _ _ hg hb, hp, hm⟩
    · rename_i g hg
      obtain ⟨info', h1, h2⟩ := Res.bind_inv h
      unfold compositeStep at h1
      split at h1
      · rename_i hc
        have hc : g.components = [] := by
          have : ¬ g.hasComponents = true := by simpa using hc
          rw [hasComponents_iff] at this
          exact Classical.byContradiction this
        obtain ⟨p, hp, h1⟩ := Res.bind_inv h1
        obtain ⟨k, hk, h1⟩ := Res.bind_inv h1
        cases h1
        obtain ⟨ls, n, hb, hq, hm⟩ := ih ⟨p, k, info.maxDepth⟩ v hd h2
        refine ⟨g :: ls, n, .simple _ _ _ _ _ hg hc hb, ?_, hm⟩
        intro hs
        obtain ⟨q1, q2⟩ := hq hs
        obtain ⟨s1, s2⟩ := hs g (List.mem_of_getElem? hg)
        rw [q1, q2, addU16_ok hp, addU16_ok hk, numPoints_eq, toNat_ofNat16 s1]
        unfold Glyph.numContours
        rw [toNat_ofNat16 s2]
        simp only [totalOf]
        constructor <;> omega
      · rename_i hc
        have hc : g.components ≠ [] := by
          rw [← hasComponents_iff]; simpa using hc
        obtain ⟨o, ho, h1⟩ := Res.bind_inv h1
        obtain ⟨w, inner, m, rfl, hbi, hw, hwd⟩ := hr g o (List.mem_of_getElem? hg) hc ho
        simp only at h1
        obtain ⟨p, hp, h1⟩ := Res.bind_inv h1
        obtain ⟨k, hk, h1⟩ := Res.bind_inv h1
        cases h1
        obtain ⟨ls, n, hb, hq, hm⟩ := ih _ v (by simp only [maxU16_toNat]; omega) h2
        refine ⟨inner ++ ls, max (m + 1) n, .nested _ _ _ _ _ _ _ hg hc hbi hb, ?_, ?_⟩
        · intro hs
          obtain ⟨q1, q2⟩ := hq hs
          obtain ⟨w1, w2⟩ := hw hs
          rw [q1, q2, addU16_ok hp, addU16_ok hk, w1, w2, totalOf_append, totalOf_append]
          constructor <;> omega
        · rw [hm]
          simp only [maxU16_toNat, hwd]
          omega

theorem depth_inv (gs : List Glyph) : ∀ n, n ≤ 65534 → RecOk gs (65535 - n) (compositeDepth gs n) := by
  intro n
  induction n with
  | zero =>
    intro _ g o hg hc h
    unfold compositeDepth compositeWith at h
    rw [if_neg (by simpa using (hasComponents_iff g).mpr hc)] at h
    obtain ⟨v, hv, h⟩ := Res.bind_inv h
    cases h
    obtain ⟨ls, n, hb, hp, hm⟩ := loop_inv (d := 65535) (fun g o _ _ h => by cases h) _ _ _ (by decide) hv
    exact ⟨v, ls, n, rfl, hb, fun hs => by simpa using hp hs, by
      rw [hm]
      have : (65535 : UInt16).toNat = 65535 := by decide
      simp only [this]; omega⟩
  | succ n ih =>
    intro hn g o hg hc h
    unfold compositeDepth compositeWith at h
    rw [if_neg (by simpa using (hasComponents_iff g).mpr hc)] at h
    obtain ⟨v, hv, h⟩ := Res.bind_inv h
    cases h
    have hd : (UInt16.ofNat (65535 - (n + 1))).toNat = 65535 - (n + 1) := toNat_ofNat16 (by omega)
    have hr : RecOk gs (65535 - (n + 1) + 1) (compositeDepth gs n) := by
      have := ih (by omega)
      rwa [show 65535 - n = 65535 - (n + 1) + 1 by omega] at this
    obtain ⟨ls, k, hb, hp, hm⟩ := loop_inv hr _ _ _ (by simp only [hd]; omega) hv
    exact ⟨v, ls, k, rfl, hb, fun hs => by simpa using hp hs, by rw [hm]; simp only [hd]; omega⟩

/-- The recursive call at the depth below `65535 - k`. -/
def recAt (gs : List Glyph) : Nat → Glyph → Res (Option CompositeValues)
  | 0 => fun _ => .panic
  | k + 1 => compositeDepth gs k

theorem compositeDepth_eq (gs : List Glyph) (k : Nat) (hk : k ≤ 65535) :
    compositeDepth gs k = compositeWith gs (recAt gs k) (UInt16.ofNat (65535 - k)) := by
  cases k with
  | zero => rfl
  | succ k => rfl

/-- The converse: with everything in range, the loop succeeds. -/
theorem loop_ok {gs : List Glyph} (hs : ∀ g ∈ gs, pointCount g < 65536 ∧ contourCount g < 65536) {cs : List Component}
    {ls : List Glyph} {n : Nat} (hb : BuiltOf gs cs ls n) : ∀ (k : Nat) (info : CompositeValues), n ≤ k → k ≤ 65535 →
    info.numPoints.toNat + totalOf pointCount ls < 65536 → info.numContours.toNat + totalOf contourCount ls < 65536 →
    ∃ v, compositeLoop gs (recAt gs k) info cs = .ok v := by
  induction hb with
  | nil => intro k info _ _ _ _; exact ⟨info, rfl⟩
  | missing c cs ls n hg _ ih =>
    intro k info hk hk' hp hc
    unfold compositeLoop
    rw [hg]
    exact ih k info hk hk' hp hc
  | simple c g cs ls n hg hgc _ ih =>
    intro k info hk hk' hp hc
    simp only [totalOf] at hp hc
    obtain ⟨s1, s2⟩ := hs g (List.mem_of_getElem? hg)
    have s2' : (UInt16.ofNat g.numContours).toNat = contourCount g := toNat_ofNat16 s2
    have s1' : (UInt16.ofNat g.numPoints).toNat = pointCount g := by rw [numPoints_eq]; exact toNat_ofNat16 s1
    obtain ⟨p, ep, hp'⟩ := addU16_of (a := info.numPoints) (b := UInt16.ofNat g.numPoints) (by omega)
    obtain ⟨q, eq, hq'⟩ := addU16_of (a := info.numContours) (b := UInt16.ofNat g.numContours) (by omega)
    unfold compositeLoop
    rw [hg]
    simp only [compositeStep]
    rw [if_pos (by simp [Glyph.hasComponents, hgc])]
    simp only [ep, eq, Res.ok_bind, Res.pure_eq]
    exact ih k ⟨p, q, info.maxDepth⟩ hk hk' (by simp only; omega) (by simp only; omega)
  | nested c g cs inner ls m n hg hgc hbi _ ih1 ih2 =>
    intro k info hk hk' hp hc
    rw [totalOf_append] at hp hc
    obtain ⟨k, rfl⟩ : ∃ k', k = k' + 1 := ⟨k - 1, by omega⟩
    obtain ⟨w, hw⟩ := ih1 k ⟨0, 0, UInt16.ofNat (65535 - k)⟩ (by omega) (by omega)
      (by simp only [UInt16.toNat_zero]; omega) (by simp only [UInt16.toNat_zero]; omega)
    have hrec : recAt gs (k + 1) g = .ok (some w) := by
      show compositeDepth gs k g = _
      rw [compositeDepth_eq gs k (by omega)]
      unfold compositeWith
      rw [if_neg (by simpa using (hasComponents_iff g).mpr hgc), hw]
      rfl
    obtain ⟨w', inner', m', e, hb', hw', _⟩ := depth_inv gs k (by omega) g (some w) (List.mem_of_getElem? hg) hgc hrec
    cases e
    obtain ⟨rfl, rfl⟩ := built_unique hbi hb'
    obtain ⟨w1, w2⟩ := hw' hs
    obtain ⟨p, ep, hp'⟩ := addU16_of (a := info.numPoints) (b := w.numPoints) (by omega)
    obtain ⟨q, eq, hq'⟩ := addU16_of (a := info.numContours) (b := w.numContours) (by omega)
    unfold compositeLoop
    rw [hg]
    simp only [compositeStep]
    rw [if_neg (by simpa using (hasComponents_iff g).mpr hgc), hrec]
    simp only [ep, eq, Res.ok_bind, Res.pure_eq]
    exact ih2 (k + 1) ⟨p, q, _⟩ (by omega) hk' (by simp only; omega) (by simp only; omega)

theorem loop_ne_err {gs : List Glyph} {rec : Glyph → Res (Option CompositeValues)} (hr : ∀ g, rec g ≠ .err) :
    ∀ (cs : List Component) (info : CompositeValues), compositeLoop gs rec info cs ≠ .err := by
  intro cs
  induction cs with
  | nil => intro info; simp [compositeLoop]
  | cons c cs ih =>
    intro info h
    unfold compositeLoop at h
    split at h
    · exact ih _ h
    · rename_i g hg
      rcases bindErr h with h | ⟨_, _, h⟩
      · unfold compositeStep at h
        split at h
        · rcases bindErr h with h | ⟨_, _, h⟩
          · exact addU16_ne_err _ _ h
          · rcases bindErr h with h | ⟨_, _, h⟩
            · exact addU16_ne_err _ _ h
            · cases h
        · rcases bindErr h with h | ⟨o, _, h⟩
          · exact hr _ h
          · cases o with
            | none => cases h
            | some o =>
              rcases bindErr h with h | ⟨_, _, h⟩
              · exact addU16_ne_err _ _ h
              · rcases bindErr h with h | ⟨_, _, h⟩
                · exact addU16_ne_err _ _ h
                · cases h
      · exact ih _ h

theorem depth_ne_err (gs : List Glyph) : ∀ n g, compositeDepth gs n g ≠ .err := by
  intro n
  induction n with
  | zero =>
    intro g h
    unfold compositeDepth compositeWith at h
    split at h
    · cases h
    · rcases bindErr h with h | ⟨_, _, h⟩
      · exact loop_ne_err (by simp) _ _ h
      · cases h
  | succ n ih =>
    intro g h
    unfold compositeDepth compositeWith at h
    split at h
    · cases h
    · rcases bindErr h with h | ⟨_, _, h⟩
      · exact loop_ne_err ih _ _ h
      · cases h


theorem mapL_pairs {α β : Type} {f : α → Res β} : ∀ {l : List α} {vs : List β}, Res.mapL f l = .ok vs →
    List.Forall₂ (fun a b => f a = .ok b) l vs
  | [], vs, h => by cases h; exact .nil
  | a :: l, vs, h => by
    simp only [Res.mapL] at h
    obtain ⟨b, hb, h⟩ := Res.bind_inv h
    cases hm : Res.mapL f l with
    | ok bs =>
      rw [hm] at h
      cases h
      exact .cons hb (mapL_pairs hm)
    | err => rw [hm] at h; cases h
    | panic => rw [hm] at h; cases h

theorem mapL_not_err {α β : Type} {f : α → Res β} (hf : ∀ a, f a ≠ .err) : ∀ l : List α, Res.mapL f l ≠ .err
  | [], h => by cases h
  | a :: l, h => by
    simp only [Res.mapL] at h
    rcases bindErr h with h | ⟨_, _, h⟩
    · exact hf _ h
    · cases hm : Res.mapL f l with
      | ok bs => rw [hm] at h; cases h
      | err => exact mapL_not_err hf l hm
      | panic => rw [hm] at h; cases h

theorem foldl_max_spec (l : List Nat) : ∀ z, (z ≤ l.foldl Nat.max z) ∧ (∀ x ∈ l, x ≤ l.foldl Nat.max z) ∧
    (l.foldl Nat.max z = z ∨ l.foldl Nat.max z ∈ l) := by
  induction l with
  | nil => intro z; simp
  | cons a l ih =>
    intro z
    obtain ⟨h1, h2, h3⟩ := ih (Nat.max z a)
    simp only [List.foldl_cons]
    have hz : z ≤ Nat.max z a := Nat.le_max_left _ _
    have ha : a ≤ Nat.max z a := Nat.le_max_right _ _
    refine ⟨by omega, ?_, ?_⟩
    · intro x hx
      rcases List.mem_cons.mp hx with rfl | hx
      · omega
      · exact h2 x hx
    · rcases h3 with h3 | h3
      · rw [h3]
        rcases Nat.le_total z a with h | h
        · right; exact List.mem_cons.mpr (.inl (Nat.max_eq_right h))
        · left; exact Nat.max_eq_left h
      · right; exact List.mem_cons_of_mem _ h3

theorem largest_maxNat (l : List Nat) (s : Set Nat) (h : ∀ n, n ∈ s ↔ n ∈ l) : Largest s (maxNat l) := by
  obtain ⟨h1, h2, h3⟩ := foldl_max_spec l 0
  refine ⟨?_, ?_⟩
  · rcases h3 with h3 | h3
    · left; exact h3
    · right; exact (h _).mpr h3
  · intro x hx
    rcases hx with rfl | hx
    · exact h1
    · exact h2 x ((h x).mp hx)

theorem maxNat_lt {l : List Nat} {b : Nat} (hb : 0 < b) (h : ∀ x ∈ l, x < b) : maxNat l < b := by
  obtain ⟨_, _, h3⟩ := foldl_max_spec l 0
  unfold maxNat
  rcases h3 with h3 | h3
  · omega
  · exact h _ h3

theorem fold_fields : ∀ (l : List CompositeValues) (z : CompositeValues),
    (l.foldl CompositeValues.max z).numPoints.toNat = (l.map (fun v => v.numPoints.toNat)).foldl Nat.max z.numPoints.toNat ∧
    (l.foldl CompositeValues.max z).numContours.toNat = (l.map (fun v => v.numContours.toNat)).foldl Nat.max z.numContours.toNat ∧
    (l.foldl CompositeValues.max z).maxDepth.toNat = (l.map (fun v => v.maxDepth.toNat)).foldl Nat.max z.maxDepth.toNat
  | [], z => ⟨rfl, rfl, rfl⟩
  | v :: l, z => by
    obtain ⟨h1, h2, h3⟩ := fold_fields l (z.max v)
    simp only [List.foldl_cons, List.map_cons]
    rw [h1, h2, h3]
    simp only [CompositeValues.max, maxU16_toNat]
    exact ⟨trivial, trivial, trivial⟩

theorem forall₂_right {α β : Type} {R : α → β → Prop} {l : List α} {l' : List β} (h : List.Forall₂ R l l') :
    (∀ b ∈ l', ∃ a ∈ l, R a b) ∧ (∀ a ∈ l, ∃ b ∈ l', R a b) := by
  induction h with
  | nil => simp
  | cons hab _ ih =>
    obtain ⟨i1, i2⟩ := ih
    constructor
    · intro b hb
      rcases List.mem_cons.mp hb with rfl | hb
      · exact ⟨_, by simp, hab⟩
      · obtain ⟨a, ha, hr⟩ := i1 b hb
        exact ⟨a, by simp [ha], hr⟩
    · intro a ha
      rcases List.mem_cons.mp ha with rfl | ha
      · exact ⟨_, by simp, hab⟩
      · obtain ⟨b, hb, hr⟩ := i2 a ha
        exact ⟨b, by simp [hb], hr⟩

theorem mem_filter_has {gs : List Glyph} {g : Glyph} : g ∈ gs.filter Glyph.hasComponents ↔ g ∈ gs ∧ g.components ≠ [] := by
  rw [List.mem_filter, hasComponents_iff]

theorem largest_unique {s : Set Nat} {a b : UInt16} (h1 : Largest s a.toNat) (h2 : Largest s b.toNat) : a = b :=
  UInt16.toNat_inj.mp (IsGreatest.unique h1 h2)

/-- **C79** (what is described is determined). -/
theorem C79_unique (gs : List Glyph) (m m' : Maxp10) (h : Describes gs m) (h' : Describes gs m') : m = m' := by
  obtain ⟨a1, a2, a3, a4, _, a5, a6, a7, b1, b2, b3, b4, b5, b6, b7⟩ := h
  obtain ⟨c1, c2, c3, c4, _, c5, c6, c7, d1, d2, d3, d4, d5, d6, d7⟩ := h'
  have e1 : m.numGlyphs = m'.numGlyphs := UInt16.toNat_inj.mp (by rw [a1, c1])
  have e2 := largest_unique a2 c2
  have e3 := largest_unique a3 c3
  have e4 := largest_unique a4 c4
  have e5 := largest_unique a5 c5
  have e6 := largest_unique a6 c6
  have e7 := largest_unique a7 c7
  cases m; cases m'
  simp only at *
  subst_vars
  rfl

theorem run_values {gs : List Glyph} {vals : List (Option CompositeValues)}
    (h : Res.mapL (compositeMaxpValues gs) (gs.filter Glyph.hasComponents) = .ok vals) :
    (∀ g ∈ gs, ∃ ls d, BuiltOf gs g.components ls d) ∧
    (∀ v ∈ vals.filterMap id, ∃ g ∈ gs, g.components ≠ [] ∧ ∃ ls d, BuiltOf gs g.components ls d ∧
      ((∀ g ∈ gs, pointCount g < 65536 ∧ contourCount g < 65536) → v.numPoints.toNat = totalOf pointCount ls ∧ v.numContours.toNat = totalOf contourCount ls) ∧
      v.maxDepth.toNat = d + 1) ∧
    (∀ g ∈ gs, g.components ≠ [] → ∃ v ∈ vals.filterMap id, ∃ ls d, BuiltOf gs g.components ls d ∧
      ((∀ g ∈ gs, pointCount g < 65536 ∧ contourCount g < 65536) → v.numPoints.toNat = totalOf pointCount ls ∧ v.numContours.toNat = totalOf contourCount ls) ∧
      v.maxDepth.toNat = d + 1) := by
  obtain ⟨f1, f2⟩ := forall₂_right (mapL_pairs h)
  have inv := depth_inv gs 65534 (by omega)
  have key : ∀ g ∈ gs, g.components ≠ [] → ∃ v ∈ vals.filterMap id, ∃ ls d, BuiltOf gs g.components ls d ∧
      ((∀ g ∈ gs, pointCount g < 65536 ∧ contourCount g < 65536) → v.numPoints.toNat = totalOf pointCount ls ∧ v.numContours.toNat = totalOf contourCount ls) ∧
      v.maxDepth.toNat = d + 1 := by
    intro g hg hc
    obtain ⟨o, ho, hr⟩ := f2 g (mem_filter_has.mpr ⟨hg, hc⟩)
    obtain ⟨v, ls, d, rfl, hb, hp, hd⟩ := inv g o hg hc hr
    exact ⟨v, by simpa using ho, ls, d, hb, hp, by omega⟩
  refine ⟨?_, ?_, key⟩
  · intro g hg
    by_cases hc : g.components = []
    · rw [hc]; exact ⟨[], 0, .nil⟩
    · obtain ⟨_, _, ls, d, hb, _⟩ := key g hg hc
      exact ⟨ls, d, hb⟩
  · intro v hv
    have hv : some v ∈ vals := by simpa using hv
    obtain ⟨g, hg, hr⟩ := f1 _ hv
    obtain ⟨hg, hc⟩ := mem_filter_has.mp hg
    obtain ⟨w, ls, d, e, hb, hp, hd⟩ := inv g _ hg hc hr
    cases e
    exact ⟨g, hg, hc, ls, d, hb, hp, by omega⟩

/-- **C79** (the statistics). Whenever a maxp table can be made at all, it is a table of version 1.0 which describes the glyphs. -/
theorem C79_describes (gs : List Glyph) (x : Maxp) (hs : Countable gs) (h : asMaxp10 gs = .ok x) :
    ∃ m, x = ⟨0x10000, .v10 m⟩ ∧ Describes gs m := by
  obtain ⟨hl, hs⟩ := hs
  have hs' : ∀ g ∈ gs, pointCount g < 65536 ∧ contourCount g < 65536 := fun g hg => ⟨(hs g hg).1, (hs g hg).2.1⟩
  unfold asMaxp10 at h
  obtain ⟨vals, hv, h⟩ := Res.bind_inv h
  obtain ⟨hb, hv1, hv2⟩ := run_values hv
  cases h
  obtain ⟨q1, q2, q3⟩ := fold_fields (vals.filterMap id) ⟨0, 0, 0⟩
  refine ⟨_, rfl, ?_⟩
  constructor
  · exact toNat_ofNat16 hl
  · simp only
    rw [toNat_ofNat16 (maxNat_lt (by omega) (by
      intro x hx
      obtain ⟨g, hg, rfl⟩ := List.mem_map.mp hx
      rw [numPoints_eq]; exact (hs g hg).1))]
    refine largest_maxNat _ _ (fun n => ?_)
    simp only [Set.mem_setOf_eq, List.mem_map, numPoints_eq, eq_comm]
  · simp only
    rw [toNat_ofNat16 (maxNat_lt (by omega) (by
      intro x hx
      obtain ⟨g, hg, rfl⟩ := List.mem_map.mp hx
      exact (hs g hg).2.1))]
    refine largest_maxNat _ _ (fun n => ?_)
    simp only [Set.mem_setOf_eq, List.mem_map, Glyph.numContours, eq_comm]
  · simp only
    rw [toNat_ofNat16 (maxNat_lt (by omega) (by
      intro x hx
      obtain ⟨g, hg, rfl⟩ := List.mem_map.mp hx
      exact (hs g hg).2.2))]
    refine largest_maxNat _ _ (fun n => ?_)
    simp only [Set.mem_setOf_eq, List.mem_map, eq_comm]
  · exact hb
  · simp only
    rw [q1]
    refine largest_maxNat _ _ (fun n => ?_)
    simp only [Set.mem_setOf_eq, List.mem_map]
    constructor
    · rintro ⟨g, hg, hc, ls, d, hbu, rfl⟩
      obtain ⟨v, hv, ls', d', hb', hp, _⟩ := hv2 g hg hc
      obtain ⟨rfl, rfl⟩ := built_unique hbu hb'
      exact ⟨v, hv, (hp hs').1⟩
    · rintro ⟨v, hv, rfl⟩
      obtain ⟨g, hg, hc, ls, d, hb', hp, _⟩ := hv1 v hv
      exact ⟨g, hg, hc, ls, d, hb', (hp hs').1⟩
  · simp only
    rw [q2]
    refine largest_maxNat _ _ (fun n => ?_)
    simp only [Set.mem_setOf_eq, List.mem_map]
    constructor
    · rintro ⟨g, hg, hc, ls, d, hbu, rfl⟩
      obtain ⟨v, hv, ls', d', hb', hp, _⟩ := hv2 g hg hc
      obtain ⟨rfl, rfl⟩ := built_unique hbu hb'
      exact ⟨v, hv, (hp hs').2⟩
    · rintro ⟨v, hv, rfl⟩
      obtain ⟨g, hg, hc, ls, d, hb', hp, _⟩ := hv1 v hv
      exact ⟨g, hg, hc, ls, d, hb', (hp hs').2⟩
  · simp only
    rw [q3]
    refine largest_maxNat _ _ (fun n => ?_)
    simp only [Set.mem_setOf_eq, List.mem_map]
    constructor
    · rintro ⟨g, hg, hc, ls, d, hbu, rfl⟩
      obtain ⟨v, hv, ls', d', hb', _, hd⟩ := hv2 g hg hc
      obtain ⟨rfl, rfl⟩ := built_unique hbu hb'
      exact ⟨v, hv, hd⟩
    · rintro ⟨v, hv, rfl⟩
      obtain ⟨g, hg, hc, ls, d, hb', _, hd⟩ := hv1 v hv
      exact ⟨g, hg, hc, ls, d, hb', hd⟩
  · exact ⟨rfl, rfl, rfl, rfl, rfl, rfl, rfl⟩

/-- **C79** (when it works). If there is a table which describes the glyphs, it is the one that is made; that is: if no
composite glyph contains itself and no total needs more than 16 bits. -/
theorem C79_succeeds (gs : List Glyph) (m : Maxp10) (hs : Countable gs) (h : Describes gs m) :
    asMaxp10 gs = .ok ⟨0x10000, .v10 m⟩ := by
  have hs' : ∀ g ∈ gs, pointCount g < 65536 ∧ contourCount g < 65536 := fun g hg => ⟨(hs.2 g hg).1, (hs.2 g hg).2.1⟩
  have hall : ∀ g ∈ gs.filter Glyph.hasComponents, ∃ v, compositeMaxpValues gs g = .ok v := by
    intro g hg
    obtain ⟨hg, hc⟩ := mem_filter_has.mp hg
    obtain ⟨ls, d, hb⟩ := h.acyclic g hg
    have b1 := h.maxCompositePoints.2 (Set.mem_insert_of_mem _ ⟨g, hg, hc, ls, d, hb, rfl⟩)
    have b2 := h.maxCompositeContours.2 (Set.mem_insert_of_mem _ ⟨g, hg, hc, ls, d, hb, rfl⟩)
    have b3 := h.maxComponentDepth.2 (Set.mem_insert_of_mem _ ⟨g, hg, hc, ls, d, hb, rfl⟩)
    have c1 := m.maxCompositePoints.toNat_lt
    have c2 := m.maxCompositeContours.toNat_lt
    have c3 := m.maxComponentDepth.toNat_lt
    obtain ⟨v, hv⟩ := loop_ok hs' hb 65534 ⟨0, 0, UInt16.ofNat (65535 - 65534)⟩ (by omega) (by omega)
      (by simp only [UInt16.toNat_zero]; omega) (by
        have : totalOf contourCount ls = totalOf (fun g => g.contours.length) ls := rfl
        simp only [UInt16.toNat_zero]; omega)
    refine ⟨some v, ?_⟩
    unfold compositeMaxpValues
    rw [compositeDepth_eq gs 65534 (by omega)]
    unfold compositeWith
    rw [if_neg (by simpa using (hasComponents_iff g).mpr hc), hv]
    rfl
  have hmap : ∀ l : List Glyph, (∀ g ∈ l, ∃ v, compositeMaxpValues gs g = .ok v) → ∃ vs, Res.mapL (compositeMaxpValues gs) l = .ok vs := by
    intro l
    induction l with
    | nil => intro _; exact ⟨[], rfl⟩
    | cons g l ih =>
      intro hl
      obtain ⟨v, hv⟩ := hl g (by simp)
      obtain ⟨vs, hvs⟩ := ih (fun x hx => hl x (by simp [hx]))
      exact ⟨v :: vs, by simp only [Res.mapL, hv, hvs, Res.ok_bind, Res.pure_eq]⟩
  obtain ⟨vs, hvs⟩ := hmap _ hall
  have : ∃ x, asMaxp10 gs = .ok x := by
    unfold asMaxp10
    rw [hvs]
    exact ⟨_, rfl⟩
  obtain ⟨x, hx⟩ := this
  obtain ⟨m', rfl, hm'⟩ := C79_describes gs x hs hx
  rw [hx, C79_unique gs m m' h hm']

/-- **C79** (both together). Either the table which describes the glyphs is made, or there is none and the call panics. -/
theorem C79_outcome (gs : List Glyph) (hs : Countable gs) :
    (∃ m, asMaxp10 gs = .ok ⟨0x10000, .v10 m⟩ ∧ Describes gs m) ∨ (asMaxp10 gs = .panic ∧ ¬ ∃ m, Describes gs m) := by
  cases hx : asMaxp10 gs with
  | ok x =>
    obtain ⟨m, rfl, hm⟩ := C79_describes gs x hs hx
    exact .inl ⟨m, rfl, hm⟩
  | err =>
    unfold asMaxp10 at hx
    rcases bindErr hx with hx | ⟨_, _, hx⟩
    · exact absurd hx (mapL_not_err (depth_ne_err gs 65534) _)
    · cases hx
  | panic =>
    refine .inr ⟨rfl, ?_⟩
    rintro ⟨m, hm⟩
    rw [C79_succeeds gs m hs hm] at hx
    cases hx

/-- `h` is the glyph of one of the components of `g`. -/
def PartOf (gs : List Glyph) (g h : Glyph) : Prop := ∃ c ∈ g.components, gs[c.glyphIndex.toNat]? = some h

theorem built_part {gs : List Glyph} {cs : List Component} {ls : List Glyph} {n : Nat} (hb : BuiltOf gs cs ls n) {c : Component} {h : Glyph}
    (hc : c ∈ cs) (hg : gs[c.glyphIndex.toNat]? = some h) (hh : h.components ≠ []) :
    ∃ inner m, BuiltOf gs h.components inner m ∧ m < n := by
  induction hb with
  | nil => cases hc
  | missing c' cs ls n hg' _ ih =>
    rcases List.mem_cons.mp hc with rfl | hc
    · rw [hg] at hg'; cases hg'
    · exact ih hc
  | simple c' g' cs ls n hg' hgc _ ih =>
    rcases List.mem_cons.mp hc with rfl | hc
    · rw [hg] at hg'; cases hg'; exact absurd hgc hh
    · exact ih hc
  | nested c' g' cs inner ls m n hg' hgc hbi _ _ ih2 =>
    rcases List.mem_cons.mp hc with rfl | hc
    · rw [hg] at hg'; cases hg'; exact ⟨inner, m, hbi, by omega⟩
    · obtain ⟨i, m', hb', hm'⟩ := ih2 hc
      exact ⟨i, m', hb', by omega⟩

theorem built_below {gs : List Glyph} {g h : Glyph} (hgh : Relation.TransGen (PartOf gs) g h) (hh : h.components ≠ []) :
    ∀ {ls : List Glyph} {n : Nat}, BuiltOf gs g.components ls n → ∃ inner m, BuiltOf gs h.components inner m ∧ m < n := by
  induction hgh with
  | single hp =>
    intro ls n hb
    obtain ⟨c, hc, hg⟩ := hp
    exact built_part hb hc hg hh
  | tail _ hp ih =>
    intro ls n hb
    rename_i k l _
    obtain ⟨c, hc, hg⟩ := hp
    obtain ⟨i, m, hb', hm⟩ := ih (fun e => by rw [e] at hc; cases hc) hb
    obtain ⟨i2, m2, hb2, hm2⟩ := built_part hb' hc hg hh
    exact ⟨i2, m2, hb2, by omega⟩

/-- **C79** (cycles). If a glyph contains itself, at any depth, the call panics. -/
theorem C79_cycle_panics (gs : List Glyph) (g : Glyph) (hg : g ∈ gs) (hc : Relation.TransGen (PartOf gs) g g) :
    asMaxp10 gs = .panic := by
  have hne : g.components ≠ [] := by
    intro e
    obtain ⟨k, ⟨c, hk, _⟩, _⟩ := Relation.TransGen.head'_iff.mp hc
    rw [e] at hk; cases hk
  cases hx : asMaxp10 gs with
  | ok x =>
    unfold asMaxp10 at hx
    obtain ⟨vals, hv, _⟩ := Res.bind_inv hx
    obtain ⟨ls, d, hb⟩ := (run_values hv).1 g hg
    obtain ⟨ls', d', hb', hlt⟩ := built_below hc hne hb
    have := (built_unique hb hb').2
    omega
  | err =>
    unfold asMaxp10 at hx
    rcases bindErr hx with hx | ⟨_, _, hx⟩
    · exact absurd hx (mapL_not_err (depth_ne_err gs 65534) _)
    · cases hx
  | panic => rfl

/-- **C79** (too many glyphs). Counts per table and per glyph are cut to 16 bits without notice: 65536 glyphs are counted as none. -/
theorem C79_wraps : ∃ gs : List Glyph, gs.length = 65536 ∧ asMaxp10 gs = .ok (new10 0 0 0 0 0 0 0) := by
  refine ⟨List.replicate 65536 ⟨0, 0, 0, 0, [], [], [], false⟩, List.length_replicate, ?_⟩
  have hf : (List.replicate 65536 (⟨0, 0, 0, 0, [], [], [], false⟩ : Glyph)).filter Glyph.hasComponents = [] := by
    rw [List.filter_eq_nil_iff]
    intro g hg
    rw [List.eq_of_mem_replicate hg]
    decide
  have hz : ∀ n : Nat, maxNat (List.replicate n 0) = 0 := by
    intro n
    have := maxNat_lt (l := List.replicate n 0) (b := 1) (by omega) (fun x hx => by rw [List.eq_of_mem_replicate hx]; omega)
    omega
  unfold asMaxp10
  rw [hf]
  simp only [Res.mapL, Res.ok_bind, Res.pure_eq, List.filterMap_nil, List.foldl_nil, List.length_replicate, List.map_replicate,
    Glyph.numPoints, Glyph.numContours, List.map_nil, List.sum_nil, List.length_nil, hz]
  rfl

/-! ### Examples -/

/-- The table of C32: an outline of three points, a composite of it, and a composite of both. -/
example : Countable sampleTable := by decide

example : asMaxp10 sampleTable = .ok ⟨0x10000, .v10 ⟨3, 3, 1, 6, 2, 1, 0, 0, 0, 0, 0, 0, 2, 2⟩⟩ := by decide +kernel

example : ∃ m, Describes sampleTable m ∧ m.maxCompositePoints = 6 ∧ m.maxComponentDepth = 2 := by
  have h : asMaxp10 sampleTable = .ok ⟨0x10000, .v10 ⟨3, 3, 1, 6, 2, 1, 0, 0, 0, 0, 0, 0, 2, 2⟩⟩ := by decide +kernel
  obtain ⟨m, e, hm⟩ := C79_describes _ _ (by decide) h
  cases e
  exact ⟨_, hm, rfl, rfl⟩

example : BuiltOf sampleTable [⟨1, ⟨2, 0, 0, 2, 0, 0⟩, none, 0⟩, ⟨9, ⟨1, 0, 0, 1, 0, 0⟩, none, 0⟩]
    [⟨0, 0, 0, 0, [[⟨0, 0, true⟩, ⟨7, 5, true⟩, ⟨3, -9, true⟩]], [], [], false⟩] 1 :=
  .nested _ _ _ [⟨0, 0, 0, 0, [[⟨0, 0, true⟩, ⟨7, 5, true⟩, ⟨3, -9, true⟩]], [], [], false⟩] [] 0 0 rfl (by simp)
    (.simple _ _ _ _ _ rfl rfl .nil) (.missing _ _ _ _ rfl .nil)

example : asMaxp10 [⟨0, 0, 0, 0, [], [], [⟨0, ⟨1, 0, 0, 1, 0, 0⟩, none, 0⟩], false⟩] = .panic :=
  C79_cycle_panics _ _ (List.mem_singleton_self _) (.single ⟨_, List.mem_singleton_self _, rfl⟩)

end FT.Props
