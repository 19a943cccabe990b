import Verif.Lemmas.CliSave
import Verif.Props.GlyphComposite
import Verif.Props.Fvar

/-!
C28 and C29 for glyphs that were read from a file: what of their conditions holds for every such glyph.
-/

namespace FT.Props
open FT FT.Glyf FT.Save FT.Cli

theorem lift_ok {α : Type} {x : Res α} {r r' : Rd} {a : α} (h : Reader.lift x r = .ok (a, r')) : x = .ok a ∧ r' = r := by
  cases x with
  | ok b => simp [Reader.lift] at h; exact ⟨by rw [h.1], h.2.symm⟩
  | err => cases h
  | panic => cases h

/-- Each number differs from the one before by what fits 16 bits. -/
def Near : Int → List Int16 → Prop
  | _, [] => True
  | last, x :: xs => (-32768 ≤ x.toInt - last ∧ x.toInt - last ≤ 32767) ∧ Near x.toInt xs

theorem i16_byte (c : UInt8) : (Int16.ofInt c.toNat).toInt = c.toNat := by
  have := c.toNat_lt
  exact Int16.toInt_ofInt_of_le (by omega) (by omega)

theorem coord_near {short same f : UInt8} {last x : Int16} {r r' : Rd} (h : readCoord short same f last r = .ok (x, r')) :
    -32768 ≤ x.toInt - last.toInt ∧ x.toInt - last.toInt ≤ 32767 := by
  have hadd : ∀ a b y : Int16, addI16 a b = .ok y → y.toInt - a.toInt = b.toInt := by
    intro a b y h
    unfold addI16 at h
    simp only at h
    split at h
    · next hb =>
      cases h
      rw [Int16.toInt_ofInt_of_le (by omega) (by omega)]
      omega
    · cases h
  have hsub : ∀ a b y : Int16, subI16 a b = .ok y → y.toInt - a.toInt = - b.toInt := by
    intro a b y h
    unfold subI16 at h
    simp only at h
    split at h
    · next hb =>
      cases h
      rw [Int16.toInt_ofInt_of_le (by omega) (by omega)]
      omega
    · cases h
  unfold readCoord at h
  split at h
  · obtain ⟨c, r1, _, h⟩ := reader_bind_ok h
    have := c.toNat_lt
    split at h
    · have := hadd _ _ _ (lift_ok h).1
      rw [i16_byte] at this
      omega
    · have := hsub _ _ _ (lift_ok h).1
      rw [i16_byte] at this
      omega
  · split at h
    · cases h; omega
    · obtain ⟨c, r1, _, h⟩ := reader_bind_ok h
      have := hadd _ _ _ (lift_ok h).1
      have := c.le_toInt
      have := c.toInt_lt
      omega

theorem coords_near {short same : UInt8} : ∀ (fs : List UInt8) (last : Int16) (xs : List Int16) (r r' : Rd),
    readCoords short same last fs r = .ok (xs, r') → Near last.toInt xs ∧ xs.length = fs.length
  | [], _, _, _, _, h => by cases h; exact ⟨trivial, rfl⟩
  | f :: fs, last, xs, r, r', h => by
    unfold readCoords at h
    obtain ⟨x, r1, h1, h⟩ := reader_bind_ok h
    obtain ⟨ys, r2, h2, h⟩ := reader_bind_ok h
    cases h
    obtain ⟨i1, i2⟩ := coords_near fs x ys r1 _ h2
    exact ⟨⟨coord_near h1, i1⟩, by simp [i2]⟩

theorem points_near : ∀ (fs : List UInt8) (xs ys : List Int16) (x y : Int), Near x xs → Near y ys → xs.length = fs.length →
    ys.length = fs.length → StepsFit x y (pointsOf xs ys fs) ∧ (pointsOf xs ys fs).length = fs.length
  | [], _, _, _, _, _, _, _, _ => by
    have : ∀ xs ys, pointsOf xs ys [] = [] := by intro xs ys; cases xs <;> cases ys <;> rfl
    rw [this]
    exact ⟨trivial, rfl⟩
  | f :: fs, xs, ys, x, y, hx, hy, h1, h2 => by
    match xs, ys, hx, hy, h1, h2 with
    | a :: xs, b :: ys, hx, hy, h1, h2 =>
      obtain ⟨i1, i2⟩ := points_near fs xs ys a.toInt b.toInt hx.2 hy.2 (by simpa using h1) (by simpa using h2)
      exact ⟨⟨hx.1, hy.1, i1⟩, by simp [pointsOf, i2]⟩

theorem steps_prefix : ∀ (l m : List Point) (x y : Int), StepsFit x y (l ++ m) → StepsFit x y l
  | [], _, _, _, _ => trivial
  | _ :: l, m, _, _, h => ⟨h.1, h.2.1, steps_prefix l m _ _ h.2.2⟩

/-- Cutting gives the points up to the last end, in order. -/
theorem slice_flatten (points : List Point) : ∀ (es : List Nat) (s : Nat) (cs : List (List Point)),
    sliceContours points s es = .ok cs → cs.length = es.length ∧ ∃ n, cs.flatten = (points.drop s).take n
  | [], s, cs, h => by cases h; exact ⟨rfl, 0, by simp⟩
  | e :: es, s, cs, h => by
    unfold sliceContours at h
    split at h
    · cases h
    · next hb =>
      rw [not_or] at hb
      cases hc : sliceContours points e es with
      | err => rw [hc] at h; cases h
      | panic => rw [hc] at h; cases h
      | ok ds =>
        rw [hc] at h
        cases h
        obtain ⟨i1, n, i2⟩ := slice_flatten points es e ds hc
        refine ⟨by simp [i1], (e - s) + n, ?_⟩
        rw [List.flatten_cons, i2, List.take_add, List.drop_drop, show s + (e - s) = e by omega]

theorem slice_first {points : List Point} {e : Nat} {es : List Nat} {cs : List (List Point)} (he : 1 ≤ e)
    (h : sliceContours points 0 (e :: es) = .ok cs) : ∃ c ds, cs = c :: ds ∧ c ≠ [] := by
  unfold sliceContours at h
  split at h
  · cases h
  · next hb =>
    rw [not_or] at hb
    cases hc : sliceContours points e es with
    | err => rw [hc] at h; cases h
    | panic => rw [hc] at h; cases h
    | ok ds =>
      rw [hc] at h
      cases h
      refine ⟨_, ds, rfl, ?_⟩
      intro e0
      have := congrArg List.length e0
      simp only [List.length_take, List.length_drop, List.length_nil] at this
      omega

theorem instructions_short {r r' : Rd} {l : List UInt8} (h : readInstructions r = .ok (l, r')) : l.length ≤ 32767 := by
  unfold readInstructions at h
  obtain ⟨n, r1, _, h⟩ := reader_bind_ok h
  have := n.toInt_lt
  split at h
  · rw [deCounted_length h]
    omega
  · cases h; simp

theorem simple_read {n : Nat} {r r' : Rd} {cs : List (List Point)} {instr : List UInt8} {ov : Bool}
    (h : readSimple n r = .ok ((cs, instr, ov), r')) :
    cs.length = n ∧ cs ≠ [] ∧ (∀ c, cs.head? = some c → c ≠ []) ∧ instr.length ≤ 32767 ∧ StepsFit 0 0 cs.flatten := by
  unfold readSimple at h
  obtain ⟨ends, r1, h1, h⟩ := reader_bind_ok h
  obtain ⟨ins, r2, h2, h⟩ := reader_bind_ok h
  cases hm : (ends.map (fun x => 1 + x.toNat)).getLast? with
  | none => rw [hm] at h; cases h
  | some m =>
    rw [hm] at h
    obtain ⟨flags, r3, h3, h⟩ := reader_bind_ok h
    obtain ⟨xs, r4, h4, h⟩ := reader_bind_ok h
    obtain ⟨ys, r5, h5, h⟩ := reader_bind_ok h
    obtain ⟨cts, r6, h6, h⟩ := reader_bind_ok h
    cases h
    obtain ⟨h6, _⟩ := lift_ok h6
    obtain ⟨x1, x2⟩ := coords_near _ _ _ _ _ h4
    obtain ⟨y1, y2⟩ := coords_near _ _ _ _ _ h5
    obtain ⟨p1, p2⟩ := points_near flags xs ys 0 0 x1 y1 x2 y2
    obtain ⟨k1, k, k2⟩ := slice_flatten _ _ _ _ h6
    have hlen := deCounted_length h1
    cases ends with
    | nil => simp at hm
    | cons e es =>
      obtain ⟨c, ds, rfl, hc⟩ := slice_first (e := 1 + e.toNat) (by omega) h6
      refine ⟨by rw [k1, List.length_map, hlen], by simp, ?_, instructions_short h2, ?_⟩
      · intro c' hc'
        simp only [List.head?_cons, Option.some.injEq] at hc'
        rw [← hc']; exact hc
      · rw [k2, List.drop_zero]
        refine steps_prefix _ ((pointsOf xs ys flags).drop k) _ _ ?_
        rw [List.take_append_drop]
        exact p1

theorem f14_read {r r' : Rd} {a : ℚ} (h : F32.readF2dot14 r = .ok (a, r')) : ∃ p : Int16, a = fixed14 p := by
  unfold F32.readF2dot14 at h
  obtain ⟨p, r1, _, h⟩ := reader_bind_ok h
  cases h
  exact ⟨p, C04_f2dot14_value p⟩

theorem scales_read {flags : UInt16} {r r' : Rd} {a b c d : ℚ} (h : readScales flags r = .ok ((a, b, c, d), r')) :
    ∃ p q u v : Int16, a = fixed14 p ∧ b = fixed14 q ∧ c = fixed14 u ∧ d = fixed14 v := by
  have z : (0 : ℚ) = fixed14 0 := by simp [fixed14]
  unfold readScales at h
  split at h
  · obtain ⟨x, _, h1, h⟩ := reader_bind_ok h
    cases h
    obtain ⟨p, hp⟩ := f14_read h1
    exact ⟨p, 0, 0, p, hp, z, z, hp⟩
  · split at h
    · obtain ⟨x, _, h1, h⟩ := reader_bind_ok h
      obtain ⟨y, _, h2, h⟩ := reader_bind_ok h
      cases h
      obtain ⟨p, hp⟩ := f14_read h1
      obtain ⟨q, hq⟩ := f14_read h2
      exact ⟨p, 0, 0, q, hp, z, z, hq⟩
    · split at h
      · obtain ⟨x, _, h1, h⟩ := reader_bind_ok h
        obtain ⟨y, _, h2, h⟩ := reader_bind_ok h
        obtain ⟨x', _, h3, h⟩ := reader_bind_ok h
        obtain ⟨y', _, h4, h⟩ := reader_bind_ok h
        cases h
        obtain ⟨p, hp⟩ := f14_read h1
        obtain ⟨q, hq⟩ := f14_read h2
        obtain ⟨u, hu⟩ := f14_read h3
        obtain ⟨v, hv⟩ := f14_read h4
        exact ⟨p, q, u, v, hp, hq, hu, hv⟩
      · cases h
        exact ⟨16384, 0, 0, 16384, fixed14_one.symm, z, z, fixed14_one.symm⟩

theorem args_read {flags : UInt16} {r r' : Rd} {m : Option (UInt16 × UInt16)} {x y : Int16}
    (h : readArgs flags r = .ok ((m, x, y), r')) : m = none ∨ (m.isSome = true ∧ x = 0 ∧ y = 0) := by
  unfold readArgs at h
  split at h
  · split at h
    · obtain ⟨a, _, _, h⟩ := reader_bind_ok h
      obtain ⟨b, _, _, h⟩ := reader_bind_ok h
      cases h
      exact .inl rfl
    · obtain ⟨a, _, _, h⟩ := reader_bind_ok h
      obtain ⟨b, _, _, h⟩ := reader_bind_ok h
      cases h
      exact .inl rfl
  · obtain ⟨a, _, _, h⟩ := reader_bind_ok h
    split at h
    · cases h
    · cases h
      exact .inr ⟨rfl, rfl, rfl⟩

theorem component_read {r r' : Rd} {c : Component} (h : readComponent r = .ok (c, r')) : StorableComponent c := by
  unfold readComponent at h
  obtain ⟨flags, _, _, h⟩ := reader_bind_ok h
  obtain ⟨i, _, _, h⟩ := reader_bind_ok h
  obtain ⟨⟨m, x, y⟩, _, h1, h⟩ := reader_bind_ok h
  obtain ⟨⟨a, b, c', d⟩, _, h2, h⟩ := reader_bind_ok h
  cases h
  obtain ⟨p, q, u, v, e1, e2, e3, e4⟩ := scales_read h2
  refine ⟨?_, p, q, u, v, e1, e2, e3, e4⟩
  rcases args_read h1 with e | ⟨e, rfl, rfl⟩
  · exact .inl ⟨e, x, y, rfl, rfl⟩
  · exact .inr ⟨e, by simp, by simp⟩

theorem components_read : ∀ (k : Nat) (r r' : Rd) (cs : List Component), readComponentsFuel k r = .ok (cs, r') →
    cs ≠ [] ∧ ∀ c ∈ cs, StorableComponent c
  | 0, _, _, _, h => by cases h
  | k + 1, r, r', cs, h => by
    unfold readComponentsFuel at h
    obtain ⟨c, r1, h1, h⟩ := reader_bind_ok h
    have hc := component_read h1
    split at h
    · obtain ⟨ds, r2, h2, h⟩ := reader_bind_ok h
      cases h
      refine ⟨by simp, ?_⟩
      intro c' hc'
      rcases List.mem_cons.mp hc' with rfl | hc'
      · exact hc
      · exact (components_read k _ _ _ h2).2 c' hc'
    · cases h
      refine ⟨by simp, ?_⟩
      intro c' hc'
      rw [List.mem_singleton.mp hc']
      exact hc

/-- What every glyph read from a file satisfies: it is an outline or made of components, not both; it can be stored but for
the number of its points. -/
theorem read_glyph {r r' : Rd} {g : Glyph} (h : readGlyph r = .ok (g, r')) : g.instructions.length ≤ 32767 ∧
    ((g.components = [] ∧ g.contours ≠ [] ∧ (∀ c, g.contours.head? = some c → c ≠ []) ∧ g.contours.length ≤ 32767 ∧
      StepsFit 0 0 g.contours.flatten) ∨
    (g.contours = [] ∧ g.components ≠ [] ∧ ∀ c ∈ g.components, StorableComponent c)) := by
  unfold readGlyph at h
  obtain ⟨n, _, _, h⟩ := reader_bind_ok h
  obtain ⟨_, _, _, h⟩ := reader_bind_ok h
  obtain ⟨_, _, _, h⟩ := reader_bind_ok h
  obtain ⟨_, _, _, h⟩ := reader_bind_ok h
  obtain ⟨_, _, _, h⟩ := reader_bind_ok h
  split at h
  · obtain ⟨cs, r1, h1, h⟩ := reader_bind_ok h
    obtain ⟨ins, r2, h2, h⟩ := reader_bind_ok h
    cases h
    refine ⟨?_, .inr ⟨rfl, components_read _ _ _ _ h1⟩⟩
    split at h2
    · exact instructions_short h2
    · cases h2; simp
  · obtain ⟨⟨cts, ins, ov⟩, r1, h1, h⟩ := reader_bind_ok h
    cases h
    obtain ⟨h2, h3, h4, h5, h6⟩ := simple_read h1
    have := n.toInt_lt
    exact ⟨h5, .inl ⟨rfl, h3, h4, by simp only; omega, h6⟩⟩

/-- **C28** (glyphs from files). An outline read from a file, with at most 32768 points and 32767 in each contour, is
written, and read again as the same outline, but for the overlap flag. -/
theorem C28_reread {r r' : Rd} {g : Glyph} (h : readGlyph r = .ok (g, r')) (hc : g.components = [])
    (hl : ∀ c ∈ g.contours, c.length ≤ 32767) (hp : g.contours.flatten.length ≤ 32768) :
    ∃ bs, encGlyph g = .ok bs ∧ Reads readGlyph bs { g with overlap := false } := by
  obtain ⟨hi, ⟨_, h1, h2, h3, h4⟩ | ⟨_, h1, _⟩⟩ := read_glyph h
  · exact C28_roundtrip g hc h1 h2 h3 hl hp hi h4
  · exact absurd hc h1

/-- **C29** (glyphs from files). Every composite glyph read from a file is written, and read again with the same box,
instructions and components. -/
theorem C29_reread {r r' : Rd} {g : Glyph} (h : readGlyph r = .ok (g, r')) (hc : g.components ≠ []) :
    ∃ bs g', encGlyph g = .ok bs ∧ Reads readGlyph bs g' ∧
      (g'.xMin = g.xMin ∧ g'.xMax = g.xMax ∧ g'.yMin = g.yMin ∧ g'.yMax = g.yMax) ∧ g'.instructions = g.instructions ∧
      g'.components.map componentContent = g.components.map componentContent ∧ g'.contours = g.contours := by
  obtain ⟨hi, ⟨h1, _⟩ | ⟨h1, _, h2⟩⟩ := read_glyph h
  · exact absurd h1 hc
  · obtain ⟨bs, g', e1, e2, e3, e4, e5, e6, _⟩ := C29_roundtrip g hc h2 hi
    exact ⟨bs, g', e1, e2, e3, e4, e5, by rw [e6, h1]⟩

/-- A triangle, and a glyph which is that triangle, moved. -/
example : ∃ g, runAll readGlyph [0,1,0,0,0,0,0,100,0,80,0,2,0,0,49,51,39,100,50,80] = .ok g ∧ g.components = [] ∧
    g.contours.flatten.length = 3 :=
  ⟨⟨0, 100, 0, 80, [[⟨0, 0, true⟩, ⟨100, 0, true⟩, ⟨50, 80, true⟩]], [], [], false⟩, okIs_eq (by decide +kernel), rfl, rfl⟩

example : ∃ g, runAll readGlyph [255,255,0,0,0,0,0,100,0,80,0,2,0,7,10,20] = .ok g ∧ g.components.length = 1 :=
  ⟨⟨0, 100, 0, 80, [], [], [⟨7, ⟨1, 0, 0, 1, 10, 20⟩, none, 2⟩], false⟩, okIs_eq (by decide +kernel), rfl⟩

end FT.Props
