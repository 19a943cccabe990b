import Verif.Lemmas.Loca
import Verif.Props.Primitives

/-!
# C26: outlines in glyf and loca

`G` is the type of glyphs, `isEmpty` says which glyphs have no outline, `ser` serializes one glyph.
-/

namespace FT.Props
open FT FT.Loca

variable {G : Type}

/-- Specification: bytes from position `a` up to position `b`. -/
def slice (bs : Bytes) (a b : Nat) : Bytes := (bs.drop a).take (b - a)

/-- Specification: size of the outline data, each non-empty glyph rounded up to a multiple of four. -/
def outlineSize (isEmpty : G → Bool) (bytesOf : G → Bytes) (gs : List G) : Nat :=
  (gs.map (fun g => if isEmpty g then 0 else ((bytesOf g).length + 3) / 4 * 4)).sum

theorem outlineSize_eq (isEmpty : G → Bool) (bytesOf : G → Bytes) (gs : List G) :
    outlineSize isEmpty bytesOf gs = (gs.map (chunk isEmpty bytesOf)).flatten.length := by
  induction gs with
  | nil => rfl
  | cons g gs ih =>
    simp only [outlineSize, List.map_cons, List.sum_cons, List.flatten_cons, List.length_append] at ih ⊢
    rw [ih]
    congr 1
    unfold chunk
    split
    · rfl
    · rw [pad4_length_eq]

/-- The compiled tables. `L` are the offsets stored in loca, as the reader decodes them: one per glyph plus
one; glyph `i` occupies exactly the bytes between offset `i` and `i + 1`, which are its own bytes followed by
fewer than four zeros (nothing for an empty glyph); all offsets are multiples of four; 32-bit offsets are used
exactly when the data is longer than 65535 bytes. -/
theorem C26_layout (isEmpty : G → Bool) (ser : G → Res Bytes) (bytesOf : G → Bytes) (gs : List G)
    (hser : ∀ g ∈ gs, isEmpty g = false → ser g = .ok (bytesOf g))
    (hfit : outlineSize isEmpty bytesOf gs ≤ 4294967295) :
    ∃ out loca is32 r' L, compile isEmpty ser gs = .ok (out, loca, is32) ∧
      (is32 = true ↔ 65535 < out.length) ∧
      loca.length = (gs.length + 1) * (if is32 then 4 else 2) ∧
      readRaw is32 (Rd.new loca) = .ok (L, r') ∧ L.length = gs.length + 1 ∧
      (∀ x ∈ L, x.toNat % 4 = 0) ∧
      ∀ (i : Nat) (g : G), gs[i]? = some g → ∃ a b, L[i]? = some a ∧ L[i + 1]? = some b ∧
        ∃ k < 4, slice out a.toNat b.toNat = if isEmpty g then [] else bytesOf g ++ List.replicate k 0 := by
  rw [outlineSize_eq] at hfit
  obtain ⟨loca, h1, h2, h3⟩ := compile_spec isEmpty ser bytesOf gs hser hfit
  refine ⟨_, loca, _, _, _, h1, by simp, ?_, h3.run, ?_, ?_, ?_⟩
  · rw [h2]; simp
  · simp [ends, starts_length]
  · intro x hx
    obtain ⟨y, hy, rfl⟩ := List.mem_map.mp hx
    have hc4 : ∀ c ∈ gs.map (chunk isEmpty bytesOf), c.length % 4 = 0 := by
      intro c hc
      obtain ⟨g, _, rfl⟩ := List.mem_map.mp hc
      exact chunk_length _ _ _
    have hflat : ∀ cs : List Bytes, (∀ c ∈ cs, c.length % 4 = 0) → cs.flatten.length % 4 = 0 := by
      intro cs
      induction cs with
      | nil => intro _; rfl
      | cons c cs ih =>
        intro h
        have h1 := h c (by simp)
        have h2 := ih (fun x hx => h x (by simp [hx]))
        simp only [List.flatten_cons, List.length_append]
        omega
    have := hflat _ hc4
    unfold ends at hy
    rw [List.mem_append] at hy
    rcases hy with hy | hy
    · have := starts_mod _ 0 rfl hc4 y hy
      rw [ofNat32_toNat (by omega)]
      exact this.1
    · simp only [List.mem_singleton] at hy
      rw [hy, ofNat32_toNat (by omega)]
      omega
  · intro i g hg
    have hi : i < (gs.map (chunk isEmpty bytesOf)).length := by
      rw [List.length_map]; exact (List.getElem?_eq_some_iff.mp hg).1
    obtain ⟨a, b, ha, hb, hs⟩ := ends_slice (gs.map (chunk isEmpty bytesOf)) [] i hi
    simp only [List.length_nil, List.nil_append] at ha hb hs
    have hbound : ∀ x ∈ ends 0 (gs.map (chunk isEmpty bytesOf)), x ≤ 4294967295 := by
      intro x hx
      have hc4 : ∀ c ∈ gs.map (chunk isEmpty bytesOf), c.length % 4 = 0 := by
        intro c hc
        obtain ⟨g, _, rfl⟩ := List.mem_map.mp hc
        exact chunk_length _ _ _
      unfold ends at hx
      rw [List.mem_append] at hx
      rcases hx with hx | hx
      · have := starts_mod _ 0 rfl hc4 x hx
        omega
      · simp only [List.mem_singleton] at hx
        omega
    have hca : (gs.map (chunk isEmpty bytesOf))[i] = chunk isEmpty bytesOf g := by
      rw [List.getElem_map]
      rw [List.getElem?_eq_some_iff] at hg
      rw [hg.2]
    rw [hca] at hs
    refine ⟨UInt32.ofNat a, UInt32.ofNat b, by simp [ha], by simp [hb], (4 - (bytesOf g).length % 4) % 4,
      by omega, ?_⟩
    have ha' := hbound a (List.mem_of_getElem? ha)
    have hb' := hbound b (List.mem_of_getElem? hb)
    rw [ofNat32_toNat ha', ofNat32_toNat hb']
    unfold slice
    by_cases hbody : (gs.map (chunk isEmpty bytesOf)).flatten.isEmpty
    · rw [List.isEmpty_iff] at hbody
      rw [hbody] at hs ⊢
      have hz : ends 0 (gs.map (chunk isEmpty bytesOf)) = ends 0 (gs.map (chunk isEmpty bytesOf)) := rfl
      have hc4 : ∀ c ∈ gs.map (chunk isEmpty bytesOf), c.length % 4 = 0 := by
        intro c hc
        obtain ⟨g, _, rfl⟩ := List.mem_map.mp hc
        exact chunk_length _ _ _
      have hzero : ∀ x ∈ ends 0 (gs.map (chunk isEmpty bytesOf)), x = 0 := by
        intro x hx
        unfold ends at hx
        rw [List.mem_append] at hx
        rcases hx with hx | hx
        · have := starts_mod _ 0 rfl hc4 x hx
          rw [hbody] at this
          simpa using this.2.2
        · simp only [List.mem_singleton, hbody] at hx
          simpa using hx
      have := hzero a (List.mem_of_getElem? ha)
      have := hzero b (List.mem_of_getElem? hb)
      subst a; subst b
      have hch : chunk isEmpty bytesOf g = [] := by rw [← hs]; rfl
      have hch' : (if isEmpty g then [] else bytesOf g ++ List.replicate ((4 - (bytesOf g).length % 4) % 4) 0) = [] := hch
      rw [hch']
      rfl
    · rw [if_neg hbody, hs]
      rfl

/-- If the outline data does not fit 32-bit offsets, saving panics. -/
theorem C26_too_big (isEmpty : G → Bool) (ser : G → Res Bytes) (bytesOf : G → Bytes) (gs : List G)
    (hser : ∀ g ∈ gs, isEmpty g = false → ser g = .ok (bytesOf g))
    (hbig : 4294967295 < outlineSize isEmpty bytesOf gs) : compile isEmpty ser gs = .panic := by
  rw [outlineSize_eq] at hbig
  unfold compile
  rcases compileLoop_spec isEmpty ser bytesOf gs [] rfl hser with ⟨h, _⟩ | h
  · rw [h]
  · rw [h]
    simp only [List.nil_append]
    have hne : (gs.map (chunk isEmpty bytesOf)).flatten.isEmpty = false := by
      cases hh : (gs.map (chunk isEmpty bytesOf)).flatten with
      | nil => rw [hh] at hbig; simp at hbig
      | cons => rfl
    rw [hne]
    simp only [Bool.false_eq_true, if_false]
    rw [if_pos hbig]

/-- Reading the compiled tables back: if each non-empty glyph serializes to at least one byte and the glyph
reader decodes those bytes to the glyph `back g`, then loading loca and then glyf returns these glyphs (an empty
glyph as the canonical empty one). -/
theorem C26_reload_as (isEmpty : G → Bool) (ser : G → Res Bytes) (bytesOf : G → Bytes) (back : G → G) (empty : G) (p : Reader G)
    (gs : List G)
    (hser : ∀ g ∈ gs, isEmpty g = false → ser g = .ok (bytesOf g))
    (hread : ∀ g ∈ gs, isEmpty g = false → RoundTripsAt p (bytesOf g) (back g) ∧ bytesOf g ≠ [])
    (hfit : outlineSize isEmpty bytesOf gs ≤ 4294967295) :
    ∃ out loca is32 idx r1 r2, compile isEmpty ser gs = .ok (out, loca, is32) ∧
      fromBytes is32 (Rd.new loca) = .ok (idx, r1) ∧
      readGlyphs empty p idx (Rd.new out) = .ok (gs.map (fun g => if isEmpty g then empty else back g), r2) := by
  rw [outlineSize_eq] at hfit
  obtain ⟨loca, h1, _, h3⟩ := compile_spec isEmpty ser bytesOf gs hser hfit
  have hL : ReadsEnd (fromBytes _) loca (pairs ((ends 0 (gs.map (chunk isEmpty bytesOf))).map UInt32.ofNat)) :=
    ReadsEnd.bindPure h3 rfl
  refine ⟨_, loca, _, _, _, Rd.new (if (gs.map (chunk isEmpty bytesOf)).flatten.isEmpty then [0]
    else (gs.map (chunk isEmpty bytesOf)).flatten), h1, hL.run, ?_⟩
  · rw [pairs_ends _ 0 (by omega)]
    have hr := readGlyphs_spec isEmpty bytesOf back empty p gs [] 0 [0] hread (by simpa using hfit)
    by_cases hb : (gs.map (chunk isEmpty bytesOf)).flatten.isEmpty
    · rw [if_pos hb]
      rw [List.isEmpty_iff] at hb
      exact hr [0] [0] (by simp [hb])
    · rw [if_neg hb]
      exact hr [] _ (by simp)

/-- Reading the compiled tables back: if each non-empty glyph serializes to at least one byte and the glyph
reader decodes those bytes to the glyph, then loading loca and then glyf returns the same glyphs (an empty
glyph as the canonical empty one). -/
theorem C26_reload (isEmpty : G → Bool) (ser : G → Res Bytes) (bytesOf : G → Bytes) (empty : G) (p : Reader G)
    (gs : List G)
    (hser : ∀ g ∈ gs, isEmpty g = false → ser g = .ok (bytesOf g))
    (hread : ∀ g ∈ gs, isEmpty g = false → RoundTripsAt p (bytesOf g) g ∧ bytesOf g ≠ [])
    (hfit : outlineSize isEmpty bytesOf gs ≤ 4294967295) :
    ∃ out loca is32 idx r1 r2, compile isEmpty ser gs = .ok (out, loca, is32) ∧
      fromBytes is32 (Rd.new loca) = .ok (idx, r1) ∧
      readGlyphs empty p idx (Rd.new out) = .ok (gs.map (fun g => if isEmpty g then empty else g), r2) :=
  C26_reload_as isEmpty ser bytesOf id empty p gs hser hread hfit

/-! A concrete font: three glyphs, the second without outline, glyphs being their own byte strings. -/
example : compile (G := Bytes) List.isEmpty .ok [[1, 2, 3], [], [4, 5, 6, 7, 8]] =
    .ok ([1, 2, 3, 0, 4, 5, 6, 7, 8, 0, 0, 0], [0, 0, 0, 2, 0, 2, 0, 6], false) := by decide
example : outlineSize (G := Bytes) List.isEmpty id [[1, 2, 3], [], [4, 5, 6, 7, 8]] = 12 := by decide
example : RoundTripsAt (consume 3) [1, 2, 3] [1, 2, 3] := reads_consume [1, 2, 3]

end FT.Props
