import Verif.Props.ForeignCmap

/-!
# C92, outside the guards

What becomes of every subtable of format 12 whose glyphs need more than 16 bits, and of every subtable of format 4 where the sum of
a glyph and a delta does not fit.
-/

namespace FT.Props
open FT Reader FT.Off FT.Cmap

/-! ### Specification -/

/-- A format 12 subtable at the beginning of `bs`: groups of Unicode characters, in order and apart. -/
structure Shape12 (bs : Bytes) : Prop where
  format : field bs 0 2 = 12
  inside : 16 + 12 * field bs 12 4 ≤ bs.length
  group : ∀ i < field bs 12 4, field bs (16 + 12 * i) 4 ≤ field bs (20 + 12 * i) 4 ∧ field bs (20 + 12 * i) 4 ≤ 0x10FFFF
  apart : ∀ i j, i < j → j < field bs 12 4 → field bs (20 + 12 * i) 4 < field bs (16 + 12 * j) 4

/-- The low 16 bits of the first glyph of a group and of the place of a character in the group: their sum has 16 bits, for every
character. -/
def LowBitsFit (bs : Bytes) : Prop :=
  ∀ i < field bs 12 4, ∀ k ≤ field bs (20 + 12 * i) 4 - field bs (16 + 12 * i) 4,
    field bs (24 + 12 * i) 4 % 65536 + k % 65536 ≤ 65535

/-! ### Format 12 -/

/-- What the loop inserts for a group. -/
def lowEntries (g : Group) : Map :=
  (List.range (1 + (g.endCharCode.toNat - g.startCharCode.toNat))).map fun j =>
    (UInt32.ofNat (g.startCharCode.toNat + j), UInt16.ofNat (g.startGlyphID.toNat % 65536 + j % 65536))

theorem expandGroup_low (g : Group) : ∀ (k i : Nat) (m : Map), (∀ j < k, g.startGlyphID.toNat % 65536 + (i + j) % 65536 ≤ 65535) →
    expandGroup g k i m = .ok (((List.range' i k).map fun j =>
      (UInt32.ofNat (g.startCharCode.toNat + j), UInt16.ofNat (g.startGlyphID.toNat % 65536 + j % 65536))).foldl
        (fun m x => BMap.insert m x.1 x.2) m)
  | 0, _, _, _ => rfl
  | k + 1, i, m, h => by
    have h0 := h 0 (by omega)
    rw [Nat.add_zero] at h0
    rw [expandGroup]
    rw [if_neg (by omega), expandGroup_low g k (i + 1) _ fun j hj => by
      have := h (j + 1) (by omega)
      rw [show i + (j + 1) = i + 1 + j by omega] at this
      exact this]
    rfl

theorem expandGroup_high (g : Group) : ∀ (k i : Nat) (m : Map), (∃ j < k, 65535 < g.startGlyphID.toNat % 65536 + (i + j) % 65536) →
    expandGroup g k i m = .panic
  | 0, _, _, ⟨j, hj, _⟩ => by omega
  | k + 1, i, m, ⟨j, hj, h⟩ => by
    rw [expandGroup]
    split
    · rfl
    · cases j with
      | zero => rw [Nat.add_zero] at h; omega
      | succ j =>
        refine expandGroup_high g k (i + 1) _ ⟨j, by omega, ?_⟩
        rw [show i + 1 + j = i + (j + 1) by omega]
        exact h

/-- A group that the loop gets through. -/
def LowGroup (g : Group) : Prop :=
  ∀ k ≤ g.endCharCode.toNat - g.startCharCode.toNat, g.startGlyphID.toNat % 65536 + k % 65536 ≤ 65535

theorem expandGroups_low : ∀ (gs : List Group) (m : Map),
    (∀ g ∈ gs, g.startCharCode.toNat ≤ g.endCharCode.toNat ∧ g.endCharCode.toNat ≤ 0x10FFFF) → (∀ g ∈ gs, LowGroup g) →
    expandGroups gs m = .ok ((gs.flatMap lowEntries).foldl (fun m x => BMap.insert m x.1 x.2) m)
  | [], _, _, _ => rfl
  | g :: gs, m, h, hl => by
    obtain ⟨h1, h2⟩ := h g (by simp)
    have hg := hl g (by simp)
    rw [expandGroups, if_neg (by omega)]
    simp only
    rw [if_neg (by omega), expandGroup_low g _ 0 m fun j hj => by rw [Nat.zero_add]; exact hg j (by omega)]
    simp only
    rw [expandGroups_low gs _ (fun x hx => h x (by simp [hx])) fun x hx => hl x (by simp [hx]), List.flatMap_cons, List.foldl_append]
    congr 3
    unfold lowEntries
    rw [List.range_eq_range']

theorem expandGroups_high : ∀ (gs : List Group) (m : Map),
    (∀ g ∈ gs, g.startCharCode.toNat ≤ g.endCharCode.toNat ∧ g.endCharCode.toNat ≤ 0x10FFFF) → (∃ g ∈ gs, ¬ LowGroup g) →
    expandGroups gs m = .panic
  | [], _, _, ⟨g, hg, _⟩ => by cases hg
  | g :: gs, m, h, hx => by
    obtain ⟨h1, h2⟩ := h g (by simp)
    rw [expandGroups, if_neg (by omega)]
    simp only
    rw [if_neg (by omega)]
    by_cases hg : LowGroup g
    · rw [expandGroup_low g _ 0 m fun j hj => by rw [Nat.zero_add]; exact hg j (by omega)]
      simp only
      refine expandGroups_high gs _ (fun x hx => h x (by simp [hx])) ?_
      obtain ⟨x, hx, hn⟩ := hx
      rcases List.mem_cons.mp hx with rfl | hx
      · exact absurd hg hn
      · exact ⟨x, hx, hn⟩
    · unfold LowGroup at hg
      push Not at hg
      obtain ⟨k, hk, hk2⟩ := hg
      rw [expandGroup_high g _ 0 m ⟨k, by omega, by rw [Nat.zero_add]; omega⟩]

theorem read_shape12 {B : Bytes} {start : Nat} {stk : List Nat} (h : Shape12 (B.drop start)) :
    ∃ t ptr, readCmap12 ⟨B, start, stk⟩ = .ok (t, ⟨B, ptr, stk⟩) ∧ t.groups.length = field (B.drop start) 12 4 ∧
      ∀ i (x : Group), t.groups[i]? = some x → x.startCharCode.toNat = field (B.drop start) (16 + 12 * i) 4 ∧
        x.endCharCode.toNat = field (B.drop start) (20 + 12 * i) 4 ∧ x.startGlyphID.toNat = field (B.drop start) (24 + 12 * i) 4 := by
  have hn : ∃ n, n = field (B.drop start) 12 4 := ⟨_, rfl⟩
  obtain ⟨n, hn⟩ := hn
  have hi := h.inside
  rw [← hn] at hi ⊢
  simp only [List.length_drop] at hi
  obtain ⟨v0, a0, b0⟩ := readU16_ok (r := ⟨B, start, stk⟩) (by simp only; omega)
  obtain ⟨v1, a1, b1⟩ := readU16_ok (r := ⟨B, start + 2, stk⟩) (by simp only; omega)
  obtain ⟨v2, a2, b2⟩ := readU32_ok (r := ⟨B, start + 2 + 2, stk⟩) (by simp only; omega)
  obtain ⟨v3, a3, b3⟩ := readU32_ok (r := ⟨B, start + 2 + 2 + 4, stk⟩) (by simp only; omega)
  obtain ⟨v4, a4, b4⟩ := readU32_ok (r := ⟨B, start + 2 + 2 + 4 + 4, stk⟩) (by simp only; omega)
  simp only at a0 a1 a2 a3 a4 b0 b1 b2 b3 b4
  have a4 : v4.toNat = n := by rw [a4, hn, field_drop]
  obtain ⟨gs, c1, c2, c3⟩ := list_read (p := readGroup) (w := 12) (B := B) (stk := stk) n (start + 2 + 2 + 4 + 4 + 4)
    (Q := fun i (x : Group) => x.startCharCode.toNat = field (B.drop start) (16 + 12 * i) 4 ∧
      x.endCharCode.toNat = field (B.drop start) (20 + 12 * i) 4 ∧ x.startGlyphID.toNat = field (B.drop start) (24 + 12 * i) 4)
    fun i hi => by
      obtain ⟨w0, x0, y0⟩ := readU32_ok (r := ⟨B, start + 2 + 2 + 4 + 4 + 4 + 12 * i, stk⟩) (by simp only; omega)
      obtain ⟨w1, x1, y1⟩ := readU32_ok (r := ⟨B, start + 2 + 2 + 4 + 4 + 4 + 12 * i + 4, stk⟩) (by simp only; omega)
      obtain ⟨w2, x2, y2⟩ := readU32_ok (r := ⟨B, start + 2 + 2 + 4 + 4 + 4 + 12 * i + 4 + 4, stk⟩) (by simp only; omega)
      simp only at x0 x1 x2 y0 y1 y2
      refine ⟨⟨w0, w1, w2⟩, ⟨?_, ?_, ?_⟩, ?_⟩
      · simp only; rw [x0, field_drop]; congr 1; omega
      · simp only; rw [x1, field_drop]; congr 1; omega
      · simp only; rw [x2, field_drop]; congr 1; omega
      · unfold readGroup
        simp only [bind_run, y0, y1, y2, pure_run]
  refine ⟨⟨v0, v1, v2, v3, gs⟩, start + 2 + 2 + 4 + 4 + 4 + 12 * n, ?_, c1, c2⟩
  unfold readCmap12
  simp only [bind_run, b0, b1, b2, b3, b4, a4, c3, pure_run]

/-- **C92** (format 12, any glyphs). Every character has the low 16 bits of the glyph that OpenType gives it, as long as no
sum of low bits overflows. -/
theorem C92_wide_glyphs {B : Bytes} {pos base : Nat} {stk : List Nat} {er : EncodingRecord}
    (h : Shape12 (B.drop (base + er.subtableOffset.toNat))) (hl : LowBitsFit (B.drop (base + er.subtableOffset.toNat))) :
    ∃ st ptr, readSubtable er ⟨B, pos, base :: stk⟩ = .ok (st, ⟨B, ptr, base :: stk⟩) ∧
      ∀ c g, Lists st.mapping c g ↔ ∃ w, Maps12 (B.drop (base + er.subtableOffset.toNat)) c w ∧ g = w % 65536 := by
  obtain ⟨start, hstart⟩ : ∃ s, s = base + er.subtableOffset.toNat := ⟨_, rfl⟩
  rw [← hstart] at h hl ⊢
  have hi := h.inside
  simp only [List.length_drop] at hi
  obtain ⟨t, ptr, e1, e2, e3⟩ := read_shape12 (stk := base :: stk) h
  have key : ∀ x ∈ t.groups, ∃ i < field (B.drop start) 12 4, x.startCharCode.toNat = field (B.drop start) (16 + 12 * i) 4 ∧
      x.endCharCode.toNat = field (B.drop start) (20 + 12 * i) 4 ∧ x.startGlyphID.toNat = field (B.drop start) (24 + 12 * i) 4 := by
    intro x hx
    obtain ⟨i, hi, rfl⟩ := List.mem_iff_getElem.mp hx
    exact ⟨i, by omega, e3 i _ (by simp [hi])⟩
  have hm : toMapping12 t = .ok (BMap.collect (t.groups.flatMap lowEntries)) := by
    refine expandGroups_low t.groups [] (fun g hg => ?_) fun g hg => ?_
    · obtain ⟨i, hi, k1, k2, k3⟩ := key g hg
      rw [k1, k2]
      exact h.group i hi
    · obtain ⟨i, hi, k1, k2, k3⟩ := key g hg
      unfold LowGroup
      rw [k1, k2, k3]
      exact hl i hi
  have mem : ∀ x ∈ t.groups.flatMap lowEntries, ∃ i c, i < field (B.drop start) 12 4 ∧ field (B.drop start) (16 + 12 * i) 4 ≤ c ∧
      c ≤ field (B.drop start) (20 + 12 * i) 4 ∧ x.1.toNat = c ∧
      x.2.toNat = (field (B.drop start) (24 + 12 * i) 4 + (c - field (B.drop start) (16 + 12 * i) 4)) % 65536 := by
    intro x hx
    obtain ⟨y, hy, hx⟩ := List.mem_flatMap.mp hx
    obtain ⟨i, hi, k1, k2, k3⟩ := key y hy
    have hg := h.group i hi
    unfold lowEntries at hx
    obtain ⟨j, hj, rfl⟩ := List.mem_map.mp hx
    rw [List.mem_range, k1, k2] at hj
    have hfit := hl i hi j (by omega)
    refine ⟨i, field (B.drop start) (16 + 12 * i) 4 + j, hi, by omega, by omega, ?_, ?_⟩
    · simp only; rw [k1, ofNat32_toNat (by omega)]
    · simp only; rw [k3, ofNat16_toNat (by omega)]; omega
  have func : ∀ x ∈ t.groups.flatMap lowEntries, ∀ y ∈ t.groups.flatMap lowEntries, x.1 = y.1 → x = y := by
    intro x hx y hy e
    obtain ⟨i, c, i1, i2, i3, i4, i5⟩ := mem x hx
    obtain ⟨j, d, j1, j2, j3, j4, j5⟩ := mem y hy
    have e' := congrArg UInt32.toNat e
    rw [i4, j4] at e'
    subst e'
    obtain rfl : i = j := by
      rcases Nat.lt_trichotomy i j with hl | hl | hl
      · have := h.apart i j hl (by omega); omega
      · exact hl
      · have := h.apart j i hl (by omega); omega
    exact Prod.ext e (UInt16.toNat_inj.mp (by rw [i5, j5]))
  unfold readSubtable
  simp only [bind_run, topOfTable, setPtr]
  have hf := h.format
  rw [← hstart, peek_field (a := 0) (b := 12) (by omega) (by rw [field_drop] at hf; exact hf)]
  simp only
  rw [if_neg (by decide), if_neg (by decide), if_pos trivial]
  simp only [bind_run, e1, Reader.lift, hm, pure_run]
  refine ⟨_, _, rfl, fun c g => ?_⟩
  simp only
  rw [lists_collect func]
  constructor
  · rintro ⟨x, hx, rfl, rfl⟩
    obtain ⟨i, c, i1, i2, i3, i4, i5⟩ := mem x hx
    exact ⟨_, ⟨i, i1, by rw [i4]; exact i2, by rw [i4]; exact i3, rfl⟩, by rw [i5, i4]⟩
  · rintro ⟨w, ⟨i, i1, i2, i3, rfl⟩, rfl⟩
    have hg := h.group i i1
    obtain ⟨y, hy⟩ := get_of_lt (l := t.groups) (i := i) (by omega)
    obtain ⟨k1, k2, k3⟩ := e3 i y hy
    have hfit := hl i i1 (c - field (B.drop start) (16 + 12 * i) 4) (by omega)
    refine ⟨(UInt32.ofNat (y.startCharCode.toNat + (c - field (B.drop start) (16 + 12 * i) 4)),
      UInt16.ofNat (y.startGlyphID.toNat % 65536 + (c - field (B.drop start) (16 + 12 * i) 4) % 65536)), ?_, ?_, ?_⟩
    · refine List.mem_flatMap.mpr ⟨y, List.mem_of_getElem? hy, ?_⟩
      unfold lowEntries
      refine List.mem_map.mpr ⟨c - field (B.drop start) (16 + 12 * i) 4, ?_, rfl⟩
      rw [List.mem_range, k1, k2]
      omega
    · simp only; rw [k1, ofNat32_toNat (by omega)]; omega
    · simp only; rw [k3, ofNat16_toNat (by omega)]; omega

/-- **C92** (format 12, outside). If such a sum overflows, reading panics. -/
theorem C92_wide_panics {B : Bytes} {pos base : Nat} {stk : List Nat} {er : EncodingRecord}
    (h : Shape12 (B.drop (base + er.subtableOffset.toNat))) (hl : ¬ LowBitsFit (B.drop (base + er.subtableOffset.toNat))) :
    readSubtable er ⟨B, pos, base :: stk⟩ = .panic := by
  obtain ⟨start, hstart⟩ : ∃ s, s = base + er.subtableOffset.toNat := ⟨_, rfl⟩
  rw [← hstart] at h hl
  have hi := h.inside
  simp only [List.length_drop] at hi
  obtain ⟨t, ptr, e1, e2, e3⟩ := read_shape12 (stk := base :: stk) h
  have hm : toMapping12 t = .panic := by
    refine expandGroups_high t.groups [] (fun g hg => ?_) ?_
    · obtain ⟨i, hi, rfl⟩ := List.mem_iff_getElem.mp hg
      obtain ⟨k1, k2, k3⟩ := e3 i _ (List.getElem?_eq_getElem hi)
      rw [k1, k2]
      exact h.group i (by omega)
    · unfold LowBitsFit at hl
      push Not at hl
      obtain ⟨i, hi, k, hk, hk2⟩ := hl
      obtain ⟨y, hy⟩ := get_of_lt (l := t.groups) (i := i) (by omega)
      obtain ⟨k1, k2, k3⟩ := e3 i y hy
      refine ⟨y, List.mem_of_getElem? hy, fun hc => ?_⟩
      have := hc k (by omega)
      omega
  unfold readSubtable
  simp only [bind_run, topOfTable, setPtr]
  have hf := h.format
  rw [← hstart, peek_field (a := 0) (b := 12) (by omega) (by rw [field_drop] at hf; exact hf)]
  simp only
  rw [if_neg (by decide), if_neg (by decide), if_pos trivial]
  simp only [bind_run, e1, Reader.lift, hm]

/-! ### Format 4 -/

theorem expandSeg_total {gia : List UInt16} {d : Int16} {ro : UInt16} {part : Int} : ∀ (cs : List Nat) (m : Map),
    (∃ m', expandSeg gia d ro part cs m = .ok m') ∨ expandSeg gia d ro part cs m = .panic
  | [], m => .inl ⟨m, rfl⟩
  | c :: cs, m => by
    rw [expandSeg]
    split
    · exact expandSeg_total cs _
    · simp only
      split
      · exact .inl ⟨m, rfl⟩
      · split
        · exact .inr rfl
        · split
          · split
            · exact .inr rfl
            · exact expandSeg_total cs _
          · exact expandSeg_total cs _

theorem expandSeg_overflow {gia : List UInt16} {d : Int16} {ro : UInt16} {part : Int} (hro : ro ≠ 0) : ∀ {cs : List Nat} {m : Map},
    (∀ c ∈ cs, 0 ≤ (c : Int) + part ∧ ((c : Int) + part).toNat < gia.length) →
    (∃ c ∈ cs, ∃ g, gia[((c : Int) + part).toNat]? = some g ∧ g.toNat ≠ 0 ∧
      (g.toInt16.toInt + d.toInt < -32768 ∨ 32767 < g.toInt16.toInt + d.toInt)) →
    expandSeg gia d ro part cs m = .panic
  | [], _, _, ⟨c, hc, _⟩ => by cases hc
  | c :: cs, m, h, hx => by
    obtain ⟨h1, h2⟩ := h c (by simp)
    rw [expandSeg, if_neg hro]
    simp only
    rw [if_neg (by omega)]
    obtain ⟨c', hc', g, hg, hg0, hov⟩ := hx
    split
    · rfl
    · next g' hg' =>
      have ih : c' ∈ cs → ∀ m, expandSeg gia d ro part cs m = .panic := fun hc m =>
        expandSeg_overflow hro (fun c hc => h c (by simp [hc])) ⟨c', hc, g, hg, hg0, hov⟩
      rcases List.mem_cons.mp hc' with rfl | hc'
      · rw [hg] at hg'
        cases hg'
        rw [if_pos hg0, if_pos hov]
      · split
        · split
          · rfl
          · exact ih hc' _
        · exact ih hc' _

theorem expandLoop_overflow {t : Cmap4} {is : List Nat} {m : Map}
    (h : ∀ i ∈ is, ∃ s e d ro, t.startCode[i]? = some s ∧ t.endCode[i]? = some e ∧ t.idDelta[i]? = some d ∧
      t.idRangeOffsets[i]? = some ro ∧ e.toNat ≠ 65535)
    (hx : ∃ i ∈ is, ∀ s e d ro, t.startCode[i]? = some s → t.endCode[i]? = some e → t.idDelta[i]? = some d →
      t.idRangeOffsets[i]? = some ro →
      ∀ m, expandSeg t.glyphIdArray d ro ((ro.toNat / 2 : Nat) - s.toNat + i - t.idRangeOffsets.length)
        (List.range' s.toNat (e.toNat + 1 - s.toNat)) m = .panic) :
    expandLoop t is m = .panic := by
  induction is generalizing m with
  | nil => obtain ⟨i, hi, _⟩ := hx; cases hi
  | cons i is ih =>
    obtain ⟨s, e, d, ro, h1, h2, h3, h4, h5⟩ := h i (by simp)
    obtain ⟨j, hj, hp⟩ := hx
    rw [expandLoop, h1, h2, h3, h4]
    simp only
    rw [if_neg h5]
    rcases List.mem_cons.mp hj with rfl | hj
    · rw [hp s e d ro h1 h2 h3 h4]
    · rcases expandSeg_total (gia := t.glyphIdArray) (d := d) (ro := ro) (part := (ro.toNat / 2 : Nat) - s.toNat + i - t.idRangeOffsets.length)
        (List.range' s.toNat (e.toNat + 1 - s.toNat)) m with ⟨m', e⟩ | e
      · rw [e]
        exact ih (fun k hk => h k (by simp [hk])) ⟨j, hj, hp⟩
      · rw [e]

theorem read_shape4 {B : Bytes} {start : Nat} {stk : List Nat} (h : Valid4 (B.drop start)) :
    ∃ t ptr, readCmap4 ⟨B, start, stk⟩ = .ok (t, ⟨B, ptr, stk⟩) ∧
      let n := field (B.drop start) 6 2 / 2
      t.startCode.length = n ∧ t.endCode.length = n ∧ t.idDelta.length = n ∧ t.idRangeOffsets.length = n ∧
      t.glyphIdArray.length = (field (B.drop start) 2 2 - (16 + 8 * n)) / 2 ∧
      (∀ i a, t.endCode[i]? = some a → a.toNat = field (B.drop start) (14 + 2 * i) 2) ∧
      (∀ i a, t.startCode[i]? = some a → a.toNat = field (B.drop start) (16 + 2 * n + 2 * i) 2) ∧
      (∀ i a, t.idDelta[i]? = some a → a.toInt = signed16 (field (B.drop start) (16 + 4 * n + 2 * i) 2)) ∧
      (∀ i a, t.idRangeOffsets[i]? = some a → a.toNat = field (B.drop start) (16 + 6 * n + 2 * i) 2) ∧
      ∀ i a, t.glyphIdArray[i]? = some a → a.toNat = field (B.drop start) (16 + 8 * n + 2 * i) 2 := by
  have hn : ∃ n, n = field (B.drop start) 6 2 / 2 := ⟨_, rfl⟩
  obtain ⟨n, hn⟩ := hn
  have hlen : ∃ len, len = field (B.drop start) 2 2 := ⟨_, rfl⟩
  obtain ⟨len, hlen⟩ := hlen
  have hw := h.whole
  have hi := h.inside
  rw [← hn] at hw ⊢
  rw [← hlen] at hw hi ⊢
  simp only [List.length_drop] at hi
  obtain ⟨v0, a0, b0⟩ := readU16_ok (r := ⟨B, start, stk⟩) (by simp only; omega)
  obtain ⟨v1, a1, b1⟩ := readU16_ok (r := ⟨B, start + 2, stk⟩) (by simp only; omega)
  obtain ⟨v2, a2, b2⟩ := readU16_ok (r := ⟨B, start + 2 + 2, stk⟩) (by simp only; omega)
  obtain ⟨v3, a3, b3⟩ := readU16_ok (r := ⟨B, start + 2 + 2 + 2, stk⟩) (by simp only; omega)
  simp only at a0 a1 a2 a3 b0 b1 b2 b3
  have a1 : v1.toNat = len := by rw [a1, hlen, field_drop]
  have a3 : v3.toNat / 2 = n := by rw [a3, hn, field_drop]
  obtain ⟨ends, c1, c2, c3⟩ := words_read (B := B) (pos := start + 2 + 2 + 2 + 2 + 6) (n := n) (stk := stk) (by omega)
  obtain ⟨starts, d1, d2, d3⟩ := words_read (B := B) (pos := start + 2 + 2 + 2 + 2 + 6 + 2 * n + 2) (n := n) (stk := stk) (by omega)
  obtain ⟨deltas, e1, e2, e3⟩ := shorts_read (B := B) (pos := start + 2 + 2 + 2 + 2 + 6 + 2 * n + 2 + 2 * n) (n := n) (stk := stk)
    (by omega)
  obtain ⟨offs, f1, f2, f3⟩ := words_read (B := B) (pos := start + 2 + 2 + 2 + 2 + 6 + 2 * n + 2 + 2 * n + 2 * n) (n := n)
    (stk := stk) (by omega)
  obtain ⟨gia, g1, g2, g3⟩ := words_read (B := B) (pos := start + 2 + 2 + 2 + 2 + 6 + 2 * n + 2 + 2 * n + 2 * n + 2 * n)
    (n := (len - (16 + n * 2 * 4)) / 2) (stk := stk) (by omega)
  refine ⟨⟨v0, v1, v2, v3, 0, 0, 0, ends, 0, starts, deltas, offs, gia⟩,
    start + 2 + 2 + 2 + 2 + 6 + 2 * n + 2 + 2 * n + 2 * n + 2 * n + 2 * ((len - (16 + n * 2 * 4)) / 2), ?_, d1, c1, e1, f1, ?_, ?_,
    ?_, ?_, ?_, ?_⟩
  · unfold readCmap4
    simp only [bind_run, b0, b1, b2, b3, a3, skip, c3, d3, e3, f3]
    rw [if_neg (by omega), bind_run]
    unfold orEmpty
    rw [a1, g3]
    rfl
  · simp only; rw [g1]; congr 2; omega
  · intro i a ha; rw [c2 i a ha, field_drop]; congr 1; omega
  · intro i a ha; rw [d2 i a ha, field_drop]; congr 1; omega
  · intro i a ha; rw [e2 i a ha, field_drop]; congr 2; omega
  · intro i a ha; rw [f2 i a ha, field_drop]; congr 1; omega
  · intro i a ha; rw [g2 i a ha, field_drop]; congr 1; omega

/-- **C92** (format 4, outside). If in a subtable of format 4 the sum of a glyph of an array and a delta does not fit a signed 16-bit
number, for any character of any segment but the last, reading panics. -/
theorem C92_sum_panics {B : Bytes} {pos base : Nat} {stk : List Nat} {er : EncodingRecord}
    (h : Valid4 (B.drop (base + er.subtableOffset.toNat))) (ho : ¬ NoOverflow4 (B.drop (base + er.subtableOffset.toNat))) :
    readSubtable er ⟨B, pos, base :: stk⟩ = .panic := by
  obtain ⟨start, hstart⟩ : ∃ s, s = base + er.subtableOffset.toNat := ⟨_, rfl⟩
  rw [← hstart] at h ho
  have hi := h.inside
  have hw := h.whole
  have hs := h.some
  simp only [List.length_drop] at hi
  obtain ⟨t, ptr, e1, e2, e3, e4, e5, e6, e7, e8, e9, e10, e11⟩ := read_shape4 (stk := base :: stk) h
  have hm : toMapping4 t = .panic := by
    unfold toMapping4
    rw [e2, if_neg (by omega)]
    refine expandLoop_overflow (fun i hi => ?_) ?_
    · rw [List.mem_range] at hi
      obtain ⟨s, hs⟩ := get_of_lt (l := t.startCode) (i := i) (by omega)
      obtain ⟨e, he⟩ := get_of_lt (l := t.endCode) (i := i) (by omega)
      obtain ⟨d, hd⟩ := get_of_lt (l := t.idDelta) (i := i) (by omega)
      obtain ⟨ro, hro⟩ := get_of_lt (l := t.idRangeOffsets) (i := i) (by omega)
      refine ⟨s, e, d, ro, hs, he, hd, hro, ?_⟩
      have := h.apart i (field (B.drop start) 6 2 / 2 - 1) (by omega) (by omega)
      have := field_lt2 (B.drop start) (16 + 2 * (field (B.drop start) 6 2 / 2) + 2 * (field (B.drop start) 6 2 / 2 - 1))
      have := e7 i e he
      omega
    · unfold NoOverflow4 at ho
      simp only at ho
      push Not at ho
      obtain ⟨i, hi, hro, c, hc1, hc2, hx, hov⟩ := ho
      refine ⟨i, List.mem_range.mpr hi, fun s e d ro k1 k2 k3 k4 m => ?_⟩
      have s' := e8 i s k1
      have e' := e7 i e k2
      have d' := e9 i d k3
      have r' := e10 i ro k4
      have har := h.arrays i hi
      simp only at har
      rw [← r', ← s', ← e'] at har
      rw [← r'] at hro
      obtain ⟨p1, p2⟩ := har hro
      have hidx : ∀ c, s.toNat ≤ c → c ≤ e.toNat → 0 ≤ (c : Int) + ((ro.toNat / 2 : Nat) - s.toNat + i - t.idRangeOffsets.length) ∧
          ((c : Int) + ((ro.toNat / 2 : Nat) - s.toNat + i - t.idRangeOffsets.length)).toNat =
            ro.toNat / 2 + i + (c - s.toNat) - field (B.drop start) 6 2 / 2 ∧
          ro.toNat / 2 + i + (c - s.toNat) - field (B.drop start) 6 2 / 2 < t.glyphIdArray.length ∧
          field (B.drop start) 6 2 / 2 ≤ ro.toNat / 2 + i + (c - s.toNat) := by
        intro c h1 h2
        obtain ⟨p3, p4⟩ := p2 c h1 h2
        rw [e5, e6]
        omega
      refine expandSeg_overflow (fun e => hro (by rw [e]; rfl)) (fun c hc => ?_) ⟨c, ?_, ?_⟩
      · rw [List.mem_range'] at hc
        obtain ⟨k, q1, q2⟩ := hc
        obtain ⟨w1, w2, w3, w4⟩ := hidx c (by omega) (by omega)
        exact ⟨w1, by omega⟩
      · rw [List.mem_range']
        exact ⟨c - s.toNat, by omega, by omega⟩
      · obtain ⟨w1, w2, w3, w4⟩ := hidx c (by omega) (by omega)
        obtain ⟨g, hg⟩ := get_of_lt w3
        have hp := p2 c (by omega) (by omega)
        have g' := e11 _ g hg
        rw [show 16 + 8 * (field (B.drop start) 6 2 / 2) + 2 * (ro.toNat / 2 + i + (c - s.toNat) - field (B.drop start) 6 2 / 2) =
          16 + 6 * (field (B.drop start) 6 2 / 2) + 2 * i + ro.toNat + 2 * (c - s.toNat) by omega] at g'
        rw [← r', ← s', ← g'] at hx hov
        rw [← d', ← signed_toInt16] at hov
        refine ⟨g, by rw [w2]; exact hg, hx, ?_⟩
        by_cases hlow : g.toInt16.toInt + d.toInt < -32768
        · exact .inl hlow
        · exact .inr (hov (by omega))
  unfold readSubtable
  simp only [bind_run, topOfTable, setPtr]
  have hf := h.format
  rw [← hstart, peek_field (a := 0) (b := 4) (by omega) (by rw [field_drop] at hf; exact hf)]
  simp only
  rw [if_neg (by decide), if_pos trivial]
  simp only [bind_run, e1, Reader.lift, hm]

/-! ### Examples -/

/-- Characters 65 and 66 with glyphs 65537 and 65538. -/
def wide12 : Bytes := [0, 12, 0, 0, 0, 0, 0, 28, 0, 0, 0, 0, 0, 0, 0, 1, 0, 0, 0, 65, 0, 0, 0, 66, 0, 1, 0, 1]
/-- Characters 65 and 66 with glyphs 65535 and 65536. -/
def across12 : Bytes := [0, 12, 0, 0, 0, 0, 0, 28, 0, 0, 0, 0, 0, 0, 0, 1, 0, 0, 0, 65, 0, 0, 0, 66, 0, 0, 255, 255]

theorem wide12_shape : Shape12 wide12 ∧ LowBitsFit wide12 := by
  refine ⟨⟨by decide, by decide, ?_, ?_⟩, ?_⟩
  · intro i hi
    have : i < 1 := hi
    obtain rfl : i = 0 := by omega
    decide
  · intro i j hi hj
    have : j < 1 := hj
    omega
  · intro i hi k hk
    have : i < 1 := hi
    obtain rfl : i = 0 := by omega
    have : k ≤ 1 := hk
    interval_cases k <;> decide

theorem across12_shape : Shape12 across12 ∧ ¬ LowBitsFit across12 := by
  refine ⟨⟨by decide, by decide, ?_, ?_⟩, ?_⟩
  · intro i hi
    have : i < 1 := hi
    obtain rfl : i = 0 := by omega
    decide
  · intro i j hi hj
    have : j < 1 := hj
    omega
  · intro h
    exact absurd (h 0 (by decide) 1 (by decide)) (by decide)

example : ∃ st ptr, readSubtable ⟨3, 10, 0⟩ (Rd.new wide12) = .ok (st, ⟨wide12, ptr, [0]⟩) ∧ Lists st.mapping 66 2 := by
  obtain ⟨st, ptr, h1, h2⟩ := C92_wide_glyphs (B := wide12) (pos := 0) (base := 0) (stk := []) (er := ⟨3, 10, 0⟩) wide12_shape.1
    wide12_shape.2
  exact ⟨st, ptr, h1, (h2 66 2).mpr ⟨65538, ⟨0, by decide, by decide, by decide, by decide⟩, by decide⟩⟩

example : readSubtable ⟨3, 10, 0⟩ (Rd.new across12) = .panic :=
  C92_wide_panics (B := across12) (pos := 0) (base := 0) (stk := []) (er := ⟨3, 10, 0⟩) across12_shape.1 across12_shape.2

example : readSubtable ⟨3, 1, 0⟩ (Rd.new overflow4) = .panic :=
  C92_sum_panics (B := overflow4) (pos := 0) (base := 0) (stk := []) (er := ⟨3, 1, 0⟩) C92_overflow.1
    fun h => absurd (h 0 (by decide) (by decide) 65 (by decide) (by decide) (by decide)).2 (by decide)

end FT.Props
