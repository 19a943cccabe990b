import Verif.Props.CmapTable
import Verif.Props.ForeignTables
import Verif.Props.ForeignGsubTable
import Mathlib.Tactic.IntervalCases

/-!
# C92: character maps written by any program

`Lookup4`, `Maps12` and `ListsSequence` are OpenType's meanings of the formats, as in C34, C33 and C77; here they are applied to
the bytes of any font.
-/

namespace FT.Props
open FT Reader FT.Off FT.Cmap

/-! ### Specification -/

/-- A 16-bit field as a signed number. -/
def signed16 (v : Nat) : ℤ := if v < 32768 then v else v - 65536

/-- A format 4 subtable at the beginning of `bs`: segments in order and apart, the last for U+FFFF alone, glyph arrays inside the
subtable behind the segments. -/
structure Valid4 (bs : Bytes) : Prop where
  format : field bs 0 2 = 4
  some : 0 < field bs 6 2 / 2
  whole : 16 + 8 * (field bs 6 2 / 2) ≤ field bs 2 2
  inside : field bs 2 2 ≤ bs.length
  final : field bs (16 + 2 * (field bs 6 2 / 2) + 2 * (field bs 6 2 / 2 - 1)) 2 = 65535 ∧
    field bs (14 + 2 * (field bs 6 2 / 2 - 1)) 2 = 65535
  apart : ∀ i j, i < j → j < field bs 6 2 / 2 → field bs (14 + 2 * i) 2 < field bs (16 + 2 * (field bs 6 2 / 2) + 2 * j) 2
  arrays : ∀ i < field bs 6 2 / 2 - 1, let n := field bs 6 2 / 2
    let ro := field bs (16 + 6 * n + 2 * i) 2
    ro ≠ 0 → ro % 2 = 0 ∧ ∀ c, field bs (16 + 2 * n + 2 * i) 2 ≤ c → c ≤ field bs (14 + 2 * i) 2 →
      let place := 16 + 6 * n + 2 * i + ro + 2 * (c - field bs (16 + 2 * n + 2 * i) 2)
      16 + 8 * n ≤ place ∧ place + 2 ≤ field bs 2 2

/-- Where a glyph of an array is added to a delta, the sum as signed numbers does not overflow. -/
def NoOverflow4 (bs : Bytes) : Prop :=
  ∀ i < field bs 6 2 / 2 - 1, let n := field bs 6 2 / 2
    let ro := field bs (16 + 6 * n + 2 * i) 2
    ro ≠ 0 → ∀ c, field bs (16 + 2 * n + 2 * i) 2 ≤ c → c ≤ field bs (14 + 2 * i) 2 →
      let x := field bs (16 + 6 * n + 2 * i + ro + 2 * (c - field bs (16 + 2 * n + 2 * i) 2)) 2
      x ≠ 0 → -32768 ≤ signed16 x + signed16 (field bs (16 + 4 * n + 2 * i) 2) ∧
        signed16 x + signed16 (field bs (16 + 4 * n + 2 * i) 2) ≤ 32767

/-- A format 12 subtable at the beginning of `bs`: groups in order and apart, glyphs of 16 bits. -/
structure Valid12 (bs : Bytes) : Prop where
  format : field bs 0 2 = 12
  inside : 16 + 12 * field bs 12 4 ≤ bs.length
  group : ∀ i < field bs 12 4, field bs (16 + 12 * i) 4 ≤ field bs (20 + 12 * i) 4
  apart : ∀ i j, i < j → j < field bs 12 4 → field bs (20 + 12 * i) 4 < field bs (16 + 12 * j) 4
  glyphs : ∀ i < field bs 12 4, field bs (24 + 12 * i) 4 + (field bs (20 + 12 * i) 4 - field bs (16 + 12 * i) 4) ≤ 65535

/-- A format 14 subtable at the beginning of `bs`, its tables not far away: selectors differ, and so do the characters of one. -/
structure Valid14 (bs : Bytes) : Prop where
  format : field bs 0 2 = 14
  inside : 10 + 11 * field bs 6 4 ≤ bs.length
  selectors : ∀ i j, i < j → j < field bs 6 4 → field bs (10 + 11 * i) 3 ≠ field bs (10 + 11 * j) 3
  defaults : ∀ i < field bs 6 4, let d := field bs (13 + 11 * i) 4
    d ≠ 0 → d ≤ 65535 ∧ d + 4 + 4 * field bs d 4 ≤ bs.length
  sequences : ∀ i < field bs 6 4, let d := field bs (17 + 11 * i) 4
    d ≠ 0 → d ≤ 65535 ∧ d + 4 + 5 * field bs d 4 ≤ bs.length ∧
      ∀ j k, j < k → k < field bs d 4 → field bs (d + 4 + 5 * j) 3 ≠ field bs (d + 4 + 5 * k) 3

/-- The sequences of a map. -/
def ListsUvs (m : UvsMap) (c s g : Nat) : Prop := ∃ x ∈ m, x.1.1.toNat = c ∧ x.1.2.toNat = s ∧ x.2.toNat = g

/-- What a subtable of platform `p`, encoding `e` says: `st` has all of it and nothing else. -/
def SubSays (bs : Bytes) (p e : Nat) (st : Subtable) : Prop :=
  st.format.toNat = field bs 0 2 ∧ st.platformID.toNat = p ∧ st.encodingID.toNat = e ∧
  (field bs 0 2 = 4 → st.languageID.toNat = field bs 4 2 ∧ st.uvs = none ∧
    (∀ c < 65535, ∀ g, Lookup4 bs c g → GlyphOf st.mapping c g) ∧ ∀ c ≥ 65535, ∀ g, ¬ Lists st.mapping c g) ∧
  (field bs 0 2 = 12 → st.languageID.toNat = field bs 8 4 % 65536 ∧ st.uvs = none ∧ ∀ c g, Lists st.mapping c g ↔ Maps12 bs c g) ∧
  (field bs 0 2 = 14 → st.mapping = [] ∧ ∃ u, st.uvs = some u ∧ ∀ c s g, ListsUvs u c s g ↔ ListsSequence bs c s g)

/-- A subtable the reader is good for. -/
def GoodSubtable (bs : Bytes) (p e : Nat) : Prop :=
  (Valid4 bs ∧ NoOverflow4 bs) ∨ Valid12 bs ∨ (Valid14 bs ∧ p = 0 ∧ e = 5)

/-- The `cmap` table: a number at byte 2, and so many records of platform, encoding and offset. -/
structure GoodCmap (B : Bytes) : Prop where
  inside : 4 + 8 * field B 2 2 ≤ B.length
  subtable : ∀ i < field B 2 2, GoodSubtable (B.drop (field B (8 + 8 * i) 4)) (field B (4 + 8 * i) 2) (field B (6 + 8 * i) 2)

/-! ### Reading numbers and lists at a place -/

theorem field_drop (B : Bytes) (s k w : Nat) : field (B.drop s) k w = field B (s + k) w := by
  unfold field
  rw [List.drop_drop]

theorem field_lt2 (B : Bytes) (k : Nat) : field B k 2 < 65536 := by
  by_cases h : k + 2 ≤ B.length
  · obtain ⟨v, e, _⟩ := readU16_ok (r := ⟨B, k, []⟩) h
    simp only at e
    rw [← e]
    exact v.toNat_lt
  · unfold field
    have hl : ((B.drop k).take 2).length < 2 := by simp; omega
    match (B.drop k).take 2, hl with
    | [], _ => decide
    | [x], _ =>
      have := x.toNat_lt
      simp only [beValue, List.foldl_cons, List.foldl_nil]
      omega

theorem readU24_ok {B : Bytes} {pos : Nat} {stk : List Nat} (h : pos + 3 ≤ B.length) :
    ∃ v : UInt32, v.toNat = field B pos 3 ∧ readU24 ⟨B, pos, stk⟩ = .ok (v, ⟨B, pos + 3, stk⟩) := by
  have hl : ((B.drop pos).take 3).length = 3 := by simp; omega
  match hm : (B.drop pos).take 3, hl with
  | [a, b, c], _ =>
    have k := plain_bytes [a, b, c] B 0 pos stk ⟨hm, trivial⟩
    simp only [List.length_cons, List.length_nil, Nat.zero_add, Nat.reduceAdd, widths, Cell.width, List.map_cons, List.map_nil,
      List.sum_cons, List.sum_nil] at k
    have := a.toNat_lt; have := b.toNat_lt; have := c.toNat_lt
    refine ⟨UInt32.ofNat (a.toNat * 65536 + b.toNat * 256 + c.toNat), ?_, ?_⟩
    · rw [ofNat32_toNat (by omega)]
      unfold field
      rw [hm]
      simp only [beValue, List.foldl_cons, List.foldl_nil]
      omega
    · unfold readU24
      rw [bind_run, k]
      rfl

theorem list_read {α : Type} {p : Reader α} {w : Nat} {B : Bytes} {stk : List Nat} : ∀ (n pos : Nat) {Q : Nat → α → Prop},
    (∀ i < n, ∃ a, Q i a ∧ p ⟨B, pos + w * i, stk⟩ = .ok (a, ⟨B, pos + w * i + w, stk⟩)) →
    ∃ l, l.length = n ∧ (∀ i a, l[i]? = some a → Q i a) ∧ deCounted p n ⟨B, pos, stk⟩ = .ok (l, ⟨B, pos + w * n, stk⟩)
  | 0, pos, Q, _ => ⟨[], rfl, by simp, rfl⟩
  | n + 1, pos, Q, h => by
    obtain ⟨a, h1, h2⟩ := h 0 (by omega)
    obtain ⟨l, e1, e2, e3⟩ := list_read (w := w) n (pos + w) (Q := fun i => Q (i + 1)) fun i hi => by
      obtain ⟨b, g1, g2⟩ := h (i + 1) (by omega)
      refine ⟨b, g1, ?_⟩
      rw [show pos + w + w * i = pos + w * (i + 1) by rw [Nat.mul_succ]; omega]
      exact g2
    refine ⟨a :: l, by simp [e1], ?_, ?_⟩
    · intro i b hb
      cases i with
      | zero => simp only [List.getElem?_cons_zero, Option.some.injEq] at hb; subst hb; exact h1
      | succ i => exact e2 i b (by simpa using hb)
    · rw [Nat.mul_zero, Nat.add_zero] at h2
      rw [deCounted, bind_run, h2]
      simp only
      rw [bind_run, e3]
      simp only [pure_run]
      rw [Nat.mul_succ]
      congr 3
      omega

theorem words_read {B : Bytes} {pos n : Nat} {stk : List Nat} (h : pos + 2 * n ≤ B.length) :
    ∃ l : List UInt16, l.length = n ∧ (∀ i a, l[i]? = some a → a.toNat = field B (pos + 2 * i) 2) ∧
      deCounted readU16 n ⟨B, pos, stk⟩ = .ok (l, ⟨B, pos + 2 * n, stk⟩) :=
  list_read n pos fun i hi => readU16_ok (r := ⟨B, pos + 2 * i, stk⟩) (by simp only; omega)

theorem signed_toInt16 (x : UInt16) : x.toInt16.toInt = signed16 x.toNat := by
  have h1 : x.toInt16.toInt = x.toInt16.toBitVec.toInt := rfl
  have h2 := @BitVec.toInt_eq_toNat_cond 16 x.toInt16.toBitVec
  have h3 : x.toInt16.toBitVec.toNat = x.toNat := rfl
  have := x.toNat_lt
  unfold signed16
  rw [h1, h2, h3]
  split <;> split <;> omega

theorem shorts_read {B : Bytes} {pos n : Nat} {stk : List Nat} (h : pos + 2 * n ≤ B.length) :
    ∃ l : List Int16, l.length = n ∧ (∀ i a, l[i]? = some a → a.toInt = signed16 (field B (pos + 2 * i) 2)) ∧
      deCounted readI16 n ⟨B, pos, stk⟩ = .ok (l, ⟨B, pos + 2 * n, stk⟩) :=
  list_read n pos fun i hi => by
    obtain ⟨v, e1, e2⟩ := readU16_ok (r := ⟨B, pos + 2 * i, stk⟩) (by simp only; omega)
    simp only at e1
    refine ⟨v.toInt16, by rw [signed_toInt16, e1], ?_⟩
    unfold readI16
    rw [bind_run, e2]
    rfl

/-- The number of the first two bytes. -/
theorem peek_field {B : Bytes} {pos : Nat} {stk : List Nat} {a b : UInt8} (h : pos + 2 ≤ B.length)
    (hf : field B pos 2 = a.toNat * 256 + b.toNat) : FT.peek 2 ⟨B, pos, stk⟩ = .ok ([a, b], ⟨B, pos, stk⟩) := by
  have hl : ((B.drop pos).take 2).length = 2 := by simp; omega
  unfold FT.peek
  rw [if_neg (by simp only; omega)]
  match hm : (B.drop pos).take 2, hl with
  | [x, y], _ =>
    unfold field at hf
    rw [hm] at hf
    simp only [beValue, List.foldl_cons, List.foldl_nil] at hf
    have := x.toNat_lt; have := y.toNat_lt; have := a.toNat_lt; have := b.toNat_lt
    rw [UInt8.toNat_inj.mp (show x.toNat = a.toNat by omega), UInt8.toNat_inj.mp (show y.toNat = b.toNat by omega)]

theorem lists_collect {l : Map} (h : ∀ x ∈ l, ∀ y ∈ l, x.1 = y.1 → x = y) (c g : Nat) :
    Lists (BMap.collect l) c g ↔ ∃ x ∈ l, x.1.toNat = c ∧ x.2.toNat = g := by
  unfold Lists
  constructor
  · rintro ⟨x, hx, e⟩
    exact ⟨x, (collect_functional h x).mp hx, e⟩
  · rintro ⟨x, hx, e⟩
    exact ⟨x, (collect_functional h x).mpr hx, e⟩

/-! ### Format 4 -/

/-- The glyph of a character of segment `i`. -/
def glyph4 (bs : Bytes) (i c : Nat) : Nat :=
  let n := field bs 6 2 / 2
  if c < field bs (16 + 2 * n + 2 * i) 2 then 0
  else if field bs (16 + 6 * n + 2 * i) 2 = 0 then (c + field bs (16 + 4 * n + 2 * i) 2) % 65536
  else
    let x := field bs (16 + 6 * n + 2 * i + field bs (16 + 6 * n + 2 * i) 2 + 2 * (c - field bs (16 + 2 * n + 2 * i) 2)) 2
    if x = 0 then 0 else (x + field bs (16 + 4 * n + 2 * i) 2) % 65536

theorem glyph4_lt (bs : Bytes) (i c : Nat) : glyph4 bs i c < 65536 := by
  unfold glyph4
  simp only
  split
  · omega
  split
  · omega
  split <;> omega

theorem signed_mod {v : Nat} (h : v < 65536) : signed16 v % 65536 = v := by
  unfold signed16
  split <;> omega

theorem expandSeg_foreign {gia : List UInt16} {d : Int16} {ro : UInt16} {part : Int} {f : Nat → UInt16} : ∀ {cs : List Nat} {m : Map},
    (∀ c ∈ cs, (ro = 0 ∧ f c = UInt16.ofNat (((c : Int) + d.toInt) % 65536).toNat) ∨
      (ro ≠ 0 ∧ ∃ g, 0 ≤ (c : Int) + part ∧ gia[((c : Int) + part).toNat]? = some g ∧
        ((g.toNat = 0 ∧ f c = 0) ∨ (g.toNat ≠ 0 ∧ -32768 ≤ g.toInt16.toInt + d.toInt ∧ g.toInt16.toInt + d.toInt ≤ 32767 ∧
          f c = UInt16.ofNat ((g.toInt16.toInt + d.toInt) % 65536).toNat)))) →
    expandSeg gia d ro part cs m = .ok ((cs.map fun c => (UInt32.ofNat c, f c)).foldl (fun m x => BMap.insert m x.1 x.2) m)
  | [], m, _ => rfl
  | c :: cs, m, h => by
    have ih := fun m => expandSeg_foreign (cs := cs) (m := m) fun c hc => h c (by simp [hc])
    rw [expandSeg, List.map_cons, List.foldl_cons]
    rcases h c (by simp) with ⟨h1, h2⟩ | ⟨h1, g, h2, h3, h4⟩
    · rw [if_pos h1, ih, h2]
    · have hlt : ((c : Int) + part).toNat < gia.length := by
        by_contra hc
        rw [List.getElem?_eq_none (by omega)] at h3
        cases h3
      rw [if_neg h1]
      simp only
      rw [if_neg (by omega), h3]
      simp only
      rcases h4 with ⟨h4, h5⟩ | ⟨h4, h5, h6, h7⟩
      · rw [if_neg (by omega), ih, h5]
      · rw [if_pos h4, if_neg (by omega), ih, h7]

/-- The entries of segment `i`. -/
def entries4 (bs : Bytes) (i : Nat) : Map :=
  let s := field bs (16 + 2 * (field bs 6 2 / 2) + 2 * i) 2
  (List.range' s (field bs (14 + 2 * i) 2 + 1 - s)).map fun c => (UInt32.ofNat c, UInt16.ofNat (glyph4 bs i c))

theorem expandLoop_foreign {t : Cmap4} {bs : Bytes} {is : List Nat} {m : Map}
    (h : ∀ i ∈ is, ∃ s e d ro, t.startCode[i]? = some s ∧ t.endCode[i]? = some e ∧ t.idDelta[i]? = some d ∧
      t.idRangeOffsets[i]? = some ro ∧ e.toNat ≠ 65535 ∧
      ∀ m, expandSeg t.glyphIdArray d ro ((ro.toNat / 2 : Nat) - s.toNat + i - t.idRangeOffsets.length)
        (List.range' s.toNat (e.toNat + 1 - s.toNat)) m = .ok ((entries4 bs i).foldl (fun m x => BMap.insert m x.1 x.2) m)) :
    expandLoop t is m = .ok ((is.flatMap (entries4 bs)).foldl (fun m x => BMap.insert m x.1 x.2) m) := by
  induction is generalizing m with
  | nil => rfl
  | cons i is ih =>
    obtain ⟨s, e, d, ro, h1, h2, h3, h4, h5, h6⟩ := h i (by simp)
    rw [expandLoop, h1, h2, h3, h4]
    simp only
    rw [if_neg h5, h6]
    simp only
    rw [ih fun j hj => h j (by simp [hj]), List.flatMap_cons, List.foldl_append]

theorem get_of_lt {α : Type} {l : List α} {i : Nat} (h : i < l.length) : ∃ a, l[i]? = some a := ⟨l[i], by simp [h]⟩

theorem read_valid4 {B : Bytes} {start : Nat} {stk : List Nat} (h : Valid4 (B.drop start)) (ho : NoOverflow4 (B.drop start)) :
    ∃ t ptr, readCmap4 ⟨B, start, stk⟩ = .ok (t, ⟨B, ptr, stk⟩) ∧ t.language.toNat = field (B.drop start) 4 2 ∧
      toMapping4 t = .ok (BMap.collect ((List.range (field (B.drop start) 6 2 / 2 - 1)).flatMap (entries4 (B.drop start)))) := by
  have hn : ∃ n, n = field (B.drop start) 6 2 / 2 := ⟨_, rfl⟩
  obtain ⟨n, hn⟩ := hn
  have hlen : ∃ len, len = field (B.drop start) 2 2 := ⟨_, rfl⟩
  obtain ⟨len, hlen⟩ := hlen
  have hw := h.whole
  have hi := h.inside
  have h0 := h.some
  have hf := h.format
  have hap := h.apart
  have har := h.arrays
  have hfin := h.final
  unfold NoOverflow4 at ho
  rw [← hn] at hw h0 hap har ho hfin ⊢
  rw [← hlen] at hw hi har
  simp only [List.length_drop] at hi
  obtain ⟨v0, a0, b0⟩ := readU16_ok (r := ⟨B, start, stk⟩) (by simp only; omega)
  obtain ⟨v1, a1, b1⟩ := readU16_ok (r := ⟨B, start + 2, stk⟩) (by simp only; omega)
  obtain ⟨v2, a2, b2⟩ := readU16_ok (r := ⟨B, start + 2 + 2, stk⟩) (by simp only; omega)
  obtain ⟨v3, a3, b3⟩ := readU16_ok (r := ⟨B, start + 2 + 2 + 2, stk⟩) (by simp only; omega)
  simp only at a0 a1 a2 a3 b0 b1 b2 b3
  have a1 : v1.toNat = len := by rw [a1, hlen, field_drop]
  have a3 : v3.toNat / 2 = n := by rw [a3, hn, field_drop]
  obtain ⟨ends, c1, c2, c3⟩ := words_read (B := B) (pos := start + 2 + 2 + 2 + 2 + 6) (n := n) (stk := stk) (by omega)
  obtain ⟨starts, d1, d2, d3⟩ := words_read (B := B) (pos := start + 2 + 2 + 2 + 2 + 6 + 2 * n + 2) (n := n) (stk := stk) (by omega)
  obtain ⟨deltas, e1, e2, e3⟩ := shorts_read (B := B) (pos := start + 2 + 2 + 2 + 2 + 6 + 2 * n + 2 + 2 * n) (n := n) (stk := stk)
    (by omega)
  obtain ⟨offs, f1, f2, f3⟩ := words_read (B := B) (pos := start + 2 + 2 + 2 + 2 + 6 + 2 * n + 2 + 2 * n + 2 * n) (n := n)
    (stk := stk) (by omega)
  obtain ⟨gia, g1, g2, g3⟩ := words_read (B := B) (pos := start + 2 + 2 + 2 + 2 + 6 + 2 * n + 2 + 2 * n + 2 * n + 2 * n)
    (n := (len - (16 + n * 2 * 4)) / 2) (stk := stk) (by omega)
  refine ⟨⟨v0, v1, v2, v3, 0, 0, 0, ends, 0, starts, deltas, offs, gia⟩,
    start + 2 + 2 + 2 + 2 + 6 + 2 * n + 2 + 2 * n + 2 * n + 2 * n + 2 * ((len - (16 + n * 2 * 4)) / 2), ?_, ?_, ?_⟩
  · unfold readCmap4
    simp only [bind_run, b0, b1, b2, b3, a3, skip, c3, d3, e3, f3]
    rw [if_neg (by omega), bind_run]
    unfold orEmpty
    rw [a1, g3]
    rfl
  · rw [a2, field_drop]
  · unfold toMapping4
    simp only
    rw [if_neg (by omega), d1]
    have E : ∀ i, field (B.drop start) (14 + 2 * i) 2 = field B (start + 2 + 2 + 2 + 2 + 6 + 2 * i) 2 := fun i => by
      rw [field_drop]; congr 1; omega
    have S : ∀ i, field (B.drop start) (16 + 2 * n + 2 * i) 2 = field B (start + 2 + 2 + 2 + 2 + 6 + 2 * n + 2 + 2 * i) 2 := fun i => by
      rw [field_drop]; congr 1; omega
    have D : ∀ i, field (B.drop start) (16 + 4 * n + 2 * i) 2 = field B (start + 2 + 2 + 2 + 2 + 6 + 2 * n + 2 + 2 * n + 2 * i) 2 :=
      fun i => by rw [field_drop]; congr 1; omega
    have R : ∀ i, field (B.drop start) (16 + 6 * n + 2 * i) 2 =
        field B (start + 2 + 2 + 2 + 2 + 6 + 2 * n + 2 + 2 * n + 2 * n + 2 * i) 2 := fun i => by rw [field_drop]; congr 1; omega
    refine expandLoop_foreign (bs := B.drop start) fun i hi => ?_
    rw [List.mem_range] at hi
    obtain ⟨s, hs⟩ := get_of_lt (l := starts) (i := i) (by omega)
    obtain ⟨e, he⟩ := get_of_lt (l := ends) (i := i) (by omega)
    obtain ⟨d, hd⟩ := get_of_lt (l := deltas) (i := i) (by omega)
    obtain ⟨ro, hro⟩ := get_of_lt (l := offs) (i := i) (by omega)
    have s' := d2 i s hs
    have e' := c2 i e he
    have d' := e2 i d hd
    have r' := f2 i ro hro
    rw [← S] at s'
    rw [← E] at e'
    rw [← D] at d'
    rw [← R] at r'
    refine ⟨s, e, d, ro, hs, he, hd, hro, ?_, ?_⟩
    · have := hap i (n - 1) (by omega) (by omega)
      have := field_lt2 (B.drop start) (16 + 2 * n + 2 * (n - 1))
      omega
    · intro m
      unfold entries4
      simp only
      rw [← hn, ← s', ← e']
      refine expandSeg_foreign fun c hc => ?_
      rw [List.mem_range'] at hc
      obtain ⟨k, k1, k2⟩ := hc
      have hc1 : s.toNat ≤ c := by omega
      have hc2 : c ≤ e.toNat := by omega
      have hd2 : field (B.drop start) (16 + 4 * n + 2 * i) 2 < 65536 := field_lt2 _ _
      have hm := signed_mod hd2
      have hg4 : glyph4 (B.drop start) i c = if ro.toNat = 0 then (c + field (B.drop start) (16 + 4 * n + 2 * i) 2) % 65536
          else if field (B.drop start) (16 + 6 * n + 2 * i + ro.toNat + 2 * (c - s.toNat)) 2 = 0 then 0
          else (field (B.drop start) (16 + 6 * n + 2 * i + ro.toNat + 2 * (c - s.toNat)) 2 +
            field (B.drop start) (16 + 4 * n + 2 * i) 2) % 65536 := by
        unfold glyph4
        simp only
        rw [← hn, ← s', ← r', if_neg (by omega)]
      by_cases hz : ro.toNat = 0
      · left
        refine ⟨UInt16.toNat_inj.mp hz, ?_⟩
        rw [hg4, if_pos hz, d']
        congr 1
        omega
      · right
        refine ⟨fun e => hz (by rw [e]; rfl), ?_⟩
        have har := har i hi
        have ho := ho i hi
        simp only at har ho
        rw [← r', ← s', ← e'] at har ho
        obtain ⟨p1, p2⟩ := har hz
        obtain ⟨p3, p4⟩ := p2 c hc1 hc2
        have hidx : ((c : Int) + ((ro.toNat / 2 : Nat) - s.toNat + i - offs.length)).toNat = ro.toNat / 2 + i + (c - s.toNat) - n := by
          rw [f1]; omega
        obtain ⟨g, hg⟩ := get_of_lt (l := gia) (i := ro.toNat / 2 + i + (c - s.toNat) - n) (by rw [g1]; omega)
        have g' := g2 _ g hg
        have hplace : field B (start + 2 + 2 + 2 + 2 + 6 + 2 * n + 2 + 2 * n + 2 * n + 2 * n +
            2 * (ro.toNat / 2 + i + (c - s.toNat) - n)) 2 =
            field (B.drop start) (16 + 6 * n + 2 * i + ro.toNat + 2 * (c - s.toNat)) 2 := by
          rw [field_drop]; congr 1; omega
        rw [hplace] at g'
        refine ⟨g, by rw [f1]; omega, by rw [hidx]; exact hg, ?_⟩
        rw [hg4, if_neg hz, ← g']
        by_cases hg0 : g.toNat = 0
        · left
          refine ⟨hg0, ?_⟩
          rw [if_pos hg0]
          rfl
        · right
          have hov := ho hz c hc1 hc2
          rw [← g'] at hov
          obtain ⟨o1, o2⟩ := hov hg0
          rw [← d', ← signed_toInt16] at o1 o2
          refine ⟨hg0, o1, o2, ?_⟩
          rw [if_neg hg0, signed_toInt16, d']
          have := signed_mod g.toNat_lt
          congr 1
          omega

theorem functional4 {bs : Bytes} (h : Valid4 bs) : ∀ x ∈ (List.range (field bs 6 2 / 2 - 1)).flatMap (entries4 bs),
    ∀ y ∈ (List.range (field bs 6 2 / 2 - 1)).flatMap (entries4 bs), x.1 = y.1 → x = y := by
  have key : ∀ x ∈ (List.range (field bs 6 2 / 2 - 1)).flatMap (entries4 bs), ∃ i c, i < field bs 6 2 / 2 - 1 ∧
      field bs (16 + 2 * (field bs 6 2 / 2) + 2 * i) 2 ≤ c ∧ c ≤ field bs (14 + 2 * i) 2 ∧
      x = (UInt32.ofNat c, UInt16.ofNat (glyph4 bs i c)) := by
    intro x hx
    obtain ⟨i, hi, hx⟩ := List.mem_flatMap.mp hx
    obtain ⟨c, hc, rfl⟩ := List.mem_map.mp hx
    rw [List.mem_range'] at hc
    obtain ⟨k, k1, k2⟩ := hc
    exact ⟨i, c, List.mem_range.mp hi, by omega, by omega, rfl⟩
  intro x hx y hy e
  obtain ⟨i, c, i1, i2, i3, rfl⟩ := key x hx
  obtain ⟨j, d, j1, j2, j3, rfl⟩ := key y hy
  have f1 := field_lt2 bs (14 + 2 * i)
  have f2 := field_lt2 bs (14 + 2 * j)
  have e := congrArg UInt32.toNat e
  simp only at e
  rw [ofNat32_toNat (by omega), ofNat32_toNat (by omega)] at e
  subst e
  obtain rfl : i = j := by
    rcases Nat.lt_trichotomy i j with hl | hl | hl
    · have := h.apart i j hl (by omega); omega
    · exact hl
    · have := h.apart j i hl (by omega); omega
  rfl

theorem lists4 {bs : Bytes} (h : Valid4 bs) (c g : Nat) :
    Lists (BMap.collect ((List.range (field bs 6 2 / 2 - 1)).flatMap (entries4 bs))) c g ↔ ∃ i < field bs 6 2 / 2 - 1,
      field bs (16 + 2 * (field bs 6 2 / 2) + 2 * i) 2 ≤ c ∧ c ≤ field bs (14 + 2 * i) 2 ∧ g = glyph4 bs i c := by
  rw [lists_collect (functional4 h)]
  constructor
  · rintro ⟨x, hx, e1, e2⟩
    obtain ⟨i, hi, hx⟩ := List.mem_flatMap.mp hx
    obtain ⟨d, hd, rfl⟩ := List.mem_map.mp hx
    rw [List.mem_range'] at hd
    obtain ⟨k, k1, k2⟩ := hd
    have f1 := field_lt2 bs (14 + 2 * i)
    have := glyph4_lt bs i d
    simp only at e1 e2
    rw [ofNat32_toNat (by omega)] at e1
    rw [ofNat16_toNat (by omega)] at e2
    subst e1
    exact ⟨i, List.mem_range.mp hi, by omega, by omega, e2.symm⟩
  · rintro ⟨i, hi, h1, h2, rfl⟩
    have f1 := field_lt2 bs (14 + 2 * i)
    have := glyph4_lt bs i c
    refine ⟨(UInt32.ofNat c, UInt16.ofNat (glyph4 bs i c)), ?_, ofNat32_toNat (by omega), ofNat16_toNat (by omega)⟩
    refine List.mem_flatMap.mpr ⟨i, List.mem_range.mpr hi, List.mem_map.mpr ⟨c, ?_, rfl⟩⟩
    rw [List.mem_range']
    exact ⟨c - field bs (16 + 2 * (field bs 6 2 / 2) + 2 * i) 2, by omega, by omega⟩

theorem says4 {bs : Bytes} (h : Valid4 bs) {c g : Nat} (hc : c < 65535) (hl : Lookup4 bs c g) :
    GlyphOf (BMap.collect ((List.range (field bs 6 2 / 2 - 1)).flatMap (entries4 bs))) c g := by
  have hn := h.some
  have hfin := h.final
  have hap := h.apart
  unfold GlyphOf
  simp only [lists4 h]
  have hl : ∃ i < field bs 6 2 / 2, (∀ j < i, field bs (14 + 2 * j) 2 < c) ∧ c ≤ field bs (14 + 2 * i) 2 ∧ g = glyph4 bs i c := hl
  obtain ⟨i, h1, h2, h3, h4⟩ := hl
  by_cases hs : c < field bs (16 + 2 * (field bs 6 2 / 2) + 2 * i) 2
  · right
    refine ⟨?_, ?_⟩
    · rw [h4]; unfold glyph4; simp only; rw [if_pos hs]
    · rintro g' ⟨j, j1, j2, j3, _⟩
      rcases Nat.lt_trichotomy j i with hl | hl | hl
      · have := h2 j hl; omega
      · subst hl; omega
      · have := hap i j hl (by omega); omega
  · left
    refine ⟨i, ?_, by omega, h3, h4⟩
    by_contra hi
    obtain rfl : i = field bs 6 2 / 2 - 1 := by omega
    omega

/-! ### Format 12 -/

theorem read_valid12 {B : Bytes} {start : Nat} {stk : List Nat} (h : Valid12 (B.drop start)) :
    ∃ t ptr m, readCmap12 ⟨B, start, stk⟩ = .ok (t, ⟨B, ptr, stk⟩) ∧ t.language.toNat = field (B.drop start) 8 4 ∧
      toMapping12 t = .ok m ∧ ∀ c g, Lists m c g ↔ Maps12 (B.drop start) c g := by
  have hn : ∃ n, n = field (B.drop start) 12 4 := ⟨_, rfl⟩
  obtain ⟨n, hn⟩ := hn
  have hi := h.inside
  have hg := h.group
  have ha := h.apart
  have hgl := h.glyphs
  rw [← hn] at hi hg ha hgl
  simp only [List.length_drop] at hi
  obtain ⟨v0, a0, b0⟩ := readU16_ok (r := ⟨B, start, stk⟩) (by simp only; omega)
  obtain ⟨v1, a1, b1⟩ := readU16_ok (r := ⟨B, start + 2, stk⟩) (by simp only; omega)
  obtain ⟨v2, a2, b2⟩ := readU32_ok (r := ⟨B, start + 2 + 2, stk⟩) (by simp only; omega)
  obtain ⟨v3, a3, b3⟩ := readU32_ok (r := ⟨B, start + 2 + 2 + 4, stk⟩) (by simp only; omega)
  obtain ⟨v4, a4, b4⟩ := readU32_ok (r := ⟨B, start + 2 + 2 + 4 + 4, stk⟩) (by simp only; omega)
  simp only at a0 a1 a2 a3 a4 b0 b1 b2 b3 b4
  have a4 : v4.toNat = n := by rw [a4, hn, field_drop]
  obtain ⟨gs, c1, c2, c3⟩ := list_read (p := readGroup) (w := 12) (B := B) (stk := stk) n (start + 2 + 2 + 4 + 4 + 4)
    (Q := fun i (x : Group) => x.startCharCode.toNat = field (B.drop start) (16 + 12 * i) 4 ∧
      x.endCharCode.toNat = field (B.drop start) (20 + 12 * i) 4 ∧ x.startGlyphID.toNat = field (B.drop start) (24 + 12 * i) 4)
    fun i hi => by
      obtain ⟨w0, x0, y0⟩ := readU32_ok (r := ⟨B, start + 2 + 2 + 4 + 4 + 4 + 12 * i, stk⟩) (by simp only; omega)
      obtain ⟨w1, x1, y1⟩ := readU32_ok (r := ⟨B, start + 2 + 2 + 4 + 4 + 4 + 12 * i + 4, stk⟩) (by simp only; omega)
      obtain ⟨w2, x2, y2⟩ := readU32_ok (r := ⟨B, start + 2 + 2 + 4 + 4 + 4 + 12 * i + 4 + 4, stk⟩) (by simp only; omega)
      simp only at x0 x1 x2 y0 y1 y2
      refine ⟨⟨w0, w1, w2⟩, ⟨?_, ?_, ?_⟩, ?_⟩
      · simp only; rw [x0, field_drop]; congr 1; omega
      · simp only; rw [x1, field_drop]; congr 1; omega
      · simp only; rw [x2, field_drop]; congr 1; omega
      · unfold readGroup
        simp only [bind_run, y0, y1, y2, pure_run]
  have key : ∀ x ∈ gs, ∃ i < n, x.startCharCode.toNat = field (B.drop start) (16 + 12 * i) 4 ∧
      x.endCharCode.toNat = field (B.drop start) (20 + 12 * i) 4 ∧ x.startGlyphID.toNat = field (B.drop start) (24 + 12 * i) 4 := by
    intro x hx
    obtain ⟨i, hi, rfl⟩ := List.mem_iff_getElem.mp hx
    exact ⟨i, by omega, c2 i _ (by simp [hi])⟩
  have mem : ∀ x ∈ gs.flatMap entries, ∃ i c, i < n ∧ field (B.drop start) (16 + 12 * i) 4 ≤ c ∧
      c ≤ field (B.drop start) (20 + 12 * i) 4 ∧ x.1.toNat = c ∧
      x.2 = UInt16.ofNat (field (B.drop start) (24 + 12 * i) 4 + (c - field (B.drop start) (16 + 12 * i) 4)) := by
    intro x hx
    obtain ⟨y, hy, hx⟩ := List.mem_flatMap.mp hx
    obtain ⟨i, hi, k1, k2, k3⟩ := key y hy
    unfold entries at hx
    obtain ⟨j, hj, rfl⟩ := List.mem_map.mp hx
    rw [List.mem_range, k1, k2] at hj
    have := y.endCharCode.toNat_lt
    refine ⟨i, field (B.drop start) (16 + 12 * i) 4 + j, hi, by omega, by omega, ?_, ?_⟩
    · simp only; rw [ofNat32_toNat (by omega), k1]
    · simp only; rw [k3]; congr 2; omega
  have func : ∀ x ∈ gs.flatMap entries, ∀ y ∈ gs.flatMap entries, x.1 = y.1 → x = y := by
    intro x hx y hy e
    obtain ⟨i, c, i1, i2, i3, i4, i5⟩ := mem x hx
    obtain ⟨j, d, j1, j2, j3, j4, j5⟩ := mem y hy
    have e' := congrArg UInt32.toNat e
    rw [i4, j4] at e'
    subst e'
    obtain rfl : i = j := by
      rcases Nat.lt_trichotomy i j with hl | hl | hl
      · have := ha i j hl (by omega); omega
      · exact hl
      · have := ha j i hl (by omega); omega
    exact Prod.ext e (by rw [i5, j5])
  refine ⟨⟨v0, v1, v2, v3, gs⟩, start + 2 + 2 + 4 + 4 + 4 + 12 * n, BMap.collect (gs.flatMap entries), ?_, ?_, ?_, ?_⟩
  · unfold readCmap12
    simp only [bind_run, b0, b1, b2, b3, b4, a4, c3, pure_run]
  · simp only; rw [a3, field_drop]
  · unfold toMapping12
    rw [expandGroups_eq]
    · rfl
    · intro g hx
      obtain ⟨i, hi, k1, k2, k3⟩ := key g hx
      have := hg i hi
      have := hgl i hi
      refine ⟨by omega, by omega⟩
  · intro c g
    rw [lists_collect func]
    unfold Maps12
    rw [← hn]
    constructor
    · rintro ⟨x, hx, e1, e2⟩
      obtain ⟨i, d, i1, i2, i3, i4, i5⟩ := mem x hx
      have := hgl i i1
      rw [i5, ofNat16_toNat (by omega)] at e2
      have : d = c := by omega
      subst this
      exact ⟨i, i1, i2, i3, e2.symm⟩
    · rintro ⟨i, i1, i2, i3, i4⟩
      obtain ⟨y, hy⟩ := get_of_lt (l := gs) (i := i) (by omega)
      obtain ⟨k1, k2, k3⟩ := c2 i y hy
      have := hgl i i1
      have := y.endCharCode.toNat_lt
      refine ⟨(UInt32.ofNat (y.startCharCode.toNat + (c - y.startCharCode.toNat)),
        UInt16.ofNat (y.startGlyphID.toNat + (c - y.startCharCode.toNat))), List.mem_flatMap.mpr ⟨y, List.mem_of_getElem? hy, ?_⟩, ?_, ?_⟩
      · exact List.mem_map.mpr ⟨c - y.startCharCode.toNat, List.mem_range.mpr (by omega), rfl⟩
      · simp only; rw [ofNat32_toNat (by omega)]; omega
      · simp only; rw [ofNat16_toNat (by omega)]; omega

/-! ### Format 14 -/

/-- A 32-bit offset to a counted list. -/
theorem offset32_read {α : Type} {p : Reader α} {w : Nat} {B : Bytes} {base pos : Nat} {stk : List Nat} {Q : Nat → α → Prop}
    (h : pos + 4 ≤ B.length) (h1 : field B pos 4 ≠ 0 → field B pos 4 ≤ 65535 ∧
      base + field B pos 4 + 4 + w * field B (base + field B pos 4) 4 ≤ B.length)
    (hp : field B pos 4 ≠ 0 → ∀ i < field B (base + field B pos 4) 4, ∃ a, Q i a ∧
      p ⟨B, base + field B pos 4 + 4 + w * i, base :: stk⟩ = .ok (a, ⟨B, base + field B pos 4 + 4 + w * i + w, base :: stk⟩)) :
    ∃ o : Option (List α), readOffset .w32 (readCounted32 p) ⟨B, pos, base :: stk⟩ = .ok (o, ⟨B, pos + 4, base :: stk⟩) ∧
      (field B pos 4 = 0 → o = none) ∧ (field B pos 4 ≠ 0 → ∃ l, o = some l ∧ l.length = field B (base + field B pos 4) 4 ∧
        ∀ i a, l[i]? = some a → Q i a) := by
  obtain ⟨v, a1, a2⟩ := readU32_ok (r := ⟨B, pos, base :: stk⟩) h
  simp only at a1 a2
  have e : readWidth .w32 ⟨B, pos, base :: stk⟩ = .ok (v.toNat, ⟨B, pos + 4, base :: stk⟩) := by
    show (readU32 >>= fun v => pure v.toNat) _ = _
    rw [bind_run, a2]
    rfl
  by_cases hz : field B pos 4 = 0
  · refine ⟨none, ?_, fun _ => rfl, fun h => absurd hz h⟩
    unfold readOffset
    rw [bind_run, e]
    simp only
    rw [if_pos (by omega)]
    rfl
  · obtain ⟨h2, h3⟩ := h1 hz
    obtain ⟨n, c1, c2⟩ := readU32_ok (r := ⟨B, base + field B pos 4, base :: stk⟩) (by simp only; omega)
    simp only at c1 c2
    obtain ⟨l, l1, l2, l3⟩ := list_read (w := w) (stk := base :: stk) _ (base + field B pos 4 + 4) (hp hz)
    refine ⟨some l, ?_, fun h => absurd h hz, fun _ => ⟨l, rfl, l1, l2⟩⟩
    unfold readOffset
    rw [bind_run, e]
    simp only
    rw [if_neg (by omega), if_neg (by omega)]
    simp only [bind_run, getPtr, followOffset, ofNat16_toNat (show v.toNat ≤ 65535 by omega)]
    rw [if_neg (by omega), a1]
    unfold readCounted32
    simp only [bind_run, c2, c1, l3, setPtr, pure_run]

/-- What the record of a selector says. -/
def SelSays (bs : Bytes) (i : Nat) (v : VarSelector) : Prop :=
  v.selector.toNat = field bs (10 + 11 * i) 3 ∧ (field bs (17 + 11 * i) 4 = 0 → v.nonDefaultUVS = none) ∧
  (field bs (17 + 11 * i) 4 ≠ 0 → ∃ l, v.nonDefaultUVS = some l ∧ l.length = field bs (field bs (17 + 11 * i) 4) 4 ∧
    ∀ j a, l[j]? = some a → a.unicodeValue.toNat = field bs (field bs (17 + 11 * i) 4 + 4 + 5 * j) 3 ∧
      a.glyphID.toNat = field bs (field bs (17 + 11 * i) 4 + 7 + 5 * j) 2)

theorem read_valid14 {B : Bytes} {start : Nat} {stk : List Nat} (h : Valid14 (B.drop start)) :
    ∃ t ptr, readCmap14 ⟨B, start, stk⟩ = .ok (t, ⟨B, ptr, stk⟩) ∧ t.varSelector.length = field (B.drop start) 6 4 ∧
      ∀ i v, t.varSelector[i]? = some v → SelSays (B.drop start) i v := by
  have hn : ∃ n, n = field (B.drop start) 6 4 := ⟨_, rfl⟩
  obtain ⟨n, hn⟩ := hn
  have hi := h.inside
  have hd := h.defaults
  have hs := h.sequences
  rw [← hn] at hi hd hs ⊢
  simp only [List.length_drop] at hi hd hs
  obtain ⟨v0, a0, b0⟩ := readU16_ok (r := ⟨B, start, start :: stk⟩) (by simp only; omega)
  obtain ⟨v1, a1, b1⟩ := readU32_ok (r := ⟨B, start + 2, start :: stk⟩) (by simp only; omega)
  obtain ⟨v2, a2, b2⟩ := readU32_ok (r := ⟨B, start + 2 + 4, start :: stk⟩) (by simp only; omega)
  simp only at a0 a1 a2 b0 b1 b2
  have a2 : v2.toNat = n := by rw [a2, hn, field_drop]
  obtain ⟨ss, c1, c2, c3⟩ := list_read (p := readSelector) (w := 11) (B := B) (stk := start :: stk) n (start + 2 + 4 + 4)
    (Q := SelSays (B.drop start)) fun i hi => by
      obtain ⟨v, x0, y0⟩ := readU24_ok (B := B) (pos := start + 2 + 4 + 4 + 11 * i) (stk := start :: stk) (by omega)
      have F : ∀ k, field B (start + 2 + 4 + 4 + 11 * i + k) 4 = field (B.drop start) (10 + k + 11 * i) 4 := fun k => by
        rw [field_drop]; congr 1; omega
      have F0 : field B (start + 2 + 4 + 4 + 11 * i) 3 = field (B.drop start) (10 + 11 * i) 3 := by
        rw [field_drop]; congr 1; omega
      have F3 := F 3
      have F7 := F 7
      have hd := hd i hi
      have hs := hs i hi
      simp only [Nat.reduceAdd] at F3 F7 hd hs
      obtain ⟨o1, p1, _, _⟩ := offset32_read (p := readUnicodeRange) (w := 4) (B := B) (base := start)
        (pos := start + 2 + 4 + 4 + 11 * i + 3) (stk := stk) (Q := fun _ _ => True) (by omega)
        (by
          rw [F3]
          intro h
          obtain ⟨q1, q2⟩ := hd h
          rw [field_drop _ _ (field (B.drop start) (13 + 11 * i) 4)] at q2
          exact ⟨q1, by omega⟩)
        (by
          rw [F3]
          intro h j hj
          obtain ⟨q1, q2⟩ := hd h
          rw [field_drop _ _ (field (B.drop start) (13 + 11 * i) 4)] at q2
          obtain ⟨w, x1, y1⟩ := readU24_ok (B := B) (pos := start + field (B.drop start) (13 + 11 * i) 4 + 4 + 4 * j)
            (stk := start :: stk) (by omega)
          obtain ⟨b, hb⟩ := get_of_lt (l := B) (i := start + field (B.drop start) (13 + 11 * i) 4 + 4 + 4 * j + 3) (by omega)
          refine ⟨⟨w, b⟩, trivial, ?_⟩
          unfold readUnicodeRange
          rw [bind_run, y1]
          simp only
          rw [bind_run, readU8_ok hb]
          rfl)
      obtain ⟨o2, p2, p3, p4⟩ := offset32_read (p := readUvsMapping) (w := 5) (B := B) (base := start)
        (pos := start + 2 + 4 + 4 + 11 * i + 7) (stk := stk)
        (Q := fun j (a : UvsMapping) => a.unicodeValue.toNat = field (B.drop start) (field (B.drop start) (17 + 11 * i) 4 + 4 + 5 * j) 3 ∧
          a.glyphID.toNat = field (B.drop start) (field (B.drop start) (17 + 11 * i) 4 + 7 + 5 * j) 2) (by omega)
        (by
          rw [F7]
          intro h
          obtain ⟨q1, q2, _⟩ := hs h
          rw [field_drop _ _ (field (B.drop start) (17 + 11 * i) 4)] at q2
          exact ⟨q1, by omega⟩)
        (by
          rw [F7]
          intro h j hj
          obtain ⟨q1, q2, _⟩ := hs h
          rw [field_drop _ _ (field (B.drop start) (17 + 11 * i) 4)] at q2
          obtain ⟨w, x1, y1⟩ := readU24_ok (B := B) (pos := start + field (B.drop start) (17 + 11 * i) 4 + 4 + 5 * j)
            (stk := start :: stk) (by omega)
          obtain ⟨g, x2, y2⟩ := readU16_ok (r := ⟨B, start + field (B.drop start) (17 + 11 * i) 4 + 4 + 5 * j + 3, start :: stk⟩)
            (by simp only; omega)
          simp only at x2 y2
          refine ⟨⟨w, g⟩, ⟨?_, ?_⟩, ?_⟩
          · simp only; rw [x1]; rw [field_drop _ _ (field (B.drop start) (17 + 11 * i) 4 + _ + _)]
            congr 1; omega
          · simp only; rw [x2]; rw [field_drop _ _ (field (B.drop start) (17 + 11 * i) 4 + _ + _)]
            congr 1; omega
          · unfold readUvsMapping
            rw [bind_run, y1]
            simp only
            rw [bind_run, y2]
            rfl)
      rw [F7] at p3 p4
      refine ⟨⟨v, o1, o2⟩, ⟨by simp only; rw [x0, F0], p3, fun hz => ?_⟩, ?_⟩
      · obtain ⟨l, l1, l2, l3⟩ := p4 hz
        exact ⟨l, l1, by rw [l2, field_drop _ _ (field (B.drop start) (17 + 11 * i) 4)], l3⟩
      · unfold readSelector
        simp only [bind_run, y0, p1, p2, pure_run]
  refine ⟨⟨v0, v1, ss⟩, start + 2 + 4 + 4 + 11 * n, ?_, c1, c2⟩
  unfold readCmap14 Lay.inTable
  simp only [bind_run, pushTop, b0, b1, b2, a2, c3, pure_run]
  rfl

/-- The sequences of a selector. -/
def uvsEntries (v : VarSelector) : UvsMap :=
  match v.nonDefaultUVS with
  | none => []
  | some l => l.map fun r => ((r.unicodeValue, v.selector), r.glyphID)

theorem toUvs_collect (t : Cmap14) : toUvs t = BMap.collect (t.varSelector.flatMap uvsEntries) := by
  unfold toUvs BMap.collect
  generalize ([] : UvsMap) = m
  induction t.varSelector generalizing m with
  | nil => rfl
  | cons v l ih =>
    rw [List.foldl_cons, List.flatMap_cons, List.foldl_append, ih]
    congr 1
    unfold uvsEntries
    cases v.nonDefaultUVS with
    | none => rfl
    | some l => simp only; rw [List.foldl_map]

theorem says14 {bs : Bytes} (h : Valid14 bs) {t : Cmap14} (hl : t.varSelector.length = field bs 6 4)
    (hv : ∀ i v, t.varSelector[i]? = some v → SelSays bs i v) (c s g : Nat) : ListsUvs (toUvs t) c s g ↔ ListsSequence bs c s g := by
  have mem : ∀ x ∈ t.varSelector.flatMap uvsEntries, ∃ i j, i < field bs 6 4 ∧ field bs (17 + 11 * i) 4 ≠ 0 ∧
      j < field bs (field bs (17 + 11 * i) 4) 4 ∧ x.1.1.toNat = field bs (field bs (17 + 11 * i) 4 + 4 + 5 * j) 3 ∧
      x.1.2.toNat = field bs (10 + 11 * i) 3 ∧ x.2.toNat = field bs (field bs (17 + 11 * i) 4 + 7 + 5 * j) 2 := by
    intro x hx
    obtain ⟨v, hv', hx⟩ := List.mem_flatMap.mp hx
    obtain ⟨i, hi, rfl⟩ := List.mem_iff_getElem.mp hv'
    obtain ⟨k1, k2, k3⟩ := hv i _ (List.getElem?_eq_getElem hi)
    unfold uvsEntries at hx
    by_cases hz : field bs (17 + 11 * i) 4 = 0
    · rw [k2 hz] at hx; cases hx
    · obtain ⟨l, l1, l2, l3⟩ := k3 hz
      rw [l1] at hx
      obtain ⟨r, hr, rfl⟩ := List.mem_map.mp hx
      obtain ⟨j, hj, rfl⟩ := List.mem_iff_getElem.mp hr
      obtain ⟨m1, m2⟩ := l3 j _ (List.getElem?_eq_getElem hj)
      exact ⟨i, j, by omega, hz, by omega, m1, k1, m2⟩
  have func : ∀ x ∈ t.varSelector.flatMap uvsEntries, ∀ y ∈ t.varSelector.flatMap uvsEntries, x.1 = y.1 → x = y := by
    intro x hx y hy e
    obtain ⟨i, j, i1, i2, i3, i4, i5, i6⟩ := mem x hx
    obtain ⟨i', j', i1', i2', i3', i4', i5', i6'⟩ := mem y hy
    rw [e] at i4 i5
    obtain rfl : i = i' := by
      rcases Nat.lt_trichotomy i i' with hl | hl | hl
      · exact absurd (i5.symm.trans i5') (h.selectors i i' hl i1')
      · exact hl
      · exact absurd (i5'.symm.trans i5) (h.selectors i' i hl i1)
    obtain ⟨_, _, hd⟩ := h.sequences i i1 i2
    obtain rfl : j = j' := by
      rcases Nat.lt_trichotomy j j' with hl | hl | hl
      · exact absurd (i4.symm.trans i4') (hd j j' hl i3')
      · exact hl
      · exact absurd (i4'.symm.trans i4) (hd j' j hl i3)
    exact Prod.ext e (UInt16.toNat_inj.mp (by rw [i6, i6']))
  unfold ListsUvs
  rw [toUvs_collect]
  constructor
  · rintro ⟨x, hx, e1, e2, e3⟩
    obtain ⟨i, j, i1, i2, i3, i4, i5, i6⟩ := mem x ((collect_functional func x).mp hx)
    exact ⟨i, i1, by rw [← i5, e2], i2, j, i3, by rw [← i4, e1], by rw [← i6, e3]⟩
  · rintro ⟨i, i1, e2, i2, j, i3, e1, e3⟩
    obtain ⟨v, hv'⟩ := get_of_lt (l := t.varSelector) (i := i) (by omega)
    obtain ⟨k1, k2, k3⟩ := hv i v hv'
    obtain ⟨l, l1, l2, l3⟩ := k3 i2
    obtain ⟨r, hr⟩ := get_of_lt (l := l) (i := j) (by omega)
    obtain ⟨m1, m2⟩ := l3 j r hr
    refine ⟨((r.unicodeValue, v.selector), r.glyphID), (collect_functional func _).mpr ?_, by rw [m1, e1], by rw [k1, e2], by rw [m2, e3]⟩
    refine List.mem_flatMap.mpr ⟨v, List.mem_of_getElem? hv', ?_⟩
    unfold uvsEntries
    rw [l1]
    exact List.mem_map.mpr ⟨r, List.mem_of_getElem? hr, rfl⟩

/-! ### The table -/

theorem valid_start {bs : Bytes} {p e : Nat} (h : GoodSubtable bs p e) : 2 ≤ bs.length := by
  rcases h with ⟨h, _⟩ | h | ⟨h, _⟩
  · have := h.inside; have := h.whole; omega
  · have := h.inside; omega
  · have := h.inside; omega

/-- **C92**, one subtable. -/
theorem C92_subtable {B : Bytes} {pos base : Nat} {stk : List Nat} {er : EncodingRecord}
    (h : GoodSubtable (B.drop (base + er.subtableOffset.toNat)) er.platformID.toNat er.encodingID.toNat) :
    ∃ st ptr, readSubtable er ⟨B, pos, base :: stk⟩ = .ok (st, ⟨B, ptr, base :: stk⟩) ∧
      SubSays (B.drop (base + er.subtableOffset.toNat)) er.platformID.toNat er.encodingID.toNat st := by
  obtain ⟨start, hstart⟩ : ∃ s, s = base + er.subtableOffset.toNat := ⟨_, rfl⟩
  have h2 := valid_start h
  unfold readSubtable
  rw [← hstart] at h h2 ⊢
  simp only [List.length_drop] at h2
  simp only [bind_run, topOfTable, setPtr]
  rw [← hstart]
  rcases h with ⟨h, ho⟩ | h | ⟨h, hp, he⟩
  · have hf := h.format
    obtain ⟨t, ptr, e1, e2, e3⟩ := read_valid4 (stk := base :: stk) h ho
    rw [peek_field (a := 0) (b := 4) (by omega) (by rw [field_drop] at hf; exact hf)]
    simp only
    rw [if_neg (by decide), if_pos trivial]
    simp only [bind_run, e1, Reader.lift, e3, pure_run]
    refine ⟨_, _, rfl, by rw [hf]; rfl, rfl, rfl, ?_, ?_, ?_⟩
    · intro _
      refine ⟨e2, rfl, fun c hc g hg => says4 h hc hg, fun c hc g hg => ?_⟩
      obtain ⟨i, i1, i2, i3, _⟩ := (lists4 h c g).mp hg
      have := h.apart i (field (B.drop start) 6 2 / 2 - 1) i1 (by omega)
      have := h.final.1
      omega
    · intro h; omega
    · intro h; omega
  · have hf := h.format
    obtain ⟨t, ptr, m, e1, e2, e3, e4⟩ := read_valid12 (stk := base :: stk) h
    rw [peek_field (a := 0) (b := 12) (by omega) (by rw [field_drop] at hf; exact hf)]
    simp only
    rw [if_neg (by decide), if_neg (by decide), if_pos trivial]
    simp only [bind_run, e1, Reader.lift, e3, pure_run]
    refine ⟨_, _, rfl, by rw [hf]; rfl, rfl, rfl, ?_, ?_, ?_⟩
    · intro h; omega
    · intro _
      exact ⟨by simp only; rw [← e2]; simp, rfl, e4⟩
    · intro h; omega
  · have hf := h.format
    obtain ⟨t, ptr, e1, e2, e3⟩ := read_valid14 (stk := base :: stk) h
    rw [peek_field (a := 0) (b := 14) (by omega) (by rw [field_drop] at hf; exact hf)]
    simp only
    rw [if_neg (by decide), if_neg (by decide), if_neg (by decide), if_pos trivial]
    simp only [bind_run, e1, pure_run]
    refine ⟨_, _, rfl, by rw [hf]; rfl, by rw [hp]; rfl, by rw [he]; rfl, ?_, ?_, ?_⟩
    · intro h; omega
    · intro h; omega
    · intro _
      exact ⟨rfl, _, rfl, says14 h e2 e3⟩

theorem records_read {B : Bytes} {n pos : Nat} {stk : List Nat} (h : pos + 8 * n ≤ B.length) :
    ∃ l : List EncodingRecord, l.length = n ∧ (∀ i a, l[i]? = some a → a.platformID.toNat = field B (pos + 8 * i) 2 ∧
      a.encodingID.toNat = field B (pos + 8 * i + 2) 2 ∧ a.subtableOffset.toNat = field B (pos + 8 * i + 4) 4) ∧
      deCounted readRecord n ⟨B, pos, stk⟩ = .ok (l, ⟨B, pos + 8 * n, stk⟩) :=
  list_read n pos fun i hi => by
    obtain ⟨w0, x0, y0⟩ := readU16_ok (r := ⟨B, pos + 8 * i, stk⟩) (by simp only; omega)
    obtain ⟨w1, x1, y1⟩ := readU16_ok (r := ⟨B, pos + 8 * i + 2, stk⟩) (by simp only; omega)
    obtain ⟨w2, x2, y2⟩ := readU32_ok (r := ⟨B, pos + 8 * i + 2 + 2, stk⟩) (by simp only; omega)
    simp only at x0 x1 x2 y0 y1 y2
    refine ⟨⟨w0, w1, w2⟩, ⟨x0, x1, by simpa using x2⟩, ?_⟩
    unfold readRecord
    simp only [bind_run, y0, y1, y2, pure_run]

theorem readSubtables_foreign {B : Bytes} : ∀ {l : List EncodingRecord} {pos : Nat},
    (∀ er ∈ l, GoodSubtable (B.drop er.subtableOffset.toNat) er.platformID.toNat er.encodingID.toNat) →
    ∃ sts ptr, readSubtables l ⟨B, pos, [0]⟩ = .ok (sts, ⟨B, ptr, [0]⟩) ∧
      List.Forall₂ (fun er st => SubSays (B.drop er.subtableOffset.toNat) er.platformID.toNat er.encodingID.toNat st) l sts
  | [], pos, _ => ⟨[], pos, rfl, .nil⟩
  | er :: l, pos, h => by
    have h1 := h er (by simp)
    rw [← Nat.zero_add er.subtableOffset.toNat] at h1
    obtain ⟨st, ptr, e1, e2⟩ := C92_subtable (pos := pos) (stk := []) h1
    obtain ⟨sts, ptr', e3, e4⟩ := readSubtables_foreign (l := l) (pos := ptr) fun x hx => h x (by simp [hx])
    rw [Nat.zero_add] at e2
    refine ⟨st :: sts, ptr', ?_, .cons e2 e4⟩
    rw [readSubtables, bind_run, e1]
    simp only
    rw [bind_run, e3]
    rfl

/-- **C92.** Every `cmap` table with subtables of formats 4, 12 and 14 is read, and each subtable as what it says. -/
theorem C92_cmap (B : Bytes) (h : GoodCmap B) : ∃ sts rd, readCmap (Rd.new B) = .ok (sts, rd) ∧ sts.length = field B 2 2 ∧
    ∀ i st, sts[i]? = some st →
      SubSays (B.drop (field B (8 + 8 * i) 4)) (field B (4 + 8 * i) 2) (field B (6 + 8 * i) 2) st := by
  have hi := h.inside
  obtain ⟨v0, a0, b0⟩ := readU16_ok (r := ⟨B, 0, [0, 0]⟩) (by simp only; omega)
  obtain ⟨v1, a1, b1⟩ := readU16_ok (r := ⟨B, 0 + 2, [0, 0]⟩) (by simp only; omega)
  simp only at a0 a1 b0 b1
  obtain ⟨l, c1, c2, c3⟩ := records_read (B := B) (n := field B 2 2) (pos := 0 + 2 + 2) (stk := [0, 0]) (by omega)
  have c2 : ∀ i a, l[i]? = some a → a.platformID.toNat = field B (4 + 8 * i) 2 ∧ a.encodingID.toNat = field B (6 + 8 * i) 2 ∧
      a.subtableOffset.toNat = field B (8 + 8 * i) 4 := by
    intro i a ha
    obtain ⟨k1, k2, k3⟩ := c2 i a ha
    refine ⟨k1, ?_, ?_⟩
    · rw [k2]; congr 1; omega
    · rw [k3]; congr 1; omega
  obtain ⟨sts, ptr, e1, e2⟩ := readSubtables_foreign (B := B) (l := l) (pos := 0 + 2 + 2 + 8 * field B 2 2) fun er her => by
    obtain ⟨i, hi, rfl⟩ := List.mem_iff_getElem.mp her
    obtain ⟨k1, k2, k3⟩ := c2 i _ (List.getElem?_eq_getElem hi)
    rw [k1, k2, k3]
    exact h.subtable i (by omega)
  refine ⟨sts, ⟨B, ptr, [0]⟩, ?_, by rw [← e2.length_eq, c1], ?_⟩
  · unfold readCmap Lay.inTable readCounted Rd.new
    simp only [bind_run, pushTop, b0, b1, a1, Nat.zero_add] at c3 ⊢
    rw [c3]
    simp only [popTop, pure_run]
    simp only [Nat.zero_add] at e1
    exact e1
  · intro i st hst
    have hlt : i < l.length := by
      rw [e2.length_eq]
      by_contra hc
      rw [List.getElem?_eq_none (by omega)] at hst
      cases hst
    obtain ⟨k1, k2, k3⟩ := c2 i _ (List.getElem?_eq_getElem hlt)
    obtain ⟨h2, rfl⟩ := List.getElem?_eq_some_iff.mp hst
    have := List.forall₂_iff_get.mp e2
    have := this.2 i hlt h2
    simp only [List.get_eq_getElem] at this
    rw [k1, k2, k3] at this
    exact this

/-! ### Outside the guards -/

/-- A subtable of format 0 is read as one that maps nothing. -/
theorem C92_format_0 {B : Bytes} {pos base : Nat} {stk : List Nat} {er : EncodingRecord}
    (hf : field (B.drop (base + er.subtableOffset.toNat)) 0 2 = 0) (hl : field (B.drop (base + er.subtableOffset.toNat)) 2 2 = 262)
    (hi : 262 ≤ (B.drop (base + er.subtableOffset.toNat)).length) :
    ∃ st ptr, readSubtable er ⟨B, pos, base :: stk⟩ = .ok (st, ⟨B, ptr, base :: stk⟩) ∧ st.mapping = [] := by
  obtain ⟨start, hstart⟩ : ∃ s, s = base + er.subtableOffset.toNat := ⟨_, rfl⟩
  rw [← hstart] at hf hl hi
  rw [field_drop] at hf hl
  simp only [List.length_drop] at hi
  obtain ⟨v0, a0, b0⟩ := readU16_ok (r := ⟨B, start, base :: stk⟩) (by simp only; omega)
  obtain ⟨v1, a1, b1⟩ := readU16_ok (r := ⟨B, start + 2, base :: stk⟩) (by simp only; omega)
  obtain ⟨v2, a2, b2⟩ := readU16_ok (r := ⟨B, start + 2 + 2, base :: stk⟩) (by simp only; omega)
  simp only at a0 a1 a2 b0 b1 b2
  have a1 : v1.toNat = 262 := by rw [a1, hl]
  have hlen : ((B.drop (start + 2 + 2 + 2)).take 256).length = 256 := by simp; omega
  have k := plain_bytes ((B.drop (start + 2 + 2 + 2)).take 256) B 0 (start + 2 + 2 + 2) (base :: stk)
    ⟨by show (B.drop (start + 2 + 2 + 2)).take _ = _; rw [hlen], trivial⟩
  rw [hlen] at k
  unfold readSubtable
  simp only [bind_run, topOfTable, setPtr]
  rw [← hstart, peek_field (a := 0) (b := 0) (by omega) (by rw [Nat.add_zero] at hf; exact hf)]
  simp only
  rw [if_pos trivial]
  unfold readCmap0
  simp only [bind_run, b0, b1, b2, a1]
  rw [if_neg (by decide)]
  simp only [bind_run, show max 256 (262 - 6) = 256 from rfl, k, pure_run]
  exact ⟨_, _, rfl, rfl⟩

/-- A subtable of a format other than 0, 4, 12 and 14 is an error. -/
theorem C92_other_format {B : Bytes} {pos base : Nat} {stk : List Nat} {er : EncodingRecord}
    (hi : 2 ≤ (B.drop (base + er.subtableOffset.toNat)).length)
    (hf : field (B.drop (base + er.subtableOffset.toNat)) 0 2 ∉ [0, 4, 12, 14]) : readSubtable er ⟨B, pos, base :: stk⟩ = .err := by
  obtain ⟨start, hstart⟩ : ∃ s, s = base + er.subtableOffset.toNat := ⟨_, rfl⟩
  rw [← hstart] at hf hi
  rw [field_drop, Nat.add_zero] at hf
  simp only [List.length_drop] at hi
  have hlt := field_lt2 B start
  have hp : FT.peek 2 ⟨B, start, base :: stk⟩ = .ok ([UInt8.ofNat (field B start 2 / 256), UInt8.ofNat (field B start 2 % 256)],
      ⟨B, start, base :: stk⟩) := peek_field (by omega) (by
    rw [UInt8.toNat_ofNat', UInt8.toNat_ofNat']; omega)
  have key : ∀ b : UInt8, field B start 2 ≠ b.toNat → [UInt8.ofNat (field B start 2 / 256), UInt8.ofNat (field B start 2 % 256)] ≠ [0, b] := by
    intro b hb e
    simp only [List.cons.injEq, and_true] at e
    have e1 := congrArg UInt8.toNat e.1
    have e2 := congrArg UInt8.toNat e.2
    rw [UInt8.toNat_ofNat'] at e1 e2
    simp at e1
    omega
  simp only [List.mem_cons, List.not_mem_nil, or_false, not_or] at hf
  unfold readSubtable
  simp only [bind_run, topOfTable, setPtr]
  rw [← hstart, hp]
  simp only
  rw [if_neg (key 0 hf.1), if_neg (key 4 hf.2.1), if_neg (key 12 hf.2.2.1), if_neg (key 14 hf.2.2.2)]
  rfl

/-- … so that nothing of a table with a subtable of format 6 beside one of format 12 is read. -/
theorem C92_format_6 : readCmap (Rd.new [0, 0, 0, 2, 0, 1, 0, 0, 0, 0, 0, 20, 0, 3, 0, 10, 0, 0, 0, 32,
    0, 6, 0, 12, 0, 0, 0, 65, 0, 1, 0, 1, 0, 12, 0, 0, 0, 0, 0, 28, 0, 0, 0, 0, 0, 0, 0, 1, 0, 0, 0, 65, 0, 0, 0, 65, 0, 0, 0, 1]) =
    .err := by decide +kernel

/-- A subtable of format 4 that maps "A" by an array with glyph 32767 and a delta of 1. -/
def overflow4 : Bytes := [0, 4, 0, 34, 0, 0, 0, 4, 0, 4, 0, 1, 0, 0, 0, 65, 255, 255, 0, 0, 0, 65, 255, 255, 0, 1, 0, 1, 0, 4, 0, 0, 127, 255]

/-- The sum of a glyph of an array and a delta is computed in signed 16-bit numbers: overflow panics (and wraps in release
builds). -/
theorem C92_overflow : Valid4 overflow4 ∧ Lookup4 overflow4 65 32768 ∧ readSubtable ⟨3, 1, 0⟩ (Rd.new overflow4) = .panic := by
  refine ⟨⟨by decide, by decide, by decide, by decide, ⟨by decide, by decide⟩, ?_, ?_⟩, ⟨0, by decide, by omega, by decide, by decide⟩,
    by decide +kernel⟩
  · intro i j hi hj
    have : j < 2 := hj
    obtain rfl : j = 1 := by omega
    obtain rfl : i = 0 := by omega
    decide
  · intro i hi
    have : i < 1 := hi
    obtain rfl : i = 0 := by omega
    intro _ _ _
    refine ⟨by decide, fun c h1 h2 => ?_⟩
    have h1 : 65 ≤ c := h1
    have h2 : c ≤ 65 := h2
    obtain rfl : c = 65 := by omega
    decide

/-- Sequences that are displayed as the character alone are dropped: nothing is left of a subtable that has nothing else. -/
theorem C92_default_sequences : readSubtable ⟨0, 5, 0⟩ (Rd.new [0, 14, 0, 0, 0, 29, 0, 0, 0, 1, 0, 254, 0, 0, 0, 0, 21, 0, 0, 0, 0,
    0, 0, 0, 1, 0, 0, 65, 0]) = .ok (⟨14, 0, 5, 0, [], some []⟩, ⟨[0, 14, 0, 0, 0, 29, 0, 0, 0, 1, 0, 254, 0, 0, 0, 0, 21, 0, 0, 0, 0,
    0, 0, 0, 1, 0, 0, 65, 0], 21, [0]⟩) := by decide +kernel

/-- Glyphs of more than 16 bits in format 12 lose their upper bits: glyph 65537 is read as glyph 1. -/
theorem C92_wide_glyph : ∃ rd, readSubtable ⟨3, 10, 0⟩ (Rd.new [0, 12, 0, 0, 0, 0, 0, 28, 0, 0, 0, 0, 0, 0, 0, 1,
    0, 0, 0, 65, 0, 0, 0, 65, 0, 1, 0, 1]) = .ok (⟨12, 3, 10, 0, [(65, 1)], none⟩, rd) :=
  ⟨⟨[0, 12, 0, 0, 0, 0, 0, 28, 0, 0, 0, 0, 0, 0, 0, 1, 0, 0, 0, 65, 0, 0, 0, 65, 0, 1, 0, 1], 28, [0]⟩, by decide +kernel⟩

/-! ### Examples -/

/-- Two records for the same subtable of format 4, whose two segments share an array with deltas. -/
def sharedArrays : Bytes := [0, 0, 0, 2, 0, 0, 0, 3, 0, 0, 0, 20, 0, 3, 0, 1, 0, 0, 0, 20,
  0, 4, 0, 44, 0, 0, 0, 6, 7, 7, 7, 7, 7, 7, 0, 66, 0, 98, 255, 255, 9, 9, 0, 65, 0, 97, 255, 255, 0, 0, 0, 10, 0, 1, 0, 6, 0, 4, 255, 255,
  0, 5, 0, 8]

theorem sharedArrays_good : GoodCmap sharedArrays := by
  have hv : Valid4 (sharedArrays.drop 20) ∧ NoOverflow4 (sharedArrays.drop 20) := by
    refine ⟨⟨by decide, by decide, by decide, by decide, ⟨by decide, by decide⟩, ?_, ?_⟩, ?_⟩
    · intro i j hi hj
      have : j < 3 := hj
      interval_cases j <;> interval_cases i <;> decide
    · intro i hi
      have : i < 2 := hi
      interval_cases i
      · refine fun _ => ⟨by decide, fun c h1 h2 => ?_⟩
        have h1 : 65 ≤ c := h1
        have h2 : c ≤ 66 := h2
        interval_cases c <;> decide
      · refine fun _ => ⟨by decide, fun c h1 h2 => ?_⟩
        have h1 : 97 ≤ c := h1
        have h2 : c ≤ 98 := h2
        interval_cases c <;> decide
    · intro i hi
      have : i < 2 := hi
      interval_cases i
      · refine fun _ c h1 h2 => ?_
        have h1 : 65 ≤ c := h1
        have h2 : c ≤ 66 := h2
        interval_cases c <;> decide
      · refine fun _ c h1 h2 => ?_
        have h1 : 97 ≤ c := h1
        have h2 : c ≤ 98 := h2
        interval_cases c <;> decide
  refine ⟨by decide, fun i hi => ?_⟩
  have : i < 2 := hi
  interval_cases i <;> exact .inl hv

/-- "b" is glyph 18 in both subtables. -/
example : Lookup4 (sharedArrays.drop 20) 98 18 := by
  refine ⟨1, by decide, ?_, by decide, by decide⟩
  intro j hj
  interval_cases j
  decide

/-- A subtable of format 12 and one of format 14 that share nothing, the second first. -/
example : GoodCmap [0, 0, 0, 2, 0, 0, 0, 5, 0, 0, 0, 20, 0, 3, 0, 10, 0, 0, 0, 55,
    0, 14, 0, 0, 0, 35, 0, 0, 0, 1, 0, 254, 0, 0, 0, 0, 0, 0, 0, 0, 21, 0, 0, 0, 2, 0, 0, 66, 0, 7, 0, 0, 65, 0, 8,
    0, 12, 0, 0, 0, 0, 0, 40, 0, 0, 0, 0, 0, 0, 0, 2, 0, 0, 0, 65, 0, 0, 0, 90, 0, 0, 0, 1, 0, 1, 245, 224, 0, 1, 245, 225, 0, 0, 0, 99] := by
  refine ⟨by decide, fun i hi => ?_⟩
  have : i < 2 := hi
  interval_cases i
  · refine .inr (.inr ⟨⟨by decide, by decide, ?_, ?_, ?_⟩, by decide, by decide⟩)
    · intro i j hi hj
      have : j < 1 := hj
      omega
    · intro i hi
      have : i < 1 := hi
      interval_cases i
      exact fun h => absurd rfl h
    · intro i hi
      have : i < 1 := hi
      interval_cases i
      refine fun _ => ⟨by decide, by decide, fun j k hj hk => ?_⟩
      have : k < 2 := hk
      obtain rfl : k = 1 := by omega
      obtain rfl : j = 0 := by omega
      decide
  · refine .inr (.inl ⟨by decide, by decide, ?_, ?_, ?_⟩)
    · intro i hi
      have : i < 2 := hi
      interval_cases i <;> decide
    · intro i j hi hj
      have : j < 2 := hj
      obtain rfl : j = 1 := by omega
      obtain rfl : i = 0 := by omega
      decide
    · intro i hi
      have : i < 2 := hi
      interval_cases i <;> decide

end FT.Props
