import Verif.Lemmas.BitSet
import Verif.Lemmas.LayoutBad
import Verif.Lemmas.Layout
import Verif.Model.Os2
import Mathlib.Data.List.Dedup

/-!
# C74: the Unicode ranges of `OS/2`; C75: bit fields
-/

namespace FT.Props.Os2
open FT FT.Os2 FT.Props

/-! ### Specification -/

/-- Bit `b` of the four words of the Unicode ranges. -/
def rangeBit (o : Os2) (b : Nat) : Bool :=
  if b < 32 then o.core.ulUnicodeRange1.toNat.testBit b
  else if b < 64 then o.core.ulUnicodeRange2.toNat.testBit (b - 32)
  else if b < 96 then o.core.ulUnicodeRange3.toNat.testBit (b - 64)
  else o.core.ulUnicodeRange4.toNat.testBit (b - 96)

/-- All that a search promises on a list that is not sorted: what it finds is right. -/
def Finds (search : Nat → Option Nat) : Prop :=
  ∀ c i, search c = some i → ∃ r, ranges[i]? = some r ∧ r.low ≤ c ∧ c ≤ r.high

/-- The bit of a code point: that of the range found, else 0. -/
def BitOf (search : Nat → Option Nat) (c b : Nat) : Prop :=
  (∃ i r, search c = some i ∧ ranges[i]? = some r ∧ r.bit = b) ∨ (search c = none ∧ b = 0)

/-- The code point belongs to a block of the table that has this bit. -/
def InBlock (c b : Nat) : Prop := ∃ r ∈ ranges, r.bit = b ∧ r.low ≤ c ∧ c ≤ r.high

/-- The order in which a set is walked. -/
def Order (shuffle : List UInt8 → List UInt8) : Prop := ∀ l, (shuffle l).Perm l

/-! ### Bit fields -/

/-- The distinct bits between `low` and `high` become those bits of the number, counted from `low`. -/
theorem C75_bitset (bs : List UInt8) (low high : UInt8) (hn : bs.Nodup) (hh : high.toNat < low.toNat + 32) :
    ∃ n, filteredBitset bs low high = .ok n ∧
      ∀ k, n.toNat.testBit k = true ↔ ∃ x ∈ bs, x.toNat = low.toNat + k ∧ x.toNat ≤ high.toNat := by
  obtain ⟨n, e, h⟩ := filteredBitset_go low (bs.filter fun x => decide (low ≤ x) && decide (x ≤ high)) 0 (hn.filter _) (by
    intro x hx
    rw [List.mem_filter] at hx
    simp only [Bool.and_eq_true, decide_eq_true_eq] at hx
    refine ⟨hx.2.1, ?_, by simp⟩
    have := UInt8.le_iff_toNat_le.1 hx.2.2
    omega)
  refine ⟨n, e, fun k => ?_⟩
  rw [h k]
  simp only [List.mem_filter, Bool.and_eq_true, decide_eq_true_eq, UInt8.le_iff_toNat_le]
  constructor
  · rintro (hz | ⟨x, ⟨hx, -, h1⟩, h2⟩)
    · simp at hz
    · exact ⟨x, hx, h2, h1⟩
  · rintro ⟨x, hx, h2, h1⟩
    exact .inr ⟨x, ⟨hx, by omega, h1⟩, h2⟩

/-- A bit named twice is counted twice: it carries into the next one, and the highest one overflows. -/
theorem C75_twice : filteredBitset [0, 0] 0 31 = .ok 2 ∧ filteredBitset [31, 31] 0 31 = .panic := by decide

/-- A list of bits below 32, repeated or not, becomes those bits. -/
theorem C75_list (l : List UInt8) (h : ∀ x ∈ l, x.toNat < 32) :
    ∃ n, intListToNum l = .ok n ∧ ∀ k, n.toNat.testBit k = true ↔ ∃ x ∈ l, x.toNat = k := by
  obtain ⟨n, e, hn⟩ := intList_go l 0 h
  exact ⟨n, e, fun k => by rw [hn k]; simp⟩

/-- Any other list is a panic. -/
theorem C75_list_panic (l : List UInt8) (h : ∃ x ∈ l, 32 ≤ x.toNat) : intListToNum l = .panic := intList_panic l 0 h

example : intListToNum [0, 3, 0] = .ok 9 ∧ filteredBitset [33, 7, 40] 32 63 = .ok 258 := by decide

/-! ### Unicode ranges -/

theorem ranges_bit : ∀ r ∈ ranges, r.bit < 128 := by decide +kernel

theorem glyphRange_bit {search : Nat → Option Nat} (hf : Finds search) (c : UInt32) :
    ∃ b, glyphRange search c = .ok b ∧ ∀ b', BitOf search c.toNat b' ↔ b = b' := by
  unfold glyphRange BitOf
  cases hs : search c.toNat with
  | none =>
    refine ⟨0, by simp [show ranges[0]? = some ⟨0, 0, 0x7F⟩ from rfl, Res.ok_bind], fun b' => ?_⟩
    simp [eq_comm]
  | some i =>
    obtain ⟨r, hr, -⟩ := hf _ _ hs
    refine ⟨r.bit, by simp [hr, Res.ok_bind], fun b' => ?_⟩
    simp [hr]

theorem bitOf_lt {search : Nat → Option Nat} {c b : Nat} (h : BitOf search c b) : b < 128 := by
  rcases h with ⟨i, r, -, hr, rfl⟩ | ⟨-, rfl⟩
  · exact ranges_bit r (List.mem_of_getElem? hr)
  · omega

/-- The ranges are computed, and a bit is set exactly if it is that of some code point. Nothing else changes, and neither the
order of the set nor the former words matter. -/
theorem C74_bits {search : Nat → Option Nat} {shuffle : List UInt8 → List UInt8} (hf : Finds search) (hs : Order shuffle)
    (keys : List UInt32) (o : Os2) :
    ∃ o', calcUnicodeRanges search shuffle keys o = .ok o' ∧
      (∀ b < 128, rangeBit o' b = true ↔ ∃ c ∈ keys, BitOf search c.toNat b) ∧
      { o' with core := { o'.core with
          ulUnicodeRange1 := o.core.ulUnicodeRange1, ulUnicodeRange2 := o.core.ulUnicodeRange2
          ulUnicodeRange3 := o.core.ulUnicodeRange3, ulUnicodeRange4 := o.core.ulUnicodeRange4 } } = o := by
  obtain ⟨bits, eb, hb⟩ := mapL_ok (f := glyphRange search) keys (fun c b => ∀ b', BitOf search c.toNat b' ↔ b = b')
    (fun c _ => glyphRange_bit hf c)
  have hmem : ∀ b, b ∈ bits ↔ ∃ c ∈ keys, BitOf search c.toNat b := by
    intro b
    clear eb
    induction hb with
    | nil => simp
    | cons h1 _ ih => simp [ih, h1 b, eq_comm]
  have hmem8 : ∀ b < 128, (∃ x ∈ shuffle (bits.map UInt8.ofNat).dedup, x.toNat = b) ↔ ∃ c ∈ keys, BitOf search c.toNat b := by
    intro b hb'
    rw [← hmem]
    simp only [(hs _).mem_iff, List.mem_dedup, List.mem_map, exists_exists_and_eq_and]
    constructor
    · rintro ⟨a, ha, e⟩
      obtain ⟨c, -, hc⟩ := (hmem a).1 ha
      rw [UInt8.toNat_ofNat_of_lt' (Nat.lt_trans (bitOf_lt hc) (by decide))] at e
      exact e ▸ ha
    · intro hm
      exact ⟨b, hm, UInt8.toNat_ofNat_of_lt' (Nat.lt_trans hb' (by decide))⟩
  have hn : (shuffle (bits.map UInt8.ofNat).dedup).Nodup := (hs _).nodup_iff.2 (List.nodup_dedup _)
  unfold calcUnicodeRanges
  rw [eb, Res.ok_bind]
  generalize shuffle (bits.map UInt8.ofNat).dedup = set at hmem8 hn
  obtain ⟨n1, e1, h1⟩ := C75_bitset set 0 31 hn (by decide)
  obtain ⟨n2, e2, h2⟩ := C75_bitset set 32 63 hn (by decide)
  obtain ⟨n3, e3, h3⟩ := C75_bitset set 64 95 hn (by decide)
  obtain ⟨n4, e4, h4⟩ := C75_bitset set 96 127 hn (by decide)
  simp only [e1, e2, e3, e4, Res.ok_bind]
  refine ⟨_, rfl, fun b hb' => ?_, rfl⟩
  rw [← hmem8 b hb']
  unfold rangeBit
  simp only
  split_ifs with c1 c2 c3
  · rw [h1]
    exact exists_congr fun x => and_congr_right fun _ => by simp; omega
  · rw [h2]
    exact exists_congr fun x => and_congr_right fun _ => by simp; omega
  · rw [h3]
    exact exists_congr fun x => and_congr_right fun _ => by simp; omega
  · rw [h4]
    exact exists_congr fun x => and_congr_right fun _ => by simp; omega

/-- A bit other than 0 is only set if the font has a code point of a block with that bit. -/
theorem C74_sound {search : Nat → Option Nat} {shuffle : List UInt8 → List UInt8} (hf : Finds search) (hs : Order shuffle)
    {keys : List UInt32} {o o' : Os2} (h : calcUnicodeRanges search shuffle keys o = .ok o') {b : Nat} (hb : b < 128)
    (hbit : rangeBit o' b = true) : b = 0 ∨ ∃ c ∈ keys, InBlock c.toNat b := by
  obtain ⟨o1, e, h1, -⟩ := C74_bits hf hs keys o
  cases e.symm.trans h
  obtain ⟨c, hc, ⟨i, r, e, hr, rfl⟩ | ⟨-, rfl⟩⟩ := (h1 b hb).1 hbit
  · obtain ⟨r', hr', hl⟩ := hf _ _ e
    cases hr.symm.trans hr'
    exact .inr ⟨c, hc, r, List.mem_of_getElem? hr, rfl, hl⟩
  · exact .inl rfl

/-- A larger font has the bits of the smaller one. -/
theorem C74_mono {search : Nat → Option Nat} {shuffle : List UInt8 → List UInt8} (hf : Finds search) (hs : Order shuffle)
    {keys keys' : List UInt32} {o o1 o2 : Os2} (hk : keys ⊆ keys')
    (h1 : calcUnicodeRanges search shuffle keys o = .ok o1) (h2 : calcUnicodeRanges search shuffle keys' o = .ok o2)
    {b : Nat} (hb : b < 128) (hbit : rangeBit o1 b = true) : rangeBit o2 b = true := by
  obtain ⟨p1, e1, b1, -⟩ := C74_bits hf hs keys o
  obtain ⟨p2, e2, b2, -⟩ := C74_bits hf hs keys' o
  cases e1.symm.trans h1
  cases e2.symm.trans h2
  obtain ⟨c, hc, h⟩ := (b1 b hb).1 hbit
  exact (b2 b hb).2 ⟨c, hk hc, h⟩

/-- A code point has one bit, so a character of two blocks (U+10900, Phoenician, is also "Non-Plane 0") never sets the bits of
both, whatever the search. -/
theorem C74_one {search : Nat → Option Nat} {shuffle : List UInt8 → List UInt8} (hf : Finds search) (hs : Order shuffle)
    {c : UInt32} {o o' : Os2} (h : calcUnicodeRanges search shuffle [c] o = .ok o') :
    ∃ b < 128, ∀ b' < 128, rangeBit o' b' = true ↔ b' = b := by
  obtain ⟨o1, e, h1, -⟩ := C74_bits hf hs [c] o
  cases e.symm.trans h
  obtain ⟨b, -, hb⟩ := glyphRange_bit hf c
  refine ⟨b, bitOf_lt ((hb b).2 rfl), fun b' hb' => ?_⟩
  rw [h1 b' hb']
  simp [hb b', eq_comm]

theorem C74_phoenician : InBlock 0x10900 57 ∧ InBlock 0x10900 58 := by
  unfold InBlock
  decide +kernel

/-! ### The searches of the Rust library -/

theorem cmp_eq {c : Nat} {r : Range} : r.cmp c = .eq ↔ r.low ≤ c ∧ c ≤ r.high := by
  unfold Range.cmp
  split_ifs <;> simp <;> omega

theorem cmp_lt {c : Nat} {r : Range} : r.cmp c = .lt ↔ r.low ≤ c ∧ r.high < c := by
  unfold Range.cmp
  split_ifs <;> simp <;> omega

theorem cmp_gt {c : Nat} {r : Range} : r.cmp c = .gt ↔ c < r.low := by
  unfold Range.cmp
  split_ifs <;> simp <;> omega

theorem C74_search152 (l r : Nat) : Finds (fun c => search152 c l r) := by
  intro c i h
  simp only at h
  induction hk : r - l using Nat.strong_induction_on generalizing l r with
  | _ k ih =>
    rw [search152] at h
    split at h
    · rename_i hlr
      split at h
      · cases h
      · rename_i x hx
        split at h
        · exact ih _ (by omega) _ _ h rfl
        · exact ih _ (by omega) _ _ h rfl
        · rename_i hc
          cases h
          exact ⟨x, hx, cmp_eq.1 hc⟩
    · cases h

theorem C74_search184 : Finds search184 := by
  intro c i h
  unfold search184 at h
  split at h
  · cases h
  · rename_i x hx
    split_ifs at h with hc
    cases h
    exact ⟨x, hx, cmp_eq.1 hc⟩

/-- Blocks none of whose code points is found: Cyrillic, Armenian, Hebrew, Arabic, Tibetan, Hangul syllables, private use and so
on. -/
def missed : List (Nat × Nat) := [
  (0x1D00, 0x1D7F), (0x1D80, 0x1DBF), (0x02B0, 0x02FF), (0xA700, 0xA71F), (0x0300, 0x036F), (0x1DC0, 0x1DFF),
  (0x2C80, 0x2CFF), (0x0400, 0x04FF), (0x2DE0, 0x2DFF), (0xA640, 0xA69F), (0x0530, 0x058F), (0x0590, 0x05FF),
  (0xA500, 0xA63F), (0x0600, 0x06FF), (0x2D00, 0x2D2F), (0x1B00, 0x1B7F), (0x2C60, 0x2C7F), (0xA720, 0xA7FF),
  (0x1F00, 0x1FFF), (0x2E00, 0x2E7F), (0x27F0, 0x27FF), (0x2900, 0x297F), (0x2B00, 0x2BFF), (0x2A00, 0x2AFF),
  (0x27C0, 0x27EF), (0x2980, 0x29FF), (0x2300, 0x23FF), (0x3100, 0x312F), (0x31A0, 0x31BF), (0x3130, 0x318F),
  (0xA840, 0xA87F), (0xAC00, 0xD7AF), (0x10900, 0x1091F), (0x2E80, 0x2EFF), (0x2F00, 0x2FDF), (0x2FF0, 0x2FFF),
  (0x3400, 0x4DBF), (0x3190, 0x319F), (0xE000, 0xF8FF), (0x31C0, 0x31EF), (0xF900, 0xFAFF), (0x2F800, 0x2FA1F),
  (0xFB00, 0xFB4F), (0xFB50, 0xFDFF), (0xFE20, 0xFE2F), (0xFE10, 0xFE1F), (0xFE30, 0xFE4F), (0xFE50, 0xFE6F),
  (0xFE70, 0xFEFF), (0xFF00, 0xFFEF), (0xFFF0, 0xFFFF), (0x0F00, 0x0FFF), (0x0700, 0x074F), (0x0780, 0x07BF),
  (0x0D80, 0x0DFF), (0x1000, 0x109F), (0x1200, 0x137F), (0x1380, 0x139F), (0x2D80, 0x2DDF), (0x13A0, 0x13FF),
  (0x1400, 0x167F), (0x1680, 0x169F), (0x16A0, 0x16FF), (0x1780, 0x17FF), (0x19E0, 0x19FF), (0x1800, 0x18AF),
  (0x2800, 0x28FF), (0xA000, 0xA48F), (0xA490, 0xA4CF), (0x1700, 0x171F), (0x1720, 0x173F), (0x1740, 0x175F),
  (0x1760, 0x177F), (0x10300, 0x1032F), (0x10330, 0x1034F), (0x10400, 0x1044F), (0x1D000, 0x1D0FF),
  (0x1D100, 0x1D1FF), (0x1D200, 0x1D24F), (0x1D400, 0x1D7FF), (0xF0000, 0xFFFFD), (0x100000, 0x10FFFD),
  (0xFE00, 0xFE0F), (0xE0100, 0xE01EF), (0xE0000, 0xE007F), (0x1900, 0x194F), (0x1950, 0x197F), (0x1980, 0x19DF),
  (0x1A00, 0x1A1F), (0x2C00, 0x2C5F), (0x2D30, 0x2D7F), (0x4DC0, 0x4DFF), (0xA800, 0xA82F), (0x10000, 0x1007F),
  (0x10080, 0x100FF), (0x10100, 0x1013F), (0x10140, 0x1018F), (0x10380, 0x1039F), (0x103A0, 0x103DF),
  (0x10450, 0x1047F), (0x10480, 0x104AF), (0x10800, 0x1083F), (0x10A00, 0x10A5F), (0x1D300, 0x1D35F),
  (0x12000, 0x123FF), (0x12400, 0x1247F), (0x1D360, 0x1D37F), (0x1B80, 0x1BBF), (0x1C00, 0x1C4F), (0x1C50, 0x1C7F),
  (0xA880, 0xA8DF), (0xA900, 0xA92F), (0xA930, 0xA95F), (0xAA00, 0xAA5F), (0x10190, 0x101CF), (0x101D0, 0x101FF),
  (0x102A0, 0x102DF), (0x10280, 0x1029F), (0x10920, 0x1093F), (0x1F030, 0x1F09F), (0x1F000, 0x1F02F)]

/-- Blocks, with their bits, all of whose code points are found. -/
def found : List (Nat × Nat × Nat) := [
  (0, 0x0000, 0x007F), (1, 0x0080, 0x00FF), (2, 0x0100, 0x017F), (3, 0x0180, 0x024F), (4, 0x0250, 0x02AF),
  (13, 0x0750, 0x077F), (14, 0x07C0, 0x07FF), (15, 0x0900, 0x097F), (16, 0x0980, 0x09FF), (17, 0x0A00, 0x0A7F),
  (18, 0x0A80, 0x0AFF), (19, 0x0B00, 0x0B7F), (20, 0x0B80, 0x0BFF), (21, 0x0C00, 0x0C7F), (22, 0x0C80, 0x0CFF),
  (23, 0x0D00, 0x0D7F), (24, 0x0E00, 0x0E7F), (25, 0x0E80, 0x0EFF), (26, 0x10A0, 0x10FF), (28, 0x1100, 0x11FF),
  (29, 0x1E00, 0x1EFF), (31, 0x2000, 0x206F), (33, 0x20A0, 0x20CF), (34, 0x20D0, 0x20FF), (35, 0x2100, 0x214F),
  (36, 0x2150, 0x218F), (37, 0x2190, 0x21FF), (38, 0x2200, 0x22FF), (40, 0x2400, 0x243F), (41, 0x2440, 0x245F),
  (42, 0x2460, 0x24FF), (43, 0x2500, 0x257F), (44, 0x2580, 0x259F), (45, 0x25A0, 0x25FF), (46, 0x2600, 0x26FF),
  (47, 0x2700, 0x27BF), (48, 0x3000, 0x303F), (49, 0x3040, 0x309F), (50, 0x30A0, 0x30FF), (54, 0x3200, 0x32FF),
  (55, 0x3300, 0x33FF)]

/-- The search of all code points from `lo` to `hi` at once; `none` if they part. -/
def path152 (lo hi : Nat) : Nat → Nat → Nat → Option (Option Nat)
  | 0, _, _ => none
  | n + 1, l, r =>
    if l < r then
      match ranges[l + (r - l) / 2]? with
      | none => none
      | some x =>
        if x.high < lo ∧ x.low ≤ lo then path152 lo hi n (l + (r - l) / 2 + 1) r
        else if hi < x.low then path152 lo hi n l (l + (r - l) / 2)
        else if x.low ≤ lo ∧ hi ≤ x.high then some (some (l + (r - l) / 2))
        else none
    else some none

theorem path152_sound {lo hi : Nat} : ∀ (n l r : Nat) (a : Option Nat), path152 lo hi n l r = some a →
    ∀ c, lo ≤ c → c ≤ hi → search152 c l r = a
  | 0, l, r, a, h, _, _, _ => by cases h
  | n + 1, l, r, a, h, c, h1, h2 => by
    unfold path152 at h
    rw [search152]
    split_ifs at h with hlr
    · rw [dif_pos hlr]
      split at h
      · cases h
      · rename_i x hx
        simp only [hx]
        split_ifs at h with c1 c2 c3
        · rw [cmp_lt.2 ⟨by omega, by omega⟩]
          exact path152_sound n _ _ a h c h1 h2
        · rw [cmp_gt.2 (by omega)]
          exact path152_sound n _ _ a h c h1 h2
        · cases h
          rw [cmp_eq.2 ⟨by omega, by omega⟩]
    · rw [dif_neg hlr]
      cases h
      rfl

def path184Loop (lo hi : Nat) : Nat → Nat → Nat → Option Nat
  | 0, _, _ => none
  | n + 1, base, size =>
    if size > 1 then
      match ranges[base + size / 2]? with
      | none => none
      | some x =>
        if hi < x.low then path184Loop lo hi n base (size - size / 2)
        else if x.low ≤ lo then path184Loop lo hi n (base + size / 2) (size - size / 2)
        else none
    else some base

theorem path184Loop_sound {lo hi : Nat} : ∀ (n base size a : Nat), path184Loop lo hi n base size = some a →
    ∀ c, lo ≤ c → c ≤ hi → search184Loop c base size = a
  | 0, _, _, _, h, _, _, _ => by cases h
  | n + 1, base, size, a, h, c, h1, h2 => by
    unfold path184Loop at h
    rw [search184Loop]
    split_ifs at h with hlr
    · rw [dif_pos hlr]
      split at h
      · cases h
      · rename_i x hx
        simp only [hx]
        split_ifs at h with c1 c2
        · rw [if_pos (cmp_gt.2 (by omega))]
          exact path184Loop_sound n _ _ a h c h1 h2
        · rw [if_neg (by rw [cmp_gt]; omega)]
          exact path184Loop_sound n _ _ a h c h1 h2
    · rw [dif_neg hlr]
      cases h
      rfl

def path184 (lo hi : Nat) : Option (Option Nat) :=
  match path184Loop lo hi 10 0 ranges.length with
  | none => none
  | some i => match ranges[i]? with
    | none => none
    | some x => if x.low ≤ lo ∧ hi ≤ x.high then some (some i) else if hi < x.low ∨ x.high < lo then some none else none

theorem path184_sound {lo hi : Nat} {a : Option Nat} (h : path184 lo hi = some a) (c : Nat) (h1 : lo ≤ c) (h2 : c ≤ hi) :
    search184 c = a := by
  unfold path184 at h
  split at h
  · cases h
  · rename_i i hi'
    have e := path184Loop_sound _ _ _ _ hi' c h1 h2
    unfold search184
    rw [e]
    split at h
    · cases h
    · rename_i x hx
      simp only [hx]
      split_ifs at h with c1 c2
      · cases h
        rw [if_pos (cmp_eq.2 ⟨by omega, by omega⟩)]
      · cases h
        rw [if_neg (by rw [cmp_eq]; omega)]

/-- Neither search finds any of those code points. -/
theorem C74_missed : ∀ m ∈ missed, ∀ c, m.1 ≤ c → c ≤ m.2 →
    search152 c 0 ranges.length = none ∧ search184 c = none := by
  have h : ∀ m ∈ missed, path152 m.1 m.2 10 0 ranges.length = some none ∧ path184 m.1 m.2 = some none := by decide +kernel
  intro m hm c h1 h2
  exact ⟨path152_sound _ _ _ _ (h m hm).1 c h1 h2, path184_sound (h m hm).2 c h1 h2⟩

/-- Those blocks are in the table, each with a bit other than 0. -/
theorem C74_missed_blocks : ∀ m ∈ missed, ∃ r ∈ ranges, r.low = m.1 ∧ r.high = m.2 ∧ r.bit ≠ 0 := by decide +kernel

/-- A font with no other code points is marked as Basic Latin, and nothing else. -/
theorem C74_missed_font {search : Nat → Option Nat} {shuffle : List UInt8 → List UInt8}
    (hsearch : search = (search152 · 0 ranges.length) ∨ search = search184) (hs : Order shuffle)
    {keys : List UInt32} {o o' : Os2} (h : calcUnicodeRanges search shuffle keys o = .ok o') (hne : keys ≠ [])
    (hk : ∀ c ∈ keys, ∃ m ∈ missed, m.1 ≤ c.toNat ∧ c.toNat ≤ m.2) :
    ∀ b < 128, rangeBit o' b = true ↔ b = 0 := by
  have hf : Finds search := by
    rcases hsearch with rfl | rfl
    · exact C74_search152 _ _
    · exact C74_search184
  have hmiss : ∀ c ∈ keys, search c.toNat = none := by
    intro c hc
    obtain ⟨m, hm, h1, h2⟩ := hk c hc
    rcases hsearch with rfl | rfl
    · exact (C74_missed m hm _ h1 h2).1
    · exact (C74_missed m hm _ h1 h2).2
  obtain ⟨o1, e, h1, -⟩ := C74_bits hf hs keys o
  cases e.symm.trans h
  intro b hb
  rw [h1 b hb]
  constructor
  · rintro ⟨c, hc, ⟨i, r, e, -⟩ | ⟨-, hb⟩⟩
    · rw [hmiss c hc] at e
      cases e
    · exact hb
  · rintro rfl
    obtain ⟨c, hc⟩ := List.exists_mem_of_ne_nil _ hne
    exact ⟨c, hc, .inr ⟨hmiss c hc, rfl⟩⟩

/-- A font with a code point of one of the other blocks has its bit. -/
theorem C74_found {search : Nat → Option Nat} {shuffle : List UInt8 → List UInt8}
    (hsearch : search = (search152 · 0 ranges.length) ∨ search = search184) (hs : Order shuffle)
    {keys : List UInt32} {o o' : Os2} (h : calcUnicodeRanges search shuffle keys o = .ok o')
    {f : Nat × Nat × Nat} (hm : f ∈ found) {c : UInt32} (hc : c ∈ keys) (h1 : f.2.1 ≤ c.toNat) (h2 : c.toNat ≤ f.2.2) :
    rangeBit o' f.1 = true := by
  have hp : ∀ m ∈ found, m.1 < 128 ∧
      (((path152 m.2.1 m.2.2 10 0 ranges.length).bind id).bind (ranges[·]?)).map Range.bit = some m.1 ∧
      (((path184 m.2.1 m.2.2).bind id).bind (ranges[·]?)).map Range.bit = some m.1 := by decide +kernel
  obtain ⟨hb, q1, q2⟩ := hp f hm
  simp only [Option.map_eq_some_iff, Option.bind_eq_some_iff, id] at q1 q2
  obtain ⟨r, ⟨i, ⟨_, hp1, rfl⟩, hr⟩, e⟩ := q1
  obtain ⟨s, ⟨j, ⟨_, hp2, rfl⟩, hs'⟩, e'⟩ := q2
  have hf : Finds search := by
    rcases hsearch with rfl | rfl
    · exact C74_search152 _ _
    · exact C74_search184
  obtain ⟨o1, e1, h1', -⟩ := C74_bits hf hs keys o
  cases e1.symm.trans h
  rw [h1' _ hb]
  refine ⟨c, hc, .inl ?_⟩
  rcases hsearch with rfl | rfl
  · exact ⟨i, r, path152_sound _ _ _ _ hp1 _ h1 h2, hr, e⟩
  · exact ⟨j, s, path184_sound hp2 _ h1 h2, hs', e'⟩

/-! ### Not vacuous -/

/-- Hebrew alef. -/
example : ∃ m ∈ missed, m.1 ≤ (0x05D0 : UInt32).toNat ∧ (0x05D0 : UInt32).toNat ≤ m.2 := by decide +kernel
/-- Thai. -/
example : ∃ f ∈ found, f.1 = 24 ∧ f.2.1 ≤ (0x0E45 : UInt32).toNat ∧ (0x0E45 : UInt32).toNat ≤ f.2.2 := by decide +kernel
example : Order List.reverse := fun l => l.reverse_perm
example : Order id := fun _ => .rfl

end FT.Props.Os2
