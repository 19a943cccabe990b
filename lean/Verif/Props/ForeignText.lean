import Verif.Props.ForeignTables
import Verif.Props.ForeignGposTable

/-!
# C91: name, post and STAT tables written by any program
-/

namespace FT.Props
open FT Reader FT.F32 FT.Tables FT.Strings

/-! ### `name`: specification -/

/-- A record of a `name` table: what it says, where its string is in the storage area, and the bytes of the string. -/
structure NameSays where
  record : NameRecord
  offset : Nat
  bytes : Bytes

/-- The `name` table: the records, each string at its place in the storage area. -/
def NameAt (format : UInt16) (storage : Nat) (l : List NameSays) : Bytes → Nat → Prop := fun B start =>
  At ([u16 format, .num 2 l.length, .num 2 storage] ++ l.flatMap fun x =>
    [u16 x.record.platformID, u16 x.record.encodingID, u16 x.record.languageID, u16 x.record.nameID, .num 2 x.bytes.length,
     .num 2 x.offset]) B start ∧
  ∀ x ∈ l, At [.text x.bytes] B (start + storage + x.offset)

/-- The bytes are the string in UTF-16, big-endian, or in the legacy encoding that goes with platform and encoding. -/
def Spelt (lib : Legacy) (x : NameSays) : Prop :=
  match getEncoding x.record.platformID x.record.encodingID with
  | .ok .utf16be => x.bytes = utf16Encode x.record.string
  | .ok e => lib.decode e x.bytes = x.record.string
  | _ => False

/-- Where `name` is read right: the storage area follows the records immediately. -/
structure NameReadable (lib : Legacy) (storage : Nat) (l : List NameSays) : Prop where
  count : l.length ≤ 65535
  storage : storage = 6 + 12 * l.length
  record : ∀ x ∈ l, x.offset ≤ 65535 ∧ x.bytes.length ≤ 65535 ∧ Spelt lib x

/-! ### `post`: specification -/

/-- A glyph name by its index: one of the 258 Macintosh names, or one stored in the table. -/
def nameAt (stored : List String) (i : UInt16) : Option String :=
  if i.toNat < 258 then appleNames[i.toNat]? else stored[i.toNat - 258]?

/-- The beginning of all versions. -/
def postHead (p : Post) (v : ℤ) : List Cell :=
  [.num 4 v, fixed p.italicAngle, i16 p.underlinePosition, i16 p.underlineThickness, u32 p.isFixedPitch, u32 p.minMemType42,
   u32 p.maxMemType42, u32 p.minMemType1, u32 p.maxMemType1]

/-- Version 2.0: an index for each glyph, and stored names as Pascal strings, in any order, up to the end of the table. -/
def post2Rows (p : Post) (indices : List UInt16) (stored : List String) : List Cell :=
  postHead p 0x00020000 ++ (.num 2 indices.length :: indices.map u16 ++ stored.flatMap fun s => [.num 1 (utf8 s).length, .text (utf8 s)])

/-! ### `STAT`: specification -/

/-- The `STAT` table, versions 1.0 to 1.2: axes and axis values anywhere. -/
def anyStatRows (t : Stat.Table) (minor : Nat) : List Cell :=
  [.num 2 1, .num 2 minor, .num 2 8, .num 2 t.axes.length,
   if t.axes = [] then .null 4 else .ref 4 (At (t.axes.flatMap fun a => [tag a.tag, u16 a.nameID, u16 a.ordering])),
   .num 2 t.values.length,
   if t.values = [] then .null 4 else .ref 4 (At (t.values.map fun v => .ref 2 (At (statValueRows v))))] ++
  (if 1 ≤ minor then [u16 (t.elided.getD 0)] else [])

/-- An axis value as OpenType has it: one of the formats, with the reserved flags 0; numbers that fit `f32`. -/
structure StatValueReadable (v : Stat.AxisValue) : Prop where
  flags : v.flags.toNat < 4
  single : v.locations = none → v.axisIndex.isSome ∧ v.nominal.isSome
  many : v.locations.isSome → v.axisIndex = none ∧ v.nominal = none ∧ v.range = none ∧ v.linked = none
  one : v.linked.isSome → v.range = none
  nominal : ∀ x ∈ v.nominal, FixedVal x
  range : ∀ x ∈ v.range, FixedVal x.1 ∧ FixedVal x.2
  linked : ∀ x ∈ v.linked, FixedVal x
  locations : ∀ m ∈ v.locations, m.length ≤ 65535 ∧ (m.map Prod.fst).Nodup ∧ ∀ x ∈ m, FixedVal x.2

/-- The same axis value; the locations of format 4 are compared as a map from axes to values. -/
def SameValue (v w : Stat.AxisValue) : Prop :=
  w.axisIndex = v.axisIndex ∧ w.flags = v.flags ∧ w.nameID = v.nameID ∧ w.nominal = v.nominal ∧ w.range = v.range ∧
  w.linked = v.linked ∧ w.locations.isSome = v.locations.isSome ∧
  ∀ m ∈ v.locations, ∀ m' ∈ w.locations, ∀ i, valueOf m' i = valueOf m i

structure StatReadable (t : Stat.Table) (minor : Nat) : Prop where
  small : minor ≤ 65535
  elided : t.elided.isSome = decide (1 ≤ minor)
  axisCount : t.axes.length ≤ 65535
  valueCount : t.values.length ≤ 65535
  tags : ∀ a ∈ t.axes, a.tag.Valid
  values : ∀ v ∈ t.values, StatValueReadable v

/-! ### `name`: proofs -/

theorem decode_spelt {lib : Legacy} {x : NameSays} (h : Spelt lib x) : ∃ e,
    getEncoding x.record.platformID x.record.encodingID = .ok e ∧ decodeString lib e x.bytes = x.record.string := by
  unfold Spelt at h
  cases hg : getEncoding x.record.platformID x.record.encodingID with
  | err => rw [hg] at h; exact h.elim
  | panic => rw [hg] at h; exact h.elim
  | ok e =>
    rw [hg] at h
    refine ⟨e, rfl, ?_⟩
    cases e <;> simp only at h <;> first | exact h | (rw [h]; exact C50_utf16 _)

def lowName (x : NameSays) : NameInternal :=
  ⟨x.record.platformID, x.record.encodingID, x.record.languageID, x.record.nameID, UInt16.ofNat x.bytes.length, UInt16.ofNat x.offset⟩

theorem readNames_any {lib : Legacy} {B : Bytes} {base : Nat} {stk : List Nat} : ∀ {l : List NameSays} {pos : Nat},
    (∀ x ∈ l, x.offset ≤ 65535 ∧ x.bytes.length ≤ 65535 ∧ Spelt lib x) → (∀ x ∈ l, At [.text x.bytes] B (base + x.offset)) →
    ∃ ptr, readNames lib (l.map lowName) ⟨B, pos, base :: stk⟩ = .ok (l.map NameSays.record, ⟨B, ptr, base :: stk⟩)
  | [], pos, _, _ => ⟨pos, rfl⟩
  | x :: l, pos, h, h' => by
    obtain ⟨h1, h2, h3⟩ := h x (by simp)
    obtain ⟨e, e1, e2⟩ := decode_spelt h3
    have k := plain_bytes x.bytes B _ _ (base :: stk) (h' x (by simp))
    have : readOneName lib (lowName x) ⟨B, pos, base :: stk⟩ =
        .ok (x.record, ⟨B, base + x.offset + widths [.text x.bytes], base :: stk⟩) := by
      unfold readOneName lowName
      simp only [bind_run, topOfTable, setPtr]
      rw [ofNat16_toNat h1, ofNat16_toNat h2, k]
      simp only [e1, Reader.lift, pure_run, e2]
    obtain ⟨ptr, e3⟩ := readNames_any (l := l) (pos := base + x.offset + widths [.text x.bytes]) (stk := stk)
      (fun y hy => h y (by simp [hy])) (fun y hy => h' y (by simp [hy]))
    refine ⟨ptr, ?_⟩
    rw [List.map_cons, readNames, bind_run, this]
    simp only
    rw [bind_run, e3]
    rfl

/-- **C91, `name`.** -/
theorem C91_name (lib : Legacy) (format : UInt16) (storage : Nat) (l : List NameSays) (h : NameReadable lib storage l) (B : Bytes)
    (hB : NameAt format storage l B 0) : ∃ rd, readName lib (Rd.new B) = .ok (l.map NameSays.record, rd) := by
  obtain ⟨⟨s1, s2, s3, s4⟩, s5⟩ := hB
  have hc := h.count
  have hk : Plain (deCounted readNameInternal (l.map lowName).length) (l.map lowName) (l.flatMap fun x =>
      [u16 x.record.platformID, u16 x.record.encodingID, u16 x.record.languageID, u16 x.record.nameID, .num 2 x.bytes.length,
       .num 2 x.offset]) := by
    have := plain_list (p := readNameInternal) (l := l.map lowName)
      (rows := fun r => [u16 r.platformID, u16 r.encodingID, u16 r.languageID, u16 r.nameID, u16 r.length, u16 r.stringOffset])
      fun r _ => (plain_u16 _).cons <| (plain_u16 _).cons <| (plain_u16 _).cons <| (plain_u16 _).cons <| (plain_u16 _).cons <|
        (plain_u16 _).last rfl
    rw [List.flatMap_map] at this
    have e : l.flatMap (fun x => [u16 x.record.platformID, u16 x.record.encodingID, u16 x.record.languageID, u16 x.record.nameID,
        .num 2 x.bytes.length, .num 2 x.offset]) = l.flatMap (fun a =>
          [u16 (lowName a).platformID, u16 (lowName a).encodingID, u16 (lowName a).languageID, u16 (lowName a).nameID,
            u16 (lowName a).length, u16 (lowName a).stringOffset]) := by
      simp only [List.flatMap]
      congr 1
      refine List.map_congr_left fun x hx => ?_
      obtain ⟨h1, h2, _⟩ := h.record x hx
      unfold lowName u16
      simp only
      rw [ofNat16_toNat h1, ofNat16_toNat h2]
    rw [e]
    exact this
  have hw : widths (l.flatMap fun x => [u16 x.record.platformID, u16 x.record.encodingID, u16 x.record.languageID, u16 x.record.nameID,
      .num 2 x.bytes.length, .num 2 x.offset]) = 12 * l.length := by
    clear hk s4 s5 h s3 s2 hc
    induction l with
    | nil => rfl
    | cons x l ih => rw [List.flatMap_cons, widths_append, ih, List.length_cons]; simp [widths, Cell.width]; omega
  obtain ⟨ptr, e⟩ := readNames_any (lib := lib) (B := B) (base := 6 + 12 * l.length) (stk := [0]) (l := l) (pos := 6 + 12 * l.length)
    h.record (fun x hx => by have := s5 x hx; rwa [Nat.zero_add, h.storage] at this)
  have k1 := plain_count hc B 0 2 [0] ⟨s2, trivial⟩
  have k2 := hk B 0 6 [0] s4
  rw [hw, List.length_map] at k2
  unfold readName Rd.new
  simp only [bind_run, skip, Nat.zero_add, k1, ofNat16_toNat hc, widths, Cell.width, List.map_cons, List.map_nil, List.sum_cons,
    List.sum_nil, Nat.reduceAdd, k2, pushTop, e, popTop, pure_run]
  exact ⟨_, rfl⟩

/-- Where the storage area begins elsewhere, as in all tables of format 1 that have language tags, strings are misread: here "A"
is read as "B". -/
theorem C91_name_storage : NameAt 0 20 [⟨⟨3, 1, 0x409, 1, ['A']⟩, 0, [0, 65]⟩] gapTable 0 ∧
    readName noLegacy (Rd.new gapTable) = .ok ([⟨3, 1, 0x409, 1, ['B']⟩], ⟨gapTable, 20, [0]⟩) := by
  refine ⟨⟨?_, ?_⟩, C50_gap_misread⟩
  · refine ⟨?_, ?_, ?_, ?_, ?_, ?_, ?_, ?_, ?_, trivial⟩ <;> exact ⟨by decide, by decide⟩
  · intro x hx
    simp only [List.mem_cons, List.not_mem_nil, or_false] at hx
    subst hx
    exact ⟨rfl, trivial⟩

/-- A string of an encoding the code does not know makes the reader panic: platform 4, or the Johab encoding of Windows. -/
theorem C91_name_platform :
    readName noLegacy (Rd.new [0, 0, 0, 1, 0, 18, 0, 4, 0, 0, 0, 0, 0, 1, 0, 0, 0, 0]) = .panic ∧
    readName noLegacy (Rd.new [0, 0, 0, 1, 0, 18, 0, 3, 0, 6, 4, 18, 0, 1, 0, 0, 0, 0]) = .panic := by
  constructor <;> decide +kernel

/-! ### `post`: proofs -/

/-- A number in four bytes is these four bytes. -/
theorem num32_text {B : Bytes} {base pos : Nat} {v : ℤ} {a b c d : UInt8}
    (hv : v % 4294967296 = ((a.toNat * 16777216 + b.toNat * 65536 + c.toNat * 256 + d.toNat : Nat) : ℤ))
    (h : Shows B base pos [.num 4 v]) : Shows B base pos [.text [a, b, c, d]] := by
  obtain ⟨⟨h1, h2⟩, _⟩ := h
  refine ⟨?_, trivial⟩
  show (B.drop pos).take 4 = [a, b, c, d]
  have hl : ((B.drop pos).take 4).length = 4 := by simp; omega
  match hm : (B.drop pos).take 4, hl with
  | [x, y, z, w], _ =>
    unfold field at h2
    rw [hm] at h2
    simp only [beValue, List.foldl_cons, List.foldl_nil] at h2
    have := x.toNat_lt; have := y.toNat_lt; have := z.toNat_lt; have := w.toNat_lt
    have := a.toNat_lt; have := b.toNat_lt; have := c.toNat_lt; have := d.toNat_lt
    norm_num at h2
    rw [UInt8.toNat_inj.mp (show x.toNat = a.toNat by omega), UInt8.toNat_inj.mp (show y.toNat = b.toNat by omega),
      UInt8.toNat_inj.mp (show z.toNat = c.toNat by omega), UInt8.toNat_inj.mp (show w.toNat = d.toNat by omega)]

theorem plain_version {a b c d : UInt8} {v : ℤ} {r : UInt32}
    (hv : v % 4294967296 = ((a.toNat * 16777216 + b.toNat * 65536 + c.toNat * 256 + d.toNat : Nat) : ℤ))
    (hr : UInt32.ofNat (rhe (rne ((b.toNat : ℚ) + rne ((c.toNat : ℚ) / 160)) * 65536)).toNat = r) :
    Plain readVersion16Dot16 r [.num 4 v] := by
  have key : Plain readVersion16Dot16 r [.text [a, b, c, d]] := by
    refine Plain.text ?_
    unfold readVersion16Dot16
    exact (plain_u8 a).cons <| (plain_u8 b).cons <| (plain_u8 c).cons <| (plain_u8 d).last (by rw [hr])
  intro B base pos stk hs
  exact key B base pos stk (num32_text hv hs)

theorem plain_otVersion {x : UInt32} {v : ℤ} (h : otVersion x = some v) : Plain readVersion16Dot16 x [.num 4 v] := by
  unfold otVersion at h
  split at h
  · next e => cases h; subst e; exact plain_version (a := 0) (b := 1) (c := 0) (d := 0) (by decide) (by decide +kernel)
  split at h
  · next e => cases h; subst e; exact plain_version (a := 0) (b := 2) (c := 0) (d := 0) (by decide) (by decide +kernel)
  split at h
  · next e => cases h; subst e; exact plain_version (a := 0) (b := 2) (c := 80) (d := 0) (by decide) (by decide +kernel)
  split at h
  · next e => cases h; subst e; exact plain_version (a := 0) (b := 3) (c := 0) (d := 0) (by decide) (by decide +kernel)
  · cases h

theorem plain_postCore {p : Post} {v : ℤ} (hv : otVersion p.version = some v) (ha : FixedVal p.italicAngle) :
    Plain readPostCore { p with glyphnames := none } (postHead p v) := by
  unfold readPostCore postHead
  exact (plain_otVersion hv).cons <| (plain_fixed ha).cons <| (plain_i16 _).cons <| (plain_i16 _).cons <| (plain_u32 _).cons <|
    (plain_u32 _).cons <| (plain_u32 _).cons <| (plain_u32 _).cons <| (plain_u32 _).last rfl

/-- Versions 1.0, 2.5 and 3.0 have no names of their own (those of 2.5, long deprecated, are not read). -/
theorem C91_post (p : Post) (v : ℤ) (hv : otVersion p.version = some v) (h2 : p.version ≠ 0x20000) (ha : FixedVal p.italicAngle)
    (B : Bytes) (hB : At (postHead p v) B 0) : ∃ rd, readPost (Rd.new B) = .ok ({ p with glyphnames := none }, rd) := by
  refine Plain.new (rows := postHead p v) ?_ hB
  unfold readPost
  refine (plain_postCore hv ha).last ?_
  rw [if_neg h2]

theorem readU8_end {B : Bytes} {pos : Nat} {stk : List Nat} (h : B.length ≤ pos) : readU8 ⟨B, pos, stk⟩ = .err := by
  unfold readU8
  rw [bind_run]
  unfold consume
  rw [if_pos (by simp only; omega)]

theorem stored_any {B : Bytes} {stk : List Nat} : ∀ {stored : List String} {base pos fuel : Nat}, stored.length < fuel →
    (∀ s ∈ stored, (utf8 s).length ≤ 255) →
    Shows B base pos (stored.flatMap fun s => [.num 1 (utf8 s).length, .text (utf8 s)]) →
    B.length = pos + widths (stored.flatMap fun s => [.num 1 (utf8 s).length, .text (utf8 s)]) →
    ∃ rd, readStored fuel ⟨B, pos, stk⟩ = .ok (stored, rd)
  | [], base, pos, fuel, hf, _, _, he => by
    obtain ⟨k, rfl⟩ : ∃ k, fuel = k + 1 := ⟨fuel - 1, by simp at hf; omega⟩
    simp only [List.flatMap_nil, widths, List.map_nil, List.sum_nil] at he
    rw [readStored]
    beta_reduce
    rw [readU8_end (by omega)]
    exact ⟨_, rfl⟩
  | s :: l, base, pos, fuel, hf, hl, hs, he => by
    obtain ⟨k, rfl⟩ : ∃ k, fuel = k + 1 := ⟨fuel - 1, by simp at hf; omega⟩
    simp only [List.length_cons] at hf
    have h255 := hl s (by simp)
    have hn : (UInt8.ofNat (utf8 s).length).toNat = (utf8 s).length := by simp; omega
    rw [List.flatMap_cons] at hs he
    rw [shows_append] at hs
    obtain ⟨⟨s1, s2, _⟩, s3⟩ := hs
    rw [widths_append] at he
    simp only [widths, Cell.width, List.map_cons, List.map_nil, List.sum_cons, List.sum_nil, Nat.add_zero] at s3 he s2
    have k1 := plain_u8 (UInt8.ofNat (utf8 s).length) B base pos stk ⟨by unfold u8; rw [hn]; exact s1, trivial⟩
    have k2 := plain_bytes (utf8 s) B base (pos + 1) stk ⟨s2, trivial⟩
    simp only [widths, Cell.width, List.map_cons, List.map_nil, List.sum_cons, List.sum_nil, Nat.add_zero] at k1 k2
    obtain ⟨rd, e⟩ := stored_any (stk := stk) (stored := l) (base := base) (pos := pos + 1 + (utf8 s).length) (fuel := k) (by omega)
      (fun x hx => hl x (by simp [hx])) (by rwa [Nat.add_assoc]) (by unfold widths; omega)
    refine ⟨rd, ?_⟩
    rw [readStored]
    beta_reduce
    rw [k1]
    simp only [bind_run]
    rw [hn, k2]
    simp only [fromUtf8_utf8, Reader.lift, e, pure_run]

/-- Such a table is read by looking up every index. -/
theorem post_names_read (p : Post) (indices : List UInt16) (stored : List String) (hv : p.version = 0x20000)
    (ha : FixedVal p.italicAngle) (hi : indices.length ≤ 65535) (hl : ∀ s ∈ stored, (utf8 s).length ≤ 255)
    (B : Bytes) (hB : Follows B (post2Rows p indices stored)) :
    ∃ rd, readPost (Rd.new B) = (Reader.lift (Res.mapL (glyphNameAt stored) indices) >>= fun names =>
      (pure { p with glyphnames := some names } : Reader Post)) rd := by
  obtain ⟨h1, h2⟩ := hB
  unfold post2Rows at h1 h2
  rw [shows_append] at h1
  obtain ⟨s1, s2⟩ := h1
  rw [List.cons_append] at s2
  obtain ⟨s3, s4⟩ := s2
  rw [shows_append] at s4
  obtain ⟨s5, s6⟩ := s4
  have k1 := plain_postCore (p := p) (v := 0x00020000) (by rw [hv]; rfl) ha B 0 0 [0] s1
  have k2 := plain_count hi B 0 _ [0] ⟨s3, trivial⟩
  have k3 := plain_list1 (p := readU16) (row := u16) (l := indices) (fun x _ => plain_u16 x) B 0 _ [0] s5
  obtain ⟨rd, k4⟩ := stored_any (stk := [0]) (fuel := B.length + 1) (stored := stored) (base := 0)
    (pos := 0 + widths (postHead p 0x00020000) + (Cell.num 2 indices.length).width + widths (indices.map u16)) (by
      have : ∀ l : List String, l.length ≤ widths (l.flatMap fun s => [.num 1 (utf8 s).length, .text (utf8 s)]) := by
        intro l
        induction l with
        | nil => simp
        | cons s l ih => rw [List.flatMap_cons, widths_append, List.length_cons]; simp [widths, Cell.width] at ih ⊢; omega
      have := this stored
      rw [widths_append, List.cons_append, widths_cons, widths_append] at h2
      omega) hl s6 (by
      rw [widths_append, List.cons_append, widths_cons, widths_append] at h2
      omega)
  refine ⟨rd, ?_⟩
  unfold readPost Rd.new
  rw [bind_run, k1]
  simp only
  rw [if_pos hv, bind_run]
  have : readGlyphNames ⟨B, 0 + widths (postHead p 0x00020000), [0]⟩ =
      Reader.lift (Res.mapL (glyphNameAt stored) indices) rd := by
    unfold readGlyphNames
    rw [bind_run, k2]
    simp only
    rw [bind_run, ofNat16_toNat hi]
    rw [show (0 + widths (postHead p 131072) + widths [Cell.num 2 ↑indices.length]) =
      0 + widths (postHead p 0x00020000) + (Cell.num 2 indices.length).width from rfl, k3]
    simp only
    rw [bind_run]
    simp only [getInp]
    rw [bind_run, k4]
  rw [this, bind_run]

/-- **C91, `post`, version 2.0.** -/
theorem C91_post_names (p : Post) (indices : List UInt16) (stored names : List String) (hv : p.version = 0x20000)
    (ha : FixedVal p.italicAngle) (hi : indices.length ≤ 65535) (hl : ∀ s ∈ stored, (utf8 s).length ≤ 255)
    (hn : indices.map (nameAt stored) = names.map some) (B : Bytes) (hB : Follows B (post2Rows p indices stored)) :
    ∃ rd, readPost (Rd.new B) = .ok ({ p with glyphnames := some names }, rd) := by
  obtain ⟨rd, e⟩ := post_names_read p indices stored hv ha hi hl B hB
  have k5 : Res.mapL (glyphNameAt stored) indices = .ok names := by
    clear e hi hB
    induction indices generalizing names with
    | nil =>
      cases names with
      | nil => rfl
      | cons a l => cases hn
    | cons i l ih =>
      cases names with
      | nil => cases hn
      | cons a m =>
        rw [List.map_cons, List.map_cons, List.cons.injEq] at hn
        rw [Res.mapL, ih m hn.2]
        have : glyphNameAt stored i = .ok a := by
          have e := hn.1
          unfold nameAt at e
          unfold glyphNameAt
          split
          · next hc => rw [if_pos hc] at e; rw [e]; rfl
          · next hc => rw [if_neg hc] at e; rw [e]; rfl
        rw [this]
  refine ⟨rd, ?_⟩
  rw [e, k5]
  rfl

/-- **C51** (a name which is not there). If some index of a version 2 table is neither one of the 258 Macintosh names nor that of a
stored name, the reader panics. -/
theorem C51_missing_name_panics (p : Post) (indices : List UInt16) (stored : List String) (hv : p.version = 0x20000)
    (ha : FixedVal p.italicAngle) (hi : indices.length ≤ 65535) (hl : ∀ s ∈ stored, (utf8 s).length ≤ 255)
    (hn : ∃ i ∈ indices, 258 + stored.length ≤ i.toNat) (B : Bytes) (hB : Follows B (post2Rows p indices stored)) :
    readPost (Rd.new B) = .panic := by
  obtain ⟨rd, e⟩ := post_names_read p indices stored hv ha hi hl B hB
  have key : ∀ l : List UInt16, (∃ i ∈ l, 258 + stored.length ≤ i.toNat) → Res.mapL (glyphNameAt stored) l = .panic := by
    intro l
    induction l with
    | nil => rintro ⟨i, hi, _⟩; cases hi
    | cons a l ih =>
      rintro ⟨i, hm, hge⟩
      have hcases : glyphNameAt stored a = .panic ∨ ∃ x, glyphNameAt stored a = .ok x := by
        unfold glyphNameAt Res.unwrap
        split <;> split
        · exact Or.inr ⟨_, rfl⟩
        · exact Or.inl rfl
        · exact Or.inr ⟨_, rfl⟩
        · exact Or.inl rfl
      rcases List.mem_cons.mp hm with rfl | hm'
      · have : glyphNameAt stored i = .panic := by
          unfold glyphNameAt
          rw [if_neg (by omega), List.getElem?_eq_none (by omega)]
          rfl
        rw [Res.mapL, this]
      · rcases hcases with h | ⟨x, h⟩
        · rw [Res.mapL, h]
        · rw [Res.mapL, h, ih ⟨i, hm', hge⟩]
  rw [e, key indices hn]
  rfl

/-! ### `STAT`: proofs -/

theorem truncFlags_ok {f : UInt16} (h : f.toNat < 4) : Stat.truncFlags f = f := by
  apply UInt16.toNat_inj.mp
  unfold Stat.truncFlags
  rw [UInt16.toNat_and, show (3 : UInt16).toNat = 2 ^ 2 - 1 from rfl, Nat.and_two_pow_sub_one_eq_mod]
  omega

/-- What the reader makes of an axis value: locations are sorted by axis. -/
def statRead (v : Stat.AxisValue) : Stat.AxisValue := { v with locations := v.locations.map BMap.collect }

theorem finds_statValue {v : Stat.AxisValue} (h : StatValueReadable v) : FindsAt Stat.readAxisValue (statRead v) (At (statValueRows v)) := by
  have hf := truncFlags_ok h.flags
  have h1 := h.single
  have h2 := h.many
  have h3 := h.one
  have hn := h.nominal
  have hr := h.range
  have hk := h.linked
  have hl := h.locations
  obtain ⟨ai, fl, nm, no, ra, li, lo⟩ := v
  simp only at *
  unfold Stat.readAxisValue statRead statValueRows
  cases lo with
  | some m =>
    obtain ⟨rfl, rfl, rfl, rfl⟩ := h2 rfl
    obtain ⟨l1, l2, l3⟩ := hl m rfl
    refine FindsAt.peek (b0 := 0) (b1 := 4) (Plain.table (p := _) ?_ (by simp [widths, Cell.width])) (fun B s hs => ⟨_, hs⟩)
    show Plain Stat.readFormat4 _ _
    unfold Stat.readFormat4
    refine (plain_num16 4 (by decide)).cons <| (plain_count l1).cons <| (plain_u16 _).cons <| (plain_u16 _).cons ?_
    rw [ofNat16_toNat l1]
    refine Plain.last (a := m) (plain_list fun x hx => ?_) (by rw [hf]; rfl)
    unfold Stat.readPair
    exact (plain_u16 _).cons ((plain_fixed (l3 x hx)).last rfl)
  | none =>
    obtain ⟨e1, e2⟩ := h1 rfl
    obtain ⟨i, rfl⟩ := Option.isSome_iff_exists.mp e1
    obtain ⟨n, rfl⟩ := Option.isSome_iff_exists.mp e2
    have hn := hn n rfl
    cases li with
    | some l =>
      obtain rfl := h3 rfl
      have hk := hk l rfl
      refine FindsAt.peek (b0 := 0) (b1 := 3) (Plain.table (p := _) ?_ (by simp [widths, Cell.width])) (fun B s hs => ⟨_, hs⟩)
      show Plain Stat.readFormat3 _ _
      unfold Stat.readFormat3
      exact (plain_num16 3 (by decide)).cons <| (plain_u16 _).cons <| (plain_u16 _).cons <| (plain_u16 _).cons <|
        (plain_fixed hn).cons <| (plain_fixed hk).last (by rw [hf]; rfl)
    | none =>
      cases ra with
      | some r =>
        obtain ⟨r1, r2⟩ := hr r rfl
        refine FindsAt.peek (b0 := 0) (b1 := 2) (Plain.table (p := _) ?_ (by simp [widths, Cell.width])) (fun B s hs => ⟨_, hs⟩)
        show Plain Stat.readFormat2 _ _
        unfold Stat.readFormat2
        exact (plain_num16 2 (by decide)).cons <| (plain_u16 _).cons <| (plain_u16 _).cons <| (plain_u16 _).cons <|
          (plain_fixed hn).cons <| (plain_fixed r1).cons <| (plain_fixed r2).last (by rw [hf]; rfl)
      | none =>
        refine FindsAt.peek (b0 := 0) (b1 := 1) (Plain.table (p := _) ?_ (by simp [widths, Cell.width])) (fun B s hs => ⟨_, hs⟩)
        show Plain Stat.readFormat1 _ _
        unfold Stat.readFormat1
        exact (plain_num16 1 (by decide)).cons <| (plain_u16 _).cons <| (plain_u16 _).cons <| (plain_u16 _).cons <|
          (plain_fixed hn).last (by rw [hf]; rfl)

theorem same_statRead {v : Stat.AxisValue} (h : StatValueReadable v) : SameValue v (statRead v) := by
  refine ⟨rfl, rfl, rfl, rfl, rfl, rfl, by unfold statRead; simp, ?_⟩
  intro m hm m' hm' i
  unfold statRead at hm'
  simp only at hm'
  obtain ⟨m0, e1, e2⟩ := Option.map_eq_some_iff.mp hm'
  obtain rfl : m0 = m := by rw [Option.mem_def] at hm; rw [hm] at e1; cases e1; rfl
  subst e2
  have hd := (h.locations _ hm).2.1
  have fn : ∀ x ∈ m0, ∀ y ∈ m0, x.1 = y.1 → x = y := fun x hx y hy e => List.inj_on_of_nodup_map hd hx hy e
  apply Option.ext
  intro v
  rw [valueOf_collect fun x hx y hy e => by rw [fn x hx y hy e]]
  unfold valueOf
  constructor
  · intro hx
    cases e : m0.find? (fun x => x.1 == i) with
    | none => rw [List.find?_eq_none] at e; exact absurd (by simp) (e _ hx)
    | some x =>
      have h1 := List.mem_of_find?_eq_some e
      have h2 := List.find?_some e
      rw [beq_iff_eq] at h2
      rw [fn x h1 _ hx h2]
      rfl
  · intro hx
    cases e : m0.find? (fun x => x.1 == i) with
    | none => rw [e] at hx; cases hx
    | some x =>
      rw [e] at hx; cases hx
      have h1 := List.mem_of_find?_eq_some e
      have h2 := List.find?_some e
      rw [beq_iff_eq] at h2
      rw [← h2]; exact h1

theorem readValues_any {B : Bytes} {start : Nat} {stk : List Nat} : ∀ {vs : List Stat.AxisValue} {pos q : Nat},
    (∀ v ∈ vs, StatValueReadable v) → Shows B start pos (vs.map fun v => .ref 2 (At (statValueRows v))) →
    ∃ os p, os.length = vs.length ∧ deCounted readU16 vs.length ⟨B, pos, stk⟩ = .ok (os, ⟨B, pos + 2 * vs.length, stk⟩) ∧
      Stat.readValues start os ⟨B, q, stk⟩ = .ok (vs.map statRead, ⟨B, p, stk⟩)
  | [], pos, q, _, _ => ⟨[], q, rfl, rfl, rfl⟩
  | v :: vs, pos, q, h, hs => by
    obtain ⟨⟨h1, h2, h3⟩, h4⟩ := hs
    obtain ⟨y, e1, e2⟩ := readU16_ok (r := ⟨B, pos, stk⟩) h1
    simp only at e1 e2
    obtain ⟨_, ptr, e3⟩ := finds_statValue (h v (by simp)) B _ stk h3
    obtain ⟨os, p, e4, e5, e6⟩ := readValues_any (vs := vs) (pos := pos + 2) (q := ptr) (stk := stk) (fun w hw => h w (by simp [hw])) h4
    refine ⟨y :: os, p, by simp [e4], ?_, ?_⟩
    · rw [List.length_cons, deCounted, bind_run, e2]
      simp only
      rw [bind_run, e5]
      simp only [pure_run]
      congr 3
      omega
    · rw [Stat.readValues, bind_run]
      simp only [setPtr]
      rw [e1, bind_run, e3]
      simp only
      rw [bind_run, e6]
      rfl

/-- A 32-bit offset which is null when there is nothing to point to. -/
theorem read_ref32 {B : Bytes} {pos : Nat} {stk : List Nat} {p : Prop} [Decidable p] {P : Bytes → Nat → Prop} (h0 : p → P B 0)
    (h : Cell.Shown B 0 pos (if p then .null 4 else .ref 4 P)) :
    ∃ o : UInt32, readU32 ⟨B, pos, stk⟩ = .ok (o, ⟨B, pos + 4, stk⟩) ∧ P B o.toNat := by
  by_cases hp : p
  · rw [if_pos hp] at h
    obtain ⟨h1, h2⟩ := h
    obtain ⟨y, e1, e2⟩ := readU32_ok (r := ⟨B, pos, stk⟩) h1
    simp only at e1
    exact ⟨y, e2, by rw [e1, h2]; exact h0 hp⟩
  · rw [if_neg hp] at h
    obtain ⟨h1, h2, h3⟩ := h
    obtain ⟨y, e1, e2⟩ := readU32_ok (r := ⟨B, pos, stk⟩) h1
    simp only at e1
    exact ⟨y, e2, by rw [e1]; rwa [Nat.zero_add] at h3⟩

/-- **C91, `STAT`.** -/
theorem C91_stat (t : Stat.Table) (minor : Nat) (h : StatReadable t minor) (B : Bytes) (hB : At (anyStatRows t minor) B 0) :
    ∃ t' rd, Stat.readStat (Rd.new B) = .ok (t', rd) ∧ t'.elided = t.elided ∧ t'.axes = t.axes ∧
      List.Forall₂ SameValue t.values t'.values := by
  unfold At anyStatRows at hB
  rw [shows_append] at hB
  obtain ⟨⟨s1, s2, s3, s4, s5, s6, s7, _⟩, s8⟩ := hB
  have w5 : (if t.axes = [] then Cell.null 4 else .ref 4 (At (t.axes.flatMap fun a => [tag a.tag, u16 a.nameID, u16 a.ordering]))).width = 4 := by
    split <;> rfl
  have w7 : (if t.values = [] then Cell.null 4 else .ref 4 (At (t.values.map fun v => .ref 2 (At (statValueRows v))))).width = 4 := by
    split <;> rfl
  simp only [widths, List.map_cons, List.map_nil, List.sum_cons, List.sum_nil] at s8
  rw [w5, w7] at s8
  rw [w5] at s6 s7
  simp only [Cell.width, Nat.zero_add, Nat.reduceAdd] at s1 s2 s3 s4 s5 s6 s7 s8
  obtain ⟨oa, a1, a2⟩ := read_ref32 (stk := [0, 0]) (fun e => by rw [e]; trivial) s5
  obtain ⟨ov, v1, v2⟩ := read_ref32 (stk := [0, 0]) (fun e => by rw [e]; trivial) s7
  have k1 := plain_num16 1 (by decide) B 0 0 [0, 0] ⟨s1, trivial⟩
  have k2 := plain_count h.small B 0 2 [0, 0] ⟨s2, trivial⟩
  have k3 := plain_num16 8 (by decide) B 0 4 [0, 0] ⟨s3, trivial⟩
  have k4 := plain_count h.axisCount B 0 6 [0, 0] ⟨s4, trivial⟩
  have k6 := plain_count h.valueCount B 0 12 [0, 0] ⟨s6, trivial⟩
  have k8 : Stat.readElided (UInt16.ofNat minor) ⟨B, 18, [0, 0]⟩ =
      .ok (t.elided, ⟨B, 18 + widths (if 1 ≤ minor then [u16 (t.elided.getD 0)] else []), [0, 0]⟩) := by
    have : Plain (Stat.readElided (UInt16.ofNat minor)) t.elided (if 1 ≤ minor then [u16 (t.elided.getD 0)] else []) := by
      have hm : (UInt16.ofNat minor ≥ 1) ↔ 1 ≤ minor := by
        rw [ge_iff_le, UInt16.le_iff_toNat_le, ofNat16_toNat h.small]; rfl
      have he := some_of h.elided 0
      unfold Stat.readElided
      by_cases hc : 1 ≤ minor
      · rw [if_pos (hm.mpr hc), if_pos hc]
        rw [if_pos hc] at he
        exact (plain_u16 _).last (by rw [← he])
      · rw [if_neg (fun e => hc (hm.mp e)), if_neg hc]
        rw [if_neg hc] at he
        rw [he]
        exact plain_pure _
    exact this B 0 18 [0, 0] s8
  have ka : Plain (deCounted Stat.readAxis t.axes.length) t.axes (t.axes.flatMap fun a => [tag a.tag, u16 a.nameID, u16 a.ordering]) := by
    refine plain_list fun a ha => ?_
    unfold Stat.readAxis
    exact (plain_tag (h.tags a ha)).cons <| (plain_u16 _).cons <| (plain_u16 _).last rfl
  have ka := ka B _ _ [0, 0] a2
  obtain ⟨os, p, o1, o2, o3⟩ := readValues_any (stk := [0, 0]) (q := ov.toNat + 2 * t.values.length) h.values v2
  simp only [widths, Cell.width, List.map_cons, List.map_nil, List.sum_cons, List.sum_nil, Nat.add_zero, Nat.zero_add, Nat.reduceAdd]
    at k1 k2 k3 k4 k6
  have kc : Stat.readCore ⟨B, 0, [0, 0]⟩ = .ok (⟨UInt16.ofNat t.axes.length, oa, UInt16.ofNat t.values.length, ov, t.elided⟩,
      ⟨B, 18 + widths (if 1 ≤ minor then [u16 (t.elided.getD 0)] else []), [0, 0]⟩) := by
    unfold Stat.readCore
    simp only [bind_run, k1, k2, k3, k4, a1, k6, v1, k8, pure_run, Nat.reduceAdd]
  refine ⟨⟨t.elided, t.axes, t.values.map statRead⟩, ⟨B, p, [0, 0]⟩, ?_, rfl, rfl, ?_⟩
  · unfold Stat.readStat Rd.new
    simp only [bind_run, pushTop, kc, topOfTable, setPtr, Nat.zero_add]
    rw [ofNat16_toNat h.axisCount, ka]
    simp only
    rw [ofNat16_toNat h.valueCount, o2]
    simp only
    rw [o3]
    rfl
  · have := h.values
    clear o1 o2 o3 v2 s7 w7
    show List.Forall₂ SameValue t.values (t.values.map statRead)
    revert this
    generalize t.values = l
    intro this
    induction l with
    | nil => exact .nil
    | cons v l ih => exact .cons (same_statRead (this v (by simp))) (ih fun w hw => this w (by simp [hw]))

/-! ### Examples -/

/-- Two records with the same string in the storage area, and one with a part of it. -/
def strangeNames : List NameSays :=
  [⟨⟨0, 3, 0, 4, "AB".toList⟩, 2, [0, 65, 0, 66]⟩, ⟨⟨3, 1, 0x409, 4, "AB".toList⟩, 2, [0, 65, 0, 66]⟩, ⟨⟨3, 1, 0x409, 1, "A".toList⟩, 2, [0, 65]⟩]

example (lib : Legacy) : NameReadable lib 42 strangeNames ∧ NameAt 0 42 strangeNames
    ([0, 0, 0, 3, 0, 42, 0, 0, 0, 3, 0, 0, 0, 4, 0, 4, 0, 2, 0, 3, 0, 1, 4, 9, 0, 4, 0, 4, 0, 2,
      0, 3, 0, 1, 4, 9, 0, 1, 0, 2, 0, 2, 255, 255, 0, 65, 0, 66]) 0 := by
  refine ⟨⟨by decide, by decide, ?_⟩, ⟨?_, ?_⟩⟩
  · intro x hx
    simp only [strangeNames, List.mem_cons, List.not_mem_nil, or_false] at hx
    rcases hx with rfl | rfl | rfl
    · exact ⟨by decide, by decide, show [0, 65, 0, 66] = utf16Encode "AB".toList by decide +kernel⟩
    · exact ⟨by decide, by decide, show [0, 65, 0, 66] = utf16Encode "AB".toList by decide +kernel⟩
    · exact ⟨by decide, by decide, show [0, 65] = utf16Encode "A".toList by decide +kernel⟩
  · refine ⟨?_, ?_, ?_, ?_, ?_, ?_, ?_, ?_, ?_, ?_, ?_, ?_, ?_, ?_, ?_, ?_, ?_, ?_, ?_, ?_, ?_, trivial⟩ <;>
      exact ⟨by decide, by decide⟩
  · intro x hx
    simp only [strangeNames, List.mem_cons, List.not_mem_nil, or_false] at hx
    rcases hx with rfl | rfl | rfl <;> exact ⟨rfl, trivial⟩

/-- Glyph names in an order of their own, one of them unused. -/
example : Follows ([0, 2, 0, 0, 0, 0, 128, 0, 255, 106, 0, 50] ++ List.replicate 20 0 ++
      [0, 3, 0, 0, 1, 3, 0, 36, 1, 120, 1, 121] : Bytes)
      (post2Rows ⟨0x20000, 1 / 2, -150, 50, 0, 0, 0, 0, 0, none⟩ [0, 259, 36] ["x", "y"]) ∧
    [0, 259, 36].map (nameAt ["x", "y"]) = [".notdef", "y", "A"].map some := by
  refine ⟨⟨?_, by decide +kernel⟩, by decide +kernel⟩
  refine ⟨⟨by decide, by decide⟩, ⟨by decide, 32768, by decide, by decide, by decide, by norm_num⟩, ?_, ?_, ?_, ?_, ?_, ?_, ?_, ?_, ?_, ?_, ?_,
    ?_, ?_, ?_, ?_, trivial⟩
  all_goals first | exact ⟨by decide, by decide⟩ | (show List.take _ (List.drop _ _) = _; decide +kernel)

/-- Axis values first, the second before the first, the axes last; locations not sorted. -/
def strangeStat : Stat.Table :=
  ⟨some 2, [⟨⟨119, 103, 104, 116⟩, 256, 0⟩, ⟨⟨119, 100, 116, 104⟩, 257, 1⟩],
    [⟨none, 0, 258, none, none, none, some [(1, 100), (0, 400)]⟩, ⟨some 0, 2, 259, some 400, none, none, none⟩]⟩

example : StatReadable strangeStat 2 ∧ At (anyStatRows strangeStat 2) ([0, 1, 0, 2, 0, 8, 0, 2, 0, 0, 0, 56, 0, 2, 0, 0, 0, 20, 0, 2,
      0, 16, 0, 4, 0, 1, 0, 0, 0, 2, 1, 3, 1, 144, 0, 0, 0, 4, 0, 2, 0, 0, 1, 2, 0, 1, 0, 100, 0, 0, 0, 0, 1, 144, 0, 0,
      119, 103, 104, 116, 1, 0, 0, 0, 119, 100, 116, 104, 1, 1, 0, 1]) 0 := by
  have v100 := fixedVal_int (n := 100) (by omega) (by omega)
  have v400 := fixedVal_int (n := 400) (by omega) (by omega)
  push_cast at v100 v400
  refine ⟨⟨by decide, rfl, by decide, by decide, by decide, ?_⟩, ?_⟩
  · intro v hv
    simp only [strangeStat, List.mem_cons, List.not_mem_nil, or_false] at hv
    rcases hv with rfl | rfl
    · refine ⟨by decide, by simp, by simp, by simp, by simp, by simp, by simp, ?_⟩
      intro m hm
      cases hm
      refine ⟨by decide, by decide, fun x hx => ?_⟩
      simp only [List.mem_cons, List.not_mem_nil, or_false] at hx
      rcases hx with rfl | rfl
      · exact v100
      · exact v400
    · exact ⟨by decide, by simp, by simp, by simp, by simpa using v400, by simp, by simp, by simp⟩
  · refine ⟨⟨by decide, by decide⟩, ⟨by decide, by decide⟩, ⟨by decide, by decide⟩, ⟨by decide, by decide⟩, ⟨by decide, by decide, ?_⟩,
      ⟨by decide, by decide⟩, ⟨by decide, by decide, ?_⟩, ⟨by decide, by decide⟩, trivial⟩
    · exact ⟨rfl, ⟨by decide, by decide⟩, ⟨by decide, by decide⟩, rfl, ⟨by decide, by decide⟩, ⟨by decide, by decide⟩, trivial⟩
    · refine ⟨⟨by decide, by decide, ?_⟩, ⟨by decide, by decide, ?_⟩, trivial⟩
      · exact ⟨⟨by decide, by decide⟩, ⟨by decide, by decide⟩, ⟨by decide, by decide⟩, ⟨by decide, by decide⟩, ⟨by decide, by decide⟩,
          ⟨by decide, 6553600, by decide, by decide, by decide, by norm_num⟩, ⟨by decide, by decide⟩,
          ⟨by decide, 26214400, by decide, by decide, by decide, by norm_num⟩, trivial⟩
      · exact ⟨⟨by decide, by decide⟩, ⟨by decide, by decide⟩, ⟨by decide, by decide⟩, ⟨by decide, by decide⟩,
          ⟨by decide, 26214400, by decide, by decide, by decide, by norm_num⟩, trivial⟩

end FT.Props
