import Verif.Props.ForeignText
import Verif.Props.ForeignCmap

/-!
# C91, outside the guards: every `name` table, and both dates of `head`
-/

namespace FT.Props
open FT Reader FT.F32 FT.Tables FT.Strings

/-! ### Specification -/

/-- Platforms and encodings for which the code has a decoder. -/
def HasDecoder (platform encoding : Nat) : Prop :=
  platform ≤ 1 ∨ (platform = 2 ∧ encoding ≤ 2) ∨ (platform = 3 ∧ encoding ≠ 6)

/-- The number of records. -/
def nameCount (B : Bytes) : Nat := field B 2 2

/-- A field of record `i`: platform, encoding, language, name, length of the string, its offset. -/
def nameField (B : Bytes) (i k : Nat) : Nat := field B (6 + 12 * i + 2 * k) 2

/-- Where the code looks for the string of record `i`: the offset counted from the end of the records. -/
def namePlace (B : Bytes) (i : Nat) : Nat := 6 + 12 * nameCount B + nameField B i 5

/-- The string of record `i` is inside the table there. -/
def NameInside (B : Bytes) (i : Nat) : Prop := nameField B i 4 = 0 ∨ namePlace B i + nameField B i 4 ≤ B.length

/-- The bytes there. -/
def nameBytes (B : Bytes) (i : Nat) : Bytes := (B.drop (namePlace B i)).take (nameField B i 4)

/-- The bytes of a string, decoded: UTF-16, or by the legacy encoding that goes with platform and encoding. -/
def DecodedAs (lib : Legacy) (p e : UInt16) (bs : Bytes) (s : List Char) : Prop :=
  match getEncoding p e with
  | .ok .utf16be => ∀ t, bs = utf16Encode t → s = t
  | .ok enc => s = lib.decode enc bs
  | _ => False

/-! ### `name` -/

theorem getEncoding_known (p e : UInt16) : (HasDecoder p.toNat e.toNat ∧ ∃ x, getEncoding p e = .ok x) ∨
    (¬ HasDecoder p.toNat e.toNat ∧ getEncoding p e = .panic) := by
  have key : ∀ (x : UInt16) (n : Nat) (h : n < 65536), (x = UInt16.ofNat n) ↔ x.toNat = n := by
    intro x n h
    constructor
    · rintro rfl; exact ofNat16_toNat (by omega)
    · intro hx; exact UInt16.toNat_inj.mp (by rw [hx, ofNat16_toNat (by omega)])
  have p0 : p = 0 ↔ p.toNat = 0 := key p 0 (by decide)
  have p1 : p = 1 ↔ p.toNat = 1 := key p 1 (by decide)
  have p2 : p = 2 ↔ p.toNat = 2 := key p 2 (by decide)
  have p3 : p = 3 ↔ p.toNat = 3 := key p 3 (by decide)
  have e0 : e = 0 ↔ e.toNat = 0 := key e 0 (by decide)
  have e1 : e = 1 ↔ e.toNat = 1 := key e 1 (by decide)
  have e2 : e = 2 ↔ e.toNat = 2 := key e 2 (by decide)
  have e6 : e = 6 ↔ e.toNat = 6 := key e 6 (by decide)
  unfold HasDecoder getEncoding
  simp only [p0, p1, p2, p3, e0, e1, e2, e6]
  by_cases h0 : p.toNat = 0
  · rw [if_pos h0]; exact .inl ⟨by omega, _, rfl⟩
  rw [if_neg h0]
  by_cases h1 : p.toNat = 1
  · rw [if_pos h1]; left; refine ⟨by omega, ?_⟩; split <;> exact ⟨_, rfl⟩
  rw [if_neg h1]
  by_cases h2 : p.toNat = 2
  · rw [if_pos h2]
    by_cases g0 : e.toNat = 0
    · rw [if_pos g0]; exact .inl ⟨by omega, _, rfl⟩
    rw [if_neg g0]
    by_cases g1 : e.toNat = 1
    · rw [if_pos g1]; exact .inl ⟨by omega, _, rfl⟩
    rw [if_neg g1]
    by_cases g2 : e.toNat = 2
    · rw [if_pos g2]; exact .inl ⟨by omega, _, rfl⟩
    rw [if_neg g2]; exact .inr ⟨by omega, rfl⟩
  rw [if_neg h2]
  by_cases h3 : p.toNat = 3
  · rw [if_pos h3]
    by_cases g6 : e.toNat = 6
    · right
      refine ⟨by omega, ?_⟩
      have : e = 6 := e6.mpr g6
      subst this
      rfl
    · left
      refine ⟨by omega, ?_⟩
      rw [if_neg g6]
      split
      · exact ⟨_, rfl⟩
      split
      · exact ⟨_, rfl⟩
      split
      · exact ⟨_, rfl⟩
      split
      · exact ⟨_, rfl⟩
      split
      · exact ⟨_, rfl⟩
      split <;> exact ⟨_, rfl⟩
  · rw [if_neg h3]; exact .inr ⟨by omega, rfl⟩

theorem decoded_string {lib : Legacy} {p e : UInt16} {enc : Encoding} (h : getEncoding p e = .ok enc) (bs : Bytes) :
    DecodedAs lib p e bs (decodeString lib enc bs) := by
  unfold DecodedAs
  rw [h]
  cases enc <;> simp only [decodeString]
  rintro t rfl
  exact C50_utf16 t

theorem bytes_inside {B : Bytes} {pos n : Nat} {stk : List Nat} (h : n = 0 ∨ pos + n ≤ B.length) :
    ∃ ptr, deCounted readU8 n ⟨B, pos, stk⟩ = .ok ((B.drop pos).take n, ⟨B, ptr, stk⟩) := by
  rcases h with rfl | h
  · exact ⟨pos, by rw [List.take_zero]; rfl⟩
  · have hl : ((B.drop pos).take n).length = n := by simp; omega
    have k := plain_bytes ((B.drop pos).take n) B 0 pos stk ⟨by show (B.drop pos).take _ = _; rw [hl], trivial⟩
    rw [hl] at k
    exact ⟨_, k⟩

theorem bytes_outside {B : Bytes} {stk : List Nat} : ∀ {n pos : Nat}, n ≠ 0 → B.length < pos + n →
    deCounted readU8 n ⟨B, pos, stk⟩ = .err
  | 0, _, h, _ => absurd rfl h
  | n + 1, pos, _, h => by
    rw [deCounted, bind_run]
    by_cases hp : pos + 1 ≤ B.length
    · have hl : ((B.drop pos).take 1).length = 1 := by rw [List.length_take, List.length_drop]; omega
      have k := plain_bytes ((B.drop pos).take 1) B 0 pos stk ⟨by show (B.drop pos).take _ = _; rw [hl], trivial⟩
      rw [hl, deCounted, bind_run] at k
      cases hr : readU8 ⟨B, pos, stk⟩ with
      | err => rw [hr] at k
      | panic => rw [hr] at k; cases k
      | ok x =>
        obtain ⟨a, r⟩ := x
        rw [hr] at k
        simp only [deCounted, bind_run, pure_run] at k
        simp only
        have e : r = ⟨B, pos + 1, stk⟩ := by
          have := congrArg (fun x : Res (List UInt8 × Rd) => match x with | .ok y => y.2 | _ => r) k
          simp only at this
          rw [this]
          simp only [widths, Cell.width, hl, List.map_cons, List.map_nil, List.sum_cons, List.sum_nil, Nat.add_zero]
        rw [e, bind_run, bytes_outside (n := n) (pos := pos + 1) (by omega) (by omega)]
    · have : readU8 ⟨B, pos, stk⟩ = .err := by
        unfold readU8
        rw [bind_run]
        unfold consume
        rw [if_pos (by simp only; omega)]
      rw [this]

/-- Record `i` of the table. -/
def IsRecord (B : Bytes) (i : Nat) (r : NameInternal) : Prop :=
  r.platformID.toNat = nameField B i 0 ∧ r.encodingID.toNat = nameField B i 1 ∧ r.languageID.toNat = nameField B i 2 ∧
  r.nameID.toNat = nameField B i 3 ∧ r.length.toNat = nameField B i 4 ∧ r.stringOffset.toNat = nameField B i 5

theorem names_records {B : Bytes} {stk : List Nat} (h : 6 + 12 * nameCount B ≤ B.length) :
    ∃ l : List NameInternal, l.length = nameCount B ∧ (∀ i a, l[i]? = some a → IsRecord B i a) ∧
      deCounted readNameInternal (nameCount B) ⟨B, 6, stk⟩ = .ok (l, ⟨B, 6 + 12 * nameCount B, stk⟩) :=
  list_read (nameCount B) 6 fun i hi => by
    obtain ⟨w0, x0, y0⟩ := readU16_ok (r := ⟨B, 6 + 12 * i, stk⟩) (by simp only; omega)
    obtain ⟨w1, x1, y1⟩ := readU16_ok (r := ⟨B, 6 + 12 * i + 2, stk⟩) (by simp only; omega)
    obtain ⟨w2, x2, y2⟩ := readU16_ok (r := ⟨B, 6 + 12 * i + 2 + 2, stk⟩) (by simp only; omega)
    obtain ⟨w3, x3, y3⟩ := readU16_ok (r := ⟨B, 6 + 12 * i + 2 + 2 + 2, stk⟩) (by simp only; omega)
    obtain ⟨w4, x4, y4⟩ := readU16_ok (r := ⟨B, 6 + 12 * i + 2 + 2 + 2 + 2, stk⟩) (by simp only; omega)
    obtain ⟨w5, x5, y5⟩ := readU16_ok (r := ⟨B, 6 + 12 * i + 2 + 2 + 2 + 2 + 2, stk⟩) (by simp only; omega)
    simp only at x0 x1 x2 x3 x4 x5 y0 y1 y2 y3 y4 y5
    refine ⟨⟨w0, w1, w2, w3, w4, w5⟩, ⟨x0, x1, x2, x3, x4, x5⟩, ?_⟩
    unfold readNameInternal
    simp only [bind_run, y0, y1, y2, y3, y4, y5, pure_run]

theorem oneName_ok {lib : Legacy} {B : Bytes} {i pos : Nat} {stk : List Nat} {r : NameInternal} (hr : IsRecord B i r)
    (hi : NameInside B i) (hk : HasDecoder (nameField B i 0) (nameField B i 1)) :
    ∃ x ptr, readOneName lib r ⟨B, pos, (6 + 12 * nameCount B) :: stk⟩ = .ok (x, ⟨B, ptr, (6 + 12 * nameCount B) :: stk⟩) ∧
      x.platformID.toNat = nameField B i 0 ∧ x.encodingID.toNat = nameField B i 1 ∧ x.languageID.toNat = nameField B i 2 ∧
      x.nameID.toNat = nameField B i 3 ∧ DecodedAs lib x.platformID x.encodingID (nameBytes B i) x.string := by
  obtain ⟨h0, h1, h2, h3, h4, h5⟩ := hr
  rw [← h0, ← h1] at hk
  rcases getEncoding_known r.platformID r.encodingID with ⟨_, enc, he⟩ | ⟨h, _⟩
  · obtain ⟨ptr, e⟩ := bytes_inside (B := B) (pos := namePlace B i) (n := nameField B i 4) (stk := (6 + 12 * nameCount B) :: stk) hi
    refine ⟨⟨r.platformID, r.encodingID, r.languageID, r.nameID, decodeString lib enc (nameBytes B i)⟩, ptr, ?_, h0, h1, h2, h3,
      decoded_string he _⟩
    unfold readOneName
    simp only [bind_run, topOfTable, setPtr]
    rw [h5, h4, show 6 + 12 * nameCount B + nameField B i 5 = namePlace B i from rfl, e]
    simp only [he, Reader.lift, pure_run]
    rfl
  · exact absurd hk h

theorem oneName_outside {lib : Legacy} {B : Bytes} {i pos : Nat} {stk : List Nat} {r : NameInternal} (hr : IsRecord B i r)
    (hi : ¬ NameInside B i) : readOneName lib r ⟨B, pos, (6 + 12 * nameCount B) :: stk⟩ = .err := by
  obtain ⟨h0, h1, h2, h3, h4, h5⟩ := hr
  unfold NameInside at hi
  push Not at hi
  unfold readOneName
  simp only [bind_run, topOfTable, setPtr]
  rw [h5, h4, show 6 + 12 * nameCount B + nameField B i 5 = namePlace B i from rfl, bytes_outside hi.1 hi.2]

theorem oneName_unknown {lib : Legacy} {B : Bytes} {i pos : Nat} {stk : List Nat} {r : NameInternal} (hr : IsRecord B i r)
    (hi : NameInside B i) (hk : ¬ HasDecoder (nameField B i 0) (nameField B i 1)) :
    readOneName lib r ⟨B, pos, (6 + 12 * nameCount B) :: stk⟩ = .panic := by
  obtain ⟨h0, h1, h2, h3, h4, h5⟩ := hr
  rw [← h0, ← h1] at hk
  rcases getEncoding_known r.platformID r.encodingID with ⟨h, _⟩ | ⟨_, he⟩
  · exact absurd h hk
  · obtain ⟨ptr, e⟩ := bytes_inside (B := B) (pos := namePlace B i) (n := nameField B i 4) (stk := (6 + 12 * nameCount B) :: stk) hi
    unfold readOneName
    simp only [bind_run, topOfTable, setPtr]
    rw [h5, h4, show 6 + 12 * nameCount B + nameField B i 5 = namePlace B i from rfl, e]
    simp only [he, Reader.lift]

/-- Record `i` as it is read. -/
def NameRead (lib : Legacy) (B : Bytes) (i : Nat) (x : NameRecord) : Prop :=
  x.platformID.toNat = nameField B i 0 ∧ x.encodingID.toNat = nameField B i 1 ∧ x.languageID.toNat = nameField B i 2 ∧
  x.nameID.toNat = nameField B i 3 ∧ DecodedAs lib x.platformID x.encodingID (nameBytes B i) x.string

/-- A record whose string is where the code looks for it, in an encoding the code has. -/
def NameGood (B : Bytes) (i : Nat) : Prop := NameInside B i ∧ HasDecoder (nameField B i 0) (nameField B i 1)

theorem readNames_good {lib : Legacy} {B : Bytes} {stk : List Nat} : ∀ {l : List NameInternal} {k pos : Nat},
    (∀ i a, l[i]? = some a → IsRecord B (k + i) a) → (∀ i < l.length, NameGood B (k + i)) →
    ∃ xs ptr, readNames lib l ⟨B, pos, (6 + 12 * nameCount B) :: stk⟩ = .ok (xs, ⟨B, ptr, (6 + 12 * nameCount B) :: stk⟩) ∧
      xs.length = l.length ∧ ∀ i x, xs[i]? = some x → NameRead lib B (k + i) x
  | [], k, pos, _, _ => ⟨[], pos, rfl, rfl, by simp⟩
  | a :: l, k, pos, h, hg => by
    have hg0 := hg 0 (by simp)
    obtain ⟨x, ptr, e1, e2⟩ := oneName_ok (lib := lib) (pos := pos) (stk := stk) (h 0 a rfl) hg0.1 hg0.2
    obtain ⟨xs, ptr', e3, e4, e5⟩ := readNames_good (lib := lib) (stk := stk) (l := l) (k := k + 1) (pos := ptr)
      (fun i b hb => by rw [show k + 1 + i = k + (i + 1) by omega]; exact h (i + 1) b (by simpa using hb))
      (fun i hi => by rw [show k + 1 + i = k + (i + 1) by omega]; exact hg (i + 1) (by simp; omega))
    refine ⟨x :: xs, ptr', ?_, by simp [e4], ?_⟩
    · rw [readNames, bind_run, e1]
      simp only
      rw [bind_run, e3]
      rfl
    · intro i y hy
      cases i with
      | zero => simp only [List.getElem?_cons_zero, Option.some.injEq] at hy; subst hy; exact e2
      | succ i =>
        rw [show k + (i + 1) = k + 1 + i by omega]
        exact e5 i y (by simpa using hy)

theorem readNames_bad {lib : Legacy} {B : Bytes} {stk : List Nat} {out : Res (List NameRecord × Rd)} : ∀ {l : List NameInternal} {k pos j : Nat},
    (∀ i a, l[i]? = some a → IsRecord B (k + i) a) → j < l.length → (∀ i < j, NameGood B (k + i)) →
    (∀ pos a, l[j]? = some a → IsRecord B (k + j) a →
      (readOneName lib a ⟨B, pos, (6 + 12 * nameCount B) :: stk⟩ = .err ∧ out = .err) ∨
      (readOneName lib a ⟨B, pos, (6 + 12 * nameCount B) :: stk⟩ = .panic ∧ out = .panic)) →
    readNames lib l ⟨B, pos, (6 + 12 * nameCount B) :: stk⟩ = out
  | [], _, _, _, _, hj, _, _ => by simp at hj
  | a :: l, k, pos, 0, h, _, _, ho => by
    rw [readNames, bind_run]
    rcases ho pos a rfl (h 0 a rfl) with ⟨e, rfl⟩ | ⟨e, rfl⟩ <;> rw [e]
  | a :: l, k, pos, j + 1, h, hj, hg, ho => by
    have hg0 := hg 0 (by omega)
    obtain ⟨x, ptr, e1, e2⟩ := oneName_ok (lib := lib) (pos := pos) (stk := stk) (h 0 a rfl) hg0.1 hg0.2
    have e3 := readNames_bad (lib := lib) (stk := stk) (out := out) (l := l) (k := k + 1) (pos := ptr) (j := j)
      (fun i b hb => by rw [show k + 1 + i = k + (i + 1) by omega]; exact h (i + 1) b (by simpa using hb))
      (by simpa using hj)
      (fun i hi => by rw [show k + 1 + i = k + (i + 1) by omega]; exact hg (i + 1) (by omega))
      (fun pos b hb hr => ho pos b (by simpa using hb) (by rw [show k + (j + 1) = k + 1 + j by omega]; exact hr))
    rw [readNames, bind_run, e1]
    simp only
    rw [bind_run, e3]
    rcases getElem?_cases : l[j]? with _ | b
    · have : j < l.length := by simpa using hj
      rw [List.getElem?_eq_none_iff] at getElem?_cases
      omega
    · rcases ho pos b (by simpa using getElem?_cases) (h (j + 1) b (by simpa using getElem?_cases)) with ⟨_, rfl⟩ | ⟨_, rfl⟩ <;> rfl

theorem name_start {lib : Legacy} {B : Bytes} (h : 6 + 12 * nameCount B ≤ B.length) :
    ∃ l : List NameInternal, l.length = nameCount B ∧ (∀ i a, l[i]? = some a → IsRecord B i a) ∧
      readName lib (Rd.new B) = ((do
        let records ← readNames lib l
        popTop
        return records : Reader (List NameRecord)) ⟨B, 6 + 12 * nameCount B, [6 + 12 * nameCount B, 0]⟩) := by
  obtain ⟨l, e1, e2, e3⟩ := names_records (B := B) (stk := [0]) h
  refine ⟨l, e1, e2, ?_⟩
  obtain ⟨v, a, b⟩ := readU16_ok (r := ⟨B, 2, [0]⟩) (by simp only; omega)
  simp only at a b
  unfold readName Rd.new
  simp only [bind_run, skip, Nat.zero_add, b, Nat.reduceAdd]
  rw [a, show field B 2 2 = nameCount B from rfl, e3]
  rfl

/-- **C91** (any `name` table). If every string is where the code looks for it, the offset counted from the end of the records, and in an
encoding the code has, the records are read, with the strings found there. -/
theorem C91_name_any (lib : Legacy) (B : Bytes) (h : 6 + 12 * nameCount B ≤ B.length) (hg : ∀ i < nameCount B, NameGood B i) :
    ∃ l rd, readName lib (Rd.new B) = .ok (l, rd) ∧ l.length = nameCount B ∧ ∀ i x, l[i]? = some x → NameRead lib B i x := by
  obtain ⟨l, e1, e2, e3⟩ := name_start (lib := lib) h
  obtain ⟨xs, ptr, f1, f2, f3⟩ := readNames_good (lib := lib) (stk := [0]) (l := l) (k := 0) (pos := 6 + 12 * nameCount B)
    (fun i a ha => by rw [Nat.zero_add]; exact e2 i a ha) (fun i hi => by rw [Nat.zero_add]; exact hg i (by omega))
  rw [e3, bind_run, f1]
  refine ⟨xs, _, rfl, by omega, fun i x hx => ?_⟩
  have := f3 i x hx
  rwa [Nat.zero_add] at this

/-- **C91** (any `name` table, otherwise). The first record for which this is not so decides: if its string would be outside the table,
reading is an error; if the code does not know its encoding, it panics. -/
theorem C91_name_first_bad (lib : Legacy) (B : Bytes) (h : 6 + 12 * nameCount B ≤ B.length) (j : Nat) (hj : j < nameCount B)
    (hg : ∀ i < j, NameGood B i) (hb : ¬ NameGood B j) :
    (¬ NameInside B j → readName lib (Rd.new B) = .err) ∧
    (NameInside B j → readName lib (Rd.new B) = .panic) := by
  obtain ⟨l, e1, e2, e3⟩ := name_start (lib := lib) h
  constructor
  · intro hi
    have := readNames_bad (lib := lib) (stk := [0]) (out := .err) (l := l) (k := 0) (pos := 6 + 12 * nameCount B) (j := j)
      (fun i a ha => by rw [Nat.zero_add]; exact e2 i a ha) (by omega) (fun i hi => by rw [Nat.zero_add]; exact hg i hi)
      (fun pos a _ hr => .inl ⟨oneName_outside hr (by rw [Nat.zero_add]; exact hi), rfl⟩)
    rw [e3, bind_run, this]
  · intro hi
    have := readNames_bad (lib := lib) (stk := [0]) (out := .panic) (l := l) (k := 0) (pos := 6 + 12 * nameCount B) (j := j)
      (fun i a ha => by rw [Nat.zero_add]; exact e2 i a ha) (by omega) (fun i hi => by rw [Nat.zero_add]; exact hg i hi)
      (fun pos a _ hr => .inr ⟨oneName_unknown hr (by rw [Nat.zero_add]; exact hi) (fun hk => hb ⟨hi, by rw [Nat.zero_add] at hk; exact hk⟩),
        rfl⟩)
    rw [e3, bind_run, this]

/-! ### `head` -/

/-- **C91** (`head`). A date of change outside the years that the date library knows panics as well. -/
theorem C91_head_modified (h : Head) (hf : FixedVal h.fontRevision)
    (hc : dateMin ≤ h.created.secs ∧ h.created.secs ≤ dateMax ∧ h.created.nanos = 0) (h1 : -2 ^ 63 ≤ h.modified.secs)
    (h2 : h.modified.secs < 2 ^ 63) (hd : ¬ (dateMin ≤ h.modified.secs ∧ h.modified.secs ≤ dateMax)) (B : Bytes)
    (hB : At (headRows h) B 0) : readHead (Rd.new B) = .panic := by
  have key : Crashes readHead (headRows h) := by
    unfold readHead headRows
    refine (plain_u16 _).then <| (plain_u16 _).then <| (plain_fixed hf).then <| (plain_u32 _).then <| (plain_u32 _).then <|
      (plain_u16 _).then <| (plain_u16 _).then <| (plain_date hc.1 hc.2.1 hc.2.2).then ?_
    intro B base pos stk hs
    obtain ⟨⟨e1, e2⟩, _⟩ := hs
    have : readDate ⟨B, pos, stk⟩ = .panic := by
      unfold readDate
      rw [bind_run, readI64_ok e1 h1 h2 e2]
      have : (Int64.ofInt h.modified.secs).toInt = h.modified.secs := by
        rw [Int64.toInt_ofInt, Int.bmod_def, show Int64.size = 18446744073709551616 from rfl]
        split <;> omega
      simp only [this]
      rw [if_neg hd]
      rfl
    rw [bind_run, this]
  exact key B 0 0 [0] hB

/-! ### Examples -/

/-- A table of format 1 with one language tag: the string "A" is stored after the language tags, and "B" between. -/
example : ∃ l rd, readName noLegacy (Rd.new gapTable) = .ok (l, rd) ∧ l.length = 1 ∧ ∀ x, l[0]? = some x → x.string = ['B'] := by
  obtain ⟨l, rd, h1, h2, h3⟩ := C91_name_any noLegacy gapTable (by decide) fun i hi => by
    have : i < 1 := hi
    obtain rfl : i = 0 := by omega
    exact ⟨.inr (by decide), .inr (.inr ⟨by decide, by decide⟩)⟩
  refine ⟨l, rd, h1, h2, fun x hx => ?_⟩
  obtain ⟨g1, g2, g3, g4, g5⟩ := h3 0 x hx
  have p3 : x.platformID = 3 := UInt16.toNat_inj.mp (by rw [g1]; decide)
  have p1 : x.encodingID = 1 := UInt16.toNat_inj.mp (by rw [g2]; decide)
  rw [p3, p1] at g5
  exact g5 ['B'] (by decide)

/-- A record of platform 4. -/
example : readName noLegacy (Rd.new [0, 0, 0, 1, 0, 18, 0, 4, 0, 0, 0, 0, 0, 1, 0, 0, 0, 0]) = .panic :=
  (C91_name_first_bad noLegacy _ (by decide) 0 (by decide) (by omega) fun h => by
    rcases h.2 with h | h | h
    · exact absurd h (by decide)
    · exact absurd h.1 (by decide)
    · exact absurd h.1 (by decide)).2 (.inl (by decide))

/-- A string outside the table. -/
example : readName noLegacy (Rd.new [0, 0, 0, 1, 0, 18, 0, 3, 0, 1, 0, 0, 0, 1, 0, 2, 0, 0]) = .err :=
  (C91_name_first_bad noLegacy _ (by decide) 0 (by decide) (by omega) fun h => by
    rcases h.1 with h | h
    · exact absurd h (by decide)
    · exact absurd h (by decide)).1 fun h => by
    rcases h with h | h
    · exact absurd h (by decide)
    · exact absurd h (by decide)

end FT.Props
