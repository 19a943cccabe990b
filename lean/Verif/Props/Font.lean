import Verif.Lemmas.FontRead

/-!
# C18-C22: the font file (`Font::to_bytes`, `Font::from_bytes`)

`Font.toBytes version tables` is the file written for a table set (tags in ascending order, as the
`BTreeMap` iterates); `Font.readTables` is loading.
-/

namespace FT.Props
open FT FT.Font

/-- Specification: tags in strictly ascending (lexicographic) order, as in any `BTreeMap`. -/
def AscendingTags (tables : List (Tag × Bytes)) : Prop :=
  tables.Pairwise (fun x y => beValue x.1.bytes < beValue y.1.bytes)

/-- Specification: sum of the big-endian 32-bit words of `bs` (an incomplete last word zero-filled): the
byte at position `i` has weight `256^(3 - i mod 4)`. -/
def wordSum (bs : Bytes) : Nat := (bs.zipIdx.map fun (b, i) => b.toNat * 256 ^ (3 - i % 4)).sum

/-- The bytes of an ASCII string. -/
def ascii (s : String) : Bytes := s.toList.map fun c => UInt8.ofNat c.toNat

/-- Specification: the tag spelled `head`. -/
def isHead (t : Tag) : Prop := t.bytes = ascii "head"

/-- Specification: `n` rounded up to a multiple of four. -/
def roundUp4 (n : Nat) : Nat := (n + 3) / 4 * 4

theorem isHead_iff (t : Tag) : isHead t ↔ t = headTag := by
  have : ascii "head" = [0x68, 0x65, 0x61, 0x64] := by decide
  unfold isHead
  rw [this]
  obtain ⟨a, b, c, d⟩ := t
  simp [Tag.bytes, headTag]

theorem beValue_tag (t : Tag) : beValue t.bytes = key t := by
  simp [beValue, Tag.bytes, key]; omega

theorem ascending_iff (tabs : List (Tag × Bytes)) : AscendingTags tabs ↔ Sorted tabs := by
  unfold AscendingTags Sorted
  simp only [beValue_tag]

theorem wordSum_eq (bs : Bytes) : wordSum bs = posSum 0 bs := by
  unfold wordSum
  generalize 0 = k
  induction bs generalizing k with
  | nil => rfl
  | cons b t ih => simp [posSum, ih]

theorem roundUp4_eq (n : Nat) : roundUp4 n = pad4 n := by unfold roundUp4 pad4; omega

/-- Saving succeeds exactly for fewer than 4096 tables with no `head` shorter than 12 bytes; otherwise it
panics. -/
theorem C18_saving_succeeds_iff (version : UInt32) (tables : List (Tag × Bytes)) (hs : AscendingTags tables) :
    ((∃ out, toBytes version tables = .ok out) ↔
      (tables.length < 4096 ∧ ∀ t b, (t, b) ∈ tables → isHead t → 12 ≤ b.length)) ∧
    toBytes version tables ≠ .err := by
  by_cases h : tables.length < 4096
  · by_cases hok : HeadOk tables
    · obtain ⟨⟨a, b, c⟩, e⟩ := getSearchRange_any _ h
      obtain ⟨v, _, e2, _⟩ := toBytes_ok version tables a b c (by omega) hok ((ascending_iff _).mp hs) e
      rw [e2]
      refine ⟨⟨fun _ => ⟨h, fun t b hm ht => hok (t, b) hm ((isHead_iff t).mp ht)⟩, fun _ => ⟨_, rfl⟩⟩, by simp⟩
    · rw [toBytes_panic_head version tables hok]
      refine ⟨⟨fun ⟨_, h⟩ => (by cases h), fun ⟨_, h2⟩ => ?_⟩, by simp⟩
      exact absurd (show HeadOk tables from fun x hx hxh => h2 x.1 x.2 hx ((isHead_iff _).mpr hxh)) hok
  · rw [toBytes_panic_many version tables (by omega)]
    exact ⟨⟨fun ⟨_, h⟩ => (by cases h), fun ⟨h1, _⟩ => absurd h1 h⟩, by simp⟩

theorem ok_inv {version : UInt32} {tables : List (Tag × Bytes)} {out : Bytes} (hs : AscendingTags tables)
    (h : toBytes version tables = .ok out) : tables.length < 4096 ∧ HeadOk tables := by
  obtain ⟨h1, h2⟩ := (C18_saving_succeeds_iff version tables hs).1.mp ⟨out, h⟩
  exact ⟨h1, fun x hx hxh => h2 x.1 x.2 hx ((isHead_iff _).mpr hxh)⟩

/-- C18: every saved font with a `head` table sums to the magic checksum. -/
theorem C18_file_checksum (version : UInt32) (tables : List (Tag × Bytes)) (out : Bytes)
    (hs : AscendingTags tables) (hhead : ∃ t b, (t, b) ∈ tables ∧ isHead t)
    (h : toBytes version tables = .ok out) :
    wordSum out % 2 ^ 32 = 0xB1B0AFBA := by
  obtain ⟨hn, hok⟩ := ok_inv hs h
  obtain ⟨⟨a, b, c⟩, e⟩ := getSearchRange_any _ hn
  obtain ⟨v, _, e2, e3⟩ := toBytes_ok version tables a b c (by omega) hok ((ascending_iff _).mp hs) e
  rw [h] at e2
  simp only [Res.ok.injEq] at e2
  rw [wordSum_eq, e2]
  obtain ⟨t, b', hm, ht⟩ := hhead
  exact e3 ⟨(t, b'), hm, (isHead_iff t).mp ht⟩

/-- The checksum function used for directory entries and the adjustment is the word sum modulo 2^32. -/
theorem C18_checksum (bs : Bytes) : (checksum bs).toNat = wordSum bs % 2 ^ 32 := by
  rw [wordSum_eq]; exact checksum_toNat bs

/-- Specification: `b'` is `b` except that four bytes starting at 8 may differ. -/
def sameExceptAdjustment (b b' : Bytes) : Prop :=
  ∃ adj : Bytes, adj.length = 4 ∧ b' = b.take 8 ++ adj ++ b.drop 12

/-- C19: reading back a saved font gives the same version, the same tags in the same order and the same
bytes for every table, except for the checksum adjustment of `head`. -/
theorem C19_save_reload (version : UInt32) (tables : List (Tag × Bytes)) (out : Bytes)
    (hs : AscendingTags tables) (hv : ∀ t b, (t, b) ∈ tables → t.Valid)
    (hver : version = 0x00010000 ∨ version = 0x4F54544F)
    (h : toBytes version tables = .ok out) (hsize : out.length < 2 ^ 32) :
    ∃ tables' r', readTables (Rd.new out) = .ok ((version, tables'), r') ∧
      tables'.length = tables.length ∧
      ∀ (i : Nat) (h1 : i < tables.length) (h2 : i < tables'.length), tables'[i].1 = tables[i].1 ∧
        (¬ isHead tables[i].1 → tables'[i].2 = tables[i].2) ∧
        (isHead tables[i].1 → sameExceptAdjustment tables[i].2 tables'[i].2) := by
  obtain ⟨hn, hok⟩ := ok_inv hs h
  obtain ⟨⟨a, b, c⟩, e⟩ := getSearchRange_any _ hn
  have hs' := (ascending_iff _).mp hs
  obtain ⟨v, hvl, e2, _⟩ := toBytes_ok version tables a b c (by omega) hok hs' e
  rw [h] at e2
  simp only [Res.ok.injEq] at e2
  generalize hX : (encU32 version ++ encU16 (UInt16.ofNat tables.length) ++ encU16 a ++
        encU16 b ++ encU16 c) ++ encVec encRec (recsL (16 * tables.length + 12) tables) = X at e2
  have hXl : X.length = 16 * tables.length + 12 := by
    rw [← hX, List.length_append, recBytes_length]
    simp only [List.length_append, encU32_length, encU16_length]
    omega
  have hdl : (dataOf (tables.map (setAdj v))).length = (dataOf tables).length :=
    dataOf_length tables (fun x hx => setAdj_length hvl (hok x hx))
  have hsz : X.length + (dataOf tables).length < 2 ^ 32 := by
    rw [e2, List.length_append, hdl] at hsize; exact hsize
  have hread : ∃ r', readTables (Rd.new out) = .ok ((version, tables.map (setAdj v)), r') := by
    have hnum : (UInt16.ofNat tables.length).toNat = tables.length := by simp; omega
    have hslice := slice_eq v hvl tables X [] hok (by simpa using sorted_map hs') hsz
    rw [hXl, ← e2] at hslice
    have hsort : (recsL (16 * tables.length + 12) tables).mergeSort
        (fun a b => decide (a.offset.toNat ≤ b.offset.toNat)) = recsL (16 * tables.length + 12) tables := by
      apply List.mergeSort_of_pairwise
      have := (recsL_offsets tables (16 * tables.length + 12) (by rw [← hXl]; exact hsz)).1
      simpa using this
    have hrecs : Reads (deCounted readRec tables.length)
        (encVec encRec (recsL (16 * tables.length + 12) tables)) (recsL (16 * tables.length + 12) tables) := by
      have := reads_deCounted' (p := readRec) (enc := encRec) (recsL_length tables (16 * tables.length + 12)).symm
        (fun r hr => by
          obtain ⟨x, hx, ex⟩ := recsL_tags tables _ r hr
          exact reads_rec r (ex ▸ hv x.1 x.2 hx))
      exact this
    have hvok : versionOk version = true := by
      unfold versionOk
      rcases hver with rfl | rfl <;> decide
    have hdir : Reads readDirectory X (version, recsL (16 * tables.length + 12) tables) := by
      rw [← hX]
      simp only [List.append_assoc]
      unfold readDirectory
      refine Reads.bind (reads_u32 _) (Reads.bind (reads_u16 _) (Reads.bind (reads_u16 _)
        (Reads.bind (reads_u16 _) (Reads.bind (reads_u16 _) ?_))))
      rw [if_pos hvok, hnum]
      exact Reads.bind' hrecs (Reads.pure _) (List.append_nil _).symm
    have hrun := hdir [] (dataOf (tables.map (setAdj v))) [0]
    simp only [List.nil_append, List.length_nil, Nat.zero_add] at hrun
    unfold readTables Rd.new
    rw [Reader.bind_run, e2, hrun]
    simp only
    rw [Reader.bind_run]
    simp only [getInp]
    rw [Reader.bind_run, ← e2, hsort, hslice]
    exact ⟨_, rfl⟩
  obtain ⟨r', hr'⟩ := hread
  refine ⟨_, r', hr', by simp, ?_⟩
  intro i h1 h2
  simp only [List.getElem_map]
  refine ⟨setAdj_fst _ _, fun hne => ?_, fun he => ?_⟩
  · unfold setAdj
    rw [if_neg (by rwa [← isHead_iff])]
  · unfold setAdj
    rw [if_pos ((isHead_iff _).mp he)]
    exact ⟨v, hvl, rfl⟩

/-- Specification: `w` bytes from position `k`. -/
def bytesAt (bs : Bytes) (k w : Nat) : Bytes := (bs.drop k).take w

/-- Specification: table bytes with the four bytes from 8 zeroed (how the checksum of `head` is defined). -/
def withoutAdjustment (b : Bytes) : Bytes := b.take 8 ++ [0, 0, 0, 0] ++ b.drop 12

/-- C20: layout of the saved file. For the table at place `before.length` of the table set, its directory
entry at `12 + 16 * before.length` holds its tag, checksum, offset and length; the offset is the end of the
directory plus the padded lengths of the tables before (so extents are contiguous and do not overlap), is a
multiple of four; the bytes there are the table's own, followed by zero padding; nothing lies outside the
file. Since `before` is any prefix of the ascending tag list, entries are sorted by tag. -/
theorem C20_directory (version : UInt32) (before after : List (Tag × Bytes)) (t : Tag) (b out : Bytes)
    (hs : AscendingTags (before ++ (t, b) :: after))
    (h : toBytes version (before ++ (t, b) :: after) = .ok out) (hsize : out.length < 2 ^ 32) :
    let n := (before ++ (t, b) :: after).length
    let off := 12 + 16 * n + (before.map fun x => roundUp4 x.2.length).sum
    let entry := 12 + 16 * before.length
    beValue (bytesAt out 4 2) = n ∧
    bytesAt out entry 4 = t.bytes ∧
    (¬ isHead t → beValue (bytesAt out (entry + 4) 4) = wordSum b % 2 ^ 32) ∧
    (isHead t → beValue (bytesAt out (entry + 4) 4) = wordSum (withoutAdjustment b) % 2 ^ 32) ∧
    beValue (bytesAt out (entry + 8) 4) = off ∧
    beValue (bytesAt out (entry + 12) 4) = b.length ∧
    off % 4 = 0 ∧
    (¬ isHead t → bytesAt out off b.length = b) ∧
    (isHead t → sameExceptAdjustment b (bytesAt out off b.length)) ∧
    bytesAt out (off + b.length) (roundUp4 b.length - b.length) =
      List.replicate (roundUp4 b.length - b.length) 0 ∧
    off + roundUp4 b.length + (after.map fun x => roundUp4 x.2.length).sum = out.length := by
  obtain ⟨hn, hok⟩ := ok_inv hs h
  obtain ⟨⟨a1, a2, a3⟩, e⟩ := getSearchRange_any _ hn
  have hs' := (ascending_iff _).mp hs
  obtain ⟨v, hvl, e2, _⟩ := toBytes_ok version _ a1 a2 a3 (by omega) hok hs' e
  rw [h] at e2
  simp only [Res.ok.injEq] at e2
  intro n off entry
  have hn' : n = (before ++ (t, b) :: after).length := rfl
  rw [← hn'] at e2 hn
  have hnn : n = before.length + (after.length + 1) := by rw [hn']; simp
  have hoff : off = 12 + 16 * n + sumPad before := by
    simp only [off, sumPad, roundUp4_eq]
  have hafter : (after.map fun x => roundUp4 x.2.length).sum = sumPad after := by
    simp only [sumPad, roundUp4_eq]
  have hmap : (before ++ (t, b) :: after).map (setAdj v) =
      before.map (setAdj v) ++ setAdj v (t, b) :: after.map (setAdj v) := by simp
  have hx := hok (t, b) (by simp)
  have hlx : (setAdj v (t, b)).2.length = b.length := setAdj_length hvl hx
  have hd1 : (dataOf (before.map (setAdj v))).length = sumPad before := by
    rw [dataOf_length before (fun x hx => setAdj_length hvl (hok x (by simp [hx]))), dataOf_len]
  have hd2 : (dataOf (after.map (setAdj v))).length = sumPad after := by
    rw [dataOf_length after (fun x hx => setAdj_length hvl (hok x (by simp [hx]))), dataOf_len]
  have hdata : dataOf ((before ++ (t, b) :: after).map (setAdj v)) =
      dataOf (before.map (setAdj v)) ++ padTo4 (setAdj v (t, b)).2 ++ dataOf (after.map (setAdj v)) := by
    rw [hmap]; simp [dataOf]
  have hrec : encVec encRec (recsL (16 * n + 12) (before ++ (t, b) :: after)) =
      encVec encRec (recsL (16 * n + 12) before) ++
        encRec ⟨t, checksum (setAdj Zero4 (t, b)).2, UInt32.ofNat (16 * n + 12 + sumPad before),
          UInt32.ofNat b.length⟩ ++
        encVec encRec (recsL (16 * n + 12 + sumPad before + pad4 b.length) after) := by
    rw [recsL_append, encVec_append, recsL, encVec_cons, List.append_assoc]
  rw [hdata, hrec] at e2
  have hR1 := recBytes_length (16 * n + 12) before
  have hR2 := recBytes_length (16 * n + 12 + sumPad before + pad4 b.length) after
  generalize encVec encRec (recsL (16 * n + 12) before) = R1 at e2 hR1
  generalize encVec encRec (recsL (16 * n + 12 + sumPad before + pad4 b.length) after) = R2 at e2 hR2
  generalize dataOf (before.map (setAdj v)) = D1 at e2 hd1
  generalize dataOf (after.map (setAdj v)) = D2 at e2 hd2
  have hlen : out.length = 12 + 16 * n + sumPad before + pad4 b.length + sumPad after := by
    rw [e2]
    simp only [List.length_append, encU32_length, encU16_length, encRec_length, hR1, hR2, hd1, hd2,
      padTo4_length, hlx]
    omega
  have hle := le_pad4 b.length
  have ho : (UInt32.ofNat (16 * n + 12 + sumPad before)).toNat = off := by
    simp only [UInt32.toNat_ofNat']; omega
  have hl : (UInt32.ofNat b.length).toNat = b.length := by
    simp only [UInt32.toNat_ofNat']; omega
  have hnu : (UInt16.ofNat n).toNat = n := by simp only [UInt16.toNat_ofNat']; omega
  have hentry : entry = 12 + 16 * before.length := rfl
  have hslice : bytesAt out off b.length = (setAdj v (t, b)).2 := by
    have : out = (encU32 version ++ encU16 (UInt16.ofNat n) ++ encU16 a1 ++ encU16 a2 ++ encU16 a3 ++ R1 ++
        encRec ⟨t, checksum (setAdj Zero4 (t, b)).2, UInt32.ofNat (16 * n + 12 + sumPad before),
          UInt32.ofNat b.length⟩ ++ R2 ++ D1) ++ (setAdj v (t, b)).2 ++
        (List.replicate ((4 - b.length % 4) % 4) 0 ++ D2) := by
      rw [e2]; simp only [padTo4, hlx, List.append_assoc]
    unfold bytesAt
    rw [this, at_append _ _ _ ?_ hlx.symm]
    simp only [List.length_append, encU32_length, encU16_length, encRec_length, hR1, hR2, hd1]
    omega
  have hsum := sumPad_mod before
  have hck : beValue (bytesAt out (entry + 4) 4) = (checksum (setAdj Zero4 (t, b)).2).toNat := by
    have : out = (encU32 version ++ encU16 (UInt16.ofNat n) ++ encU16 a1 ++ encU16 a2 ++ encU16 a3 ++ R1 ++
        encTag t) ++ encU32 (checksum (setAdj Zero4 (t, b)).2) ++
          (encU32 (UInt32.ofNat (16 * n + 12 + sumPad before)) ++
          encU32 (UInt32.ofNat b.length) ++ R2 ++ (D1 ++ padTo4 (setAdj v (t, b)).2 ++ D2)) := by
      rw [e2]; simp only [encRec, List.append_assoc]
    rw [this]
    refine field_append32 _ _ _ ?_
    simp only [List.length_append, encU32_length, encU16_length, encTag_length, hR1]
    omega
  refine ⟨?_, ?_, ?_, ?_, ?_, ?_, by omega, ?_, ?_, ?_, ?_⟩
  · have : out = encU32 version ++ encU16 (UInt16.ofNat n) ++ (encU16 a1 ++ encU16 a2 ++ encU16 a3 ++ (R1 ++
        encRec ⟨t, checksum (setAdj Zero4 (t, b)).2, UInt32.ofNat (16 * n + 12 + sumPad before),
          UInt32.ofNat b.length⟩ ++ R2) ++ (D1 ++ padTo4 (setAdj v (t, b)).2 ++ D2)) := by
      rw [e2]; simp only [List.append_assoc]
    rw [this]
    exact (field_append16 (k := 4) _ _ _ rfl).trans hnu
  · have : out = (encU32 version ++ encU16 (UInt16.ofNat n) ++ encU16 a1 ++ encU16 a2 ++ encU16 a3 ++ R1) ++
        t.bytes ++ (encU32 (checksum (setAdj Zero4 (t, b)).2) ++
          encU32 (UInt32.ofNat (16 * n + 12 + sumPad before)) ++
          encU32 (UInt32.ofNat b.length) ++ R2 ++ (D1 ++ padTo4 (setAdj v (t, b)).2 ++ D2)) := by
      rw [e2]; simp only [encRec, List.append_assoc]; rfl
    unfold bytesAt
    rw [this, at_append (w := 4) _ _ _ ?_ rfl]
    simp only [List.length_append, encU32_length, encU16_length, hR1]
    omega
  · intro hne
    have : (setAdj Zero4 (t, b)).2 = b := by
      unfold setAdj; rw [if_neg (by rwa [← isHead_iff])]
    rw [hck, this, C18_checksum]
  · intro he
    have : (setAdj Zero4 (t, b)).2 = withoutAdjustment b := by
      unfold setAdj; rw [if_pos ((isHead_iff t).mp he)]; rfl
    rw [hck, this, C18_checksum]
  · rw [← ho]
    have : out = (encU32 version ++ encU16 (UInt16.ofNat n) ++ encU16 a1 ++ encU16 a2 ++ encU16 a3 ++ R1 ++
        encTag t ++ encU32 (checksum (setAdj Zero4 (t, b)).2)) ++
          encU32 (UInt32.ofNat (16 * n + 12 + sumPad before)) ++
          (encU32 (UInt32.ofNat b.length) ++ R2 ++ (D1 ++ padTo4 (setAdj v (t, b)).2 ++ D2)) := by
      rw [e2]; simp only [encRec, List.append_assoc]
    rw [this]
    refine field_append32 _ _ _ ?_
    simp only [List.length_append, encU32_length, encU16_length, encTag_length, hR1]
    omega
  · rw [← hl]
    have : out = (encU32 version ++ encU16 (UInt16.ofNat n) ++ encU16 a1 ++ encU16 a2 ++ encU16 a3 ++ R1 ++
        encTag t ++ encU32 (checksum (setAdj Zero4 (t, b)).2) ++
          encU32 (UInt32.ofNat (16 * n + 12 + sumPad before))) ++
          encU32 (UInt32.ofNat b.length) ++ (R2 ++ (D1 ++ padTo4 (setAdj v (t, b)).2 ++ D2)) := by
      rw [e2]; simp only [encRec, List.append_assoc]
    rw [this]
    refine (field_append32 _ _ _ ?_)
    simp only [List.length_append, encU32_length, encU16_length, encTag_length, hR1]
    omega
  · intro hne
    rw [hslice]
    unfold setAdj; rw [if_neg (by rwa [← isHead_iff])]
  · intro he
    rw [hslice]
    unfold setAdj; rw [if_pos ((isHead_iff t).mp he)]
    exact ⟨v, hvl, rfl⟩
  · have hpad : roundUp4 b.length - b.length = (4 - b.length % 4) % 4 := by unfold roundUp4; omega
    have : out = (encU32 version ++ encU16 (UInt16.ofNat n) ++ encU16 a1 ++ encU16 a2 ++ encU16 a3 ++ R1 ++
        encRec ⟨t, checksum (setAdj Zero4 (t, b)).2, UInt32.ofNat (16 * n + 12 + sumPad before),
          UInt32.ofNat b.length⟩ ++ R2 ++ D1 ++ (setAdj v (t, b)).2) ++
        List.replicate ((4 - b.length % 4) % 4) 0 ++ D2 := by
      rw [e2]; simp only [padTo4, hlx, List.append_assoc]
    unfold bytesAt
    rw [this, hpad, at_append _ _ _ ?_ (by simp)]
    simp only [List.length_append, encU32_length, encU16_length, encRec_length, hR1, hR2, hd1, hlx]
    omega
  · rw [hafter, roundUp4_eq]; omega

/-! ## C21 -/

/-- C21: for `1 ≤ n < 4096` tables the search fields are the OpenType ones. -/
theorem C21_search_fields (n : Nat) (h1 : 1 ≤ n) (h2 : n < 4096) :
    ∃ sr es rs k, getSearchRange (UInt16.ofNat n) 16 = .ok (sr, es, rs) ∧
      2 ^ k ≤ n ∧ n < 2 ^ (k + 1) ∧ es.toNat = k ∧ sr.toNat = 16 * 2 ^ k ∧
      rs.toNat = 16 * n - 16 * 2 ^ k := by
  obtain ⟨q, e1, e2, e3⟩ := getSearchRange_ok n h1 h2
  refine ⟨_, _, _, q, e3, e1, e2, ?_, ?_, ?_⟩
  · have : q < 2 ^ q := Nat.lt_two_pow_self
    simp only [UInt16.toNat_ofNat']; omega
  · simp only [UInt16.toNat_ofNat']; omega
  · simp only [UInt16.toNat_ofNat']; omega

/-- From 4096 tables on, the 16-bit multiplication overflows. -/
theorem C21_overflow (n : Nat) (h1 : 4096 ≤ n) (h2 : n ≤ 65535) :
    getSearchRange (UInt16.ofNat n) 16 = .panic := getSearchRange_panic n h1 h2

/-- These fields are the ones written at bytes 6, 8 and 10 of the file. -/
theorem C21_written (version : UInt32) (tables : List (Tag × Bytes)) (out : Bytes) (hs : AscendingTags tables)
    (h : toBytes version tables = .ok out) :
    ∃ sr es rs, getSearchRange (UInt16.ofNat tables.length) 16 = .ok (sr, es, rs) ∧
      beValue (bytesAt out 0 4) = version.toNat ∧ beValue (bytesAt out 6 2) = sr.toNat ∧
      beValue (bytesAt out 8 2) = es.toNat ∧ beValue (bytesAt out 10 2) = rs.toNat := by
  obtain ⟨hn, hok⟩ := ok_inv hs h
  obtain ⟨⟨a1, a2, a3⟩, e⟩ := getSearchRange_any _ hn
  have hs' := (ascending_iff _).mp hs
  obtain ⟨v, hvl, e2, _⟩ := toBytes_ok version _ a1 a2 a3 (by omega) hok hs' e
  rw [h] at e2
  simp only [Res.ok.injEq] at e2
  subst e2
  simp only [List.append_assoc]
  refine ⟨a1, a2, a3, e, ?_, ?_, ?_, ?_⟩
  · have := field_append32 [] version (encU16 (UInt16.ofNat tables.length) ++ (encU16 a1 ++ (encU16 a2 ++
      (encU16 a3 ++ (encVec encRec (recsL (16 * tables.length + 12) tables) ++
        dataOf (tables.map (setAdj v))))))) (k := 0) rfl
    simpa [field, bytesAt] using this
  · have := field_append16 (encU32 version ++ encU16 (UInt16.ofNat tables.length)) a1 (encU16 a2 ++
      (encU16 a3 ++ (encVec encRec (recsL (16 * tables.length + 12) tables) ++
        dataOf (tables.map (setAdj v))))) (k := 6) rfl
    simpa [field, bytesAt] using this
  · have := field_append16 (encU32 version ++ encU16 (UInt16.ofNat tables.length) ++ encU16 a1) a2
      (encU16 a3 ++ (encVec encRec (recsL (16 * tables.length + 12) tables) ++
        dataOf (tables.map (setAdj v)))) (k := 8) rfl
    simpa [field, bytesAt] using this
  · have := field_append16 (encU32 version ++ encU16 (UInt16.ofNat tables.length) ++ encU16 a1 ++ encU16 a2) a3
      (encVec encRec (recsL (16 * tables.length + 12) tables) ++
        dataOf (tables.map (setAdj v))) (k := 10) rfl
    simpa [field, bytesAt] using this

/-! ## C22 -/

/-- Specification: the header is complete, has a known version, the directory is complete and its tags are
printable ASCII. -/
def DirectoryReadable (bs : Bytes) : Prop :=
  12 ≤ bs.length ∧ (beValue (bytesAt bs 0 4) = 0x00010000 ∨ bytesAt bs 0 4 = ascii "OTTO") ∧
  12 + 16 * beValue (bytesAt bs 4 2) ≤ bs.length ∧
  ∀ i < beValue (bytesAt bs 4 2), ∀ c ∈ bytesAt bs (12 + 16 * i) 4, 0x20 ≤ c ∧ c ≤ 0x7E

/-- Specification: directory entry `i` describes bytes inside the file. -/
def EntryInside (bs : Bytes) (i : Nat) : Prop :=
  beValue (bytesAt bs (12 + 16 * i + 8) 4) + beValue (bytesAt bs (12 + 16 * i + 12) 4) ≤ bs.length

theorem beValue_otto (l : Bytes) (h : l.length = 4) :
    l = ascii "OTTO" ↔ beValue l = 0x4F54544F := by
  have : ascii "OTTO" = [0x4F, 0x54, 0x54, 0x4F] := by decide
  rw [this]
  match l, h with
  | [a, b, c, d], _ =>
    have := a.toNat_lt; have := b.toNat_lt; have := c.toNat_lt; have := d.toNat_lt
    simp only [beValue, List.foldl, List.cons.injEq, and_true, ← UInt8.toNat_inj]
    simp
    omega

theorem directoryReadable_iff (bs : Bytes) : DirectoryReadable bs ↔ DirOk bs := by
  unfold DirectoryReadable DirOk
  apply and_congr_right
  intro h
  have hl : (bytesAt bs 0 4).length = 4 := by simp [bytesAt]; omega
  rw [beValue_otto _ hl]
  apply and_congr_right
  intro _
  apply and_congr Iff.rfl
  apply forall_congr'
  intro i
  apply forall_congr'
  intro hi
  simp only [tagAt, List.all_eq_true, tagByteOk, Bool.and_eq_true, decide_eq_true_eq]
  rfl

/-- C22: loading reports an error exactly when header or directory are unreadable; with a readable directory
it succeeds if every entry lies inside the file and crashes otherwise. -/
theorem C22_load_outcome (bs : Bytes) :
    (readTables (Rd.new bs) = .err ↔ ¬ DirectoryReadable bs) ∧
    (readTables (Rd.new bs) = .panic ↔
      DirectoryReadable bs ∧ ∃ i < beValue (bytesAt bs 4 2), ¬ EntryInside bs i) ∧
    ((∃ x, readTables (Rd.new bs) = .ok x) ↔
      DirectoryReadable bs ∧ ∀ i < beValue (bytesAt bs 4 2), EntryInside bs i) := by
  rw [directoryReadable_iff]
  obtain ⟨h1, h2, h3⟩ := readTables_cases bs
  by_cases hd : DirOk bs
  · by_cases hx : ∀ i < beValue (bytesAt bs 4 2), EntryInside bs i
    · obtain ⟨x, e⟩ := h3 hd hx
      rw [e]
      refine ⟨by simp [hd], ⟨by simp, fun ⟨_, i, hi, h⟩ => absurd (hx i hi) h⟩, by simp [hd]; exact hx⟩
    · have hx' : ∃ i < beValue (bytesAt bs 4 2), ¬ EntryInside bs i := by
        apply Classical.byContradiction
        intro hc
        exact hx (fun i hi => Classical.byContradiction (fun h => hc ⟨i, hi, h⟩))
      obtain ⟨i, hi, hn⟩ := hx'
      have e := h2 hd ⟨i, hi, by unfold EntryInside at hn; exact Nat.lt_of_not_le hn⟩
      rw [e]
      refine ⟨by simp [hd], ⟨fun _ => ⟨hd, i, hi, hn⟩, fun _ => rfl⟩, ⟨fun ⟨_, h⟩ => (by cases h), fun ⟨_, h⟩ => absurd h hx⟩⟩
  · rw [h1 hd]
    refine ⟨by simp [hd], ⟨by simp, fun h => absurd h.1 hd⟩, ⟨fun ⟨_, h⟩ => (by cases h), fun h => absurd h.1 hd⟩⟩

/-- A 28-byte file whose single entry points past its end crashes the loader. -/
theorem C22_malformed_crashes :
    readTables (Rd.new ([0, 1, 0, 0, 0, 1, 0, 16, 0, 0, 0, 0] ++ [0x68, 0x65, 0x61, 0x64, 0, 0, 0, 0,
      0, 0, 0, 28, 0, 0, 0, 1])) = .panic := by
  rw [(C22_load_outcome _).2.1]
  refine ⟨⟨by decide, by decide, by decide, by decide⟩, 0, by decide, by unfold EntryInside; decide⟩

/-! Concrete cases meeting the hypotheses. -/

/-- Two tables, `head` of 13 bytes and `name` of 3 bytes. -/
def sampleTables : List (Tag × Bytes) :=
  [(⟨0x68, 0x65, 0x61, 0x64⟩, [1, 2, 3, 4, 5, 6, 7, 8, 9, 10, 11, 12, 13]), (⟨0x6E, 0x61, 0x6D, 0x65⟩, [1, 2, 3])]

example : AscendingTags sampleTables := by
  unfold AscendingTags sampleTables
  simp [beValue, Tag.bytes]
example : ∃ t b, (t, b) ∈ sampleTables ∧ isHead t :=
  ⟨headTag, [1, 2, 3, 4, 5, 6, 7, 8, 9, 10, 11, 12, 13], by decide, (isHead_iff _).mpr rfl⟩
example : ∀ t b, (t, b) ∈ sampleTables → t.Valid := by
  intro t b h
  simp only [sampleTables, List.mem_cons, Prod.mk.injEq, List.not_mem_nil, or_false] at h
  rcases h with ⟨rfl, _⟩ | ⟨rfl, _⟩ <;> decide
example : toBytes 0x00010000 sampleTables = .ok
    [0, 1, 0, 0, 0, 2, 0, 32, 0, 1, 0, 0, 104, 101, 97, 100, 19, 8, 10, 12, 0, 0, 0, 44, 0, 0, 0, 13, 110, 97, 109, 101,
     1, 2, 3, 0, 0, 0, 0, 60, 0, 0, 0, 3, 1, 2, 3, 4, 5, 6, 7, 8, 178, 209, 198, 65, 13, 0, 0, 0, 1, 2, 3, 0] := by
  decide

end FT.Props
