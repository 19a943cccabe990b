import Verif.Model.Strings
import Verif.Lemmas.Reads
import Verif.Props.Primitives
import Verif.Lemmas.ResBind
import Mathlib.Tactic.Linarith
import Mathlib.Algebra.BigOperators.Group.List.Basic

/-! C50: the `name` table. -/

namespace FT.Props
open FT FT.Strings FT.Reader

/-! ### UTF-16 -/

theorem pairUp_u16 {n : Nat} (h : n < 65536) (rest : Bytes) : pairUp (encU16 (UInt16.ofNat n) ++ rest) = n :: pairUp rest := by
  have e : (UInt16.ofNat n).toNat = n := by
    rw [UInt16.toNat_ofNat']; exact Nat.mod_eq_of_lt (by simpa using h)
  simp only [encU16, e, List.cons_append, List.nil_append, pairUp, List.cons.injEq, and_true]
  rw [UInt8.toNat_ofNat', UInt8.toNat_ofNat']
  omega

theorem units_single {u : Nat} (h : ¬ (0xD800 ≤ u ∧ u ≤ 0xDFFF)) (rest : List Nat) :
    utf16Units (u :: rest) = Char.ofNat u :: utf16Units rest := by
  cases rest with
  | nil => simp only [utf16Units]; rw [if_neg h]
  | cons v rest =>
    simp only [utf16Units]
    rw [if_neg (by omega), if_neg (by omega)]

theorem char_ofNat_toNat (c : Char) : Char.ofNat c.toNat = c := by
  simp

theorem utf16_cons (c : Char) (rest : Bytes) : utf16Decode (utf16Char c ++ rest) = c :: utf16Decode rest := by
  have hv : c.toNat < 0xD800 ∨ (0xDFFF < c.toNat ∧ c.toNat < 0x110000) := c.valid
  unfold utf16Char utf16Decode
  split
  · rename_i h
    rw [pairUp_u16 h, units_single (by omega), char_ofNat_toNat]
  · rename_i h
    rw [List.append_assoc, pairUp_u16 (by omega), pairUp_u16 (by omega)]
    simp only [utf16Units]
    rw [if_pos (by omega), if_pos (by omega)]
    have : 0x10000 + (0xD800 + (c.toNat - 0x10000) / 1024 - 0xD800) * 1024 +
        (0xDC00 + (c.toNat - 0x10000) % 1024 - 0xDC00) = c.toNat := by omega
    rw [this, char_ofNat_toNat]

/-- UTF-16 strings, with characters of any plane, decode to themselves. -/
theorem C50_utf16 (s : List Char) : utf16Decode (utf16Encode s) = s := by
  induction s with
  | nil => rfl
  | cons c s ih =>
    rw [show utf16Encode (c :: s) = utf16Char c ++ utf16Encode s from rfl, utf16_cons, ih]

/-! ### The table -/

/-- The platforms and encodings the library knows. -/
def Supported (r : NameRecord) : Prop :=
  r.platformID = 0 ∨ r.platformID = 1 ∨ (r.platformID = 2 ∧ r.encodingID ≤ 2) ∨ (r.platformID = 3 ∧ r.encodingID ≠ 6)

theorem encoding_supported {r : NameRecord} : (∃ e, getEncoding r.platformID r.encodingID = .ok e) ↔ Supported r := by
  unfold Supported getEncoding
  generalize r.platformID = p
  generalize r.encodingID = e
  constructor
  · rintro ⟨x, h⟩
    by_cases h0 : p = 0
    · exact Or.inl h0
    by_cases h1 : p = 1
    · exact Or.inr (Or.inl h1)
    rw [if_neg h0, if_neg h1] at h
    right; right
    by_cases h2 : p = 2
    · left
      refine ⟨h2, ?_⟩
      rw [if_pos h2] at h
      by_cases e0 : e = 0
      · rw [e0]; decide
      by_cases e1 : e = 1
      · rw [e1]; decide
      by_cases e2 : e = 2
      · rw [e2]; decide
      rw [if_neg e0, if_neg e1, if_neg e2] at h
      cases h
    · right
      rw [if_neg h2] at h
      by_cases h3 : p = 3
      · refine ⟨h3, ?_⟩
        intro e6
        rw [if_pos h3, e6] at h
        cases h
      · rw [if_neg h3] at h
        cases h
  · rintro (rfl | rfl | ⟨rfl, h⟩ | ⟨rfl, h⟩)
    · exact ⟨_, rfl⟩
    · simp only [if_neg (show ¬ (1 : UInt16) = 0 by decide)]
      split_ifs <;> exact ⟨_, rfl⟩
    · simp only [if_neg (show ¬ (2 : UInt16) = 0 by decide), if_neg (show ¬ (2 : UInt16) = 1 by decide)]
      have : e = 0 ∨ e = 1 ∨ e = 2 := by
        have h' : e.toNat ≤ 2 := h
        have : e.toNat = 0 ∨ e.toNat = 1 ∨ e.toNat = 2 := by omega
        rcases this with k | k | k
        · left; exact UInt16.toNat_inj.1 k
        · right; left; exact UInt16.toNat_inj.1 k
        · right; right; exact UInt16.toNat_inj.1 k
      rcases this with rfl | rfl | rfl <;> exact ⟨_, rfl⟩
    · simp only [if_neg (show ¬ (3 : UInt16) = 0 by decide), if_neg (show ¬ (3 : UInt16) = 1 by decide),
        if_neg (show ¬ (3 : UInt16) = 2 by decide)]
      split_ifs <;> exact ⟨_, rfl⟩

/-- The string survives the record's own encoding. -/
def Encodable (lib : Legacy) (r : NameRecord) : Prop :=
  ∀ e, getEncoding r.platformID r.encodingID = .ok e → decodeString lib e (encodeString lib e r.string) = r.string

/-- The bytes of a record's string. -/
def stringBytes (lib : Legacy) (r : NameRecord) : Bytes := match getEncoding r.platformID r.encodingID with
  | .ok e => encodeString lib e r.string
  | _ => []

/-- The bytes of all strings before record `i`. -/
def bytesBefore (lib : Legacy) (rs : List NameRecord) (i : Nat) : Nat :=
  ((rs.take i).map fun r => (stringBytes lib r).length).sum

/-- No string is longer, nor starts later, than 16 bits can tell. -/
def StringsFit (lib : Legacy) (rs : List NameRecord) : Prop :=
  ∀ i (h : i < rs.length), (stringBytes lib rs[i]).length ≤ 65535 ∧ bytesBefore lib rs i ≤ 65535

theorem encNames_ok (lib : Legacy) : ∀ (rs : List NameRecord) (used : Nat), (∀ r ∈ rs, Supported r) →
    ∃ irs pool, encNames lib used rs = .ok (encVec encNameInternal irs, pool) ∧ irs.length = rs.length ∧
      pool = (rs.map (stringBytes lib)).flatten ∧
      ∀ i (h : i < rs.length) (h' : i < irs.length), irs[i] =
        internalRecord rs[i] (stringBytes lib rs[i]).length (used + bytesBefore lib rs i)
  | [], used, _ => ⟨[], [], rfl, rfl, rfl, by simp⟩
  | r :: rs, used, hs => by
    obtain ⟨e, he⟩ := encoding_supported.2 (hs r (by simp))
    have hb : stringBytes lib r = encodeString lib e r.string := by unfold stringBytes; rw [he]
    obtain ⟨irs, pool, h1, h2, h3, h4⟩ := encNames_ok lib rs (used + (stringBytes lib r).length)
      fun x hx => hs x (List.mem_cons_of_mem _ hx)
    refine ⟨internalRecord r (stringBytes lib r).length used :: irs, stringBytes lib r ++ pool, ?_, by simp [h2],
      by simp [h3], ?_⟩
    · simp only [encNames, he, Res.ok_bind]
      rw [← hb, h1, Res.ok_bind, encVec_cons]; rfl
    · intro i h h'
      cases i with
      | zero => simp [bytesBefore]
      | succ i =>
        simp only [List.getElem_cons_succ]
        rw [h4 i (by simpa using h) (by simpa using h')]
        simp only [bytesBefore, List.take_succ_cons, List.map_cons, List.sum_cons, Nat.add_assoc]

theorem encNameInternal_length (r : NameInternal) : (encNameInternal r).length = 12 := by
  simp [encNameInternal]

/-- A written table, piece by piece. -/
theorem encName_ok {lib : Legacy} {rs : List NameRecord} (hn : rs.length ≤ 5460) (hs : ∀ r ∈ rs, Supported r) :
    ∃ irs, encName lib rs = .ok (encU16 0 ++ (encU16 (UInt16.ofNat rs.length) ++ (encU16 (UInt16.ofNat (6 + 12 * rs.length)) ++
        (encVec encNameInternal irs ++ (rs.map (stringBytes lib)).flatten)))) ∧ irs.length = rs.length ∧
      ∀ i (h : i < rs.length) (h' : i < irs.length), irs[i] =
        internalRecord rs[i] (stringBytes lib rs[i]).length (bytesBefore lib rs i) := by
  obtain ⟨irs, pool, h1, h2, h3, h4⟩ := encNames_ok lib rs 0 hs
  refine ⟨irs, ?_, h2, by simpa using h4⟩
  unfold encName
  simp only
  rw [Nat.mod_eq_of_lt (by omega), if_pos (by omega), h1, Res.ok_bind, ← h3]
  rfl

theorem reads_bytes (bs : Bytes) {n : Nat} (h : n = bs.length) : Reads (deCounted readU8 n) bs bs := by
  have := reads_deCounted' (p := readU8) (enc := encU8) h fun a _ => reads_u8 a
  rwa [encVec_u8] at this

theorem reads_nameInternal (r : NameInternal) : Reads readNameInternal (encNameInternal r) r := by
  unfold readNameInternal encNameInternal
  refine Reads.bind (reads_u16 _) (Reads.bind (reads_u16 _) (Reads.bind (reads_u16 _) (Reads.bind (reads_u16 _)
    (Reads.bind (reads_u16 _) ?_))))
  exact (reads_u16 r.stringOffset).map fun n => NameInternal.mk r.platformID r.encodingID r.languageID r.nameID r.length n

theorem readNames_ok (lib : Legacy) (A rest : Bytes) (stk : List Nat) : ∀ (rs : List NameRecord) (irs : List NameInternal)
    (P : Bytes), (∀ r ∈ rs, Supported r) → (∀ r ∈ rs, Encodable lib r) → irs.length = rs.length →
    (∀ i (h : i < rs.length), (stringBytes lib rs[i]).length ≤ 65535 ∧ P.length + bytesBefore lib rs i ≤ 65535) →
    (∀ i (h : i < rs.length) (h' : i < irs.length), irs[i] =
        internalRecord rs[i] (stringBytes lib rs[i]).length (P.length + bytesBefore lib rs i)) →
    readNames lib irs ⟨A ++ (P ++ ((rs.map (stringBytes lib)).flatten ++ rest)), A.length + P.length, A.length :: stk⟩ =
      .ok (rs, ⟨A ++ (P ++ ((rs.map (stringBytes lib)).flatten ++ rest)),
        A.length + P.length + ((rs.map (stringBytes lib)).flatten).length, A.length :: stk⟩)
  | [], [], P, _, _, _, _, _ => by simp [readNames, pure_run]
  | r :: rs, ir :: irs, P, hs, he, hl, hf, hi => by
    have h0 := hi 0 (by simp) (by simp)
    simp only [List.getElem_cons_zero, bytesBefore, List.take_zero, List.map_nil, List.sum_nil, Nat.add_zero] at h0
    have f0 := hf 0 (by simp)
    simp only [List.getElem_cons_zero, bytesBefore, List.take_zero, List.map_nil, List.sum_nil, Nat.add_zero] at f0
    obtain ⟨e, hee⟩ := encoding_supported.2 (hs r (by simp))
    have hb : stringBytes lib r = encodeString lib e r.string := by unfold stringBytes; rw [hee]
    have ih := readNames_ok lib A rest stk rs irs (P ++ stringBytes lib r) (fun x hx => hs x (List.mem_cons_of_mem _ hx))
      (fun x hx => he x (List.mem_cons_of_mem _ hx)) (by simpa using hl)
      (by
        intro i h
        have := hf (i + 1) (by simpa using h)
        simpa [bytesBefore, Nat.add_assoc] using this)
      (by
        intro i h h'
        have := hi (i + 1) (by simpa using h) (by simpa using h')
        simpa [bytesBefore, Nat.add_assoc] using this)
    have hsame : A ++ (P ++ stringBytes lib r ++ ((rs.map (stringBytes lib)).flatten ++ rest)) =
        A ++ (P ++ (((r :: rs).map (stringBytes lib)).flatten ++ rest)) := by simp
    rw [hsame] at ih
    obtain ⟨inp, hinp⟩ : ∃ inp, inp = A ++ (P ++ (((r :: rs).map (stringBytes lib)).flatten ++ rest)) := ⟨_, rfl⟩
    rw [← hinp] at ih ⊢
    have hone : readOneName lib ir ⟨inp, A.length + P.length, A.length :: stk⟩ =
        .ok (r, ⟨inp, A.length + P.length + (stringBytes lib r).length, A.length :: stk⟩) := by
      unfold readOneName
      rw [bind_run]; simp only [topOfTable]
      rw [bind_run]; simp only [setPtr]
      have hrd := reads_bytes (stringBytes lib r) (n := ir.length.toNat) (by
        rw [h0]; simp only [internalRecord]; exact ofNat16_toNat f0.1) (A ++ P)
        ((rs.map (stringBytes lib)).flatten ++ rest) (A.length :: stk)
      have hoff : ir.stringOffset.toNat = P.length := by
        rw [h0]; simp only [internalRecord]; exact ofNat16_toNat f0.2
      have hs2 : A ++ P ++ stringBytes lib r ++ ((rs.map (stringBytes lib)).flatten ++ rest) = inp := by
        rw [hinp]; simp
      rw [hs2, List.length_append] at hrd
      rw [hoff, bind_run, hrd]; simp only
      have hp : getEncoding ir.platformID ir.encodingID = .ok e := by rw [h0]; exact hee
      rw [bind_run, hp]; simp only [Reader.lift, pure_run]
      rw [hb, he r (by simp) e hee, h0]
      rfl
    unfold readNames
    rw [bind_run, hone]; simp only
    have ep : A.length + P.length + (stringBytes lib r).length = A.length + (P ++ stringBytes lib r).length := by
      simp [Nat.add_assoc]
    rw [ep, bind_run, ih]; simp only [pure_run]
    simp [Nat.add_assoc]
  | [], _ :: _, _, _, _, hl, _, _ => by simp at hl
  | _ :: _, [], _, _, _, hl, _, _ => by simp at hl

theorem readName_ok {lib : Legacy} {rs : List NameRecord} (hn : rs.length ≤ 5460) (hs : ∀ r ∈ rs, Supported r)
    (he : ∀ r ∈ rs, Encodable lib r) (hf : StringsFit lib rs) {irs : List NameInternal} (h2 : irs.length = rs.length)
    (h3 : ∀ i (h : i < rs.length) (h' : i < irs.length), irs[i] =
        internalRecord rs[i] (stringBytes lib rs[i]).length (bytesBefore lib rs i)) (fmt off : UInt16) :
    RoundTripsAt (readName lib) (encU16 fmt ++ (encU16 (UInt16.ofNat rs.length) ++ (encU16 off ++
        (encVec encNameInternal irs ++ (rs.map (stringBytes lib)).flatten)))) rs := by
  intro pre rest stk
  obtain ⟨pool, hpool⟩ : ∃ pool, pool = (rs.map (stringBytes lib)).flatten := ⟨_, rfl⟩
  rw [← hpool]
  obtain ⟨inp, hinp⟩ : ∃ inp, inp = pre ++ (encU16 fmt ++ (encU16 (UInt16.ofNat rs.length) ++
    (encU16 off ++ (encVec encNameInternal irs ++ pool)))) ++ rest := ⟨_, rfl⟩
  rw [← hinp]
  have hlen := encVec_length encNameInternal_length irs
  unfold readName
  rw [bind_run]; simp only [skip]
  have r1 := reads_u16 (UInt16.ofNat rs.length) (pre ++ encU16 fmt) (encU16 off ++
    (encVec encNameInternal irs ++ pool) ++ rest) stk
  have e1 : pre ++ encU16 fmt ++ encU16 (UInt16.ofNat rs.length) ++ (encU16 off ++
    (encVec encNameInternal irs ++ pool) ++ rest) = inp := by rw [hinp]; simp only [List.append_assoc]
  rw [e1, List.length_append, encU16_length] at r1
  simp only [encU16_length] at r1
  rw [bind_run, r1]; simp only
  rw [bind_run]; simp only [skip]
  have r2 := reads_deCounted' (p := readNameInternal) (enc := encNameInternal) (l := irs)
    (n := (UInt16.ofNat rs.length).toNat) (by rw [ofNat16_toNat (by omega), h2]) (fun a _ => reads_nameInternal a)
    (pre ++ (encU16 fmt ++ (encU16 (UInt16.ofNat rs.length) ++ encU16 off))) (pool ++ rest) stk
  have e2 : (pre ++ (encU16 fmt ++ (encU16 (UInt16.ofNat rs.length) ++ encU16 off))) ++
    encVec encNameInternal irs ++ (pool ++ rest) = inp := by rw [hinp]; simp only [List.append_assoc]
  rw [e2] at r2
  simp only [List.length_append, encU16_length, ← Nat.add_assoc] at r2
  rw [bind_run]
  simp only [Nat.add_assoc, Nat.reduceAdd] at r2 ⊢
  rw [r2]; simp only
  rw [bind_run]; simp only [pushTop]
  have r3 := readNames_ok lib (pre ++ (encU16 fmt ++ (encU16 (UInt16.ofNat rs.length) ++
    (encU16 off ++ encVec encNameInternal irs)))) rest stk rs irs [] hs he h2
    (by simpa [StringsFit] using hf) (by simpa using h3)
  rw [← hpool] at r3
  have e3 : (pre ++ (encU16 fmt ++ (encU16 (UInt16.ofNat rs.length) ++
    (encU16 off ++ encVec encNameInternal irs)))) ++ ([] ++ (pool ++ rest)) = inp := by
    rw [hinp]; simp only [List.append_assoc, List.nil_append]
  rw [e3] at r3
  simp only [List.length_append, encU16_length, List.length_nil, Nat.add_zero] at r3
  have e4 : pre.length + (6 + (encVec encNameInternal irs).length) =
    pre.length + (2 + (2 + (2 + (encVec encNameInternal irs).length))) := by omega
  rw [e4, bind_run, r3]; simp only
  rw [bind_run]; simp only [popTop, pure_run]
  simp only [List.length_append, encU16_length, Nat.add_assoc]

/-- A table of at most 5460 records with known encodings, whose strings survive them and fit, reads back equal. -/
theorem C50_round_trip {lib : Legacy} {rs : List NameRecord} (hn : rs.length ≤ 5460) (hs : ∀ r ∈ rs, Supported r)
    (he : ∀ r ∈ rs, Encodable lib r) (hf : StringsFit lib rs) :
    ∃ bs, encName lib rs = .ok bs ∧ RoundTripsAt (readName lib) bs rs := by
  obtain ⟨irs, h1, h2, h3⟩ := encName_ok (lib := lib) hn hs
  refine ⟨_, h1, ?_⟩
  exact readName_ok hn hs he hf h2 h3 0 _

/-- The format and the storage offset of the header play no role in reading: whatever stands there, the table reads back. -/
theorem C50_storage_offset_ignored {lib : Legacy} {rs : List NameRecord} (hn : rs.length ≤ 5460)
    (hs : ∀ r ∈ rs, Supported r) (he : ∀ r ∈ rs, Encodable lib r) (hf : StringsFit lib rs) {bs : Bytes}
    (h : encName lib rs = .ok bs) (format offset : UInt16) :
    RoundTripsAt (readName lib) (encU16 format ++ ((bs.drop 2).take 2 ++ (encU16 offset ++ bs.drop 6))) rs := by
  obtain ⟨irs, h1, h2, h3⟩ := encName_ok (lib := lib) hn hs
  rw [h1] at h; cases h
  exact readName_ok hn hs he hf h2 h3 format offset

/-- A table whose strings do not follow the records at once: "A", stored at byte 20 as the header says, is read as "B". -/
def gapTable : Bytes := [0, 0, 0, 1, 0, 20, 0, 3, 0, 1, 4, 9, 0, 1, 0, 2, 0, 0, 0, 66, 0, 65]
/-- Legacy encodings play no part in the example. -/
def noLegacy : Legacy := ⟨fun _ _ => [], fun _ _ => []⟩
theorem C50_gap_misread :
    readName noLegacy (Rd.new gapTable) = .ok ([⟨3, 1, 0x409, 1, ['B']⟩], ⟨gapTable, 20, [0]⟩) := by decide +kernel

/-- Record `i` holds, in its last two fields, the length of its string and where it starts after the records, and those bytes
are the record's own string. -/
theorem C50_points {lib : Legacy} {rs : List NameRecord} (hn : rs.length ≤ 5460) (hs : ∀ r ∈ rs, Supported r)
    (hf : StringsFit lib rs) {bs : Bytes} (h : encName lib rs = .ok bs) {i : Nat} (hi : i < rs.length) :
    ∃ length offset : UInt16,
      (bs.drop (6 + 12 * i + 8)).take 4 = encU16 length ++ encU16 offset ∧
      (bs.drop (6 + 12 * rs.length + offset.toNat)).take length.toNat = stringBytes lib rs[i] := by
  obtain ⟨irs, h1, h2, h3⟩ := encName_ok (lib := lib) hn hs
  rw [h1] at h; cases h
  have h3i := h3 i hi (by omega)
  obtain ⟨f1, f2⟩ := hf i hi
  have hdr : ∀ (a b c : UInt16) (t : Bytes) (k : Nat), (encU16 a ++ (encU16 b ++ (encU16 c ++ t))).drop (6 + k) = t.drop k := by
    intro a b c t k; rw [← List.drop_drop]; rfl
  have split : ∀ (l : List NameInternal) (j : Nat) (hj : j < l.length) (t : Bytes),
      (encVec encNameInternal l ++ t).drop (12 * j) = encNameInternal l[j] ++ (encVec encNameInternal (l.drop (j + 1)) ++ t) := by
    intro l
    induction l with
    | nil => intro j hj; simp at hj
    | cons a l ih =>
      intro j hj t
      cases j with
      | zero => simp [encVec_cons]
      | succ j =>
        rw [encVec_cons, List.append_assoc, show 12 * (j + 1) = (encNameInternal a).length + 12 * j by
          rw [encNameInternal_length]; omega, ← List.drop_drop, List.drop_left, ih j (by simpa using hj)]
        simp
  refine ⟨UInt16.ofNat (stringBytes lib rs[i]).length, UInt16.ofNat (bytesBefore lib rs i), ?_, ?_⟩
  · rw [Nat.add_assoc, hdr, ← List.drop_drop, split irs i (by omega), h3i]
    rfl
  · rw [ofNat16_toNat f1, ofNat16_toNat f2, Nat.add_assoc, hdr, ← List.drop_drop,
      show 12 * rs.length = (encVec encNameInternal irs).length by rw [encVec_length encNameInternal_length, h2],
      List.drop_left]
    clear h1 h2 h3 h3i f1 f2 hf hs hn split hdr
    induction rs generalizing i with
    | nil => simp at hi
    | cons r rs ih =>
      cases i with
      | zero => simp [bytesBefore]
      | succ i =>
        have := ih (i := i) (by simpa using hi)
        simp only [bytesBefore, List.take_succ_cons, List.map_cons, List.sum_cons, List.flatten_cons,
          List.getElem_cons_succ] at this ⊢
        rw [← List.drop_drop, List.drop_left]
        exact this

/-- A Windows name made by the library survives whatever its characters. -/
theorem C50_windows_unicode (lib : Legacy) (n : UInt16) (s : List Char) :
    Supported (windowsUnicode n s) ∧ Encodable lib (windowsUnicode n s) := by
  unfold windowsUnicode
  constructor
  · right; right; right
    refine ⟨rfl, ?_⟩
    simp only
    split <;> decide
  · intro e he
    simp only at he ⊢
    have : e = .utf16be := by
      split at he <;> (simp only [getEncoding] at he; cases he; rfl)
    subst this
    exact C50_utf16 s

/-- Any Unicode or other UTF-16 record survives. -/
theorem C50_utf16_records (lib : Legacy) (r : NameRecord)
    (h : r.platformID = 0 ∨ (r.platformID = 3 ∧ (r.encodingID ≤ 1 ∨ 6 < r.encodingID))) :
    Supported r ∧ Encodable lib r := by
  have key : ∀ {a b : UInt16}, a = b ↔ a.toNat = b.toNat := UInt16.toNat_inj.symm
  constructor
  · rcases h with h | ⟨h, k⟩
    · exact Or.inl h
    · refine Or.inr (Or.inr (Or.inr ⟨h, ?_⟩))
      intro e; rw [e] at k; revert k; decide
  · intro e he
    have : e = .utf16be := by
      rcases h with h | ⟨h, k⟩
      · rw [h] at he; simp only [getEncoding] at he; cases he; rfl
      · rw [h] at he
        generalize r.encodingID = x at he k
        have k' : x.toNat ≤ 1 ∨ 6 < x.toNat := k
        have ne : ∀ m : UInt16, 2 ≤ m.toNat → m.toNat ≤ 6 → x ≠ m := by
          intro m h1 h2 e; rw [e] at k'; omega
        unfold getEncoding at he
        rw [if_neg (by decide), if_neg (by decide), if_neg (by decide), if_pos rfl] at he
        split_ifs at he with a1 a2 a3 a4 a5 a6 a7
        · cases he; rfl
        · cases he; rfl
        · exact absurd a3 (ne 2 (by decide) (by decide))
        · exact absurd a4 (ne 3 (by decide) (by decide))
        · exact absurd a5 (ne 4 (by decide) (by decide))
        · exact absurd a6 (ne 5 (by decide) (by decide))
        · cases he; rfl
    subst this
    exact C50_utf16 r.string

/-- A record of another platform makes the writer panic. -/
theorem C50_unsupported {lib : Legacy} {rs : List NameRecord} (h : ∃ r ∈ rs, ¬ Supported r) : encName lib rs = .panic := by
  have key : ∀ (rs : List NameRecord) (used : Nat), (∃ r ∈ rs, ¬ Supported r) → encNames lib used rs = .panic := by
    intro rs
    induction rs with
    | nil => rintro _ ⟨r, h, _⟩; simp at h
    | cons r rs ih =>
      intro used h
      have hcase : ∀ p e, getEncoding p e = .panic ∨ ∃ x, getEncoding p e = .ok x := by
        intro p e
        have good : ∀ (c : Prop) [Decidable c] (a b : Res Encoding), (a = .panic ∨ ∃ x, a = .ok x) →
            (b = .panic ∨ ∃ x, b = .ok x) → ((if c then a else b) = .panic ∨ ∃ x, (if c then a else b) = .ok x) := by
          intro c _ a b ha hb
          by_cases h : c
          · rw [if_pos h]; exact ha
          · rw [if_neg h]; exact hb
        unfold getEncoding
        repeat' apply good
        all_goals first | exact Or.inl rfl | exact Or.inr ⟨_, rfl⟩
      unfold encNames
      rcases hcase r.platformID r.encodingID with k | ⟨x, k⟩
      · rw [k]; rfl
      · rw [k, Res.ok_bind]
        have : ∃ r ∈ rs, ¬ Supported r := by
          obtain ⟨y, hy, ny⟩ := h
          rcases List.mem_cons.1 hy with e | e
          · rw [e] at ny; exact absurd (encoding_supported.1 ⟨x, k⟩) ny
          · exact ⟨y, e, ny⟩
        simp only
        rw [ih _ this]; rfl
  unfold encName
  simp only
  split
  · rw [key rs 0 h]; rfl
  · rfl

/-- From 5461 records on the writer panics. -/
theorem C50_too_many {lib : Legacy} {rs : List NameRecord} (h1 : 5461 ≤ rs.length) (h2 : rs.length ≤ 65535) :
    encName lib rs = .panic := by
  unfold encName
  simp only
  rw [Nat.mod_eq_of_lt (by omega), if_neg (by omega)]

/-- A string of 65536 bytes is written with length 0 and comes back empty. -/
theorem C50_long_string_lost (lib : Legacy) (n : UInt16) :
    ∃ bs, encName lib [windowsUnicode n (List.replicate 32768 'a')] = .ok bs ∧
      ∃ r', readName lib (Rd.new bs) = .ok ([windowsUnicode n []], r') := by
  obtain ⟨r, hr⟩ : ∃ r, r = windowsUnicode n (List.replicate 32768 'a') := ⟨_, rfl⟩
  have hany : (List.replicate 32768 'a').any (fun c => decide (0xffff < c.toNat)) = false := by
    rw [List.any_eq_false]; intro c hc; rw [(List.mem_replicate.1 hc).2]; decide
  have hr2 : r = ⟨3, 1, 0x409, n, List.replicate 32768 'a'⟩ := by
    rw [hr]; unfold windowsUnicode; rw [hany]; rfl
  have hlen : (stringBytes lib r).length = 65536 := by
    have e : ∀ k, (utf16Encode (List.replicate k 'a')).length = 2 * k := by
      intro k
      induction k with
      | zero => rfl
      | succ k ih =>
        rw [List.replicate_succ, show utf16Encode ('a' :: List.replicate k 'a') =
          utf16Char 'a' ++ utf16Encode (List.replicate k 'a') from rfl, List.length_append, ih,
          show (utf16Char 'a').length = 2 from rfl]; omega
    have hb : stringBytes lib r = utf16Encode (List.replicate 32768 'a') := by
      rw [hr2]; rfl
    rw [hb, e]
  obtain ⟨irs, h1, h2, h3⟩ := encName_ok (lib := lib) (rs := [r]) (by simp) (by
    intro x hx; rw [List.mem_singleton.1 hx, hr]; exact (C50_windows_unicode lib n _).1)
  rw [← hr]
  refine ⟨_, h1, ?_⟩
  obtain ⟨ir, rfl⟩ : ∃ ir, irs = [ir] := by
    cases irs with
    | nil => simp at h2
    | cons a l => cases l with
      | nil => exact ⟨a, rfl⟩
      | cons b l => simp at h2
  have hir := h3 0 (by simp) (by simp)
  simp only [List.getElem_cons_zero, bytesBefore, List.take_zero, List.map_nil, List.sum_nil] at hir
  rw [hlen, hr2] at hir
  obtain ⟨pool, hpool⟩ : ∃ pool, pool = ([r].map (stringBytes lib)).flatten := ⟨_, rfl⟩
  rw [← hpool]
  obtain ⟨inp, hinp⟩ : ∃ inp, inp = encU16 0 ++ (encU16 (UInt16.ofNat 1) ++
    (encU16 (UInt16.ofNat 18) ++ (encVec encNameInternal [ir] ++ pool))) := ⟨_, rfl⟩
  rw [show (6 + 12 * [r].length) = 18 from rfl, show [r].length = 1 from rfl, ← hinp]
  unfold readName Rd.new
  rw [bind_run]; simp only [skip]
  have r1 := reads_u16 (UInt16.ofNat 1) (encU16 0) (encU16 (UInt16.ofNat 18) ++
    (encVec encNameInternal [ir] ++ pool)) [0]
  have e1 : encU16 0 ++ encU16 (UInt16.ofNat 1) ++ (encU16 (UInt16.ofNat 18) ++
    (encVec encNameInternal [ir] ++ pool)) = inp := by rw [hinp]; simp only [List.append_assoc]
  simp only [e1, encU16_length] at r1
  rw [bind_run, r1]; simp only
  rw [bind_run]; simp only [skip]
  have r2 := reads_deCounted' (p := readNameInternal) (enc := encNameInternal) (l := [ir])
    (n := (UInt16.ofNat 1).toNat) (by rfl) (fun a _ => reads_nameInternal a)
    (encU16 0 ++ (encU16 (UInt16.ofNat 1) ++ encU16 (UInt16.ofNat 18))) pool [0]
  have e2 : (encU16 0 ++ (encU16 (UInt16.ofNat 1) ++ encU16 (UInt16.ofNat 18))) ++
    encVec encNameInternal [ir] ++ pool = inp := by rw [hinp]; simp only [List.append_assoc]
  rw [e2] at r2
  simp only [List.length_append, encU16_length, Nat.reduceAdd] at r2 ⊢
  rw [bind_run, r2]; simp only
  rw [bind_run]; simp only [pushTop]
  rw [hir]
  refine ⟨_, rfl⟩

/-- Three records in two UTF-16 encodings, one with a character outside the basic plane, and an empty string. -/
example (lib : Legacy) : let rs := [windowsUnicode 1 ['F', 'o', 'o'], windowsUnicode 4 [Char.ofNat 0x1F600],
      ⟨0, 3, 0, 2, []⟩]
    rs.length ≤ 5460 ∧ (∀ r ∈ rs, Supported r ∧ Encodable lib r) ∧ StringsFit lib rs := by
  refine ⟨by decide, ?_, ?_⟩
  · intro r hr
    simp only [List.mem_cons, List.not_mem_nil, or_false] at hr
    rcases hr with rfl | rfl | rfl
    · exact C50_windows_unicode lib _ _
    · exact C50_windows_unicode lib _ _
    · exact C50_utf16_records lib _ (Or.inl rfl)
  · intro i hi
    have : i = 0 ∨ i = 1 ∨ i = 2 := by simp at hi; omega
    rcases this with rfl | rfl | rfl <;> constructor <;> exact Nat.le_of_ble_eq_true rfl

end FT.Props
