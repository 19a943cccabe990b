import Verif.Lemmas.BitSet
import Verif.Props.SimpleTables
import Verif.Props.Cmap4Big

/-!
# C73: the `OS/2` table
-/

namespace FT.Props.Os2
open FT FT.Os2 FT.Reader FT.Props

/-! ### Specification -/

/-- The length of the table, by version. -/
def sizeOf (v : UInt16) : Nat :=
  if v.toNat = 0 then 78 else if v.toNat = 1 then 86 else if v.toNat ≤ 4 then 96 else 100

/-- A field that the table has from some version on: a missing one becomes 0, and one that the version does not have is lost. -/
def since {α : Type} [OfNat α 0] (v : UInt16) (first : Nat) (x : Option α) : Option α :=
  if first ≤ v.toNat then some (x.getD 0) else none

/-- What is left of a table. -/
def kept (o : Os2) : Os2 where
  core := o.core
  ulCodePageRange1 := since o.core.version 1 o.ulCodePageRange1
  ulCodePageRange2 := since o.core.version 1 o.ulCodePageRange2
  sxHeight := since o.core.version 2 o.sxHeight
  sCapHeight := since o.core.version 2 o.sCapHeight
  usDefaultChar := since o.core.version 2 o.usDefaultChar
  usBreakChar := since o.core.version 2 o.usBreakChar
  usMaxContext := since o.core.version 2 o.usMaxContext
  usLowerOpticalPointSize := since o.core.version 5 o.usLowerOpticalPointSize
  usUpperOpticalPointSize := since o.core.version 5 o.usUpperOpticalPointSize

/-- The table has the fields of its version and no others. -/
def Plain (o : Os2) : Prop :=
  (o.ulCodePageRange1.isSome ↔ 1 ≤ o.core.version.toNat) ∧ (o.ulCodePageRange2.isSome ↔ 1 ≤ o.core.version.toNat) ∧
  (o.sxHeight.isSome ↔ 2 ≤ o.core.version.toNat) ∧ (o.sCapHeight.isSome ↔ 2 ≤ o.core.version.toNat) ∧
  (o.usDefaultChar.isSome ↔ 2 ≤ o.core.version.toNat) ∧ (o.usBreakChar.isSome ↔ 2 ≤ o.core.version.toNat) ∧
  (o.usMaxContext.isSome ↔ 2 ≤ o.core.version.toNat) ∧
  (o.usLowerOpticalPointSize.isSome ↔ 5 ≤ o.core.version.toNat) ∧
  (o.usUpperOpticalPointSize.isSome ↔ 5 ≤ o.core.version.toNat)

/-! ### Proofs -/

theorem reads_panose (p : Panose) : Reads readPanose (encPanose p) p := by
  unfold encPanose readPanose
  exact Reads.bind (reads_u8 _) (Reads.bind (reads_u8 _) (Reads.bind (reads_u8 _) (Reads.bind (reads_u8 _)
    (Reads.bind (reads_u8 _) (Reads.bind (reads_u8 _) (Reads.bind (reads_u8 _) (Reads.bind (reads_u8 _)
    (Reads.bind (reads_u8 _) (Reads.bind' (reads_u8 _) (Reads.pure _) (List.append_nil _).symm)))))))))

theorem reads_core (c : Core) (h : c.achVendID.Valid) : Reads readCore (encCore c) c := by
  unfold encCore readCore
  exact Reads.bind (reads_u16 _) (Reads.bind (reads_i16 _) (Reads.bind (reads_u16 _) (Reads.bind (reads_u16 _)
    (Reads.bind (reads_u16 _) (Reads.bind (reads_i16 _) (Reads.bind (reads_i16 _) (Reads.bind (reads_i16 _)
    (Reads.bind (reads_i16 _) (Reads.bind (reads_i16 _) (Reads.bind (reads_i16 _) (Reads.bind (reads_i16 _)
    (Reads.bind (reads_i16 _) (Reads.bind (reads_i16 _) (Reads.bind (reads_i16 _) (Reads.bind (reads_i16 _)
    (Reads.bind (reads_panose _) (Reads.bind (reads_u32 _) (Reads.bind (reads_u32 _) (Reads.bind (reads_u32 _)
    (Reads.bind (reads_u32 _) (Reads.bind (reads_tag _ h) (Reads.bind (reads_u16 _) (Reads.bind (reads_u16 _)
    (Reads.bind (reads_u16 _) (Reads.bind (reads_i16 _) (Reads.bind (reads_i16 _) (Reads.bind (reads_i16 _)
    (Reads.bind (reads_u16 _) (Reads.bind' (reads_u16 _) (Reads.pure _)
    (List.append_nil _).symm)))))))))))))))))))))))))))))

theorem gt_iff (v : UInt16) (n : Nat) (h : n < 65536) : (v > UInt16.ofNat n) ↔ n + 1 ≤ v.toNat := by
  rw [gt_iff_lt, UInt16.lt_iff_toNat_lt, UInt16.toNat_ofNat_of_lt' h]
  rfl

/-- A table is written at the length of its version and is read back as `kept` says. -/
theorem C73_roundtrip (o : Os2) (h : o.core.achVendID.Valid) :
    RoundTripsAt readOs2 (encOs2 o) (kept o) ∧ (encOs2 o).length = sizeOf o.core.version := by
  have g0 := gt_iff o.core.version 0 (by omega)
  have g1 := gt_iff o.core.version 1 (by omega)
  have g4 := gt_iff o.core.version 4 (by omega)
  simp only [show UInt16.ofNat 0 = 0 from rfl, show UInt16.ofNat 1 = 1 from rfl, show UInt16.ofNat 4 = 4 from rfl] at g0 g1 g4
  have hc : (encCore o.core).length = 78 := by simp [encCore, encPanose, encTag]
  constructor
  · unfold encOs2 readOs2
    refine Reads.bind (reads_core _ h) ?_
    have r1 : Reads (readV1 ⟨o.core, none, none, none, none, none, none, none, none, none⟩) (encV1 o)
        ⟨o.core, since o.core.version 1 o.ulCodePageRange1, since o.core.version 1 o.ulCodePageRange2,
          none, none, none, none, none, none, none⟩ := by
      unfold readV1 encV1 since
      by_cases hv : o.core.version > 0
      · simp only [hv, if_true, if_pos (g0.1 hv)]
        exact Reads.bind (reads_u32 _) (Reads.bind' (reads_u32 _) (Reads.pure _) (List.append_nil _).symm)
      · simp only [hv, if_false, if_neg (fun hc => hv (g0.2 hc))]
        exact Reads.pure _
    refine Reads.bind r1 ?_
    have r2 : Reads (readV2 ⟨o.core, since o.core.version 1 o.ulCodePageRange1, since o.core.version 1 o.ulCodePageRange2,
          none, none, none, none, none, none, none⟩) (encV2 o)
        ⟨o.core, since o.core.version 1 o.ulCodePageRange1, since o.core.version 1 o.ulCodePageRange2,
          since o.core.version 2 o.sxHeight, since o.core.version 2 o.sCapHeight, since o.core.version 2 o.usDefaultChar,
          since o.core.version 2 o.usBreakChar, since o.core.version 2 o.usMaxContext, none, none⟩ := by
      unfold readV2 encV2
      by_cases hv : o.core.version > 1
      · have e : ∀ {α : Type} [OfNat α 0] (x : Option α), since o.core.version 2 x = some (x.getD 0) :=
          fun x => if_pos (g1.1 hv)
        simp only [hv, if_true, e]
        exact Reads.bind (reads_i16 _) (Reads.bind (reads_i16 _) (Reads.bind (reads_u16 _) (Reads.bind (reads_u16 _)
          (Reads.bind' (reads_u16 _) (Reads.pure _) (List.append_nil _).symm))))
      · have e : ∀ {α : Type} [OfNat α 0] (x : Option α), since o.core.version 2 x = none :=
          fun x => if_neg fun hc => hv (g1.2 hc)
        simp only [hv, if_false, e]
        exact Reads.pure _
    refine Reads.bind r2 ?_
    unfold readV5 encV5
    by_cases hv : o.core.version > 4
    · have e : ∀ {α : Type} [OfNat α 0] (x : Option α), since o.core.version 5 x = some (x.getD 0) :=
        fun x => if_pos (g4.1 hv)
      simp only [hv, if_true, e, kept]
      exact Reads.bind (reads_u16 _) (Reads.bind' (reads_u16 _) (Reads.pure _) (List.append_nil _).symm)
    · have e : ∀ {α : Type} [OfNat α 0] (x : Option α), since o.core.version 5 x = none :=
        fun x => if_neg fun hc => hv (g4.2 hc)
      simp only [hv, if_false, e, kept]
      exact Reads.pure _
  · unfold encOs2 encV1 encV2 encV5 sizeOf
    simp only [List.length_append, hc, g0, g1, g4, apply_ite List.length, encU32_length, encU16_length, encI16_length,
      List.length_nil]
    split_ifs <;> omega

theorem since_eq {α : Type} [OfNat α 0] (v : UInt16) (n : Nat) (x : Option α) :
    since v n x = x ↔ (x.isSome ↔ n ≤ v.toNat) := by
  unfold since
  cases x <;> by_cases h : n ≤ v.toNat <;> simp [h]

/-- Nothing changes exactly if the table has the fields of its version. -/
theorem C73_plain (o : Os2) : kept o = o ↔ Plain o := by
  obtain ⟨c, a1, a2, a3, a4, a5, a6, a7, a8, a9⟩ := o
  simp only [kept, Plain, Os2.mk.injEq, true_and, since_eq]

theorem readCore_valid {r r' : Rd} {c : Core} (h : readCore r = .ok (c, r')) : c.achVendID.Valid := by
  unfold readCore at h
  iterate 21 obtain ⟨_, _, -, h⟩ := Reader.bind_inv h
  obtain ⟨t, _, ht, h⟩ := Reader.bind_inv h
  iterate 8 obtain ⟨_, _, -, h⟩ := Reader.bind_inv h
  cases h
  exact C01_tag_reader_valid _ _ _ ht

/-- What is read is such a table, whose vendor is a tag, and so is written and read back as it is. -/
theorem C73_reread {r r' : Rd} {o : Os2} (h : readOs2 r = .ok (o, r')) : Plain o ∧ RoundTripsAt readOs2 (encOs2 o) o := by
  unfold readOs2 at h
  obtain ⟨c, r0, hc, h⟩ := Reader.bind_inv h
  obtain ⟨a, r1, ha, h⟩ := Reader.bind_inv h
  obtain ⟨b, r2, hb, h⟩ := Reader.bind_inv h
  have hv := readCore_valid hc
  have g0 := gt_iff c.version 0 (by omega)
  have g1 := gt_iff c.version 1 (by omega)
  have g4 := gt_iff c.version 4 (by omega)
  simp only [show UInt16.ofNat 0 = 0 from rfl, show UInt16.ofNat 1 = 1 from rfl, show UInt16.ofNat 4 = 4 from rfl] at g0 g1 g4
  have e1 : ∃ x y, a = ⟨c, x, y, none, none, none, none, none, none, none⟩ ∧ (x.isSome ↔ 1 ≤ c.version.toNat) ∧
      (y.isSome ↔ 1 ≤ c.version.toNat) := by
    unfold readV1 at ha
    by_cases h0 : c.version > 0
    · simp only [h0, if_true] at ha
      iterate 2 obtain ⟨_, _, -, ha⟩ := Reader.bind_inv ha
      cases ha
      exact ⟨_, _, rfl, by simpa using g0.1 h0, by simpa using g0.1 h0⟩
    · simp only [h0, if_false] at ha
      cases ha
      exact ⟨_, _, rfl, by simpa using g0.not.1 h0, by simpa using g0.not.1 h0⟩
  obtain ⟨x1, x2, rfl, k1, k2⟩ := e1
  have e2 : ∃ p q s t u, b = ⟨c, x1, x2, p, q, s, t, u, none, none⟩ ∧ (p.isSome ↔ 2 ≤ c.version.toNat) ∧
      (q.isSome ↔ 2 ≤ c.version.toNat) ∧ (s.isSome ↔ 2 ≤ c.version.toNat) ∧ (t.isSome ↔ 2 ≤ c.version.toNat) ∧
      (u.isSome ↔ 2 ≤ c.version.toNat) := by
    unfold readV2 at hb
    by_cases h0 : c.version > 1
    · simp only [h0, if_true] at hb
      iterate 5 obtain ⟨_, _, -, hb⟩ := Reader.bind_inv hb
      cases hb
      have := g1.1 h0
      exact ⟨_, _, _, _, _, rfl, by simpa using this, by simpa using this, by simpa using this, by simpa using this,
        by simpa using this⟩
    · simp only [h0, if_false] at hb
      cases hb
      have := g1.not.1 h0
      exact ⟨_, _, _, _, _, rfl, by simpa using this, by simpa using this, by simpa using this, by simpa using this,
        by simpa using this⟩
  obtain ⟨p, q, s, t, u, rfl, k3, k4, k5, k6, k7⟩ := e2
  have e3 : Plain o ∧ o.core = c := by
    unfold readV5 at h
    by_cases h0 : c.version > 4
    · simp only [h0, if_true] at h
      iterate 2 obtain ⟨_, _, -, h⟩ := Reader.bind_inv h
      cases h
      have := g4.1 h0
      exact ⟨⟨k1, k2, k3, k4, k5, k6, k7, by simpa using this, by simpa using this⟩, rfl⟩
    · simp only [h0, if_false] at h
      cases h
      have := g4.not.1 h0
      exact ⟨⟨k1, k2, k3, k4, k5, k6, k7, by simpa using this, by simpa using this⟩, rfl⟩
  have := (C73_roundtrip o (e3.2 ▸ hv)).1
  rw [(C73_plain o).2 e3.1] at this
  exact ⟨e3.1, this⟩

/-- At these bytes the reader reports an error. -/
def Errs {α : Type} (p : Reader α) (bs : Bytes) : Prop :=
  ∀ pre rest stk, p ⟨pre ++ bs ++ rest, pre.length, stk⟩ = .err

theorem Errs.after {α β : Type} {p : Reader α} {f : α → Reader β} {b1 b2 : Bytes} {a : α} (h1 : Reads p b1 a)
    (h2 : Errs (f a) b2) : Errs (p >>= f) (b1 ++ b2) := by
  intro pre rest stk
  have e := h1 pre (b2 ++ rest) stk
  rw [Reader.bind_run, show pre ++ (b1 ++ b2) ++ rest = pre ++ b1 ++ (b2 ++ rest) by simp, e]
  have := h2 (pre ++ b1) rest stk
  simpa using this

theorem Errs.first {α β : Type} {p : Reader α} {f : α → Reader β} {b1 b2 : Bytes} (h1 : Errs p b1) :
    Errs (p >>= f) (b1 ++ b2) := by
  intro pre rest stk
  have e := h1 pre (b2 ++ rest) stk
  rw [Reader.bind_run, show pre ++ (b1 ++ b2) ++ rest = pre ++ b1 ++ (b2 ++ rest) by simp, e]

theorem errs_tag {t : Tag} (h : ¬ t.Valid) : Errs readTag (encTag t) := by
  intro pre rest stk
  apply readTag_err
  right
  have : ((pre ++ encTag t ++ rest).drop pre.length).take 4 = t.bytes := by
    simp [encTag, Tag.bytes, encU8]
  simp only [this]
  simpa [Tag.bytes, Tag.Valid] using h

/-- A table whose vendor is not four printable bytes, as with the zeros some fonts have there, can be written but not read. -/
theorem C73_vendor (o : Os2) (h : ¬ o.core.achVendID.Valid) (pre rest : Bytes) (stk : List Nat) :
    readOs2 ⟨pre ++ encOs2 o ++ rest, pre.length, stk⟩ = .err := by
  have hc : Errs readCore (encCore o.core) := by
    unfold encCore readCore
    exact Errs.after (reads_u16 _) (Errs.after (reads_i16 _) (Errs.after (reads_u16 _) (Errs.after (reads_u16 _)
      (Errs.after (reads_u16 _) (Errs.after (reads_i16 _) (Errs.after (reads_i16 _) (Errs.after (reads_i16 _)
      (Errs.after (reads_i16 _) (Errs.after (reads_i16 _) (Errs.after (reads_i16 _) (Errs.after (reads_i16 _)
      (Errs.after (reads_i16 _) (Errs.after (reads_i16 _) (Errs.after (reads_i16 _) (Errs.after (reads_i16 _)
      (Errs.after (reads_panose _) (Errs.after (reads_u32 _) (Errs.after (reads_u32 _) (Errs.after (reads_u32 _)
      (Errs.after (reads_u32 _) (Errs.first (errs_tag h))))))))))))))))))))))
  exact Errs.first hc pre rest stk

/-! ### Not vacuous -/

def sampleCore (v : UInt16) (vendor : Tag) : Core :=
  ⟨v, 500, 400, 5, 0, 650, 600, 0, 75, 650, 600, 0, 350, 50, 300, 0, ⟨2, 0, 5, 3, 0, 0, 0, 0, 0, 0⟩, 3, 0, 0, 0,
    vendor, 64, 32, 255, 800, -200, 90, 950, 250⟩

def sample (v : UInt16) (vendor : Tag) : Os2 :=
  ⟨sampleCore v vendor, some 1, none, some 500, some 700, none, some 32, some 2, some 10, none⟩

/-- A version 4 table loses its optical sizes and gains zeros. -/
example : kept (sample 4 ⟨0x47, 0x4F, 0x4F, 0x47⟩) =
    ⟨sampleCore 4 ⟨0x47, 0x4F, 0x4F, 0x47⟩, some 1, some 0, some 500, some 700, some 0, some 32, some 2, none, none⟩ ∧
    (sample 4 ⟨0x47, 0x4F, 0x4F, 0x47⟩).core.achVendID.Valid := by
  constructor
  · rfl
  · decide

example : ¬ (sample 4 ⟨0, 0, 0, 0⟩).core.achVendID.Valid := by decide

example : ∃ o r', readOs2 ⟨encOs2 (sample 4 ⟨0x47, 0x4F, 0x4F, 0x47⟩), 0, []⟩ = .ok (o, r') :=
  ⟨_, _, (C73_roundtrip (sample 4 ⟨0x47, 0x4F, 0x4F, 0x47⟩) (by decide)).1 [] [] []⟩

end FT.Props.Os2
