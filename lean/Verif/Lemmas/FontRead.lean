import Verif.Lemmas.Font
import Verif.Lemmas.ReadsAt

namespace FT.Font
open FT Reader FT.Props

def tagAt (bs : Bytes) (k : Nat) : Bool := ((bs.drop k).take 4).all tagByteOk

theorem readRec_ok {r : Rd} (h : r.ptr + 16 ≤ r.inp.length) (ht : tagAt r.inp r.ptr = true) :
    ∃ v : Rec, v.offset.toNat = field r.inp (r.ptr + 8) 4 ∧ v.length.toNat = field r.inp (r.ptr + 12) 4 ∧
      readRec r = .ok (v, { r with ptr := r.ptr + 16 }) := by
  unfold readRec
  rw [Reader.bind_run]
  obtain ⟨t, _, e0⟩ := readTag_ok (r := r) (by omega) ht
  rw [e0]
  simp only
  rw [Reader.bind_run]
  obtain ⟨c, _, e1⟩ := readU32_ok (r := { r with ptr := r.ptr + 4 }) (by simp; omega)
  rw [e1]
  simp only
  rw [Reader.bind_run]
  obtain ⟨o, ho, e2⟩ := readU32_ok (r := { r with ptr := r.ptr + 4 + 4 }) (by simp; omega)
  rw [e2]
  simp only
  rw [Reader.bind_run]
  obtain ⟨l, hl, e3⟩ := readU32_ok (r := { r with ptr := r.ptr + 4 + 4 + 4 }) (by simp; omega)
  rw [e3]
  exact ⟨⟨t, c, o, l⟩, ho, hl, rfl⟩

theorem readRec_err {r : Rd} (h : r.inp.length < r.ptr + 16 ∨ tagAt r.inp r.ptr = false) :
    readRec r = .err := by
  unfold readRec
  rw [Reader.bind_run]
  by_cases h4 : r.inp.length < r.ptr + 4 ∨ tagAt r.inp r.ptr = false
  · rw [readTag_err h4]
  · rw [not_or] at h4
    have ht : tagAt r.inp r.ptr = true := by simpa using h4.2
    obtain ⟨t, _, e0⟩ := readTag_ok (r := r) (by omega) ht
    rw [e0]
    simp only
    have h := h.resolve_right (by simp [ht])
    rw [Reader.bind_run]
    by_cases h8 : r.inp.length < r.ptr + 8
    · rw [readU32_err (by simp; omega)]
    · obtain ⟨c, _, e1⟩ := readU32_ok (r := { r with ptr := r.ptr + 4 }) (by simp; omega)
      rw [e1]
      simp only
      rw [Reader.bind_run]
      by_cases h12 : r.inp.length < r.ptr + 12
      · rw [readU32_err (by simp; omega)]
      · obtain ⟨o, ho, e2⟩ := readU32_ok (r := { r with ptr := r.ptr + 4 + 4 }) (by simp; omega)
        rw [e2]
        simp only
        rw [Reader.bind_run, readU32_err (by simp; omega)]

theorem deRecs_ok (n : Nat) : ∀ r : Rd, r.ptr + 16 * n ≤ r.inp.length →
    (∀ i < n, tagAt r.inp (r.ptr + 16 * i) = true) →
    ∃ l : List Rec, deCounted readRec n r = .ok (l, { r with ptr := r.ptr + 16 * n }) ∧ l.length = n ∧
      ∀ i, (h : i < l.length) → l[i].offset.toNat = field r.inp (r.ptr + 16 * i + 8) 4 ∧
        l[i].length.toNat = field r.inp (r.ptr + 16 * i + 12) 4 := by
  induction n with
  | zero => intro r _ _; exact ⟨[], rfl, rfl, fun i h => absurd h (by simp)⟩
  | succ n ih =>
    intro r hr ht
    obtain ⟨v, hv1, hv2, e⟩ := readRec_ok (r := r) (by omega) (by simpa using ht 0 (by omega))
    obtain ⟨l, el, hl, hf⟩ := ih { r with ptr := r.ptr + 16 } (by simp; omega) (by
      intro i hi
      have := ht (i + 1) (by omega)
      rw [show r.ptr + 16 * (i + 1) = r.ptr + 16 + 16 * i by omega] at this
      exact this)
    refine ⟨v :: l, ?_, by simp [hl], ?_⟩
    · rw [deCounted, Reader.bind_run, e]
      simp only
      rw [Reader.bind_run, el]
      simp only [Reader.pure_run]
      rw [show r.ptr + 16 + 16 * n = r.ptr + 16 * (n + 1) by omega]
    · intro i hi
      cases i with
      | zero => simpa using ⟨hv1, hv2⟩
      | succ i =>
        have := hf i (by simpa using hi)
        rw [show r.ptr + 16 * (i + 1) = r.ptr + 16 + 16 * i by omega]
        simpa using this

theorem deRecs_err (n : Nat) : ∀ r : Rd, r.inp.length < r.ptr + 16 * n ∨
    (∃ i < n, tagAt r.inp (r.ptr + 16 * i) = false) → r.ptr ≤ r.inp.length →
    deCounted readRec n r = .err := by
  induction n with
  | zero => intro r h hp; rcases h with h | ⟨i, hi, _⟩ <;> omega
  | succ n ih =>
    intro r h hp
    rw [deCounted, Reader.bind_run]
    by_cases h0 : r.inp.length < r.ptr + 16 ∨ tagAt r.inp r.ptr = false
    · rw [readRec_err h0]
    · rw [not_or] at h0
      have ht : tagAt r.inp r.ptr = true := by simpa using h0.2
      obtain ⟨v, hv1, hv2, e⟩ := readRec_ok (r := r) (by omega) ht
      rw [e]
      simp only
      rw [Reader.bind_run, ih]
      · rcases h with h | ⟨i, hi, hti⟩
        · left; simp; omega
        · right
          cases i with
          | zero => simp [ht] at hti
          | succ i =>
            refine ⟨i, by omega, ?_⟩
            rw [show r.ptr + 16 * (i + 1) = r.ptr + 16 + 16 * i by omega] at hti
            exact hti
      · simp; omega

theorem slice_ok (inp : Bytes) (l : List Rec) : ∀ acc,
    (∀ r ∈ l, r.offset.toNat + r.length.toNat ≤ inp.length) → ∃ t, sliceTables inp l acc = .ok t := by
  induction l with
  | nil => intro acc _; exact ⟨acc, rfl⟩
  | cons x rest ih =>
    intro acc h
    rw [sliceTables, if_neg (by have := h x (by simp); omega)]
    exact ih _ (fun r hr => h r (by simp [hr]))

theorem slice_panic (inp : Bytes) (l : List Rec) : ∀ acc,
    (∃ r ∈ l, inp.length < r.offset.toNat + r.length.toNat) → sliceTables inp l acc = .panic := by
  induction l with
  | nil => rintro acc ⟨r, hr, _⟩; simp at hr
  | cons x rest ih =>
    rintro acc ⟨r, hr, h⟩
    rw [sliceTables]
    split
    · rfl
    · rename_i hx
      rw [List.mem_cons] at hr
      rcases hr with rfl | hr
      · omega
      · exact ih _ ⟨r, hr, h⟩

/-- Header and directory are readable. -/
def DirOk (bs : Bytes) : Prop :=
  12 ≤ bs.length ∧ (field bs 0 4 = 0x00010000 ∨ field bs 0 4 = 0x4F54544F) ∧
  12 + 16 * field bs 4 2 ≤ bs.length ∧ ∀ i < field bs 4 2, tagAt bs (12 + 16 * i) = true

theorem dir_err_short (bs : Bytes) (h : bs.length < 12) : readDirectory (Rd.new bs) = .err := by
  unfold readDirectory Rd.new
  rw [Reader.bind_run]
  by_cases h4 : bs.length < 4
  · rw [readU32_err (by simpa using h4)]
  obtain ⟨v, _, e⟩ := readU32_ok (r := ⟨bs, 0, [0]⟩) (by simp; omega)
  rw [e]
  simp only
  rw [Reader.bind_run]
  by_cases h6 : bs.length < 6
  · rw [readU16_err (by simpa using h6)]
  obtain ⟨n, _, e⟩ := readU16_ok (r := ⟨bs, 0 + 4, [0]⟩) (by simp; omega)
  rw [e]
  simp only
  rw [Reader.bind_run]
  by_cases h8 : bs.length < 8
  · rw [readU16_err (by simpa using h8)]
  obtain ⟨a, _, e⟩ := readU16_ok (r := ⟨bs, 0 + 4 + 2, [0]⟩) (by simp; omega)
  rw [e]
  simp only
  rw [Reader.bind_run]
  by_cases h10 : bs.length < 10
  · rw [readU16_err (by simpa using h10)]
  obtain ⟨b, _, e⟩ := readU16_ok (r := ⟨bs, 0 + 4 + 2 + 2, [0]⟩) (by simp; omega)
  rw [e]
  simp only
  rw [Reader.bind_run, readU16_err (by simp; omega)]

theorem versionOk_iff (v : UInt32) : versionOk v = true ↔ (v.toNat = 0x00010000 ∨ v.toNat = 0x4F54544F) := by
  unfold versionOk
  simp only [Bool.or_eq_true, decide_eq_true_eq]
  rw [← UInt32.toNat_inj, ← UInt32.toNat_inj]
  rfl

theorem dir_ok (bs : Bytes) (h : DirOk bs) :
    ∃ (v : UInt32) (l : List Rec) (r' : Rd), readDirectory (Rd.new bs) = .ok ((v, l), r') ∧ r'.inp = bs ∧
      v.toNat = field bs 0 4 ∧ l.length = field bs 4 2 ∧
      ∀ i, (h : i < l.length) → l[i].offset.toNat = field bs (12 + 16 * i + 8) 4 ∧
        l[i].length.toNat = field bs (12 + 16 * i + 12) 4 := by
  have h12 := h.1
  obtain ⟨v, hv, e1⟩ := readU32_ok (r := ⟨bs, 0, [0]⟩) (by simp; omega)
  obtain ⟨n, hn, e2⟩ := readU16_ok (r := ⟨bs, 0 + 4, [0]⟩) (by simp; omega)
  obtain ⟨a, _, e3⟩ := readU16_ok (r := ⟨bs, 0 + 4 + 2, [0]⟩) (by simp; omega)
  obtain ⟨b, _, e4⟩ := readU16_ok (r := ⟨bs, 0 + 4 + 2 + 2, [0]⟩) (by simp; omega)
  obtain ⟨c, _, e5⟩ := readU16_ok (r := ⟨bs, 0 + 4 + 2 + 2 + 2, [0]⟩) (by simp; omega)
  simp only [Nat.zero_add] at hn hv
  obtain ⟨l, e6, hl, hf⟩ := deRecs_ok n.toNat ⟨bs, 12, [0]⟩ (by rw [hn]; exact h.2.2.1)
        (by rw [hn]; exact h.2.2.2)
  refine ⟨v, l, ⟨bs, 12 + 16 * n.toNat, [0]⟩, ?_, ?_, hv, by rw [hl, hn], hf⟩
  · unfold readDirectory Rd.new
    rw [Reader.bind_run, e1]
    simp only
    rw [Reader.bind_run, e2]
    simp only
    rw [Reader.bind_run, e3]
    simp only
    rw [Reader.bind_run, e4]
    simp only
    rw [Reader.bind_run, e5]
    simp only
    rw [if_pos ((versionOk_iff v).mpr (by rw [hv]; exact h.2.1))]
    rw [Reader.bind_run]
    simp only [Nat.zero_add, Nat.reduceAdd] at e6 ⊢
    rw [e6]
    rfl
  · rfl

theorem dir_err (bs : Bytes) (h : ¬ DirOk bs) : readDirectory (Rd.new bs) = .err := by
  by_cases h12 : bs.length < 12
  · exact dir_err_short bs h12
  obtain ⟨v, hv, e1⟩ := readU32_ok (r := ⟨bs, 0, [0]⟩) (by simp; omega)
  obtain ⟨n, hn, e2⟩ := readU16_ok (r := ⟨bs, 0 + 4, [0]⟩) (by simp; omega)
  obtain ⟨a, _, e3⟩ := readU16_ok (r := ⟨bs, 0 + 4 + 2, [0]⟩) (by simp; omega)
  obtain ⟨b, _, e4⟩ := readU16_ok (r := ⟨bs, 0 + 4 + 2 + 2, [0]⟩) (by simp; omega)
  obtain ⟨c, _, e5⟩ := readU16_ok (r := ⟨bs, 0 + 4 + 2 + 2 + 2, [0]⟩) (by simp; omega)
  simp only [Nat.zero_add] at hn hv
  unfold readDirectory Rd.new
  rw [Reader.bind_run, e1]
  simp only
  rw [Reader.bind_run, e2]
  simp only
  rw [Reader.bind_run, e3]
  simp only
  rw [Reader.bind_run, e4]
  simp only
  rw [Reader.bind_run, e5]
  simp only
  by_cases hver : versionOk v = true
  · rw [if_pos hver, Reader.bind_run, deRecs_err]
    · by_cases hl : bs.length < 12 + 16 * n.toNat
      · left; exact hl
      · right
        rw [hn] at hl ⊢
        apply Classical.byContradiction
        intro hc
        apply h
        refine ⟨by omega, by rw [← hv]; exact (versionOk_iff v).mp hver, by omega, fun i hi => ?_⟩
        apply Classical.byContradiction
        intro hc'
        exact hc ⟨i, hi, by simpa using hc'⟩
    · simp; omega
  · rw [if_neg hver]; rfl

/-- Exactly what loading does with the directory. -/
theorem readTables_cases (bs : Bytes) :
    (¬ DirOk bs → readTables (Rd.new bs) = .err) ∧
    (DirOk bs → (∃ i < field bs 4 2, bs.length < field bs (12 + 16 * i + 8) 4 + field bs (12 + 16 * i + 12) 4) →
      readTables (Rd.new bs) = .panic) ∧
    (DirOk bs → (∀ i < field bs 4 2, field bs (12 + 16 * i + 8) 4 + field bs (12 + 16 * i + 12) 4 ≤ bs.length) →
      ∃ x, readTables (Rd.new bs) = .ok x) := by
  refine ⟨fun h => ?_, fun h hx => ?_, fun h hx => ?_⟩
  · unfold readTables
    rw [Reader.bind_run, dir_err bs h]
  · obtain ⟨v, l, r', e, hr', hv, hl, hf⟩ := dir_ok bs h
    unfold readTables
    rw [Reader.bind_run, e]
    simp only
    rw [Reader.bind_run]
    simp only [getInp]
    rw [Reader.bind_run, hr', slice_panic]
    · rfl
    obtain ⟨i, hi, hlt⟩ := hx
    have hi' : i < l.length := by omega
    refine ⟨l[i], List.mem_mergeSort.mpr (List.getElem_mem hi'), ?_⟩
    have := hf i hi'
    rw [this.1, this.2]
    exact hlt
  · obtain ⟨v, l, r', e, hr', hv, hl, hf⟩ := dir_ok bs h
    unfold readTables
    rw [Reader.bind_run, e]
    simp only
    rw [Reader.bind_run]
    simp only [getInp]
    obtain ⟨t, et⟩ := slice_ok bs (l.mergeSort (fun a b => a.offset.toNat ≤ b.offset.toNat)) [] (by
      intro r hr
      obtain ⟨i, hi, rfl⟩ := List.getElem_of_mem (List.mem_mergeSort.mp hr)
      have := hf i hi
      rw [this.1, this.2]
      exact hx i (by omega))
    rw [Reader.bind_run, hr', et]
    exact ⟨_, rfl⟩

/-! ### layout of the written file -/

def sumPad (l : List (Tag × Bytes)) : Nat := (l.map fun x => pad4 x.2.length).sum

theorem sumPad_mod (l) : sumPad l % 4 = 0 := by
  induction l with
  | nil => rfl
  | cons x t ih =>
    have := pad4_mod x.2.length
    simp only [sumPad, List.map_cons, List.sum_cons] at *
    omega

theorem dataOf_len (l) : (dataOf l).length = sumPad l := by
  simp [dataOf, sumPad, List.length_flatMap]

theorem recsL_append (l1 l2) : ∀ pos, recsL pos (l1 ++ l2) = recsL pos l1 ++ recsL (pos + sumPad l1) l2 := by
  induction l1 with
  | nil => intro pos; simp [recsL, sumPad]
  | cons x t ih =>
    intro pos
    simp only [List.cons_append, recsL, ih]
    simp [sumPad, Nat.add_assoc]

theorem at_append (P m S : Bytes) {k w : Nat} (hk : k = P.length) (hw : w = m.length) :
    ((P ++ m ++ S).drop k).take w = m := by
  subst hk; subst hw
  rw [List.append_assoc, List.drop_left, List.take_left]

theorem beValue_encU32 (x : UInt32) : beValue (encU32 x) = x.toNat := (C01_u32 x).1
theorem beValue_encU16 (x : UInt16) : beValue (encU16 x) = x.toNat := (C01_u16 x).1

theorem field_append32 (P : Bytes) (x : UInt32) (S : Bytes) {k : Nat} (hk : k = P.length) :
    field (P ++ encU32 x ++ S) k 4 = x.toNat := by
  unfold field
  rw [at_append (w := 4) P (encU32 x) S hk rfl, beValue_encU32]

theorem field_append16 (P : Bytes) (x : UInt16) (S : Bytes) {k : Nat} (hk : k = P.length) :
    field (P ++ encU16 x ++ S) k 2 = x.toNat := by
  unfold field
  rw [at_append (w := 2) P (encU16 x) S hk rfl, beValue_encU16]

end FT.Font
