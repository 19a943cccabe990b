import Verif.Lemmas.CliTool

/-! Which bytes of a font file are the contents of a table. -/

namespace FT.Font
open FT Reader FT.Props FT.Cli

theorem readRec_tag {r r' : Rd} {v : Rec} (h : readRec r = .ok (v, r')) :
    v.tag.bytes = (r.inp.drop r.ptr).take 4 ∧ r' = { r with ptr := r.ptr + 16 } := by
  by_cases hb : r.inp.length < r.ptr + 16 ∨ tagAt r.inp r.ptr = false
  · rw [readRec_err hb] at h; cases h
  · rw [not_or] at hb
    have ht : tagAt r.inp r.ptr = true := by simpa using hb.2
    obtain ⟨w, _, _, e⟩ := readRec_ok (r := r) (by omega) ht
    rw [e] at h
    cases h
    obtain ⟨t, e1, e2⟩ := readTag_ok (r := r) (by omega) ht
    unfold readRec at e
    obtain ⟨t', r1, h1, h2⟩ := reader_bind_ok e
    rw [e2] at h1
    cases h1
    obtain ⟨_, _, _, h2⟩ := reader_bind_ok h2
    obtain ⟨_, _, _, h2⟩ := reader_bind_ok h2
    obtain ⟨_, _, _, h2⟩ := reader_bind_ok h2
    cases h2
    exact ⟨e1, rfl⟩

theorem deRecs_tags : ∀ (n : Nat) (r r' : Rd) (l : List Rec), deCounted readRec n r = .ok (l, r') →
    ∀ i, (h : i < l.length) → l[i].tag.bytes = (r.inp.drop (r.ptr + 16 * i)).take 4
  | 0, r, r', l, h => by cases h; intro i hi; cases hi
  | n + 1, r, r', l, h => by
    rw [deCounted] at h
    obtain ⟨v, r1, h1, h⟩ := reader_bind_ok h
    obtain ⟨m, r2, h2, h⟩ := reader_bind_ok h
    cases h
    obtain ⟨e1, rfl⟩ := readRec_tag h1
    intro i hi
    cases i with
    | zero => exact e1
    | succ i =>
      have := deRecs_tags n _ _ m h2 i (by simpa using hi)
      simp only [List.getElem_cons_succ]
      rw [this]
      simp only
      rw [show r.ptr + 16 + 16 * i = r.ptr + 16 * (i + 1) by omega]

theorem dir_tags {bs : Bytes} {v : UInt32} {l : List Rec} {r' : Rd} (h : readDirectory (Rd.new bs) = .ok ((v, l), r')) :
    ∀ i, (h : i < l.length) → l[i].tag.bytes = (bs.drop (12 + 16 * i)).take 4 := by
  by_cases h12 : bs.length < 12
  · rw [dir_err_short bs h12] at h; cases h
  obtain ⟨v, hv, e1⟩ := readU32_ok (r := ⟨bs, 0, [0]⟩) (by simp; omega)
  obtain ⟨n, hn, e2⟩ := readU16_ok (r := ⟨bs, 0 + 4, [0]⟩) (by simp; omega)
  obtain ⟨a, _, e3⟩ := readU16_ok (r := ⟨bs, 0 + 4 + 2, [0]⟩) (by simp; omega)
  obtain ⟨b, _, e4⟩ := readU16_ok (r := ⟨bs, 0 + 4 + 2 + 2, [0]⟩) (by simp; omega)
  obtain ⟨c, _, e5⟩ := readU16_ok (r := ⟨bs, 0 + 4 + 2 + 2 + 2, [0]⟩) (by simp; omega)
  unfold readDirectory Rd.new at h
  rw [Reader.bind_run, e1] at h
  simp only at h
  rw [Reader.bind_run, e2] at h
  simp only at h
  rw [Reader.bind_run, e3] at h
  simp only at h
  rw [Reader.bind_run, e4] at h
  simp only at h
  rw [Reader.bind_run, e5] at h
  simp only at h
  split at h
  · obtain ⟨m, r2, h2, h⟩ := reader_bind_ok h
    cases h
    exact deRecs_tags _ _ _ _ h2
  · cases h

/-- The contents of the last record with this tag, or what there was before. -/
theorem slice_get (inp : Bytes) (t : Tag) : ∀ (l : List Rec) (acc T : List (Tag × Bytes)), sliceTables inp l acc = .ok T →
    BMap.get? T t = ((l.filter (fun r => decide (r.tag = t))).getLast?.map fun r =>
      (inp.drop r.offset.toNat).take r.length.toNat).or (BMap.get? acc t)
  | [], acc, T, h => by cases h; rfl
  | r :: l, acc, T, h => by
    rw [sliceTables] at h
    split at h
    · cases h
    · rw [slice_get inp t l _ T h, insertTable_eq]
      by_cases ht : r.tag = t
      · subst ht
        rw [BMap.get?_insert_self]
        rw [List.filter_cons_of_pos (by simp)]
        cases hl : (l.filter (fun x => decide (x.tag = r.tag))) with
        | nil => rfl
        | cons y m => rw [List.getLast?_cons_cons, List.getLast?_eq_some_getLast (by simp)]; rfl
      · rw [BMap.get?_insert_ne _ (show t ≠ r.tag from fun h => ht h.symm), List.filter_cons_of_neg (by simpa using ht)]

/-- The last element of a list in which earlier elements are smaller. -/
theorem last_max {α : Type} {R : α → α → Prop} {l : List α} {z : α} (hp : l.Pairwise R) (hz : l.getLast? = some z) :
    ∀ x ∈ l, x = z ∨ R x z := by
  obtain ⟨m, rfl⟩ : ∃ m, l = m ++ [z] := by
    have := List.getLast?_eq_some_iff.mp hz
    exact this
  intro x hx
  rcases List.mem_append.mp hx with hx | hx
  · exact .inr ((List.pairwise_append.mp hp).2.2 x hx z (by simp))
  · exact .inl (by simpa using hx)

theorem tag_bytes_inj {t u : Tag} (h : t.bytes = u.bytes) : t = u := by
  obtain ⟨a, b, c, d⟩ := t
  obtain ⟨e, f, g, i⟩ := u
  simp only [Tag.bytes, List.cons.injEq, and_true] at h
  obtain ⟨rfl, rfl, rfl, rfl⟩ := h
  rfl

end FT.Font
