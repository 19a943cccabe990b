import Verif.Lemmas.Reads
import Verif.Props.Primitives

/-! Exact behaviour of the primitive readers on an arbitrary buffer. -/

namespace FT
open Reader FT.Props

/-- Big-endian number stored in bytes `k .. k + w`. -/
def field (bs : Bytes) (k w : Nat) : Nat := beValue ((bs.drop k).take w)

theorem readU32_ok {r : Rd} (h : r.ptr + 4 ≤ r.inp.length) :
    ∃ v : UInt32, v.toNat = field r.inp r.ptr 4 ∧ readU32 r = .ok (v, { r with ptr := r.ptr + 4 }) := by
  have hl : ((r.inp.drop r.ptr).take 4).length = 4 := by simp; omega
  unfold readU32
  rw [Reader.bind_run]
  unfold consume field
  rw [if_neg (by omega)]
  generalize (r.inp.drop r.ptr).take 4 = bs at *
  match bs, hl with
  | [a, b, c, d], _ =>
    refine ⟨_, ?_, rfl⟩
    have := a.toNat_lt; have := b.toNat_lt; have := c.toNat_lt; have := d.toNat_lt
    simp [beValue]
    omega

theorem readU16_ok {r : Rd} (h : r.ptr + 2 ≤ r.inp.length) :
    ∃ v : UInt16, v.toNat = field r.inp r.ptr 2 ∧ readU16 r = .ok (v, { r with ptr := r.ptr + 2 }) := by
  have hl : ((r.inp.drop r.ptr).take 2).length = 2 := by simp; omega
  unfold readU16
  rw [Reader.bind_run]
  unfold consume field
  rw [if_neg (by omega)]
  generalize (r.inp.drop r.ptr).take 2 = bs at *
  match bs, hl with
  | [a, b], _ =>
    refine ⟨_, ?_, rfl⟩
    have := a.toNat_lt; have := b.toNat_lt
    simp [beValue]
    omega

theorem readU32_err {r : Rd} (h : r.inp.length < r.ptr + 4) : readU32 r = .err := (C03_u32 r).2 h
theorem readU16_err {r : Rd} (h : r.inp.length < r.ptr + 2) : readU16 r = .err := (C03_u16 r).2 h

theorem readTag_ok {r : Rd} (h : r.ptr + 4 ≤ r.inp.length)
    (hv : ((r.inp.drop r.ptr).take 4).all tagByteOk = true) :
    ∃ v : Tag, v.bytes = (r.inp.drop r.ptr).take 4 ∧ readTag r = .ok (v, { r with ptr := r.ptr + 4 }) := by
  have hl : ((r.inp.drop r.ptr).take 4).length = 4 := by simp; omega
  unfold readTag
  rw [Reader.bind_run]
  unfold consume
  rw [if_neg (by omega)]
  generalize (r.inp.drop r.ptr).take 4 = bs at *
  match bs, hl with
  | [a, b, c, d], _ =>
    refine ⟨⟨a, b, c, d⟩, rfl, ?_⟩
    simp only [Reader.lift, Tag.fromRaw]
    rw [hv]
    rfl

theorem readTag_err {r : Rd} (h : r.inp.length < r.ptr + 4 ∨
    ((r.inp.drop r.ptr).take 4).all tagByteOk = false) : readTag r = .err := by
  unfold readTag
  rw [Reader.bind_run]
  unfold consume
  by_cases h4 : r.ptr + 4 > r.inp.length
  · rw [if_pos h4]
  · rw [if_neg h4]
    have h' := h.resolve_left (by omega)
    have hl : ((r.inp.drop r.ptr).take 4).length = 4 := by simp; omega
    generalize (r.inp.drop r.ptr).take 4 = bs at *
    match bs, hl with
    | [a, b, c, d], _ =>
      simp only [Reader.lift, Tag.fromRaw]
      rw [h']
      rfl

end FT
