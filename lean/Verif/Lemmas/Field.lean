import Verif.Lemmas.ReadsAt

/-! Locating numbers inside written bytes. -/

namespace FT
open FT.Props

theorem field_skip {pre bs : Bytes} {n k w : Nat} (h : pre.length = n) : field (pre ++ bs) (n + k) w = field bs k w := by
  subst h
  unfold field
  rw [List.drop_append, List.drop_eq_nil_of_le (by omega), List.nil_append, Nat.add_sub_cancel_left]

theorem field_skip' {pre bs : Bytes} {k j w : Nat} (h : k = pre.length + j) : field (pre ++ bs) k w = field bs j w := by
  subst h; exact field_skip rfl

theorem field_prefix {bs post : Bytes} {k w : Nat} (h : k + w ≤ bs.length) : field (bs ++ post) k w = field bs k w := by
  unfold field
  rw [List.drop_append_of_le_length (by omega), List.take_append_of_le_length (by simp; omega)]

theorem field_u16 (x : UInt16) (post : Bytes) : field (encU16 x ++ post) 0 2 = x.toNat := by
  rw [field_prefix (by simp)]
  unfold field
  rw [List.drop_zero, List.take_of_length_le (by simp)]
  exact (C01_u16 x).1

theorem field_u32 (x : UInt32) (post : Bytes) : field (encU32 x ++ post) 0 4 = x.toNat := by
  rw [field_prefix (by simp)]
  unfold field
  rw [List.drop_zero, List.take_of_length_le (by simp)]
  exact (C01_u32 x).1

theorem field_i16 (x : Int16) (post : Bytes) : (field (encI16 x ++ post) 0 2 : Int) = x.toInt % 65536 := by
  rw [field_prefix (by simp)]
  unfold field
  rw [List.drop_zero, List.take_of_length_le (by simp)]
  exact (C01_i16 x).1

theorem field_u16' (x : UInt16) : field (encU16 x) 0 2 = x.toNat := by
  have := field_u16 x []; rwa [List.append_nil] at this
theorem field_u32' (x : UInt32) : field (encU32 x) 0 4 = x.toNat := by
  have := field_u32 x []; rwa [List.append_nil] at this

theorem field_vec {α : Type} {enc : α → Bytes} {w : Nat} (hw : ∀ a, (enc a).length = w) {i j n : Nat} (hj : j + n ≤ w) :
    ∀ (l : List α) (hi : i < l.length), field (encVec enc l) (w * i + j) n = field (enc l[i]) j n := by
  induction i with
  | zero =>
    intro l hi
    cases l with
    | nil => simp at hi
    | cons a l =>
      rw [encVec_cons, Nat.mul_zero, Nat.zero_add, field_prefix (by rw [hw]; omega)]
      rfl
  | succ i ih =>
    intro l hi
    cases l with
    | nil => simp at hi
    | cons a l =>
      rw [encVec_cons, Nat.mul_succ, Nat.add_comm (w * i) w, Nat.add_assoc, field_skip (hw a)]
      exact ih l (by simpa using hi)

end FT
