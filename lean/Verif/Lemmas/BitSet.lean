import Verif.Model.Os2
import Mathlib.Tactic.Ring
import Mathlib.Tactic.IntervalCases

/-! Numbers as sets of bits. -/

namespace FT.Props
open FT FT.Os2

theorem testBit_div (a k j : Nat) : (a / 2 ^ k).testBit j = a.testBit (j + k) := by
  rw [Nat.testBit_div_two_pow]

theorem testBit_add_pow {a k : Nat} (h : a.testBit k = false) (j : Nat) :
    (a + 2 ^ k).testBit j = (a.testBit j || decide (j = k)) := by
  rcases Nat.lt_trichotomy j k with hj | rfl | hj
  · rw [Nat.add_comm, Nat.testBit_two_pow_add_gt hj]
    simp [Nat.ne_of_lt hj]
  · rw [Nat.add_comm, Nat.testBit_two_pow_add_eq, h]
    simp
  · obtain ⟨i, rfl⟩ : ∃ i, j = i + (k + 1) := ⟨j - (k + 1), by omega⟩
    have hd : (a + 2 ^ k) / 2 ^ (k + 1) = a / 2 ^ (k + 1) := by
      have h1 : a / 2 ^ k % 2 = 0 := by
        rw [Nat.testBit_eq_decide_div_mod_eq] at h
        simp at h
        exact h
      rw [Nat.pow_succ, ← Nat.div_div_eq_div_mul, ← Nat.div_div_eq_div_mul,
        Nat.add_div_right _ (Nat.two_pow_pos k)]
      omega
    rw [← testBit_div, hd, testBit_div]
    have : i + (k + 1) ≠ k := by omega
    simp [this]

theorem lt_pow_of_bits {n w : Nat} (h : ∀ k, n.testBit k = true → k < w) : n < 2 ^ w := by
  apply Nat.lt_pow_two_of_testBit
  intro i hi
  cases hb : n.testBit i
  · rfl
  · exact absurd (h i hb) (by omega)

/-- The loop of `filtered_bitset_to_num`, over distinct bits that are not set yet. -/
theorem filteredBitset_go (low : UInt8) : ∀ (l : List UInt8) (acc : UInt32), l.Nodup →
    (∀ x ∈ l, low ≤ x ∧ x.toNat < low.toNat + 32 ∧ acc.toNat.testBit (x.toNat - low.toNat) = false) →
    ∃ n, filteredBitset.go low l acc = .ok n ∧
      ∀ k, n.toNat.testBit k = true ↔ acc.toNat.testBit k = true ∨ ∃ x ∈ l, x.toNat = low.toNat + k
  | [], acc, _, _ => ⟨acc, rfl, by simp⟩
  | x :: l, acc, hn, hx => by
    obtain ⟨hl, hr, hb⟩ := hx x (by simp)
    have hl' : low.toNat ≤ x.toNat := UInt8.le_iff_toNat_le.1 hl
    have hs : (x - low).toNat = x.toNat - low.toNat := UInt8.toNat_sub_of_le _ _ hl
    have hk : x.toNat - low.toNat < 32 := by omega
    have hp : (2 : Nat) ^ (x.toNat - low.toNat) < 2 ^ 32 := Nat.pow_lt_pow_right (by omega) hk
    have hsum : acc.toNat + 2 ^ (x.toNat - low.toNat) < 2 ^ 32 := by
      apply lt_pow_of_bits
      intro k hk'
      rw [testBit_add_pow hb] at hk'
      simp only [Bool.or_eq_true, decide_eq_true_eq] at hk'
      rcases hk' with hk' | rfl
      · by_contra hc
        have hlt := UInt32.toNat_lt acc
        have := Nat.testBit_lt_two_pow (Nat.lt_of_lt_of_le hlt (Nat.pow_le_pow_right (by omega) (by omega : 32 ≤ k)))
        rw [this] at hk'
        cases hk'
      · exact hk
    have hpn : (UInt32.ofNat (2 ^ (x.toNat - low.toNat))).toNat = 2 ^ (x.toNat - low.toNat) :=
      UInt32.toNat_ofNat_of_lt' hp
    have han : (acc + UInt32.ofNat (2 ^ (x.toNat - low.toNat))).toNat = acc.toNat + 2 ^ (x.toNat - low.toNat) := by
      rw [UInt32.toNat_add, hpn, Nat.mod_eq_of_lt hsum]
    obtain ⟨n, e, hn'⟩ := filteredBitset_go low l (acc + UInt32.ofNat (2 ^ (x.toNat - low.toNat)))
      (List.nodup_cons.1 hn).2 (by
        intro y hy
        obtain ⟨h1, h2, h3⟩ := hx y (by simp [hy])
        refine ⟨h1, h2, ?_⟩
        have h1' : low.toNat ≤ y.toNat := UInt8.le_iff_toNat_le.1 h1
        rw [han, testBit_add_pow hb, h3]
        have : y ≠ x := fun hc => (List.nodup_cons.1 hn).1 (hc ▸ hy)
        have : y.toNat ≠ x.toNat := fun hc => this (UInt8.toNat_inj.1 hc)
        simp
        omega)
    refine ⟨n, ?_, ?_⟩
    · unfold filteredBitset.go
      rw [hs]
      simp only [pow2, hk, if_true, Res.ok_bind, addU32, hpn, hsum]
      exact e
    · intro k
      rw [hn', han, testBit_add_pow hb]
      simp only [Bool.or_eq_true, decide_eq_true_eq, List.mem_cons, exists_eq_or_imp]
      constructor
      · rintro ((h | h) | h)
        · exact .inl h
        · exact .inr (.inl (by omega))
        · exact .inr (.inr h)
      · rintro (h | h | h)
        · exact .inl (.inl h)
        · exact .inl (.inr (by omega))
        · exact .inr h

theorem intList_go : ∀ (l : List UInt8) (acc : UInt32), (∀ x ∈ l, x.toNat < 32) →
    ∃ n, intListToNum.go l acc = .ok n ∧
      ∀ k, n.toNat.testBit k = true ↔ acc.toNat.testBit k = true ∨ ∃ x ∈ l, x.toNat = k
  | [], acc, _ => ⟨acc, rfl, by simp⟩
  | x :: l, acc, h => by
    obtain ⟨n, e, hn⟩ := intList_go l (acc ||| UInt32.ofNat (2 ^ x.toNat)) fun y hy => h y (by simp [hy])
    have hx := h x (by simp)
    refine ⟨n, by rw [intListToNum.go, if_pos hx]; exact e, fun k => ?_⟩
    have hp : (2 : Nat) ^ x.toNat < 2 ^ 32 := Nat.pow_lt_pow_right (by omega) hx
    rw [hn, UInt32.toNat_or, UInt32.toNat_ofNat_of_lt' hp, Nat.testBit_or, Nat.testBit_two_pow]
    simp only [Bool.or_eq_true, decide_eq_true_eq, List.mem_cons, exists_eq_or_imp, or_assoc]

theorem intList_panic : ∀ (l : List UInt8) (acc : UInt32), (∃ x ∈ l, 32 ≤ x.toNat) → intListToNum.go l acc = .panic
  | [], _, h => by obtain ⟨_, h, _⟩ := h; cases h
  | x :: l, acc, h => by
    unfold intListToNum.go
    by_cases hx : x.toNat < 32
    · rw [if_pos hx]
      obtain ⟨y, hy, h32⟩ := h
      rcases List.mem_cons.1 hy with rfl | hy
      · omega
      · exact intList_panic l _ ⟨y, hy, h32⟩
    · rw [if_neg hx]

end FT.Props
