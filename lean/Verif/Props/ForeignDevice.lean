import Verif.Props.ForeignCov
import Verif.Props.ValueRecord

/-!
# C89: device tables written by any program
-/

namespace FT.Props
open FT Reader FT.Off FT.Lay
open FT.Device (Device)

/-! ### Specification -/

/-- A device table, or a VariationIndex table, which has the indices of a delta set in place of the sizes. -/
def AnyDeviceAt (d : Device) : Bytes → Nat → Prop := fun B start =>
  if d.deltaFormat = some 0x8000 then At [u16 d.startSize, u16 d.endSize, .num 2 0x8000] B start else DeviceAt d B start

/-- Formats 1 to 3 with one delta per size, each fitting into the bits of the format; or a VariationIndex table. -/
def AnyDeviceOk (d : Device) : Prop :=
  (d.deltaFormat = some 0x8000 ∧ d.deltaValues = []) ∨
  ∃ f : UInt16, d.deltaFormat = some f ∧ 1 ≤ f.toNat ∧ f.toNat ≤ 3 ∧ d.startSize.toNat ≤ d.endSize.toNat ∧
    d.deltaValues.length = d.endSize.toNat - d.startSize.toNat + 1 ∧ d.deltaValues.length ≤ 65535 ∧
    ∀ v ∈ d.deltaValues, -(2 ^ (2 ^ f.toNat - 1) : ℤ) ≤ v.toInt ∧ v.toInt < 2 ^ (2 ^ f.toNat - 1)

/-! ### Proofs -/

theorem shown_u16 {B : Bytes} {pos : Nat} (h : pos + 2 ≤ B.length) (stk : List Nat) :
    ∃ w : UInt16, readU16 ⟨B, pos, stk⟩ = .ok (w, ⟨B, pos + 2, stk⟩) ∧ w.toNat = field B pos 2 := by
  obtain ⟨y, e1, e2⟩ := readU16_ok (r := ⟨B, pos, stk⟩) h
  exact ⟨y, e2, e1⟩

/-- Bits of a delta, as the reader takes them out of a word. -/
theorem delta_bits {nb : Nat} (hnb : 1 ≤ nb) (hnb8 : nb ≤ 8) {x : Nat} {v : Int8} (h : ((x % 2 ^ nb : Nat) : ℤ) = v.toInt % 2 ^ nb)
    (h1 : -(2 ^ (nb - 1) : ℤ) ≤ v.toInt) (h2 : v.toInt < 2 ^ (nb - 1)) :
    Int8.ofInt (if (x &&& (2 ^ nb - 1)) &&& 2 ^ (nb - 1) ≠ 0 then ((x &&& (2 ^ nb - 1) : Nat) : ℤ) - 2 ^ nb else
      ((x &&& (2 ^ nb - 1) : Nat) : ℤ)) = v := by
  rw [Nat.and_two_pow_sub_one_eq_mod]
  have hlt : x % 2 ^ nb < 2 ^ nb := Nat.mod_lt _ (by positivity)
  generalize hy : x % 2 ^ nb = y at *
  have hp : (2 : ℤ) ^ nb = 2 * 2 ^ (nb - 1) := by
    conv_lhs => rw [show nb = (nb - 1) + 1 by omega]
    rw [pow_succ]; ring
  have hpn : (2 : Nat) ^ nb = 2 * 2 ^ (nb - 1) := by
    conv_lhs => rw [show nb = (nb - 1) + 1 by omega]
    rw [pow_succ]; ring
  have hpos : (0 : ℤ) < 2 ^ (nb - 1) := by positivity
  have hbit : y &&& 2 ^ (nb - 1) ≠ 0 ↔ 2 ^ (nb - 1) ≤ y := by
    rw [Nat.and_two_pow, Nat.testBit_eq_decide_div_mod_eq]
    have hd : y / 2 ^ (nb - 1) < 2 := by
      rw [Nat.div_lt_iff_lt_mul (by positivity)]
      omega
    by_cases hc : 2 ^ (nb - 1) ≤ y
    · have : 1 ≤ y / 2 ^ (nb - 1) := (Nat.one_le_div_iff (by positivity)).mpr hc
      have : y / 2 ^ (nb - 1) = 1 := by omega
      rw [this]; simp [hc]
    · have : y / 2 ^ (nb - 1) = 0 := Nat.div_eq_of_lt (by omega)
      rw [this]; simp [hc]
  have e : (if y &&& 2 ^ (nb - 1) ≠ 0 then ((y : Nat) : ℤ) - 2 ^ nb else (y : ℤ)) = v.toInt := by
    have hmod : v.toInt % 2 ^ nb = if v.toInt < 0 then v.toInt + 2 ^ nb else v.toInt := by
      split
      · rw [← Int.add_emod_right, Int.emod_eq_of_lt] <;> omega
      · rw [Int.emod_eq_of_lt] <;> omega
    rw [hmod] at h
    have hc : (((2 : Nat) ^ (nb - 1) : Nat) : ℤ) = 2 ^ (nb - 1) := by push_cast; rfl
    by_cases hb : 2 ^ (nb - 1) ≤ y
    · rw [if_pos (hbit.mpr hb)]
      have : (2 : ℤ) ^ (nb - 1) ≤ (y : ℤ) := by rw [← hc]; exact_mod_cast hb
      split at h <;> omega
    · rw [if_neg (fun hh => hb (hbit.mp hh))]
      have : (y : ℤ) < 2 ^ (nb - 1) := by rw [← hc]; exact_mod_cast (not_le.mp hb)
      split at h <;> omega
  rw [e]
  exact Int8.ofInt_toInt v

theorem dec_values {B : Bytes} {start nb : Nat} (hnb : 1 ≤ nb) (hnb8 : nb ≤ 8) (hd : nb ∣ 16) {vs : List Int8} {stk : List Nat}
    (hb : ∀ (i : Nat) (v : Int8), vs[i]? = some v →
      start + 2 * (i * nb / 16) + 2 ≤ B.length ∧
      ((field B (start + 2 * (i * nb / 16)) 2 / 2 ^ (16 - nb - i * nb % 16) % 2 ^ nb : Nat) : ℤ) = v.toInt % 2 ^ nb)
    (hv : ∀ v ∈ vs, -(2 ^ (nb - 1) : ℤ) ≤ v.toInt ∧ v.toInt < 2 ^ (nb - 1)) :
    ∀ (rest : List Int8) (i tmp shift : Nat), vs.drop i = rest →
      (i * nb % 16 = 0 → shift = 0) → (i * nb % 16 ≠ 0 → shift = 16 - i * nb % 16 ∧ tmp = field B (start + 2 * (i * nb / 16)) 2) →
      ∃ ptr, Device.decLoop nb tmp shift rest.length ⟨B, start + 2 * ((i * nb + 15) / 16), stk⟩ = .ok (rest, ⟨B, ptr, stk⟩) := by
  intro rest
  induction rest with
  | nil => intro i tmp shift _ _ _; exact ⟨_, rfl⟩
  | cons v rest ih =>
    intro i tmp shift hdrop h0 h1
    have hi : vs[i]? = some v := by
      have := congrArg (fun l => l[0]?) hdrop
      simpa [List.getElem?_drop] using this
    have hdrop' : vs.drop (i + 1) = rest := by
      rw [← List.drop_drop, hdrop]; rfl
    obtain ⟨b1, b2⟩ := hb i v hi
    obtain ⟨v1, v2⟩ := hv v (List.mem_of_getElem? hi)
    obtain ⟨k, hk⟩ := hd
    have hmod : i * nb % 16 + nb ≤ 16 := by
      have e : i * nb % 16 = nb * (i % k) := by rw [hk, Nat.mul_comm i nb, Nat.mul_mod_mul_left]
      have hk0 : 0 < k := by rcases Nat.eq_zero_or_pos k with rfl | h <;> omega
      have : i % k < k := Nat.mod_lt _ hk0
      rw [e, hk]
      calc nb * (i % k) + nb = nb * (i % k + 1) := by ring
        _ ≤ nb * k := Nat.mul_le_mul_left _ this
    have hnext : (i + 1) * nb = i * nb + nb := by ring
    -- the word that holds the delta, and the state after it has been fetched
    have hst : ∃ st : Nat × Nat, (if shift = 0 then (do let t ← readU16; return (t.toNat, 16)) else pure (tmp, shift) : Reader (Nat × Nat))
          ⟨B, start + 2 * ((i * nb + 15) / 16), stk⟩ = .ok (st, ⟨B, start + 2 * (((i + 1) * nb + 15) / 16), stk⟩) ∧
        st.1 = field B (start + 2 * (i * nb / 16)) 2 ∧ st.2 = 16 - i * nb % 16 := by
      by_cases hz : i * nb % 16 = 0
      · rw [if_pos (h0 hz)]
        have e1 : (i * nb + 15) / 16 = i * nb / 16 := by omega
        have e2 : ((i + 1) * nb + 15) / 16 = i * nb / 16 + 1 := by omega
        obtain ⟨w, hw1, hw2⟩ := shown_u16 b1 stk
        rw [e1, bind_run, hw1]
        exact ⟨(w.toNat, 16), by rw [e2]; rfl, hw2, by omega⟩
      · obtain ⟨hs, ht⟩ := h1 hz
        rw [if_neg (by omega)]
        refine ⟨(tmp, shift), ?_, ht, hs⟩
        have : (i * nb + 15) / 16 = ((i + 1) * nb + 15) / 16 := by omega
        rw [this]; rfl
    obtain ⟨st, e1, e2, e3⟩ := hst
    obtain ⟨ptr, ep⟩ := ih (i + 1) st.1 (st.2 - nb) hdrop' (by intro h; rw [hnext] at h; omega) (by
      intro h
      rw [hnext] at h ⊢
      refine ⟨by omega, ?_⟩
      rw [e2]
      congr 2
      omega)
    refine ⟨ptr, ?_⟩
    rw [List.length_cons, Device.decLoop]
    rw [bind_run, e1]
    simp only
    rw [bind_run, ep]
    simp only
    have hval : Int8.ofInt (if ((st.1 >>> (st.2 - nb)) &&& (2 ^ nb - 1)) &&& 2 ^ (nb - 1) ≠ 0 then
        (((st.1 >>> (st.2 - nb)) &&& (2 ^ nb - 1) : Nat) : ℤ) - 2 ^ nb else (((st.1 >>> (st.2 - nb)) &&& (2 ^ nb - 1) : Nat) : ℤ)) = v := by
      refine delta_bits hnb hnb8 ?_ v1 v2
      rw [Nat.shiftRight_eq_div_pow, e2, e3, ← b2]
      congr 4
      omega
    rw [hval]
    rfl

theorem finds_device {d : Device} (h : AnyDeviceOk d) : FindsAt Device.read d (AnyDeviceAt d) := by
  intro B start stk hh
  obtain ⟨s, e, fo, vs⟩ := d
  rcases h with ⟨h1, h2⟩ | ⟨f, h1, h2, h3, h4, h5, h6, h7⟩
  · simp only at h1 h2
    subst h1 h2
    unfold AnyDeviceAt at hh
    rw [if_pos rfl] at hh
    have hp : Plain Device.read ⟨s, e, some 0x8000, []⟩ [u16 s, u16 e, .num 2 0x8000] := by
      unfold Device.read
      refine (plain_u16 s).cons ((plain_u16 e).cons ((plain_num16 0x8000 (by decide)).last ?_))
      rfl
    exact hp.table (by simp [widths_cons, Cell.width]) B start stk hh
  · simp only at h1 h4 h5 h6 h7
    subst h1
    unfold AnyDeviceAt at hh
    have hne : f ≠ 0x8000 := by rintro rfl; revert h3; decide
    rw [if_neg (by simpa using hne)] at hh
    obtain ⟨f', g1, g2, g3, g4⟩ := hh
    obtain rfl : f.toNat = f' := g2 f rfl
    have hfit := shows_fits g3 (by simp [widths_cons, Cell.width])

    refine ⟨by omega, ?_⟩
    obtain ⟨q1, q2, q3, _⟩ := g3
    have r1 := plain_u16 s B start start stk ⟨q1, trivial⟩
    have r2 := plain_u16 e B start (start + 2) stk ⟨q2, trivial⟩
    have r3 := plain_num16 (v := (f.toNat : ℤ)) f (by omega) B start (start + 2 + 2) stk ⟨q3, trivial⟩
    simp only [widths, Cell.width, List.map_cons, List.map_nil, List.sum_cons, List.sum_nil, Nat.add_zero] at r1 r2 r3
    have hdvd : 2 ^ f.toNat ∣ 16 := by
      have : f.toNat = 1 ∨ f.toNat = 2 ∨ f.toNat = 3 := by omega
      rcases this with h | h | h <;> rw [h] <;> decide
    have h1' : 1 ≤ 2 ^ f.toNat := Nat.one_le_two_pow
    have h8' : 2 ^ f.toNat ≤ 8 := by
      have : f.toNat = 1 ∨ f.toNat = 2 ∨ f.toNat = 3 := by omega
      rcases this with h | h | h <;> rw [h] <;> decide
    obtain ⟨ptr, ep⟩ := dec_values (B := B) (start := start + 6) (stk := stk) h1' h8' hdvd g4 h7 vs 0 0 0 rfl (by simp) (by simp)
    refine ⟨ptr, ?_⟩
    unfold Device.read
    simp only [bind_run, r1, r2, r3]
    rw [if_neg hne, if_neg (by omega), if_neg (by omega), if_neg (by omega)]
    simp only [bind_run]
    rw [← h5, show start + 2 + 2 + 2 = start + 6 + 2 * ((0 * 2 ^ f.toNat + 15) / 16) by simp, ep]
    rfl

example : AnyDeviceOk ⟨11, 13, some 1, [-2, 0, 1]⟩ ∧ AnyDeviceAt ⟨11, 13, some 1, [-2, 0, 1]⟩ [0, 11, 0, 13, 0, 1, 0x84, 0] 0 := by
  refine ⟨.inr ⟨1, rfl, by decide, by decide, by decide, by decide, by decide, by decide⟩, ?_⟩
  unfold AnyDeviceAt
  rw [if_neg (by decide)]
  refine ⟨1, by decide, by decide, ⟨⟨by decide, by decide⟩, ⟨by decide, by decide⟩, ⟨by decide, by decide⟩, trivial⟩, ?_⟩
  intro i v hv
  match i, hv with
  | 0, hv => cases hv; decide
  | 1, hv => cases hv; decide
  | 2, hv => cases hv; decide
  | n + 3, hv => simp at hv

end FT.Props
