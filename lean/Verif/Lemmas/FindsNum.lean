import Verif.Lemmas.Finds
import Verif.Props.ForeignLists

/-!
Numbers of all kinds found by readers, as in `Verif.Lemmas.Finds`.
-/

namespace FT.Props
open FT Reader FT.F32 FT.Tables

theorem plain_num32 {v : ℤ} (x : UInt32) (h : (x.toNat : ℤ) = v % 4294967296) : Plain readU32 x [.num 4 v] := by
  intro B base pos stk hs
  obtain ⟨⟨h1, h2⟩, _⟩ := hs
  obtain ⟨y, e1, e2⟩ := readU32_ok (r := ⟨B, pos, stk⟩) h1
  rw [e2]
  have : y = x := UInt32.toNat_inj.mp (by
    simp only at e1
    have : ((y.toNat : Nat) : ℤ) = x.toNat := by rw [e1, h2, h]; norm_num
    exact_mod_cast this)
  subst this
  rfl

theorem plain_count32 {n : Nat} (h : n ≤ 4294967295) : Plain readU32 (UInt32.ofNat n) [.num 4 n] :=
  plain_num32 _ (by simp)

theorem readU8_ok {B : Bytes} {pos : Nat} {stk : List Nat} {b : UInt8} (h : B[pos]? = some b) :
    readU8 ⟨B, pos, stk⟩ = .ok (b, ⟨B, pos + 1, stk⟩) := by
  obtain ⟨hl, e⟩ := List.getElem?_eq_some_iff.mp h
  unfold readU8
  rw [bind_run]
  unfold consume
  rw [if_neg (by simp only; omega)]
  simp only
  have : (B.drop pos).take 1 = [b] := by
    rw [List.drop_eq_getElem_cons hl, e]; rfl
  rw [this]
  rfl

theorem plain_u8 (x : UInt8) : Plain readU8 x [u8 x] := by
  intro B base pos stk hs
  obtain ⟨⟨h1, h2⟩, _⟩ := hs
  refine readU8_ok ?_
  rw [List.getElem?_eq_getElem (by omega)]
  congr 1
  unfold field at h2
  rw [List.drop_eq_getElem_cons (by omega)] at h2
  simp only [List.take_succ_cons, List.take_zero, beValue, List.foldl_cons, List.foldl_nil] at h2
  have := (B[pos]'(by omega)).toNat_lt
  have := x.toNat_lt
  exact UInt8.toNat_inj.mp (by omega)

/-- Bytes as such. -/
theorem plain_bytes (bs : Bytes) : Plain (deCounted readU8 bs.length) bs [.text bs] := by
  have key : ∀ (bs B : Bytes) (pos : Nat) (stk : List Nat), (B.drop pos).take bs.length = bs →
      deCounted readU8 bs.length ⟨B, pos, stk⟩ = .ok (bs, ⟨B, pos + bs.length, stk⟩) := by
    intro bs
    induction bs with
    | nil => intro B pos stk _; rfl
    | cons b bs ih =>
      intro B pos stk h
      have hlt : pos < B.length := by
        have := congrArg List.length h
        simp only [List.length_take, List.length_drop, List.length_cons] at this
        omega
      rw [List.drop_eq_getElem_cons hlt, List.length_cons, List.take_succ_cons] at h
      have e1 := (List.cons.injEq _ _ _ _ ▸ h).1
      have e2 := (List.cons.injEq _ _ _ _ ▸ h).2
      rw [List.length_cons, deCounted, bind_run, readU8_ok (b := b) (by rw [List.getElem?_eq_getElem hlt, e1])]
      simp only
      rw [bind_run, ih B (pos + 1) stk e2]
      simp only [pure_run]
      congr 3
      omega
  intro B base pos stk hs
  have := key bs B pos stk hs.1
  rw [this]
  simp [widths, Cell.width]

theorem i32_ofInt_nat {x : UInt32} {v : Int32} (h : (x.toNat : ℤ) = v.toInt % 4294967296) : x.toInt32 = v := by
  apply Int32.toInt_inj.mp
  have h1 : x.toInt32.toInt = x.toInt32.toBitVec.toInt := rfl
  have h2 := @BitVec.toInt_eq_toNat_cond 32 x.toInt32.toBitVec
  have h3 : x.toInt32.toBitVec.toNat = x.toNat := rfl
  have h4 := x.toNat_lt
  have h5 := v.le_toInt
  have h6 := v.toInt_lt
  rw [h1, h2, h3]
  split <;> omega

/-- A fixed point number is read as `f32`. -/
theorem fixed_read {B : Bytes} {base pos : Nat} {stk : List Nat} {v : ℚ} (hs : Shows B base pos [fixed v]) :
    readFixed ⟨B, pos, stk⟩ = .ok (rne (rne (v * 65536) / 65536), ⟨B, pos + 4, stk⟩) := by
  obtain ⟨⟨h1, k, h2, h3, h4, rfl⟩, _⟩ := hs
  obtain ⟨y, e1, e2⟩ := readU32_ok (r := ⟨B, pos, stk⟩) h1
  unfold readFixed readI32
  rw [bind_run, bind_run, e2]
  have hk : (Int32.ofInt k).toInt = k := by
    rw [Int32.toInt_ofInt, Int.bmod_def, show Int32.size = 4294967296 from rfl]
    split <;> omega
  have : y.toInt32 = Int32.ofInt k := i32_ofInt_nat (by simp only at e1; rw [e1, h2, hk]; norm_num)
  simp only [pure_run, this, hk]
  unfold fixedFromPacked
  have e : ((k : ℚ) / 2 ^ 16 * 65536) = k := by norm_num
  rw [e]

theorem plain_fixed {v : ℚ} (h : FixedVal v) : Plain readFixed v [fixed v] := by
  intro B base pos stk hs
  rw [fixed_read hs]
  obtain ⟨p, _, e1, e2⟩ := h.packed
  unfold fixedFromPacked at e1
  have e : v * 65536 = p.toInt := by rw [e2]; ring
  rw [e, e1]
  rfl

theorem plain_f2dot14 (v : ℚ) : Plain readF2dot14 v [f2dot14 v] := by
  intro B base pos stk hs
  obtain ⟨⟨h1, k, h2, h3, h4, rfl⟩, _⟩ := hs
  obtain ⟨y, e1, e2⟩ := readU16_ok (r := ⟨B, pos, stk⟩) h1
  unfold readF2dot14 readI16
  rw [bind_run, bind_run, e2]
  have hk : (Int16.ofInt k).toInt = k := int16_ofInt (by omega) (by omega)
  have : y.toInt16 = Int16.ofInt k := i16_ofInt_nat (by simp only at e1; rw [e1, h2, hk]; norm_num)
  simp only [pure_run, this]
  rw [C04_f2dot14_value, hk]
  norm_num [widths, Cell.width]

theorem readI64_ok {B : Bytes} {pos : Nat} {stk : List Nat} (h : pos + 8 ≤ B.length) {v : ℤ} (h1 : -2 ^ 63 ≤ v) (h2 : v < 2 ^ 63)
    (hv : (field B pos 8 : ℤ) = v % 256 ^ 8) : readI64 ⟨B, pos, stk⟩ = .ok (Int64.ofInt v, ⟨B, pos + 8, stk⟩) := by
  have hl : ((B.drop pos).take 8).length = 8 := by simp; omega
  unfold readI64
  rw [bind_run]
  unfold consume
  unfold field at hv
  rw [if_neg (by simp only; omega)]
  simp only
  generalize (B.drop pos).take 8 = bs at *
  match bs, hl with
  | [a, b, c, d, e, f, g, i], _ =>
    simp only [pure_run]
    congr 2
    have hn : ((a.toNat * 16777216 + b.toNat * 65536 + c.toNat * 256 + d.toNat) * 4294967296 +
        (e.toNat * 16777216 + f.toNat * 65536 + g.toNat * 256 + i.toNat)) = beValue [a, b, c, d, e, f, g, i] := by
      simp only [beValue, List.foldl_cons, List.foldl_nil]
      ring
    have hlt : beValue [a, b, c, d, e, f, g, i] < 18446744073709551616 := by
      rw [← hn]
      have := a.toNat_lt; have := b.toNat_lt; have := c.toNat_lt; have := d.toNat_lt
      have := e.toNat_lt; have := f.toNat_lt; have := g.toNat_lt; have := i.toNat_lt
      omega
    rw [hn]
    generalize beValue [a, b, c, d, e, f, g, i] = n at *
    clear hn
    apply Int64.toInt_inj.mp
    have t1 : ∀ x : UInt64, x.toInt64.toInt = x.toInt64.toBitVec.toInt := fun _ => rfl
    rw [t1, BitVec.toInt_eq_toNat_cond]
    have t2 : ∀ x : UInt64, x.toInt64.toBitVec.toNat = x.toNat := fun _ => rfl
    rw [t2, Int64.toInt_ofInt, Int.bmod_def, show Int64.size = 18446744073709551616 from rfl]
    rw [UInt64.toNat_ofNat_of_lt' (by simpa [UInt64.size] using hlt)]
    norm_num at hv h1 h2 ⊢
    split <;> split <;> omega

theorem plain_date {d : Date} (h1 : dateMin ≤ d.secs) (h2 : d.secs ≤ dateMax) (h3 : d.nanos = 0) :
    Plain readDate d [.num 8 d.secs] := by
  intro B base pos stk hs
  obtain ⟨⟨e1, e2⟩, _⟩ := hs
  have g1 : -8332550006400 ≤ d.secs := h1
  have g2 : d.secs ≤ 8212381257599 := h2
  unfold readDate
  rw [bind_run, readI64_ok e1 (by omega) (by omega) e2]
  have : (Int64.ofInt d.secs).toInt = d.secs := by
    rw [Int64.toInt_ofInt, Int.bmod_def, show Int64.size = 18446744073709551616 from rfl]
    split <;> omega
  simp only [this]
  rw [if_pos ⟨h1, h2⟩]
  obtain ⟨s, n⟩ := d
  cases h3
  rfl

end FT.Props
