import Verif.Model.Device
import Verif.Lemmas.Reads

/-!
# C09: device tables
-/

namespace FT.Props
open FT FT.Device

/-- Specification: what remains of a number stored in `bits` two's complement bits. -/
def lowBits (bits : Nat) (v : Int8) : Int8 := Int8.ofInt (Int.bmod v.toInt (2 ^ bits))

/-- Specification: the number fits in `bits` two's complement bits. -/
def FitsBits (bits : Nat) (v : Int8) : Prop := -(2 ^ (bits - 1) : Int) ≤ v.toInt ∧ v.toInt < 2 ^ (bits - 1)

theorem or_shift (tmp b s : Nat) (k : Nat) (hb : b < 2 ^ k) (ht : tmp % 2 ^ (s + k) = 0) :
    tmp ||| (b <<< s) = tmp + b * 2 ^ s := by
  rw [Nat.shiftLeft_eq]
  have hlt : b * 2 ^ s < 2 ^ (s + k) := by
    rw [Nat.pow_add, Nat.mul_comm b]
    exact Nat.mul_lt_mul_of_pos_left hb (Nat.two_pow_pos s)
  have hd : tmp = 2 ^ (s + k) * (tmp / 2 ^ (s + k)) := by
    have := Nat.div_add_mod tmp (2 ^ (s + k))
    omega
  rw [hd]
  exact (Nat.two_pow_add_eq_or_of_lt hlt _).symm

set_option maxRecDepth 100000 in
/-- The bit fields decode to the low bits. -/
theorem decode_low : ∀ (f : Fin 4) (b : Fin 256), b.val < 2 ^ (2 ^ f.val) →
    (if b.val &&& 2 ^ (2 ^ f.val - 1) ≠ 0 then ((b.val : Nat) : Int) - 2 ^ (2 ^ f.val) else ((b.val : Nat) : Int)) =
      Int.bmod (b.val : Nat) (2 ^ (2 ^ f.val)) := by decide

theorem decode_value (f : Nat) (hf : f ≤ 3) (v : Int8) :
    (if (v.toInt % 2 ^ (2 ^ f)).toNat &&& 2 ^ (2 ^ f - 1) ≠ 0 then
        (((v.toInt % 2 ^ (2 ^ f)).toNat : Nat) : Int) - 2 ^ (2 ^ f)
      else (((v.toInt % 2 ^ (2 ^ f)).toNat : Nat) : Int)) = Int.bmod v.toInt (2 ^ (2 ^ f)) := by
  have hpos : (0 : Int) < 2 ^ (2 ^ f) := by exact Int.pow_pos (by decide)
  have h0 := Int.emod_nonneg v.toInt (Int.ne_of_gt hpos)
  have h1 := Int.emod_lt_of_pos v.toInt hpos
  have hcast : (((2 ^ (2 ^ f) : Nat)) : Int) = 2 ^ (2 ^ f) := by simp
  have hle : (2 : Nat) ^ (2 ^ f) ≤ 256 := by
    have : f = 0 ∨ f = 1 ∨ f = 2 ∨ f = 3 := by omega
    rcases this with rfl | rfl | rfl | rfl <;> decide
  have hb : (v.toInt % 2 ^ (2 ^ f)).toNat < 2 ^ (2 ^ f) := by omega
  have := decode_low ⟨f, by omega⟩ ⟨(v.toInt % 2 ^ (2 ^ f)).toNat, by omega⟩ hb
  simp only at this
  rw [this, Int.toNat_of_nonneg h0]
  have e : (2 : Int) ^ (2 ^ f) = ((2 ^ (2 ^ f) : Nat) : Int) := hcast.symm
  rw [e, Int.emod_bmod]

theorem loops (f : Nat) (hf : f ≤ 3) : ∀ (vs : List Int8) (tmp s : Nat), 0 < s → s ≤ 16 → (2 ^ f) ∣ s →
    tmp % 2 ^ s = 0 → tmp < 65536 →
    (s = 16 → ∀ T, Reads (decLoop (2 ^ f) T 0 vs.length) (encLoop (2 ^ f) tmp s vs) (vs.map (lowBits (2 ^ f)))) ∧
    (s < 16 → ∃ (T : UInt16) (rest : Bytes), encLoop (2 ^ f) tmp s vs = encU16 T ++ rest ∧
      T.toNat / 2 ^ s = tmp / 2 ^ s ∧
      Reads (decLoop (2 ^ f) T.toNat s vs.length) rest (vs.map (lowBits (2 ^ f)))) := by
  intro vs
  induction vs with
  | nil =>
    intro tmp s h0 h16 hd ht hlt
    constructor
    · intro hs T
      simp only [encLoop, hs]
      exact Reads.pure []
    · intro hs
      refine ⟨UInt16.ofNat tmp, [], ?_, ?_, Reads.pure []⟩
      · simp only [encLoop]; rw [if_pos (by omega)]; simp
      · rw [ofNat16_toNat (by omega)]
  | cons v vs ih =>
    intro tmp s h0 h16 hd ht hlt
    -- one step of both loops
    have hpos : (0 : Int) < 2 ^ (2 ^ f) := by exact Int.pow_pos (by decide)
    have hb0 := Int.emod_nonneg v.toInt (Int.ne_of_gt hpos)
    have hb1 := Int.emod_lt_of_pos v.toInt hpos
    have hcast : (((2 ^ (2 ^ f) : Nat)) : Int) = 2 ^ (2 ^ f) := by simp
    have hb : (v.toInt % 2 ^ (2 ^ f)).toNat < 2 ^ (2 ^ f) := by omega
    have hnb : 0 < 2 ^ f := Nat.two_pow_pos f
    have hle : 2 ^ f ≤ s := Nat.le_of_dvd h0 hd
    have hval := decode_value f hf v
    generalize hbe : (v.toInt % 2 ^ (2 ^ f)).toNat = b at hb hval
    generalize hnbe : 2 ^ f = nb at *
    let s' := s - nb
    have hs' : s' = s - nb := rfl
    have hss : s = s' + nb := by omega
    let tmp' := tmp + b * 2 ^ s'
    have hor : tmp ||| (b <<< s') = tmp' :=
      or_shift tmp b s' nb hb (by rw [← hss]; exact ht)
    have hp : (2 : Nat) ^ s = 2 ^ s' * 2 ^ nb := by rw [hss, Nat.pow_add]
    have hps : 0 < 2 ^ s' := Nat.two_pow_pos s'
    have htmp' : tmp' / 2 ^ s' % 2 ^ nb = b := by
      have hd1 : tmp = 2 ^ s' * (2 ^ nb * (tmp / 2 ^ s)) := by
        have := Nat.div_add_mod tmp (2 ^ s)
        rw [ht, hp, Nat.mul_assoc] at this
        rw [hp]; omega
      show (tmp + b * 2 ^ s') / 2 ^ s' % 2 ^ nb = b
      rw [Nat.add_mul_div_right _ _ hps]
      conv => lhs; rw [hd1]
      rw [Nat.mul_div_cancel_left _ hps, Nat.mul_add_mod]
      exact Nat.mod_eq_of_lt hb
    have hdiv' : tmp' / 2 ^ s = tmp / 2 ^ s := by
      show (tmp + b * 2 ^ s') / 2 ^ s = tmp / 2 ^ s
      have hlt2 : b * 2 ^ s' < 2 ^ s := by
        rw [hp, Nat.mul_comm]; exact Nat.mul_lt_mul_of_pos_left hb hps
      have hd1 := Nat.div_add_mod tmp (2 ^ s)
      rw [ht] at hd1
      conv => lhs; rw [← hd1, Nat.add_zero]
      rw [Nat.mul_add_div (Nat.two_pow_pos s), Nat.div_eq_of_lt hlt2, Nat.add_zero]
    have hlt' : tmp' < 65536 := by
      have h1 : tmp' / 2 ^ s < 2 ^ (16 - s) := by
        rw [hdiv', Nat.div_lt_iff_lt_mul (Nat.two_pow_pos s), ← Nat.pow_add]
        rw [Nat.sub_add_cancel h16]; exact hlt
      rw [Nat.div_lt_iff_lt_mul (Nat.two_pow_pos s), ← Nat.pow_add, Nat.sub_add_cancel h16] at h1
      exact h1
    have hmod' : tmp' % 2 ^ s' = 0 := by
      show (tmp + b * 2 ^ s') % 2 ^ s' = 0
      rw [Nat.add_mul_mod_self_right]
      have := Nat.mod_mod_of_dvd tmp (Nat.pow_dvd_pow 2 (by omega : s' ≤ s))
      rw [ht] at this; simpa using this.symm
    have hencstep : encLoop nb tmp s (v :: vs) =
        if s' = 0 then encU16 (UInt16.ofNat tmp') ++ encLoop nb 0 16 vs else encLoop nb tmp' s' vs := by
      rw [encLoop]
      simp only [hbe]
      rw [← hs', hor]
    -- the word in which this value is stored
    have hcore : ∃ (T : UInt16) (rest : Bytes), encLoop nb tmp s (v :: vs) = encU16 T ++ rest ∧
        T.toNat / 2 ^ s' = tmp' / 2 ^ s' ∧
        Reads (decLoop nb T.toNat s' vs.length) rest (vs.map (lowBits nb)) := by
      by_cases hz : s' = 0
      · refine ⟨UInt16.ofNat tmp', encLoop nb 0 16 vs, by rw [hencstep, if_pos hz], ?_, ?_⟩
        · rw [ofNat16_toNat (by omega)]
        · have hd16 : nb ∣ 16 := by
            rw [← hnbe]
            have : f = 0 ∨ f = 1 ∨ f = 2 ∨ f = 3 := by omega
            rcases this with rfl | rfl | rfl | rfl <;> decide
          rw [hz]
          exact (ih 0 16 (by omega) (by omega) hd16 (by simp) (by omega)).1 rfl _
      · have hds : nb ∣ s' := by rw [hs']; exact Nat.dvd_sub hd (Nat.dvd_refl nb)
        obtain ⟨T, rest, g1, g2, g3⟩ := (ih tmp' s' (by omega) (by omega) hds hmod' hlt').2 (by omega)
        exact ⟨T, rest, by rw [hencstep, if_neg hz, g1], g2, g3⟩
    obtain ⟨T, rest, g1, g2, g3⟩ := hcore
    have hv : (T.toNat >>> s') &&& (2 ^ nb - 1) = b := by
      rw [Nat.and_two_pow_sub_one_eq_mod, Nat.shiftRight_eq_div_pow, g2, htmp']
    have hlow : Int8.ofInt (if b &&& 2 ^ (nb - 1) ≠ 0 then (b : Int) - 2 ^ nb else (b : Int)) = lowBits nb v := by
      rw [hval]; rfl
    have hTs : T.toNat / 2 ^ s = tmp / 2 ^ s := by
      rw [hp, ← Nat.div_div_eq_div_mul, g2, Nat.div_div_eq_div_mul, ← hp, hdiv']
    constructor
    · intro hs T0
      rw [g1]
      simp only [List.length_cons, List.map_cons, decLoop, if_true]
      refine Reads.bind' (bs := encU16 T) (bs' := rest) (a := (T.toNat, 16)) (Reads.map _ (reads_u16 T)) ?_ rfl
      simp only
      rw [← hs, ← hs', hv, hlow]
      exact Reads.map _ g3
    · intro hs
      refine ⟨T, rest, g1, hTs, ?_⟩
      simp only [List.length_cons, List.map_cons, decLoop]
      rw [if_neg (by omega)]
      refine Reads.bind' (bs := []) (bs' := rest) (a := (T.toNat, s)) (Reads.pure _) ?_ rfl
      simp only
      rw [← hs', hv, hlow]
      exact Reads.map _ g3

/-- A device table with one delta per size, in a format of 2^f bits (f at most 3), is written and reads back
with the same size range and format, each delta reduced to its low 2^f bits. -/
theorem C09_roundtrip (d : Device) (f : UInt16) (hf : d.deltaFormat = some f) (h3 : f.toNat ≤ 3)
    (hle : d.startSize.toNat ≤ d.endSize.toNat)
    (hlen : d.deltaValues.length = d.endSize.toNat - d.startSize.toNat + 1) (h64 : d.deltaValues.length ≤ 65535) :
    ∃ bs, toBytes d = .ok bs ∧
      Reads Device.read bs { d with deltaValues := d.deltaValues.map (lowBits (2 ^ f.toNat)) } := by
  refine ⟨_, by unfold toBytes; rw [hf]; simp only [Option.getD_some]; rw [if_neg (by omega)], ?_⟩
  have hd16 : 2 ^ f.toNat ∣ 16 := by
    have : f.toNat = 0 ∨ f.toNat = 1 ∨ f.toNat = 2 ∨ f.toNat = 3 := by omega
    rcases this with e | e | e | e <;> rw [e] <;> decide
  have hl := (loops f.toNat h3 d.deltaValues 0 16 (by omega) (by omega) hd16 (by simp) (by omega)).1 rfl 0
  have h8 : f ≠ 0x8000 := by intro e; rw [e] at h3; simp at h3
  refine Reads.bind' (reads_u16 _) (Reads.bind (reads_u16 _) (Reads.bind (reads_u16 f) ?_)) (by
    simp only [List.append_assoc]; rfl)
  rw [if_neg h8, if_neg (by omega), if_neg (by omega), if_neg (by omega), ← hlen]
  have := Reads.map (fun vs => (⟨d.startSize, d.endSize, some f, vs⟩ : Device)) hl
  refine this.congr rfl ?_
  rw [← hf]

theorem lowBits_fits (nb : Nat) (hnb : 0 < nb) (hle : nb ≤ 8) (v : Int8) : lowBits nb v = v ↔ FitsBits nb v := by
  have h1 := v.minValue_le_toInt
  have h2 := v.toInt_le
  have e : (2 ^ nb : Nat) = 2 * 2 ^ (nb - 1) := by
    rw [← Nat.pow_succ']; congr 1; omega
  have hc : ((2 ^ (nb - 1) : Nat) : Int) = 2 ^ (nb - 1) := by simp
  have hle2 : (2 ^ (nb - 1) : Nat) ≤ 2 ^ 7 := Nat.pow_le_pow_right (by omega) (by omega)
  have hpos : 0 < (2 ^ (nb - 1) : Nat) := Nat.two_pow_pos _
  unfold FitsBits lowBits
  rw [← hc]
  have hb1 := Int.le_bmod (x := v.toInt) (m := 2 ^ nb) (by omega)
  have hb2 := Int.bmod_lt (x := v.toInt) (m := 2 ^ nb) (by omega)
  rw [e] at hb1 hb2 ⊢
  generalize (2 ^ (nb - 1) : Nat) = q at *
  have hof : (Int8.ofInt (Int.bmod v.toInt (2 * q))).toInt = Int.bmod v.toInt (2 * q) := by
    apply Int8.toInt_ofInt_of_le <;> omega
  constructor
  · intro h
    have := congrArg Int8.toInt h
    rw [hof] at this
    omega
  · intro h
    apply Int8.toInt_inj.mp
    rw [hof]
    apply Int.bmod_eq_of_le <;> omega

/-- So it reads back equal exactly when every delta fits the field width. -/
theorem C09_equal_iff_fits (d : Device) (f : UInt16) (h3 : f.toNat ≤ 3) :
    { d with deltaValues := d.deltaValues.map (lowBits (2 ^ f.toNat)) } = d ↔
      ∀ v ∈ d.deltaValues, FitsBits (2 ^ f.toNat) v := by
  have hnb : 0 < 2 ^ f.toNat := Nat.two_pow_pos _
  have hle : 2 ^ f.toNat ≤ 2 ^ 3 := Nat.pow_le_pow_right (by omega) h3
  constructor
  · intro h v hv
    have := congrArg Device.Device.deltaValues h
    simp only at this
    rw [← lowBits_fits _ hnb (by omega)]
    have key : ∀ (l : List Int8), l.map (lowBits (2 ^ f.toNat)) = l → ∀ v ∈ l, lowBits (2 ^ f.toNat) v = v := by
      intro l
      induction l with
      | nil => intro _ v hv; simp at hv
      | cons a l ih =>
        intro h v hv
        simp only [List.map_cons, List.cons.injEq] at h
        rcases List.mem_cons.mp hv with rfl | hv
        · exact h.1
        · exact ih h.2 v hv
    exact key _ this v hv
  · intro h
    have : d.deltaValues.map (lowBits (2 ^ f.toNat)) = d.deltaValues := by
      rw [List.map_congr_left (g := id)]
      · simp
      · intro v hv; exact (lowBits_fits _ hnb (by omega) v).mpr (h v hv)
    rw [this]

/-- Formats above 3, among them 0x8000 which the reader accepts, make the writer panic. -/
theorem C09_other_formats_panic (d : Device) (f : UInt16) (hf : d.deltaFormat = some f) (h3 : 3 < f.toNat) :
    toBytes d = .panic := by
  unfold toBytes; rw [hf]; simp only [Option.getD_some]; rw [if_pos h3]

/-- The format picked when none is given can be too narrow: 2 is stored in two bits, 8 in four bits, and a
delta in 4-bit range hides a larger one behind it. Each of these tables reads back with another delta. -/
theorem C09_suggested_format_loses : ∀ vs ∈ ([[2], [8], [4, 100]] : List (List Int8)),
    ∃ bs d', toBytes ⟨10, 9 + UInt16.ofNat vs.length, none, vs⟩ = .ok bs ∧
      Device.read (Rd.new bs) = .ok (d', ⟨bs, bs.length, [0]⟩) ∧ d'.deltaValues ≠ vs := by
  intro vs hvs
  simp only [List.mem_cons, List.not_mem_nil, or_false] at hvs
  rcases hvs with rfl | rfl | rfl
  · exact ⟨[0, 10, 0, 10, 0, 1, 128, 0], ⟨10, 10, some 1, [-2]⟩, by decide, by decide, by decide⟩
  · exact ⟨[0, 10, 0, 10, 0, 2, 128, 0], ⟨10, 10, some 2, [-8]⟩, by decide, by decide, by decide⟩
  · exact ⟨[0, 10, 0, 11, 0, 2, 0x44, 0], ⟨10, 11, some 2, [4, 4]⟩, by decide, by decide, by decide⟩

/-- It is wide enough when all deltas are in two-bit range, or the first delta outside -3..2 is outside -9..8. -/
theorem C09_suggested_format_ok (vs : List Int8) (pre post : List Int8) (x : Int8) :
    ((∀ v ∈ vs, FitsBits 2 v) → ∀ v ∈ vs, FitsBits (2 ^ (suggestFormat vs).toNat) v) ∧
    (vs = pre ++ x :: post → (∀ v ∈ pre, -3 ≤ v.toInt ∧ v.toInt ≤ 2) → (x.toInt < -9 ∨ 8 < x.toInt) →
      ∀ v ∈ vs, FitsBits (2 ^ (suggestFormat vs).toNat) v) := by
  constructor
  · intro h
    have : suggestFormat vs = 1 := by
      clear pre post x
      induction vs with
      | nil => rfl
      | cons v vs ih =>
        have h1 := h v (by simp)
        simp only [FitsBits] at h1
        rw [suggestFormat, if_neg (by omega), if_neg (by omega)]
        exact ih (fun v hv => h v (by simp [hv]))
    rw [this]; exact h
  · rintro rfl h1 h2
    have : suggestFormat (pre ++ x :: post) = 3 := by
      induction pre with
      | nil => simp only [List.nil_append]; rw [suggestFormat, if_pos (by omega)]
      | cons v pre ih =>
        have := h1 v (by simp)
        rw [List.cons_append, suggestFormat, if_neg (by omega), if_neg (by omega)]
        exact ih (fun v hv => h1 v (by simp [hv]))
    rw [this]
    intro v _
    have h1 := v.minValue_le_toInt
    have h2 := v.toInt_lt
    simp only [FitsBits]
    exact ⟨h1, by have : (2 : Int) ^ (2 ^ (3 : UInt16).toNat - 1) = 128 := by decide
                  omega⟩

/-- **C09**, exactly: the suggested format is wide enough in these cases and no others. Either all deltas are in two-bit range; or
there is a first delta outside -3..2, everything before it being inside, and this delta is outside -9..8 (eight bits are chosen)
or all deltas are in four-bit range. -/
theorem C09_suggested_format_iff (vs : List Int8) :
    (∀ v ∈ vs, FitsBits (2 ^ (suggestFormat vs).toNat) v) ↔
      (∀ v ∈ vs, FitsBits 2 v) ∨
      ∃ pre x post, vs = pre ++ x :: post ∧ (∀ v ∈ pre, -3 ≤ v.toInt ∧ v.toInt ≤ 2) ∧ (x.toInt < -3 ∨ 2 < x.toInt) ∧
        ((x.toInt < -9 ∨ 8 < x.toInt) ∨ ∀ v ∈ vs, FitsBits 4 v) := by
  have key : (suggestFormat vs = 1 ∧ ∀ v ∈ vs, -3 ≤ v.toInt ∧ v.toInt ≤ 2) ∨
      ∃ pre x post, vs = pre ++ x :: post ∧ (∀ v ∈ pre, -3 ≤ v.toInt ∧ v.toInt ≤ 2) ∧ (x.toInt < -3 ∨ 2 < x.toInt) ∧
        (((x.toInt < -9 ∨ 8 < x.toInt) ∧ suggestFormat vs = 3) ∨ (¬ (x.toInt < -9 ∨ 8 < x.toInt) ∧ suggestFormat vs = 2)) := by
    induction vs with
    | nil => exact Or.inl ⟨rfl, by simp⟩
    | cons v vs ih =>
      by_cases h3 : v.toInt < -9 ∨ v.toInt > 8
      · refine Or.inr ⟨[], v, vs, rfl, by simp, by omega, Or.inl ⟨h3, ?_⟩⟩
        rw [suggestFormat, if_pos h3]
      · by_cases h2 : v.toInt < -3 ∨ v.toInt > 2
        · refine Or.inr ⟨[], v, vs, rfl, by simp, h2, Or.inr ⟨h3, ?_⟩⟩
          rw [suggestFormat, if_neg h3, if_pos h2]
        · have e : suggestFormat (v :: vs) = suggestFormat vs := by rw [suggestFormat, if_neg h3, if_neg h2]
          rw [e]
          rcases ih with ⟨e1, h⟩ | ⟨pre, x, post, rfl, h, hx, ho⟩
          · refine Or.inl ⟨e1, ?_⟩
            intro w hw
            rcases List.mem_cons.mp hw with rfl | hw
            · omega
            · exact h w hw
          · refine Or.inr ⟨v :: pre, x, post, rfl, ?_, hx, ho⟩
            intro w hw
            rcases List.mem_cons.mp hw with rfl | hw
            · omega
            · exact h w hw
  have f2 : ∀ v : Int8, FitsBits 2 v ↔ -2 ≤ v.toInt ∧ v.toInt ≤ 1 := by
    intro v
    have e : (2 : Int) ^ (2 - 1) = 2 := by decide
    unfold FitsBits; rw [e]; omega
  have f4 : ∀ v : Int8, FitsBits 4 v ↔ -8 ≤ v.toInt ∧ v.toInt ≤ 7 := by
    intro v
    have e : (2 : Int) ^ (4 - 1) = 8 := by decide
    unfold FitsBits; rw [e]; omega
  have f8 : ∀ v : Int8, FitsBits 8 v := by
    intro v
    have h1 := v.minValue_le_toInt
    have h2 := v.toInt_lt
    have e : (2 : Int) ^ (8 - 1) = 128 := by decide
    unfold FitsBits; rw [e]
    exact ⟨h1, by omega⟩
  have e1 : 2 ^ (1 : UInt16).toNat = 2 := rfl
  have e2 : 2 ^ (2 : UInt16).toNat = 4 := rfl
  have e3 : 2 ^ (3 : UInt16).toNat = 8 := rfl
  rcases key with ⟨e, h⟩ | ⟨pre, x, post, ev, h, hx, ⟨h3, e⟩ | ⟨h3, e⟩⟩
  · rw [e, e1]
    constructor
    · exact Or.inl
    · rintro (h' | ⟨pre, x, post, rfl, _, hx, _⟩)
      · exact h'
      · have := h x (by simp)
        omega
  · rw [e, e3]
    exact ⟨fun _ => Or.inr ⟨pre, x, post, ev, h, hx, Or.inl h3⟩, fun _ v _ => f8 v⟩
  · rw [e, e2]
    constructor
    · intro h4
      exact Or.inr ⟨pre, x, post, ev, h, hx, Or.inr h4⟩
    · rintro (h' | ⟨pre', x', post', ev', h', hx', h5 | h5⟩)
      · intro v hv
        have := (f2 v).mp (h' v hv)
        exact (f4 v).mpr (by omega)
      · exfalso
        have hpost : ∀ (a b : List Int8) (y z : Int8) (q r : List Int8), a ++ y :: q = b ++ z :: r →
            (∀ v ∈ a, -3 ≤ v.toInt ∧ v.toInt ≤ 2) → (∀ v ∈ b, -3 ≤ v.toInt ∧ v.toInt ≤ 2) →
            (y.toInt < -3 ∨ 2 < y.toInt) → (z.toInt < -3 ∨ 2 < z.toInt) → y = z := by
          intro a
          induction a with
          | nil =>
            intro b y z q r he _ hb hy _
            cases b with
            | nil => exact (List.cons.inj he).1
            | cons w b =>
              have := (List.cons.inj he).1
              subst this
              have := hb _ (List.mem_cons_self ..)
              omega
          | cons w a ih =>
            intro b y z q r he ha hb hy hz
            cases b with
            | nil =>
              have := (List.cons.inj he).1
              subst this
              have := ha _ (List.mem_cons_self ..)
              omega
            | cons w' b =>
              exact ih b y z q r (List.cons.inj he).2 (fun v hv => ha v (by simp [hv])) (fun v hv => hb v (by simp [hv])) hy hz
        have := hpost pre pre' x x' post post' (ev ▸ ev') h h' hx hx'
        subst this
        exact h3 h5
      · exact h5

example : ∀ v ∈ ([1, -3, 7, -8] : List Int8), FitsBits (2 ^ (suggestFormat [1, -3, 7, -8]).toNat) v :=
  (C09_suggested_format_iff _).mpr (Or.inr ⟨[1, -3], 7, [-8], rfl, by decide, by decide, Or.inr (by
    intro v hv
    simp only [List.mem_cons, List.not_mem_nil, or_false] at hv
    rcases hv with rfl | rfl | rfl | rfl <;> exact ⟨by decide, by decide⟩)⟩)

example : toBytes ⟨11, 15, some 1, [1, -2, 0, -1, 1]⟩ =
    .ok [0, 11, 0, 15, 0, 1, 0x63, 0x40] := by decide
example : ∀ v ∈ ([1, -2, 0, -1, 1] : List Int8), FitsBits (2 ^ (1 : UInt16).toNat) v := by
  intro v hv
  simp only [List.mem_cons, List.not_mem_nil, or_false] at hv
  rcases hv with rfl | rfl | rfl | rfl | rfl <;> exact ⟨by decide, by decide⟩

end FT.Props
