import Verif.Model.F2dot14Ord
import Verif.Props.Nearest

/-!
# C112: how `F2DOT14` numbers are compared

They are keys of maps (shared tuples, regions of deltasets), so what counts as equal and what comes first decides what is
merged and in which order it is written.
-/

namespace FT.Props
open FT FT.F32 Reader

/-! ### Specification -/

/-- The numbers that an `F2DOT14` can hold, up to rounding (C04). -/
def InRange14 (x : ℚ) : Prop := -2 - 1 / 32768 ≤ x ∧ x < 2 - 1 / 32768

/-! ### Lemmas -/

namespace F214

/-- The stored number. -/
noncomputable def near (x : ℚ) : ℤ := if x = 2 ^ (-15 : ℤ) - 2 ^ (-39 : ℤ) then 1 else ⌊x * 16384 + 1 / 2⌋

theorem encI16_inj {p q : Int16} (h : encI16 p = encI16 q) : p = q := by
  have h1 := congrArg (fun b => readI16 ⟨b, 0, []⟩) h
  have e : ∀ z : Int16, readI16 ⟨encI16 z, 0, []⟩ = .ok (z, ⟨encI16 z, 2, []⟩) := by
    intro z
    have := reads_i16 z [] [] []
    simpa [encI16, encU16] using this
  rw [e, e] at h1
  simp only [Res.ok.injEq, Prod.mk.injEq] at h1
  exact h1.1

theorem packed_bound {x : ℚ} {p : ℤ} (h : f2dot14AsPacked x = .ok p) : -32768 ≤ p ∧ p ≤ 32767 := by
  unfold f2dot14AsPacked at h
  simp only at h
  split at h
  · rename_i hb
    cases h
    exact hb
  · cases h

theorem packed_cases (x : ℚ) : (∃ p, f2dot14AsPacked x = .ok p) ∨ f2dot14AsPacked x = .err := by
  unfold f2dot14AsPacked
  simp only
  split
  · exact Or.inl ⟨_, rfl⟩
  · exact Or.inr rfl

theorem enc_ok {x : ℚ} {p : ℤ} (h : f2dot14AsPacked x = .ok p) : encF2dot14 x = .ok (encI16 (Int16.ofInt p)) := by
  unfold encF2dot14; rw [h]; rfl

theorem enc_err {x : ℚ} (h : f2dot14AsPacked x = .err) : encF2dot14 x = .err := by
  unfold encF2dot14; rw [h]; rfl

theorem toInt_of {p : ℤ} (h : -32768 ≤ p ∧ p ≤ 32767) : (Int16.ofInt p).toInt = p :=
  Int16.toInt_ofInt_of_le (by omega) (by omega)

theorem ofInt_inj {p q : ℤ} (hp : -32768 ≤ p ∧ p ≤ 32767) (hq : -32768 ≤ q ∧ q ≤ 32767)
    (h : Int16.ofInt p = Int16.ofInt q) : p = q := by
  rw [← toInt_of hp, ← toInt_of hq, h]

theorem packed_near {x : ℚ} (hx : IsF32 x) (h : InRange14 x) : f2dot14AsPacked x = .ok (near x) := by
  obtain ⟨p, bs, hp, he, _⟩ := (C04_f2dot14_nearest hx).1 h.1 h.2
  rcases packed_cases x with ⟨q, hq⟩ | hq
  · rw [hq]
    unfold near
    have h1 := (C04_f2dot14_nearest hx).1 h.1 h.2
    obtain ⟨p, bs, hp, he, hr⟩ := h1
    rw [enc_ok hq] at he
    cases he
    have k := reads_f2dot14 (Int16.ofInt q) [] [] []
    have k' := (hr [] [] [])
    rw [k'] at k
    simp only [Res.ok.injEq, Prod.mk.injEq] at k
    have k2 := k.1
    rw [C04_f2dot14_value] at k2
    have k3 : (p.toInt : ℚ) = ((Int16.ofInt q).toInt : ℚ) := by linarith
    rw [toInt_of (packed_bound hq)] at k3
    have k4 : p.toInt = q := by exact_mod_cast k3
    rw [← k4, hp]
  · rw [enc_err hq] at he
    cases he

theorem packed_out {x : ℚ} (hx : IsF32 x) (h : ¬ InRange14 x) : f2dot14AsPacked x = .err := by
  have h' : x < -2 - 1 / 32768 ∨ 2 - 1 / 32768 ≤ x := by
    unfold InRange14 at h
    by_cases h1 : x < -2 - 1 / 32768
    · exact Or.inl h1
    · right
      by_cases h2 : 2 - 1 / 32768 ≤ x
      · exact h2
      · exact absurd ⟨not_lt.mp h1, not_le.mp h2⟩ h
  rcases packed_cases x with ⟨q, hq⟩ | hq
  · have := (C04_f2dot14_nearest hx).2 h'
    rw [enc_ok hq] at this
    cases this
  · exact hq

theorem near_mono {x y : ℚ} (hx : IsF32 x) (hy : IsF32 y) (rx : InRange14 x) (ry : InRange14 y) (h : x ≤ y) :
    near x ≤ near y := by
  have ax := packed_near hx rx
  have ay := packed_near hy ry
  have key : otRound (rne (x * 16384)) ≤ otRound (rne (y * 16384)) := by
    unfold otRound toI32
    have h1 : rne (x * 16384) ≤ rne (y * 16384) := rne_mono (by linarith)
    have h2 : rne (rne (x * 16384) + 1 / 2) ≤ rne (rne (y * 16384) + 1 / 2) := rne_mono (by linarith)
    have h3 := Int.floor_le_floor h2
    omega
  unfold f2dot14AsPacked at ax ay
  simp only at ax ay
  split at ax
  · split at ay
    · simp only [Res.ok.injEq] at ax ay
      omega
    · cases ay
  · cases ax

theorem near_step {x y : ℚ} (hy : IsF32 y) (h : x + 1 / 16384 ≤ y) : near x < near y := by
  unfold near
  split
  · rename_i ex
    rw [if_neg]
    · -- `y` is at least the double just above
      have hy2 : 3 * 2 ^ (-15 : ℤ) ≤ y := by
        rw [ex] at h
        have hge : (3 * 2 ^ (-15 : ℤ) - 2 ^ (-39 : ℤ) : ℚ) ≤ y := by
          refine le_trans (le_of_eq ?_) h
          norm_num
        have e : rne (3 * 2 ^ (-15 : ℤ) - 2 ^ (-39 : ℤ)) = 3 * 2 ^ (-15 : ℤ) := by decide +kernel
        have := rne_mono hge
        rw [e, hy] at this
        exact this
      have : (2 : ℤ) ≤ ⌊y * 16384 + 1 / 2⌋ := by
        rw [Int.le_floor]
        norm_num at hy2 ⊢
        linarith
      omega
    · intro ey
      rw [ex, ey] at h
      norm_num at h
  · split
    · rename_i ey
      rw [ey] at h
      rw [Int.floor_lt]
      norm_num at h ⊢
      linarith
    · have : ⌊x * 16384 + 1 / 2⌋ + 1 ≤ ⌊y * 16384 + 1 / 2⌋ := by
        rw [Int.le_floor]
        push_cast
        have := Int.floor_le (x * 16384 + 1 / 2)
        linarith
      omega

end F214
open F214

/-! ### Theorems -/

/-- Two numbers are equal exactly if they are written alike, or both refused. -/
theorem C112_equal (x y : ℚ) : f2dot14Eq x y = true ↔ encF2dot14 x = encF2dot14 y := by
  unfold f2dot14Eq
  rcases packed_cases x with ⟨p, hp⟩ | hp <;> rcases packed_cases y with ⟨q, hq⟩ | hq <;> rw [hp, hq]
  · rw [enc_ok hp, enc_ok hq]
    simp only [beq_iff_eq, Res.ok.injEq]
    constructor
    · intro h; rw [h]
    · intro h; exact ofInt_inj (packed_bound hp) (packed_bound hq) (encI16_inj h)
  · rw [enc_ok hp, enc_err hq]; simp
  · rw [enc_err hp, enc_ok hq]; simp
  · rw [enc_err hp, enc_err hq]; simp

/-- In the range they are ordered without failure. The order never contradicts that of the numbers, keeps apart what is
1/16384 or more apart, and treats as equal exactly what `==` does. -/
theorem C112_order {x y : ℚ} (hx : IsF32 x) (hy : IsF32 y) (rx : InRange14 x) (ry : InRange14 y) :
    ∃ o, f2dot14Cmp x y = .ok o ∧ f2dot14PartialCmp x y = .ok (some o) ∧ f2dot14Cmp y x = .ok o.swap ∧
      (o = .eq ↔ f2dot14Eq x y = true) ∧ (o = .lt → x < y) ∧ (o = .gt → y < x) ∧
      (x + 1 / 16384 ≤ y → o = .lt) ∧ (y + 1 / 16384 ≤ x → o = .gt) := by
  have ax := packed_near hx rx
  have ay := packed_near hy ry
  refine ⟨compare (near x) (near y), ?_, ?_, ?_, ?_, ?_, ?_, ?_, ?_⟩
  · unfold f2dot14Cmp; rw [ax, ay]
  · unfold f2dot14PartialCmp; rw [ax, ay]
  · unfold f2dot14Cmp; rw [ax, ay]
    simp only [Res.ok.injEq]
    exact (Std.OrientedCmp.eq_swap (cmp := (compare : ℤ → ℤ → Ordering)))
  · unfold f2dot14Eq; rw [ax, ay]; simp
  · intro h
    rw [compare_lt_iff_lt] at h
    by_contra hn
    have := near_mono hy hx ry rx (not_lt.mp hn)
    omega
  · intro h
    rw [compare_gt_iff_gt] at h
    by_contra hn
    have := near_mono hx hy rx ry (not_lt.mp hn)
    omega
  · intro h
    rw [compare_lt_iff_lt]
    exact near_step hy h
  · intro h
    rw [compare_gt_iff_gt]
    exact near_step hx h

/-- The order is transitive, also through equal numbers. -/
theorem C112_transitive {x y z : ℚ} {o : Ordering} (h1 : f2dot14Cmp x y = .ok o) (h2 : f2dot14Cmp y z = .ok o) :
    f2dot14Cmp x z = .ok o := by
  unfold f2dot14Cmp at *
  rcases packed_cases x with ⟨p, hp⟩ | hp <;> rcases packed_cases y with ⟨q, hq⟩ | hq <;>
    rcases packed_cases z with ⟨r, hr⟩ | hr <;> simp only [hp, hq, hr] at h1 h2 ⊢ <;> try cases h1
  · simp only [Res.ok.injEq] at h2 ⊢
    rcases lt_trichotomy p q with h | h | h
    · have e1 : compare p q = .lt := by rw [compare_lt_iff_lt]; exact h
      rw [e1] at h2 ⊢
      rw [compare_lt_iff_lt] at h2 ⊢
      omega
    · rw [h]; rw [h] at h2; rw [h2]
    · have e1 : compare p q = .gt := by rw [compare_gt_iff_gt]; exact h
      rw [e1] at h2 ⊢
      rw [compare_gt_iff_gt] at h2 ⊢
      omega
  · cases h2

/-- In the range the hash is given the same number exactly for equal numbers. -/
theorem C112_hash {x y : ℚ} (hx : IsF32 x) (hy : IsF32 y) (rx : InRange14 x) (ry : InRange14 y) :
    ∃ a b, f2dot14Hash x = .ok a ∧ f2dot14Hash y = .ok b ∧ (a = b ↔ f2dot14Eq x y = true) := by
  have ax := packed_near hx rx
  have ay := packed_near hy ry
  refine ⟨Int16.ofInt (near x), Int16.ofInt (near y), ?_, ?_, ?_⟩
  · unfold f2dot14Hash; rw [ax]
  · unfold f2dot14Hash; rw [ay]
  · unfold f2dot14Eq; rw [ax, ay]
    simp only [beq_iff_eq]
    exact ⟨ofInt_inj (packed_bound ax) (packed_bound ay), fun h => by rw [h]⟩

/-- Outside the range ordering and hashing panic; all numbers outside are equal to each other and to none inside. -/
theorem C112_outside {x : ℚ} (hx : IsF32 x) (rx : ¬ InRange14 x) :
    f2dot14Hash x = .panic ∧ ∀ y, f2dot14Cmp x y = .panic ∧ f2dot14Cmp y x = .panic ∧ f2dot14PartialCmp x y = .panic ∧
      f2dot14PartialCmp y x = .panic ∧ (IsF32 y → (f2dot14Eq x y = true ↔ ¬ InRange14 y)) := by
  have ax := packed_out hx rx
  refine ⟨by unfold f2dot14Hash; rw [ax], fun y => ⟨?_, ?_, ?_, ?_, ?_⟩⟩
  · unfold f2dot14Cmp; rw [ax]
  · unfold f2dot14Cmp; rw [ax]; rcases packed_cases y with ⟨q, hq⟩ | hq <;> rw [hq]
  · unfold f2dot14PartialCmp; rw [ax]
  · unfold f2dot14PartialCmp; rw [ax]; rcases packed_cases y with ⟨q, hq⟩ | hq <;> rw [hq]
  · intro hy
    by_cases ry : InRange14 y
    · have ay := packed_near hy ry
      unfold f2dot14Eq; rw [ax, ay]; simp [ry]
    · have ay := packed_out hy ry
      unfold f2dot14Eq; rw [ax, ay]; simp [ry]

/-- So three and five count as equal. -/
theorem C112_three_is_five : IsF32 3 ∧ IsF32 5 ∧ f2dot14Eq 3 5 = true ∧ f2dot14Cmp 3 5 = .panic := by decide +kernel

/-! ### Examples -/

example : IsF32 (1 / 2) ∧ IsF32 (-5 / 4) ∧ InRange14 (1 / 2) ∧ InRange14 (-5 / 4) ∧ f2dot14Cmp (1 / 2) (-5 / 4) = .ok .gt := by
  refine ⟨by decide +kernel, by decide +kernel, ?_, ?_, by decide +kernel⟩ <;> unfold InRange14 <;> norm_num

/-- Different numbers that are stored alike. -/
example : f2dot14Eq (1 / 2) (1 / 2 + 1 / 65536) = true ∧ f2dot14Hash (1 / 2) = f2dot14Hash (1 / 2 + 1 / 65536) ∧
    f2dot14Cmp (1 / 2) (1 / 2 + 1 / 65536) = .ok .eq := by decide +kernel

example : IsF32 2 ∧ ¬ InRange14 2 := ⟨by decide +kernel, by unfold InRange14; norm_num⟩

end FT.Props
