import Verif.Props.TupleVar
import Verif.Lemmas.F32Mono

/-!
C39, C04: which coordinates and which tuple variation headers can be written.
-/

namespace FT.Props
open FT F32 TupleVar

/-- What a 2.14 number can hold. -/
def Holds14 (c : ℚ) : Prop := -2 ≤ c ∧ c ≤ 2 - 1 / 16384

theorem otRound_mono {x y : ℚ} (h : x ≤ y) : otRound x ≤ otRound y := by
  have h1 : rne (x + 1 / 2) ≤ rne (y + 1 / 2) := rne_mono (by linarith)
  have h2 : ⌊rne (x + 1 / 2)⌋ ≤ ⌊rne (y + 1 / 2)⌋ := Int.floor_le_floor h1
  unfold otRound toI32
  omega

theorem packed14_int (p : ℤ) (hp : |p| ≤ 2 ^ 23) : otRound (rne ((p : ℚ) / 16384 * 16384)) = p := by
  have e : (p : ℚ) / 16384 * 16384 = p := by ring
  rw [e, rne_int p (by omega), otRound_small p hp]

/-- **C04** (what fits). A number between -2 and 2 - 2⁻¹⁴ can be written as 2.14 number; from 2 on and from -2 - 2⁻¹⁴ downwards it is
refused. -/
theorem C04_f2dot14_range (c : ℚ) : (Holds14 c → ∃ p, f2dot14AsPacked c = .ok p) ∧
    (2 ≤ c ∨ c ≤ -2 - 1 / 16384 → f2dot14AsPacked c = .err) := by
  have mono : ∀ {a b : ℚ}, a ≤ b → otRound (rne (a * 16384)) ≤ otRound (rne (b * 16384)) :=
    fun h => otRound_mono (rne_mono (by linarith))
  have k : ∀ p : ℤ, |p| ≤ 2 ^ 23 → ∀ q : ℚ, q = (p : ℚ) / 16384 → otRound (rne (q * 16384)) = p := by
    rintro p hp q rfl
    exact packed14_int p hp
  have k1 := k (-32768) (by norm_num) (-2) (by norm_num)
  have k2 := k 32767 (by norm_num) (2 - 1 / 16384) (by norm_num)
  have k3 := k 32768 (by norm_num) 2 (by norm_num)
  have k4 := k (-32769) (by norm_num) (-2 - 1 / 16384) (by norm_num)
  constructor
  · rintro ⟨h1, h2⟩
    have m1 := mono h1
    have m2 := mono h2
    rw [k1] at m1
    rw [k2] at m2
    unfold f2dot14AsPacked
    exact ⟨_, if_pos ⟨m1, m2⟩⟩
  · intro h
    unfold f2dot14AsPacked
    apply if_neg
    rcases h with h | h
    · have := mono h
      rw [k3] at this
      omega
    · have := mono h
      rw [k4] at this
      omega

theorem encVecR_f2dot14 : ∀ l : List ℚ, (∃ b, encVecR encF2dot14 l = .ok b ∧ b.length = 2 * l.length) ∨
    (encVecR encF2dot14 l = .err ∧ ∃ c ∈ l, ¬ Holds14 c)
  | [] => Or.inl ⟨[], rfl, rfl⟩
  | c :: l => by
    by_cases hc : ∃ p, f2dot14AsPacked c = .ok p
    · obtain ⟨p, hp⟩ := hc
      have e : encF2dot14 c = .ok (encI16 (Int16.ofInt p)) := by
        unfold encF2dot14
        rw [hp]; rfl
      rcases encVecR_f2dot14 l with ⟨b, hb, hlen⟩ | ⟨he, x, hx, hn⟩
      · left
        refine ⟨encI16 (Int16.ofInt p) ++ b, by simp only [encVecR, e, hb], ?_⟩
        have : (encI16 (Int16.ofInt p)).length = 2 := rfl
        rw [List.length_append, this, hlen, List.length_cons]; omega
      · right
        exact ⟨by simp only [encVecR, e, he], x, List.mem_cons_of_mem _ hx, hn⟩
    · right
      have he : f2dot14AsPacked c = .err := by
        unfold f2dot14AsPacked at hc ⊢
        simp only at hc ⊢
        split at hc
        · exact absurd ⟨_, rfl⟩ hc
        · rename_i hn
          exact if_neg hn
      have e : encF2dot14 c = .err := by
        unfold encF2dot14
        rw [he]; rfl
      exact ⟨by simp only [encVecR, e], c, List.mem_cons_self, fun h => hc ((C04_f2dot14_range c).1 h)⟩

/-- A tuple the flags ask for is missing. -/
def LacksTuple (h : Header) : Prop :=
  WordBit h.flags 15 ∧ h.peakTuple = none ∨ WordBit h.flags 14 ∧ (h.startTuple = none ∨ h.endTuple = none)

/-- Every coordinate of the tuples the flags ask for is held by a 2.14 number. -/
def CoordinatesHeld (h : Header) : Prop :=
  (WordBit h.flags 15 → ∀ l, h.peakTuple = some l → ∀ c ∈ l, Holds14 c) ∧
  (WordBit h.flags 14 → ∀ l, (h.startTuple = some l ∨ h.endTuple = some l) → ∀ c ∈ l, Holds14 c)

/-- What becomes of one tuple. -/
theorem encOptTuple_outcome {b : Bool} {P : Prop} (hb : b = true ↔ P) (t : Option (List ℚ)) :
    (∃ bs, encOptTuple b t = .ok bs ∧ ¬ (P ∧ t = none)) ∨ (encOptTuple b t = .panic ∧ P ∧ t = none) ∨
    (encOptTuple b t = .err ∧ P ∧ ∃ l, t = some l ∧ ∃ c ∈ l, ¬ Holds14 c) := by
  unfold encOptTuple
  by_cases h : b = true
  · rw [if_pos h]
    cases t with
    | none => exact Or.inr (Or.inl ⟨rfl, hb.mp h, rfl⟩)
    | some l =>
      rcases encVecR_f2dot14 l with ⟨bs, e, _⟩ | ⟨e, c, hc, hn⟩
      · exact Or.inl ⟨bs, e, by simp⟩
      · exact Or.inr (Or.inr ⟨e, hb.mp h, l, rfl, c, hc, hn⟩)
  · rw [if_neg h]
    exact Or.inl ⟨[], rfl, fun hh => h (hb.mpr hh.1)⟩

/-- **C39** (which headers are written). If all coordinates asked for are held by 2.14 numbers, a header is written, except that a
missing tuple which the flags ask for makes the writer panic. A header with a missing tuple is never written. -/
theorem C39_outcome (h : Header) :
    (CoordinatesHeld h → ¬ LacksTuple h → ∃ bs, encHeader h = .ok bs) ∧
    (CoordinatesHeld h → LacksTuple h → encHeader h = .panic) ∧
    (LacksTuple h → ∀ bs, encHeader h ≠ .ok bs) := by
  have o1 := encOptTuple_outcome (tvHas_pow h.flags EMBEDDED_PEAK_TUPLE 15 rfl) h.peakTuple
  have o2 := encOptTuple_outcome (tvHas_pow h.flags INTERMEDIATE_REGION 14 rfl) h.startTuple
  have o3 := encOptTuple_outcome (tvHas_pow h.flags INTERMEDIATE_REGION 14 rfl) h.endTuple
  unfold encHeader
  rcases o1 with ⟨b1, e1, n1⟩ | ⟨e1, p1, q1⟩ | ⟨e1, p1, l1, q1, c1, m1, n1⟩
  · rcases o2 with ⟨b2, e2, n2⟩ | ⟨e2, p2, q2⟩ | ⟨e2, p2, l2, q2, c2, m2, n2⟩
    · rcases o3 with ⟨b3, e3, n3⟩ | ⟨e3, p3, q3⟩ | ⟨e3, p3, l3, q3, c3, m3, n3⟩
      · rw [e1, e2, e3]
        have hno : ¬ LacksTuple h := by
          rintro (hh | ⟨hh, hh' | hh'⟩)
          · exact n1 hh
          · exact n2 ⟨hh, hh'⟩
          · exact n3 ⟨hh, hh'⟩
        exact ⟨fun _ _ => ⟨_, rfl⟩, fun _ hl => absurd hl hno, fun hl => absurd hl hno⟩
      · rw [e1, e2, e3]
        exact ⟨fun _ hl => absurd (Or.inr ⟨p3, Or.inr q3⟩) hl, fun _ _ => rfl, fun _ bs => by intro hx; cases hx⟩
      · rw [e1, e2, e3]
        have hno : ¬ CoordinatesHeld h := fun hc => n3 (hc.2 p3 l3 (Or.inr q3) c3 m3)
        exact ⟨fun hc => absurd hc hno, fun hc => absurd hc hno, fun _ bs => by intro hx; cases hx⟩
    · rw [e1, e2]
      exact ⟨fun _ hl => absurd (Or.inr ⟨p2, Or.inl q2⟩) hl, fun _ _ => rfl, fun _ bs => by intro hx; cases hx⟩
    · rw [e1, e2]
      have hno : ¬ CoordinatesHeld h := fun hc => n2 (hc.2 p2 l2 (Or.inl q2) c2 m2)
      exact ⟨fun hc => absurd hc hno, fun hc => absurd hc hno, fun _ bs => by intro hx; cases hx⟩
  · rw [e1]
    exact ⟨fun _ hl => absurd (Or.inl ⟨p1, q1⟩) hl, fun _ _ => rfl, fun _ bs => by intro hx; cases hx⟩
  · rw [e1]
    have hno : ¬ CoordinatesHeld h := fun hc => n1 (hc.1 p1 l1 q1 c1 m1)
    exact ⟨fun hc => absurd hc hno, fun hc => absurd hc hno, fun _ bs => by intro hx; cases hx⟩

/-- An end tuple is missing. -/
example : encHeader ⟨0, 0xC000, 0, some [1], some [0], none⟩ = .panic := by
  refine (C39_outcome _).2.1 ⟨?_, ?_⟩ (Or.inr ⟨by decide, Or.inr rfl⟩)
  · rintro - l h c hc
    cases h
    rw [List.mem_singleton] at hc
    subst hc
    unfold Holds14; norm_num
  · rintro - l (h | h) c hc
    · cases h
      rw [List.mem_singleton] at hc
      subst hc
      unfold Holds14; norm_num
    · cases h

end FT.Props
