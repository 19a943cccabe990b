import Verif.Lemmas.PackedPoints
import Verif.Props.Primitives

/-! # C38: packed point numbers -/

namespace FT.Props
open FT

/-- The first point is at most 255 and each point is at least its predecessor and at most 255 above it. -/
def SmallSteps (points : List UInt16) : Prop :=
  List.IsChain (fun a b => a.toNat ≤ b.toNat ∧ b.toNat - a.toNat ≤ 255) (0 :: points)

/-- The numbers of points for which the count prefix is read as it was written. -/
def GoodCount (n : Nat) : Prop := (1 ≤ n ∧ n ≤ 127) ∨ (32768 ≤ n ∧ n ≤ 65535)

/-- Point lists with small steps and a good count are written and read back unchanged. -/
theorem C38_roundtrip (points : List UInt16) (hs : SmallSteps points) (hn : GoodCount points.length) :
    ∃ bs, PackedPoints.encode (some points) = .ok bs ∧
      RoundTripsAt PackedPoints.read bs (some points) := by
  obtain ⟨bs, hb, hd⟩ := PackedPoints.encLoop_dec points.length 0 points (Nat.le_refl _) hs
  have htail : ∀ count : UInt16, count.toNat = points.length →
      Reads (do
        let res ← PackedPoints.readLoop count.toNat count.toNat
        let pts ← Reader.lift (PackedPoints.cumsum 0 res)
        return some pts) bs (some points) := by
    intro count hc
    rw [hc]
    have hd' := hd points.length (by simp)
    rw [PackedPoints.diffs_length] at hd'
    refine Reads.bind' hd' (bs' := []) ?_ (by simp)
    have h := Reads.lift (PackedPoints.cumsum_diffs points 0 hs)
    exact h.map some
  have hlen16 : (UInt16.ofNat points.length).toNat = points.length := ofNat16_toNat (by
    rcases hn with h | h <;> omega)
  rcases hn with ⟨h1, h2⟩ | ⟨h1, h2⟩
  · refine ⟨encU8 (UInt8.ofNat points.length) ++ bs, ?_, ?_⟩
    · unfold PackedPoints.encode
      simp only [hlen16, hb]
      rw [if_pos (by omega)]
    · have hb8 : (UInt8.ofNat points.length).toNat = points.length := by simp; omega
      refine Reads.bind (reads_u8 _) ?_
      rw [if_neg (by omega)]
      have hc : ((UInt8.ofNat points.length).toUInt16).toNat = points.length := by
        rw [UInt8.toNat_toUInt16, hb8]
      refine Reads.bind' (Reads.pure _) (bs' := bs) ?_ (by simp)
      rw [if_neg (by intro e; rw [e] at hc; simp at hc; omega)]
      exact htail _ hc
  · refine ⟨encU16 (UInt16.ofNat points.length) ++ bs, ?_, ?_⟩
    · unfold PackedPoints.encode
      simp only [hlen16, hb]
      rw [if_neg (by omega), PackedPoints.or_high_of_ge _ (by omega)]
    · have e : encU16 (UInt16.ofNat points.length) =
          encU8 (UInt8.ofNat (points.length / 256)) ++ encU8 (UInt8.ofNat (points.length % 256)) := by
        simp only [encU16, hlen16]; rfl
      have b1 : (UInt8.ofNat (points.length / 256)).toNat = points.length / 256 := by simp; omega
      have b2 : (UInt8.ofNat (points.length % 256)).toNat = points.length % 256 := by simp
      rw [e, List.append_assoc]
      refine Reads.bind (reads_u8 _) ?_
      rw [if_pos (by omega)]
      have hc : (((UInt8.ofNat (points.length / 256)).toUInt16 <<< 8) |||
          (UInt8.ofNat (points.length % 256)).toUInt16).toNat = points.length := by
        rw [PackedPoints.or_shift, b1, b2]; omega
      refine Reads.bind ((reads_u8 _).map _) ?_
      rw [if_neg (by intro e; rw [e] at hc; simp at hc; omega)]
      exact htail _ hc

/-- "All points" round-trips. -/
theorem C38_all_points : PackedPoints.encode none = .ok [0] ∧ RoundTripsAt PackedPoints.read [0] none := by
  refine ⟨rfl, ?_⟩
  refine Reads.bind' (reads_u8 0) (bs' := []) ?_ (by rfl)
  exact Reads.pure none

/-- A list of 128 to 32767 points is never read back as itself, whatever follows it: either reading fails or
it returns at least 32768 points. -/
theorem C38_medium_counts_never_roundtrip (points : List UInt16) (hn : 128 ≤ points.length)
    (hn' : points.length ≤ 32767) (bs : Bytes) (h : PackedPoints.encode (some points) = .ok bs)
    (before after : Bytes) (bases : List Nat) (r' : Rd) :
    PackedPoints.read ⟨before ++ bs ++ after, before.length, bases⟩ ≠ .ok (some points, r') := by
  intro hr
  have hlen16 : (UInt16.ofNat points.length).toNat = points.length := ofNat16_toNat (by omega)
  unfold PackedPoints.encode at h
  simp only [hlen16] at h
  cases he : PackedPoints.encLoop points.length 0 points with
  | ok more =>
    rw [he] at h
    simp only [Res.ok.injEq] at h
    have : ∃ b bs', bs = b :: bs' ∧ 128 ≤ b.toNat := by
      split at h
      · have hb8 : (UInt8.ofNat points.length).toNat = points.length := by simp; omega
        exact ⟨_, more, h.symm, by rw [hb8]; omega⟩
      · refine ⟨_, _, by rw [← h]; rfl, ?_⟩
        have := PackedPoints.or_high_ge (UInt16.ofNat points.length)
        have h2 := (UInt16.ofNat points.length ||| 0x8000).toNat_lt
        simp only [UInt8.toNat_ofNat']
        omega
    obtain ⟨b, bs', rfl, hb⟩ := this
    have := PackedPoints.read_high_length b bs' before after bases hb points r' hr
    omega
  | err => rw [he] at h; cases h
  | panic => rw [he] at h; cases h

/-- A point list starting above 255 with at most 63 points is written in a form that cannot be read back at the
end of a buffer: the control byte announces twice as many words as are written. Witness: a single point. -/
theorem C38_large_step_counterexample :
    PackedPoints.encode (some [300]) = .ok [1, 0x81, 0x01, 0x2c] ∧
    PackedPoints.read (Rd.new [1, 0x81, 0x01, 0x2c]) = .err := by decide

/-- The empty list is read back as "all points". -/
theorem C38_empty_becomes_all :
    PackedPoints.encode (some []) = .ok [0] ∧
    PackedPoints.read (Rd.new [0]) = .ok (none, ⟨[0], 1, [0]⟩) := by decide

/-- A decreasing list makes the writer panic. -/
theorem C38_decreasing_panics (a b : UInt16) (rest : List UInt16) (ha : a.toNat ≤ 255) (h : b < a) :
    PackedPoints.encode (some (a :: b :: rest)) = .panic := by
  have hba : b.toNat < a.toNat := h
  have hr : PackedPoints.runLoop none [0] 0 (a :: b :: rest) = .panic := by
    simp [PackedPoints.runLoop, ha, Nat.not_lt.mpr ha, hba]
  simp [PackedPoints.encode, PackedPoints.encLoop, hr]

example : SmallSteps [3, 4, 200, 400] ∧ GoodCount [3, 4, 200, 400].length := by
  refine ⟨?_, Or.inl (by decide)⟩
  unfold SmallSteps
  repeat (first | exact List.IsChain.singleton _ | refine List.isChain_cons_cons.mpr ⟨by decide, ?_⟩)
example : PackedPoints.encode (some [3, 4, 200, 400]) = .ok [4, 3, 3, 1, 196, 200] := by decide

end FT.Props
