import Verif.Model.PackedPoints
import Verif.Lemmas.Reads
import Batteries.Data.List.Basic
import Batteries.Data.List.Lemmas

namespace FT.PackedPoints
open FT Reader

/-- Step of at most 255 upwards. -/
def Step (a b : UInt16) : Prop := a.toNat ≤ b.toNat ∧ b.toNat - a.toNat ≤ 255

/-- Differences of successive points. -/
def diffs : UInt16 → List UInt16 → List UInt16
  | _, [] => []
  | last, c :: t => (c - last) :: diffs c t

@[simp] theorem diffs_length (last : UInt16) (l : List UInt16) : (diffs last l).length = l.length := by
  induction l generalizing last with
  | nil => rfl
  | cons c t ih => simp [diffs, ih]

def Dec (bs : Bytes) (l : List UInt16) : Prop :=
  ∀ k, l.length ≤ k → Reads (readLoop k l.length) bs l

theorem Dec.nil : Dec [] [] := by
  intro k _
  cases k <;> exact Reads.pure _

theorem Dec.run {b1 b2 : Bytes} {l1 l2 : List UInt16} (h1 : Reads readRun b1 l1) (hne : 0 < l1.length)
    (h2 : Dec b2 l2) : Dec (b1 ++ b2) (l1 ++ l2) := by
  intro k hk
  rw [List.length_append] at hk
  cases k with
  | zero => omega
  | succ k =>
    rw [readLoop, if_neg (by rw [List.length_append]; omega)]
    refine Reads.bind h1 ?_
    have := h2 k (by omega)
    rw [List.length_append, Nat.add_sub_cancel_left]
    exact this.map (fun x => l1 ++ x)

theorem ctrl_byte : ∀ n : Fin 128, ((UInt8.ofNat n : UInt8) &&& 0x7f).toNat = n ∧
    ¬ ((UInt8.ofNat n : UInt8) &&& 0x80) > 0 := by
  decide

theorem reads_runBytes (l : List UInt16) (h0 : 0 < l.length) (h : l.length ≤ 126)
    (hb : ∀ v ∈ l, v.toNat ≤ 255) :
    Reads readRun (UInt8.ofNat (l.length - 1) :: l.map (fun v => UInt8.ofNat v.toNat)) l := by
  obtain ⟨e1, e2⟩ := ctrl_byte ⟨l.length - 1, by omega⟩
  simp only at e1 e2
  refine Reads.bind' (reads_u8 _) (bs' := l.map (fun v => UInt8.ofNat v.toNat)) ?_ (by rfl)
  simp only
  rw [if_neg e2, e1, Nat.sub_add_cancel h0]
  have h := (reads_deCounted' (p := readU8) (enc := encU8) (l := l.map (fun v => UInt8.ofNat v.toNat))
    (n := l.length) (by simp) (fun a _ => reads_u8 a)).map (fun bs => bs.map UInt8.toUInt16)
  refine h.congr ?_ ?_
  · rw [encVec_u8]
  · rw [List.map_map]
    symm
    have : ∀ a ∈ l, (UInt8.toUInt16 ∘ fun v : UInt16 => UInt8.ofNat v.toNat) a = id a := by
      intro a ha
      have := hb a ha
      apply UInt16.toNat_inj.mp
      simp
      omega
    rw [List.map_congr_left this, List.map_id]

theorem step_sub {a b : UInt16} (h : Step a b) : (b - a).toNat = b.toNat - a.toNat := by
  rw [UInt16.toNat_sub_of_le]
  exact UInt16.le_iff_toNat_le.mpr h.1

theorem runLoop_bytes (l : List UInt16) : ∀ (run : Bytes) (last : UInt16),
    run.length ≤ 127 → List.IsChain Step (last :: l) →
    ∃ l1 l2 last', l = l1 ++ l2 ∧ run.length + l1.length ≤ 127 ∧
      runLoop (some true) run last l =
        .ok (some true, run ++ (diffs last l1).map (fun v => UInt8.ofNat v.toNat), last', l2) ∧
      List.IsChain Step (last' :: l2) ∧ diffs last l = diffs last l1 ++ diffs last' l2 ∧
      (∀ v ∈ diffs last l1, v.toNat ≤ 255) := by
  induction l with
  | nil =>
    intro run last hrun hc
    exact ⟨[], [], last, rfl, by simpa using hrun, by simp [runLoop, diffs], hc, rfl, by simp [diffs]⟩
  | cons c t ih =>
    intro run last hrun hc
    rw [List.isChain_cons_cons] at hc
    by_cases h : run.length < 127
    · obtain ⟨l1, l2, last', e1, e2, e3, e4, e5, e6⟩ :=
        ih (run ++ [UInt8.ofNat (c.toNat - last.toNat)]) c (by simp; omega) hc.2
      refine ⟨c :: l1, l2, last', by simp [e1], by simp at e2 ⊢; omega, ?_, e4, by simp [diffs, e5], ?_⟩
      · unfold runLoop
        have := hc.1
        rw [if_pos h, if_neg (by have := this.1; omega)]
        simp only
        rw [if_neg (by have := this.2; simp; omega), if_pos trivial, e3]
        simp only [diffs, List.map_cons, step_sub this, List.append_assoc, List.cons_append, List.nil_append]
      · intro v hv
        simp only [diffs, List.mem_cons] at hv
        rcases hv with rfl | hv
        · rw [step_sub hc.1]; exact hc.1.2
        · exact e6 v hv
    · refine ⟨[], c :: t, last, rfl, by simpa using hrun, ?_, by rw [List.isChain_cons_cons]; exact hc,
        rfl, by simp [diffs]⟩
      unfold runLoop
      rw [if_neg h]
      simp [diffs]

theorem runLoop_first (c : UInt16) (t : List UInt16) (last : UInt16)
    (hc : List.IsChain Step (last :: c :: t)) :
    ∃ l1 l2 last', c :: t = l1 ++ l2 ∧ 0 < l1.length ∧ l1.length ≤ 126 ∧
      runLoop none [0] last (c :: t) =
        .ok (some true, 0 :: (diffs last l1).map (fun v => UInt8.ofNat v.toNat), last', l2) ∧
      List.IsChain Step (last' :: l2) ∧ diffs last (c :: t) = diffs last l1 ++ diffs last' l2 ∧
      (∀ v ∈ diffs last l1, v.toNat ≤ 255) := by
  rw [List.isChain_cons_cons] at hc
  obtain ⟨l1, l2, last', e1, e2, e3, e4, e5, e6⟩ :=
    runLoop_bytes t ([0] ++ [UInt8.ofNat (c.toNat - last.toNat)]) c (by simp) hc.2
  refine ⟨c :: l1, l2, last', by simp [e1], by simp, by simp at e2 ⊢; omega, ?_, e4, by simp [diffs, e5], ?_⟩
  · unfold runLoop
    have := hc.1
    rw [if_pos (by simp), if_neg (by have := this.1; omega)]
    have hd : decide (c.toNat - last.toNat ≤ 0xff) = true := by simpa using this.2
    simp only [hd]
    rw [if_neg (by have := this.2; simp; omega)]
    simp only [if_pos]
    rw [e3]
    simp only [diffs, List.map_cons, step_sub this, List.cons_append, List.nil_append]
  · intro v hv
    simp only [diffs, List.mem_cons] at hv
    rcases hv with rfl | hv
    · rw [step_sub hc.1]; exact hc.1.2
    · exact e6 v hv

theorem encLoop_dec : ∀ (k : Nat) (last : UInt16) (l : List UInt16), l.length ≤ k →
    List.IsChain Step (last :: l) → ∃ bs, encLoop k last l = .ok bs ∧ Dec bs (diffs last l) := by
  intro k
  induction k with
  | zero =>
    intro last l hl _
    have : l = [] := List.eq_nil_of_length_eq_zero (by omega)
    subst this
    exact ⟨[], rfl, Dec.nil⟩
  | succ k ih =>
    intro last l hl hc
    match l with
    | [] => exact ⟨[], rfl, Dec.nil⟩
    | c :: t =>
      obtain ⟨l1, l2, last', e1, e0, e2, e3, e4, e5, e6⟩ := runLoop_first c t last hc
      have hlen := congrArg List.length e1
      rw [List.length_append] at hlen
      obtain ⟨bs, hb, hd⟩ := ih last' l2 (by omega) e4
      have hr := reads_runBytes (diffs last l1) (by simpa using e0) (by simpa using e2) e6
      have hdec := Dec.run hr (by simpa using e0) hd
      rw [← e5] at hdec
      refine ⟨_, ?_, hdec⟩
      unfold encLoop
      rw [if_neg (by simp), e3]
      simp [hb]

theorem cumsum_diffs (l : List UInt16) : ∀ last : UInt16, List.IsChain Step (last :: l) →
    cumsum last (diffs last l) = .ok l := by
  induction l with
  | nil => intro last _; rfl
  | cons c t ih =>
    intro last hc
    rw [List.isChain_cons_cons] at hc
    have h1 := step_sub hc.1
    have h2 := c.toNat_lt
    have h3 := hc.1.1
    simp only [diffs, cumsum]
    rw [if_neg (by omega)]
    have : last + (c - last) = c := by
      apply UInt16.toNat_inj.mp
      rw [UInt16.toNat_add, h1]; omega
    rw [this, ih c hc.2]
    rfl

theorem or_shift (c1 c2 : UInt8) : ((c1.toUInt16 <<< 8) ||| c2.toUInt16).toNat = c1.toNat * 256 + c2.toNat := by
  have h1 := c1.toNat_lt
  have h2 := c2.toNat_lt
  simp [UInt16.toNat_or, UInt16.toNat_shiftLeft]
  have h3 : c1.toNat <<< 8 % 65536 = c1.toNat <<< 8 := by
    rw [Nat.shiftLeft_eq]; omega
  rw [h3, ← Nat.shiftLeft_add_eq_or_of_lt (by simpa using h2), Nat.shiftLeft_eq]

theorem or_high_of_ge (n : UInt16) (h : 32768 ≤ n.toNat) : n ||| 0x8000 = n := by
  apply UInt16.toNat_inj.mp
  have h1 := n.toNat_lt
  rw [UInt16.toNat_or]
  have e : n.toNat = 2 ^ 15 ||| (n.toNat - 32768) := by
    have := Nat.two_pow_add_eq_or_of_lt (i := 15) (b := n.toNat - 32768) (by omega) 1
    simp only [Nat.mul_one] at this
    rw [← this]; omega
  have e8 : (0x8000 : UInt16).toNat = 2 ^ 15 := by decide
  rw [e8, e, Nat.or_comm, ← Nat.or_assoc, Nat.or_self]

theorem or_high_ge (n : UInt16) : 32768 ≤ (n ||| 0x8000).toNat := by
  rw [UInt16.toNat_or]
  exact Nat.right_le_or

theorem readLoop_length : ∀ (k need : Nat) (r r' : Rd) (l : List UInt16),
    readLoop k need r = .ok (l, r') → need ≤ l.length := by
  intro k
  induction k with
  | zero =>
    intro need r r' l h
    unfold readLoop at h
    split at h
    · omega
    · cases h
  | succ k ih =>
    intro need r r' l h
    unfold readLoop at h
    split at h
    · omega
    · rw [bind_run] at h
      split at h
      · rename_i run r1 _
        rw [bind_run] at h
        split at h
        · rename_i rest r2 h2
          have := ih _ _ _ _ h2
          rw [pure_run] at h
          simp only [Res.ok.injEq, Prod.mk.injEq] at h
          rw [← h.1, List.length_append]
          omega
        · cases h
        · cases h
      · cases h
      · cases h

theorem cumsum_length : ∀ (l : List UInt16) (acc : UInt16) (p : List UInt16),
    cumsum acc l = .ok p → p.length = l.length := by
  intro l
  induction l with
  | nil => intro acc p h; simp [cumsum] at h; simp [← h]
  | cons x t ih =>
    intro acc p h
    unfold cumsum at h
    split at h
    · cases h
    · cases hr : cumsum (acc + x) t with
      | ok q =>
        rw [hr] at h
        simp at h
        rw [← h]
        simp [ih _ _ hr]
      | err => rw [hr] at h; cases h
      | panic => rw [hr] at h; cases h

/-- Reading a buffer whose first byte has the high bit set yields at least 32768 points (or fails). -/
theorem read_high_length (b : UInt8) (bs pre rest : Bytes) (stk : List Nat) (hb : 128 ≤ b.toNat)
    (pts : List UInt16) (r' : Rd)
    (h : read ⟨pre ++ (b :: bs) ++ rest, pre.length, stk⟩ = .ok (some pts, r')) :
    32768 ≤ pts.length := by
  unfold read at h
  have h1 := reads_u8 b pre (bs ++ rest) stk
  simp only [encU8, List.append_assoc, List.cons_append, List.nil_append] at h1
  rw [bind_run] at h
  simp only [List.append_assoc, List.cons_append] at h
  rw [h1] at h
  simp only at h
  rw [if_pos (by omega), bind_run, bind_run] at h
  split at h
  · rename_i count r1 hcount
    split at hcount
    · rename_i c2 r2 _
      rw [pure_run] at hcount
      simp only [Res.ok.injEq, Prod.mk.injEq] at hcount
      have hc : 32768 ≤ count.toNat := by
        rw [← hcount.1, or_shift]; omega
      rw [if_neg (by intro e; subst e; simp at hc), bind_run] at h
      split at h
      · rename_i res r3 hl
        have hlen := readLoop_length _ _ _ _ _ hl
        rw [bind_run] at h
        unfold Reader.lift at h
        cases hcs : cumsum 0 res with
        | ok q =>
          have := cumsum_length _ _ _ hcs
          rw [hcs] at h
          simp only [pure_run, Res.ok.injEq, Prod.mk.injEq, Option.some.injEq] at h
          rw [← h.1]; omega
        | err => rw [hcs] at h; cases h
        | panic => rw [hcs] at h; cases h
      · cases h
      · cases h
    · cases hcount
    · cases hcount
  · cases h
  · cases h

end FT.PackedPoints
