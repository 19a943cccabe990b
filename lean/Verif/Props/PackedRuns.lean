import Verif.Props.PackedDeltas
import Verif.Props.PackedPoints
import Mathlib.Tactic.Linarith

/-!
C37, C38: packed deltas and packed point numbers against an independent description of the OpenType formats.
-/

namespace FT.Props
open FT Reader

/-! ### Specification -/

/-- Packed deltas: runs of 1 to 64 values, each after a control byte: 0x80 + n−1 for n zeros, 0x40 + n−1 for n words,
n−1 for n signed bytes. -/
inductive DeltaRuns : List Int16 → Bytes → Prop
  | done : DeltaRuns [] []
  | zeros (n : Nat) (l : List Int16) (bs : Bytes) : 1 ≤ n → n ≤ 64 → DeltaRuns l bs →
      DeltaRuns (List.replicate n 0 ++ l) (UInt8.ofNat (0x80 + (n - 1)) :: bs)
  | words (w l : List Int16) (bs : Bytes) : 1 ≤ w.length → w.length ≤ 64 → DeltaRuns l bs →
      DeltaRuns (w ++ l) (UInt8.ofNat (0x40 + (w.length - 1)) :: (encVec encI16 w ++ bs))
  | bytes (w : List Int8) (l : List Int16) (bs : Bytes) : 1 ≤ w.length → w.length ≤ 64 → DeltaRuns l bs →
      DeltaRuns (w.map Int8.toInt16 ++ l) (UInt8.ofNat (w.length - 1) :: (encVec encI8 w ++ bs))

/-- Runs of steps between point numbers: 1 to 128 steps after a control byte: 0x80 + n−1 for n words, n−1 for n bytes. -/
inductive StepRuns : List Nat → Bytes → Prop
  | done : StepRuns [] []
  | words (w : List UInt16) (l : List Nat) (bs : Bytes) : 1 ≤ w.length → w.length ≤ 128 → StepRuns l bs →
      StepRuns (w.map UInt16.toNat ++ l) (UInt8.ofNat (0x80 + (w.length - 1)) :: (encVec encU16 w ++ bs))
  | bytes (w : List UInt8) (l : List Nat) (bs : Bytes) : 1 ≤ w.length → w.length ≤ 128 → StepRuns l bs →
      StepRuns (w.map UInt8.toNat ++ l) (UInt8.ofNat (w.length - 1) :: (w ++ bs))

/-- The points reached from `a` by steps. -/
def walk : Nat → List Nat → List Nat
  | _, [] => []
  | a, s :: l => (a + s) :: walk (a + s) l

/-- Packed point numbers with a one-byte count: a zero for all points; or the number of points and the runs of steps, from 0
on. -/
inductive DescribesPoints : Option (List UInt16) → Bytes → Prop
  | all : DescribesPoints none [0]
  | some (pts : List UInt16) (steps : List Nat) (bs : Bytes) : 1 ≤ pts.length → pts.length ≤ 127 →
      pts.map UInt16.toNat = walk 0 steps → StepRuns steps bs → DescribesPoints (some pts) (UInt8.ofNat pts.length :: bs)

/-! ### Deltas -/

theorem ctrl8 : ∀ n : Fin 64, UInt8.ofNat (0x80 + n) = 0x80 ||| UInt8.ofNat n ∧ UInt8.ofNat (0x40 + n) = 0x40 ||| UInt8.ofNat n ∧
    (UInt8.ofNat n : UInt8) = 0 ||| UInt8.ofNat n := by decide

theorem deltaRuns_dec {l : List Int16} {bs : Bytes} (h : DeltaRuns l bs) : PackedDeltas.Dec bs l := by
  induction h with
  | done => exact PackedDeltas.Dec.nil
  | zeros n l bs h1 h2 _ ih =>
    have e := (ctrl8 ⟨n - 1, by omega⟩).1
    simp only at e
    rw [e]
    exact PackedDeltas.Dec.run (PackedDeltas.reads_runZeros n h1 h2) (by simp; omega) ih
  | words w l bs h1 h2 _ ih =>
    have e := (ctrl8 ⟨w.length - 1, by omega⟩).2.1
    simp only at e
    rw [e]
    have := PackedDeltas.Dec.run (PackedDeltas.reads_runWords w h1 h2) h1 ih
    simpa [encU8] using this
  | bytes w l bs h1 h2 _ ih =>
    obtain ⟨e1, e2, e3⟩ := PackedDeltas.ctrl_byte ⟨w.length - 1, by omega⟩
    have e := (ctrl8 ⟨w.length - 1, by omega⟩).2.2
    simp only at e e1 e2 e3
    rw [← e] at e1 e2 e3
    have hr : Reads PackedDeltas.readRun (UInt8.ofNat (w.length - 1) :: encVec encI8 w) (w.map Int8.toInt16) := by
      refine Reads.bind' (reads_u8 _) (bs' := encVec encI8 w) ?_ rfl
      simp only
      rw [if_neg e2, if_neg e3, e1, Nat.sub_add_cancel h1]
      exact (reads_deCounted w (fun a _ => reads_i8 a)).map (fun bs => bs.map Int8.toInt16)
    have := PackedDeltas.Dec.run hr (by simp; omega) ih
    simpa using this

/-- **C37** (reading). Whatever runs a list of deltas is divided into, it is read. -/
theorem C37_reads_any (l : List Int16) (bs : Bytes) (h : DeltaRuns l bs) : RoundTripsAt (PackedDeltas.read l.length) bs l :=
  deltaRuns_dec h _ (Nat.le_refl _)

theorem emitRun_runs {base : UInt8} {enc : Int16 → Bytes} {P : Int16 → Prop}
    (hrun : ∀ l r : List Int16, ∀ b : Bytes, 0 < l.length → l.length ≤ 64 → (∀ v ∈ l, P v) → DeltaRuns r b →
      DeltaRuns (l ++ r) (encU8 (base ||| UInt8.ofNat (l.length - 1)) ++ encVec enc l ++ b))
    {b2 : Bytes} {l2 : List Int16} (h2 : DeltaRuns l2 b2) :
    ∀ (k : Nat) (l : List Int16), l.length < k → (∀ v ∈ l, P v) →
      DeltaRuns (l ++ l2) (PackedDeltas.emitRun base enc k l ++ b2) := by
  intro k
  induction k with
  | zero => intro l h; omega
  | succ k ih =>
    intro l hk hP
    rw [PackedDeltas.emitRun]
    split
    · rename_i h64
      have hlen : (l.take 64).length = 64 := by simp; omega
      have hr := hrun (l.take 64) _ _ (by omega) (by omega) (fun v hv => hP v (List.mem_of_mem_take hv))
        (ih (l.drop 64) (by simp; omega) (fun v hv => hP v (List.mem_of_mem_drop hv)))
      rw [hlen, ← List.append_assoc (l.take 64), List.take_append_drop] at hr
      simpa [List.append_assoc] using hr
    · split
      · rename_i h64 h0
        exact hrun l _ _ h0 (by omega) hP h2
      · rename_i h64 h0
        have : l = [] := List.eq_nil_of_length_eq_zero (by omega)
        subst this
        simpa using h2

theorem emitZeros_runs {b2 : Bytes} {l2 : List Int16} (h2 : DeltaRuns l2 b2) :
    ∀ (k n : Nat), n < k → DeltaRuns (List.replicate n 0 ++ l2) (PackedDeltas.emitZeros k n ++ b2) := by
  intro k
  induction k with
  | zero => intro n h; omega
  | succ k ih =>
    intro n hk
    rw [PackedDeltas.emitZeros]
    split
    · rename_i h64
      have h3 := DeltaRuns.zeros 64 _ _ (by omega) (by omega) (ih (n - 64) (by omega))
      have e : List.replicate 64 (0 : Int16) ++ (List.replicate (n - 64) 0 ++ l2) =
          List.replicate n 0 ++ l2 := by
        rw [← List.append_assoc, List.replicate_append_replicate]
        congr 2; omega
      rw [e] at h3
      exact h3
    · split
      · rename_i h64 h0
        have h3 := DeltaRuns.zeros n _ _ h0 (by omega) h2
        have e := (ctrl8 ⟨n - 1, by omega⟩).1
        simp only at e
        rw [e] at h3
        exact h3
      · have : n = 0 := by omega
        subst this
        exact h2

theorem encLoop_runs : ∀ (k : Nat) (l : List Int16) (bs : Bytes), PackedDeltas.encLoop k l = .ok bs → DeltaRuns l bs := by
  intro k
  induction k with
  | zero =>
    intro l bs h
    unfold PackedDeltas.encLoop at h
    split at h
    · injection h with h; subst h
      rename_i hl
      have : l = [] := by simpa using hl
      subst this; exact DeltaRuns.done
    · cases h
  | succ k ih =>
    intro l bs h
    match l with
    | [] => simp [PackedDeltas.encLoop] at h; subst h; exact DeltaRuns.done
    | v :: t =>
      unfold PackedDeltas.encLoop at h
      simp only at h
      split at h
      · split at h
        · cases h
        · cases hr : PackedDeltas.encLoop k (PackedDeltas.splitZeros (v :: t)).2 with
          | ok rest =>
            rw [hr] at h
            simp only [Res.ok_bind, Res.pure_eq, Res.ok.injEq] at h
            subst h
            have := emitZeros_runs (ih _ _ hr) ((PackedDeltas.splitZeros (v :: t)).1 + 1) (PackedDeltas.splitZeros (v :: t)).1 (by omega)
            rwa [PackedDeltas.splitZeros_eq] at this
          | err => rw [hr] at h; cases h
          | panic => rw [hr] at h; cases h
      · split at h
        · cases hr : PackedDeltas.encLoop k (PackedDeltas.splitBytes (v :: t)).2 with
          | ok rest =>
            rw [hr] at h
            simp only [Res.ok_bind, Res.pure_eq, Res.ok.injEq] at h
            subst h
            have := emitRun_runs (base := 0) (enc := PackedDeltas.encByte) (P := fun v => PackedDeltas.isByte v = true)
              (by
                intro l r b h0 h64 hb hd
                have e := (ctrl8 ⟨l.length - 1, by omega⟩).2.2
                simp only at e
                have henc : encVec PackedDeltas.encByte l = encVec encI8 (l.map Int16.toInt8) := by
                  simp [encVec, List.flatMap_map]; rfl
                have hm : (l.map Int16.toInt8).map Int8.toInt16 = l := by
                  rw [List.map_map]
                  have : ∀ a ∈ l, (Int8.toInt16 ∘ Int16.toInt8) a = id a := fun a ha => PackedDeltas.isByte_roundtrip (hb a ha)
                  rw [List.map_congr_left this, List.map_id]
                have h3 := DeltaRuns.bytes (l.map Int16.toInt8) r b (by simp; omega) (by simpa using h64) hd
                rw [hm, List.length_map, e, ← henc] at h3
                simpa [encU8] using h3)
              (ih _ _ hr) _ _ (Nat.lt_succ_self _) (PackedDeltas.splitBytes_isByte (v :: t))
            rwa [PackedDeltas.splitBytes_eq] at this
          | err => rw [hr] at h; cases h
          | panic => rw [hr] at h; cases h
        · cases hr : PackedDeltas.encLoop k (PackedDeltas.splitWords (v :: t)).2 with
          | ok rest =>
            rw [hr] at h
            simp only [Res.ok_bind, Res.pure_eq, Res.ok.injEq] at h
            subst h
            have := emitRun_runs (base := 0x40) (enc := encI16) (P := fun _ => True)
              (by
                intro l r b h0 h64 _ hd
                have e := (ctrl8 ⟨l.length - 1, by omega⟩).2.1
                simp only at e
                have h3 := DeltaRuns.words l r b h0 h64 hd
                rw [e] at h3
                simpa [encU8] using h3) (ih _ _ hr) _ (PackedDeltas.splitWords (v :: t)).1
              (Nat.lt_succ_self _) (fun _ _ => trivial)
            rwa [PackedDeltas.splitWords_eq] at this
          | err => rw [hr] at h; cases h
          | panic => rw [hr] at h; cases h

/-- **C37** (writing). What is written for a list of deltas is a division of that list into runs as OpenType defines them. -/
theorem C37_writes (l : List Int16) (bs : Bytes) (h : PackedDeltas.encode l = .ok bs) : DeltaRuns l bs :=
  encLoop_runs _ _ _ h

example : DeltaRuns [0, 0, 300, -5] [0x81, 0x40, 1, 44, 0, 251] :=
  .zeros 2 _ _ (by decide) (by decide) (.words [300] _ _ (by decide) (by decide) (.bytes [-5] _ _ (by decide) (by decide) .done))

/-! ### Points -/

theorem ctrl8p : ∀ n : Fin 128, ((UInt8.ofNat n : UInt8) &&& 0x7f).toNat = n ∧ ¬ ((UInt8.ofNat n : UInt8) &&& 0x80) > 0 ∧
    ((UInt8.ofNat (0x80 + n) : UInt8) &&& 0x7f).toNat = n ∧ ((UInt8.ofNat (0x80 + n) : UInt8) &&& 0x80) > 0 := by decide

theorem stepRuns_dec {l : List Nat} {bs : Bytes} (h : StepRuns l bs) :
    ∃ ws : List UInt16, ws.map UInt16.toNat = l ∧ PackedPoints.Dec bs ws := by
  induction h with
  | done => exact ⟨[], rfl, PackedPoints.Dec.nil⟩
  | words w l bs h1 h2 _ ih =>
    obtain ⟨ws, e, hd⟩ := ih
    obtain ⟨_, _, e1, e2⟩ := ctrl8p ⟨w.length - 1, by omega⟩
    simp only at e1 e2
    refine ⟨w ++ ws, by rw [List.map_append, e], ?_⟩
    have hr : Reads PackedPoints.readRun (UInt8.ofNat (0x80 + (w.length - 1)) :: encVec encU16 w) w := by
      refine Reads.bind' (reads_u8 _) (bs' := encVec encU16 w) ?_ rfl
      simp only
      rw [if_pos e2, e1, Nat.sub_add_cancel h1]
      exact reads_deCounted w (fun a _ => reads_u16 a)
    have := PackedPoints.Dec.run hr h1 hd
    simpa using this
  | bytes w l bs h1 h2 _ ih =>
    obtain ⟨ws, e, hd⟩ := ih
    obtain ⟨e1, e2, _, _⟩ := ctrl8p ⟨w.length - 1, by omega⟩
    simp only at e1 e2
    refine ⟨w.map UInt8.toUInt16 ++ ws, by rw [List.map_append, e, List.map_map]; congr 1, ?_⟩
    have hr : Reads PackedPoints.readRun (UInt8.ofNat (w.length - 1) :: w) (w.map UInt8.toUInt16) := by
      refine Reads.bind' (reads_u8 _) (bs' := w) ?_ rfl
      simp only
      rw [if_neg e2, e1, Nat.sub_add_cancel h1]
      have := (reads_deCounted (p := readU8) (enc := encU8) w (fun a _ => reads_u8 a)).map (fun bs => bs.map UInt8.toUInt16)
      rwa [encVec_u8] at this
    have := PackedPoints.Dec.run hr (by simp; omega) hd
    simpa using this

theorem cumsum_walk : ∀ (ws : List UInt16) (pts : List UInt16) (a : UInt16),
    pts.map UInt16.toNat = walk a.toNat (ws.map UInt16.toNat) → PackedPoints.cumsum a ws = .ok pts
  | [], pts, a, h => by
    cases pts with
    | nil => rfl
    | cons p pts => simp [walk] at h
  | w :: ws, pts, a, h => by
    cases pts with
    | nil => simp [walk] at h
    | cons p pts =>
      simp only [List.map_cons, walk, List.cons.injEq] at h
      have hp := p.toNat_lt
      unfold PackedPoints.cumsum
      have e : a + w = p := by
        apply UInt16.toNat_inj.mp
        rw [UInt16.toNat_add, h.1]
        omega
      rw [if_neg (by omega), e, cumsum_walk ws pts p (by rw [h.1]; exact h.2)]
      rfl

theorem walk_length : ∀ (l : List Nat) (a : Nat), (walk a l).length = l.length
  | [], _ => rfl
  | _ :: l, a => by simp [walk, walk_length l]

/-- **C38** (reading). Whatever runs the steps are divided into, a list of at most 127 points is read. -/
theorem C38_reads_any (pts : Option (List UInt16)) (bs : Bytes) (h : DescribesPoints pts bs) :
    RoundTripsAt PackedPoints.read bs pts := by
  cases h with
  | all => exact C38_all_points.2
  | some pts steps bs h1 h2 hw hr =>
    obtain ⟨ws, e, hd⟩ := stepRuns_dec hr
    have hb8 : (UInt8.ofNat pts.length).toNat = pts.length := by simp; omega
    have hlen : ws.length = pts.length := by
      have := congrArg List.length hw
      rw [walk_length, List.length_map, ← e, List.length_map] at this
      exact this.symm
    refine Reads.bind' (reads_u8 _) (bs' := bs) ?_ rfl
    rw [if_neg (by omega)]
    have hc : ((UInt8.ofNat pts.length).toUInt16).toNat = pts.length := by
      rw [UInt8.toNat_toUInt16, hb8]
    refine Reads.bind' (Reads.pure _) (bs' := bs) ?_ (by simp)
    rw [if_neg (by intro e; rw [e] at hc; simp at hc; omega), hc, ← hlen]
    have hd' := hd ws.length (Nat.le_refl _)
    refine Reads.bind' hd' (bs' := []) ?_ (by simp)
    exact (Reads.lift (cumsum_walk ws pts 0 (by rw [e]; exact hw))).map some

theorem encLoop_steps : ∀ (k : Nat) (last : UInt16) (l : List UInt16), l.length ≤ k →
    List.IsChain PackedPoints.Step (last :: l) → ∃ bs, PackedPoints.encLoop k last l = .ok bs ∧
      StepRuns ((PackedPoints.diffs last l).map UInt16.toNat) bs := by
  intro k
  induction k with
  | zero =>
    intro last l hl _
    have : l = [] := List.eq_nil_of_length_eq_zero (by omega)
    subst this
    exact ⟨[], rfl, .done⟩
  | succ k ih =>
    intro last l hl hc
    match l with
    | [] => exact ⟨[], rfl, .done⟩
    | c :: t =>
      obtain ⟨l1, l2, last', e1, e0, e2, e3, e4, e5, e6⟩ := PackedPoints.runLoop_first c t last hc
      have hlen := congrArg List.length e1
      rw [List.length_append] at hlen
      obtain ⟨bs, hb, hd⟩ := ih last' l2 (by omega) e4
      have hr := StepRuns.bytes ((PackedPoints.diffs last l1).map (fun v => UInt8.ofNat v.toNat)) _ _
        (by simp; omega) (by simp; omega) hd
      have hm : ((PackedPoints.diffs last l1).map (fun v => UInt8.ofNat v.toNat)).map UInt8.toNat =
          (PackedPoints.diffs last l1).map UInt16.toNat := by
        rw [List.map_map]
        apply List.map_congr_left
        intro a ha
        have := e6 a ha
        simp
        omega
      rw [hm, ← List.map_append, ← e5] at hr
      refine ⟨_, ?_, hr⟩
      unfold PackedPoints.encLoop
      rw [if_neg (by simp), e3]
      simp [hb]

theorem walk_diffs : ∀ (l : List UInt16) (last : UInt16), List.IsChain PackedPoints.Step (last :: l) →
    l.map UInt16.toNat = walk last.toNat ((PackedPoints.diffs last l).map UInt16.toNat)
  | [], _, _ => rfl
  | c :: t, last, hc => by
    rw [List.isChain_cons_cons] at hc
    have h1 := PackedPoints.step_sub hc.1
    have h3 := hc.1.1
    have e : last.toNat + (c.toNat - last.toNat) = c.toNat := by omega
    simp only [PackedPoints.diffs, List.map_cons, walk, h1, e]
    rw [← walk_diffs t c hc.2]

/-- **C38** (writing). What is written for 1 to 127 points with steps of at most 255 is what OpenType defines. -/
theorem C38_writes (pts : List UInt16) (hs : SmallSteps pts) (h1 : 1 ≤ pts.length) (h2 : pts.length ≤ 127) :
    ∃ bs, PackedPoints.encode (some pts) = .ok bs ∧ DescribesPoints (some pts) bs := by
  obtain ⟨bs, hb, hd⟩ := encLoop_steps pts.length 0 pts (Nat.le_refl _) hs
  refine ⟨UInt8.ofNat pts.length :: bs, ?_, .some pts _ bs h1 h2 (walk_diffs pts 0 hs) hd⟩
  unfold PackedPoints.encode
  simp only [ofNat16_toNat (show pts.length ≤ 65535 by omega), hb]
  rw [if_pos (by omega)]
  rfl

example : DescribesPoints (some [3, 1003, 1004]) [3, 0, 3, 0x80, 3, 232, 0, 1] :=
  .some _ [3, 1000, 1] _ (by decide) (by decide) (by decide)
    (.bytes [3] _ _ (by decide) (by decide) (.words [1000] _ _ (by decide) (by decide) (.bytes [1] _ _ (by decide) (by decide) .done)))

end FT.Props
