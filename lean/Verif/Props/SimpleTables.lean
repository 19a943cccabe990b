import Verif.Model.SimpleTables
import Verif.Props.F32

/-!
# C52: fixed-layout tables
-/

namespace FT.Props
open FT FT.Tables

theorem reads_date {d : Date} (h1 : dateMin ≤ d.secs) (h2 : d.secs ≤ dateMax) (hn : d.nanos = 0) :
    Reads readDate (encDate d) d := by
  unfold readDate encDate
  have e : (Int64.ofInt d.secs).toInt = d.secs := by
    rw [Int64.toInt_ofInt]
    apply Int.bmod_eq_of_le <;> · unfold dateMin at h1; unfold dateMax at h2; norm_num; omega
  refine Reads.bind' (reads_i64 _) (bs' := []) ?_ (List.append_nil _).symm
  rw [e, if_pos ⟨h1, h2⟩]
  obtain ⟨s, n⟩ := d
  simp only at hn
  subst hn
  exact Reads.pure _

/-- A date is on disk as whole seconds: what reads back is the date without its fraction of a second. -/
theorem C52_date (d : Date) (h1 : dateMin ≤ d.secs) (h2 : d.secs ≤ dateMax) :
    RoundTripsAt readDate (encDate d) ⟨d.secs, 0⟩ :=
  reads_date (d := ⟨d.secs, 0⟩) h1 h2 rfl

/-- A stored date outside chrono's range makes the reader panic instead of reporting an error. -/
theorem C52_date_out_of_range_panics (diff : Int64) (h : diff.toInt < dateMin ∨ dateMax < diff.toInt) :
    readDate (Rd.new (encI64 diff)) = .panic := by
  have e := reads_i64 diff [] [] [0]
  simp only [List.nil_append, List.append_nil, List.length_nil] at e
  unfold readDate Rd.new
  rw [Reader.bind_run, e]
  simp only
  rw [if_neg (by omega)]
  rfl

/-- A head table reads back equal, for every value of every field, when the font revision is a 16.16 number
of magnitude at most 128 and both dates are whole seconds in chrono's range. -/
theorem C52_head (h : Head) (p : Int32) (hp : |p.toInt| ≤ 2 ^ 23)
    (hrev : h.fontRevision = F32.fixedFromPacked p.toInt)
    (hc : dateMin ≤ h.created.secs ∧ h.created.secs ≤ dateMax ∧ h.created.nanos = 0)
    (hm : dateMin ≤ h.modified.secs ∧ h.modified.secs ≤ dateMax ∧ h.modified.nanos = 0) :
    RoundTripsAt readHead (encHead h) h ∧ (encHead h).length = 54 := by
  obtain ⟨h1, h2, h3, h4, h5, h6, h7, h8, h9, h10, h11, h12, h13, h14, h15, h16, h17, h18⟩ := h
  simp only at hrev hc hm
  have hf : Reads F32.readFixed (F32.encFixed h3) h3 := by
    rw [hrev]; exact (C04_fixed_bytes p hp).2
  refine ⟨?_, by simp [encHead, F32.encFixed, encDate]⟩
  unfold encHead readHead
  refine Reads.bind (reads_u16 _) (Reads.bind (reads_u16 _) (Reads.bind hf (Reads.bind (reads_u32 _)
    (Reads.bind (reads_u32 _) (Reads.bind (reads_u16 _) (Reads.bind (reads_u16 _)
    (Reads.bind (reads_date hc.1 hc.2.1 hc.2.2) (Reads.bind (reads_date hm.1 hm.2.1 hm.2.2)
    (Reads.bind (reads_i16 _) (Reads.bind (reads_i16 _) (Reads.bind (reads_i16 _) (Reads.bind (reads_i16 _)
    (Reads.bind (reads_u16 _) (Reads.bind (reads_u16 _) (Reads.bind (reads_i16 _) (Reads.bind (reads_i16 _)
    (Reads.bind' (reads_i16 _) (Reads.pure _) (List.append_nil _).symm)))))))))))))))))

/-- An hhea table reads back equal. -/
theorem C52_hhea (h : Hhea) : RoundTripsAt readHhea (encHhea h) h ∧ (encHhea h).length = 36 := by
  refine ⟨?_, by simp [encHhea]⟩
  obtain ⟨h1, h2, h3, h4, h5, h6, h7, h8, h9, h10, h11, h12, h13, h14, h15, h16, h17, h18⟩ := h
  unfold encHhea readHhea
  refine Reads.bind (reads_u16 _) (Reads.bind (reads_u16 _) (Reads.bind (reads_i16 _) (Reads.bind (reads_i16 _)
    (Reads.bind (reads_i16 _) (Reads.bind (reads_u16 _) (Reads.bind (reads_i16 _)
    (Reads.bind (reads_i16 _) (Reads.bind (reads_i16 _)
    (Reads.bind (reads_i16 _) (Reads.bind (reads_i16 _) (Reads.bind (reads_i16 _) (Reads.bind (reads_i16 _)
    (Reads.bind (reads_i16 _) (Reads.bind (reads_i16 _) (Reads.bind (reads_i16 _) (Reads.bind (reads_i16 _)
    (Reads.bind' (reads_u16 _) (Reads.pure _) (List.append_nil _).symm)))))))))))))))))

theorem reads_maxp10 (t : Maxp10) : Reads readMaxp10 (encMaxp10 t) t := by
  obtain ⟨h1, h2, h3, h4, h5, h6, h7, h8, h9, h10, h11, h12, h13, h14⟩ := t
  unfold encMaxp10 readMaxp10
  refine Reads.bind (reads_u16 _) (Reads.bind (reads_u16 _) (Reads.bind (reads_u16 _) (Reads.bind (reads_u16 _)
    (Reads.bind (reads_u16 _) (Reads.bind (reads_u16 _) (Reads.bind (reads_u16 _)
    (Reads.bind (reads_u16 _) (Reads.bind (reads_u16 _)
    (Reads.bind (reads_u16 _) (Reads.bind (reads_u16 _) (Reads.bind (reads_u16 _) (Reads.bind (reads_u16 _)
    (Reads.bind' (reads_u16 _) (Reads.pure _) (List.append_nil _).symm)))))))))))))

/-- Specification: the version number agrees with the layout (0.5 or 1.0). -/
def MaxpConsistent (m : Maxp) : Prop := match m.table with
  | .v05 _ => m.version = 0x8000
  | .v10 _ => m.version = 0x10000

/-- A maxp table whose version agrees with its layout reads back equal. -/
theorem C52_maxp (m : Maxp) (h : MaxpConsistent m) :
    ∃ bs, encMaxp m = .ok bs ∧ RoundTripsAt readMaxp bs m := by
  obtain ⟨v, t⟩ := m
  cases t with
  | v05 t =>
    have hv : v = 0x8000 := h
    subst hv
    refine ⟨encU32 0x00005000 ++ encU16 t.numGlyphs, by simp [encMaxp, show encVersion16Dot16 0x8000 = .ok (encU32 0x00005000) by decide], ?_⟩
    unfold readMaxp
    refine Reads.bind (reads_u32 _) ?_
    rw [if_pos rfl]
    exact Reads.bind' (reads_u16 _) (Reads.pure _) (List.append_nil _).symm
  | v10 t =>
    have hv : v = 0x10000 := h
    subst hv
    refine ⟨encU32 0x00010000 ++ encMaxp10 t, by simp [encMaxp, show encVersion16Dot16 0x10000 = .ok (encU32 0x00010000) by decide], ?_⟩
    unfold readMaxp
    refine Reads.bind (reads_u32 _) ?_
    rw [if_neg (by decide), if_pos rfl]
    exact Reads.bind' (reads_maxp10 t) (Reads.pure _) (List.append_nil _).symm

/-- A maxp value whose version does not agree with its layout is not the result of reading any bytes at all,
so it cannot read back as itself. -/
theorem C52_maxp_inconsistent (m : Maxp) (h : ¬ MaxpConsistent m) (r : Rd) :
    ∀ r', readMaxp r ≠ .ok (m, r') := by
  intro r' hr
  unfold readMaxp at hr
  rw [Reader.bind_run] at hr
  cases e : readU32 r with
  | err => simp [e] at hr
  | panic => simp [e] at hr
  | ok x =>
    obtain ⟨v, r1⟩ := x
    simp only [e] at hr
    split at hr
    · rw [Reader.bind_run] at hr
      cases e2 : readU16 r1 with
      | err => simp [e2] at hr
      | panic => simp [e2] at hr
      | ok y =>
        simp only [e2, Reader.pure_run, Res.ok.injEq, Prod.mk.injEq] at hr
        exact h (hr.1 ▸ rfl)
    · split at hr
      · rw [Reader.bind_run] at hr
        cases e2 : readMaxp10 r1 with
        | err => simp [e2] at hr
        | panic => simp [e2] at hr
        | ok y =>
          simp only [e2, Reader.pure_run, Res.ok.injEq, Prod.mk.injEq] at hr
          exact h (hr.1 ▸ rfl)
      · simp [Reader.fail] at hr

/-- A gasp table with at most 65535 ranges reads back equal, unknown flag bits included. -/
theorem C52_gasp (g : Gasp) (h : g.gaspRanges.length ≤ 65535) : RoundTripsAt readGasp (encGasp g) g := by
  obtain ⟨v, l⟩ := g
  unfold readGasp encGasp
  refine Reads.bind (reads_u16 _) ?_
  refine Reads.bind' (reads_counted l h (fun g _ => ?_)) (Reads.pure _) (List.append_nil _).symm
  unfold readGaspRecord encGaspRecord
  exact Reads.bind (reads_u16 _) (Reads.bind' (reads_u16 _) (Reads.pure _) (List.append_nil _).symm)

theorem readCvtFuel_spec (l : List Int16) : ∀ (k : Nat) (pre : Bytes) (stk : List Nat), l.length < k →
    readCvtFuel k ⟨pre ++ encVec encI16 l, pre.length, stk⟩ =
      .ok (l, ⟨pre ++ encVec encI16 l, (pre ++ encVec encI16 l).length, stk⟩) := by
  induction l with
  | nil =>
    intro k pre stk hk
    obtain ⟨k, rfl⟩ : ∃ k', k = k' + 1 := ⟨k - 1, by omega⟩
    simp [readCvtFuel]
  | cons a l ih =>
    intro k pre stk hk
    obtain ⟨k, rfl⟩ : ∃ k', k = k' + 1 := ⟨k - 1, by omega⟩
    have e := reads_i16 a pre (encVec encI16 l) stk
    have i := ih k (pre ++ encI16 a) stk (by simp at hk; omega)
    rw [encVec_cons]
    rw [readCvtFuel]
    simp only [List.append_assoc] at e i ⊢
    rw [if_pos (by simp), e]
    simp only
    rw [List.length_append] at i
    rw [i]

/-- A cvt table reads back equal. -/
theorem C52_cvt (l : List Int16) : ∃ r', readCvt (Rd.new (encCvt l)) = .ok (l, r') := by
  unfold readCvt Rd.new encCvt
  have := readCvtFuel_spec l ((encVec encI16 l).length + 1) [] [0] (by
    rw [encVec_length (k := 2) (fun a => by simp)]; omega)
  simp only [List.nil_append, List.length_nil] at this
  exact ⟨_, this⟩

/-- fpgm and prep tables read back equal. -/
theorem C52_program (l : Bytes) : ∃ r', readProgram (Rd.new (encProgram l)) = .ok (l, r') := by
  refine ⟨Rd.new (encProgram l), ?_⟩
  simp [readProgram, encProgram, Rd.new, getInp, encVec_u8]

example : encMaxp ⟨0x10000, .v10 ⟨3, 98, 7, 0, 0, 2, 0, 0, 0, 0, 0, 0, 0, 0⟩⟩ = .ok
    [0, 1, 0, 0, 0, 3, 0, 98, 0, 7, 0, 0, 0, 0, 0, 2, 0, 0, 0, 0, 0, 0, 0, 0, 0, 0, 0, 0, 0, 0, 0, 0] := by decide
example : MaxpConsistent ⟨0x10000, .v10 ⟨3, 98, 7, 0, 0, 2, 0, 0, 0, 0, 0, 0, 0, 0⟩⟩ := rfl
/-- A 2021 date, the upper half of the 32-bit seconds. -/
example : RoundTripsAt readDate (encDate ⟨3701246505, 500⟩) ⟨3701246505, 0⟩ :=
  C52_date _ (by decide) (by decide)
example : ¬ MaxpConsistent ⟨0x10000, .v05 ⟨3⟩⟩ := by unfold MaxpConsistent; decide

end FT.Props
