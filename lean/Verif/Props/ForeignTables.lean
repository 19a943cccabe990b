import Verif.Lemmas.FindsNum

/-!
# C91: tables written by any program

The converse of C81: bytes that follow the OpenType specification, whatever program wrote them, are read as what they say.
-/

namespace FT.Props
open FT Reader FT.F32 FT.Tables FT.AxisMaps

/-! ### Proofs -/

theorem Plain.new {α : Type} {p : Reader α} {a : α} {rows : List Cell} (h : Plain p a rows) {B : Bytes} (hB : At rows B 0) :
    ∃ rd, p (Rd.new B) = .ok (a, rd) := ⟨_, h B 0 0 [0] hB⟩

/-- Bytes as such are also numbers. -/
theorem Plain.text {α : Type} {p : Reader α} {a : α} {bs : Bytes} (h : Plain p a (bs.map u8)) : Plain p a [.text bs] := by
  intro B base pos stk hs
  have hl : Lays bs (bs.map u8) := by
    have := lays_vec1 (l := bs) fun x _ => lays_u8 x
    have e : encVec encU8 bs = bs := by
      clear this h hs
      induction bs with
      | nil => rfl
      | cons a l ih => rw [encVec_cons, ih]; rfl
    rwa [e] at this
  have hw : widths (bs.map u8) = widths [.text bs] := by rw [← hl.1]; simp [widths, Cell.width]
  have hp : bs <+: B.drop pos := by
    have : (B.drop pos).take bs.length = bs := hs.1
    rw [← this]
    exact List.take_prefix _ _
  rw [h B base pos stk (hl.2 B base pos hp), hw]

theorem readU16_end {B : Bytes} {pos : Nat} {stk : List Nat} (h : B.length < pos + 2) : readU16 ⟨B, pos, stk⟩ = .err := by
  unfold readU16
  rw [bind_run]
  unfold consume
  rw [if_pos (by simp only; omega)]
theorem readI16_end {B : Bytes} {pos : Nat} {stk : List Nat} (h : B.length < pos + 2) : readI16 ⟨B, pos, stk⟩ = .err := by
  unfold readI16
  rw [bind_run, readU16_end h]

/-- Words up to the end of the table; a last odd byte is ignored. -/
theorem readVec_words {B : Bytes} {stk : List Nat} : ∀ {l : List Int16} {base pos fuel : Nat}, l.length < fuel → Shows B base pos (l.map i16) →
    B.length < pos + 2 * l.length + 2 → readVecFuel readI16 fuel ⟨B, pos, stk⟩ = .ok (l, ⟨B, pos + 2 * l.length, stk⟩)
  | [], base, pos, fuel, hf, _, he => by
    obtain ⟨k, rfl⟩ : ∃ k, fuel = k + 1 := ⟨fuel - 1, by simp at hf; omega⟩
    simp only [List.length_nil] at he
    rw [readVecFuel]
    beta_reduce
    rw [readI16_end (by omega)]
    rfl
  | x :: l, base, pos, fuel, hf, hs, he => by
    obtain ⟨k, rfl⟩ : ∃ k, fuel = k + 1 := ⟨fuel - 1, by simp at hf; omega⟩
    simp only [List.length_cons] at he hf
    rw [List.map_cons, Shows] at hs
    rw [readVecFuel]
    beta_reduce
    rw [plain_i16 x B base pos stk ⟨hs.1, trivial⟩]
    simp only
    rw [show pos + widths [i16 x] = pos + 2 from rfl, readVec_words (base := base) (pos := pos + 2) (by omega) hs.2 (by omega)]
    simp only [List.length_cons]
    congr 3
    omega

theorem cvt_words {B : Bytes} {stk : List Nat} : ∀ {l : List Int16} {base pos fuel : Nat}, l.length < fuel → Shows B base pos (l.map i16) →
    B.length = pos + 2 * l.length → readCvtFuel fuel ⟨B, pos, stk⟩ = .ok (l, ⟨B, pos + 2 * l.length, stk⟩)
  | [], base, pos, fuel, hf, _, he => by
    obtain ⟨k, rfl⟩ : ∃ k, fuel = k + 1 := ⟨fuel - 1, by simp at hf; omega⟩
    simp only [List.length_nil] at he
    rw [readCvtFuel]
    beta_reduce
    rw [if_neg (by simp only; omega)]
    rfl
  | x :: l, base, pos, fuel, hf, hs, he => by
    obtain ⟨k, rfl⟩ : ∃ k, fuel = k + 1 := ⟨fuel - 1, by simp at hf; omega⟩
    simp only [List.length_cons] at he hf
    rw [List.map_cons, Shows] at hs
    rw [readCvtFuel]
    beta_reduce
    rw [if_pos (by simp only; omega), plain_i16 x B base pos stk ⟨hs.1, trivial⟩]
    simp only
    rw [show pos + widths [i16 x] = pos + 2 from rfl, cvt_words (base := base) (pos := pos + 2) (by omega) hs.2 (by omega)]
    simp only [List.length_cons]
    congr 3
    omega

theorem shows_words_fit {B : Bytes} {base pos : Nat} {l : List Int16} (h : Shows B base pos (l.map i16)) : l.length ≤ B.length := by
  have hw : widths (l.map i16) = 2 * l.length := by
    clear h
    induction l with
    | nil => rfl
    | cons a l ih => rw [List.map_cons, widths_cons, ih, List.length_cons]; simp only [Cell.width]; omega
  rcases Nat.eq_zero_or_pos l.length with h0 | h0
  · omega
  · have := shows_fits h (by omega)
    omega

/-! ### Tables of fixed layout -/

/-- Where `head` is read right: dates that can be represented (years -262144 to 262143), a revision that fits `f32`. -/
structure HeadReadable (h : Head) : Prop where
  revision : FixedVal h.fontRevision
  created : dateMin ≤ h.created.secs ∧ h.created.secs ≤ dateMax ∧ h.created.nanos = 0
  modified : dateMin ≤ h.modified.secs ∧ h.modified.secs ≤ dateMax ∧ h.modified.nanos = 0

theorem C91_head (h : Head) (hr : HeadReadable h) (B : Bytes) (hB : At (headRows h) B 0) :
    ∃ rd, readHead (Rd.new B) = .ok (h, rd) := by
  refine Plain.new ?_ hB
  unfold readHead headRows
  exact (plain_u16 _).cons <| (plain_u16 _).cons <| (plain_fixed hr.revision).cons <| (plain_u32 _).cons <| (plain_u32 _).cons <|
    (plain_u16 _).cons <| (plain_u16 _).cons <| (plain_date hr.created.1 hr.created.2.1 hr.created.2.2).cons <|
    (plain_date hr.modified.1 hr.modified.2.1 hr.modified.2.2).cons <| (plain_i16 _).cons <|
    (plain_i16 _).cons <| (plain_i16 _).cons <| (plain_i16 _).cons <| (plain_u16 _).cons <| (plain_u16 _).cons <|
    (plain_i16 _).cons <| (plain_i16 _).cons <| (plain_i16 _).last rfl

theorem C91_hhea (h : Hhea) (B : Bytes) (hB : At (hheaRows h) B 0) : ∃ rd, readHhea (Rd.new B) = .ok (h, rd) := by
  refine Plain.new ?_ hB
  unfold readHhea hheaRows
  exact (plain_u16 _).cons <| (plain_u16 _).cons <| (plain_i16 _).cons <| (plain_i16 _).cons <| (plain_i16 _).cons <|
    (plain_u16 _).cons <| (plain_i16 _).cons <| (plain_i16 _).cons <| (plain_i16 _).cons <| (plain_i16 _).cons <|
    (plain_i16 _).cons <| (plain_i16 _).cons <| (plain_i16 _).cons <| (plain_i16 _).cons <| (plain_i16 _).cons <|
    (plain_i16 _).cons <| (plain_i16 _).cons <| (plain_u16 _).last rfl

/-- The version that the code keeps is determined by the variant. -/
theorem C91_maxp (m : Maxp) (h : match m.table with | .v05 _ => m.version = 0x8000 | .v10 _ => m.version = 0x10000) (B : Bytes)
    (hB : At (maxpRows m) B 0) : ∃ rd, readMaxp (Rd.new B) = .ok (m, rd) := by
  refine Plain.new ?_ hB
  obtain ⟨v, t⟩ := m
  unfold readMaxp maxpRows
  cases t with
  | v05 t =>
    obtain rfl : v = 0x8000 := h
    refine (plain_num32 0x00005000 (by decide)).cons ?_
    rw [if_pos rfl]
    exact (plain_u16 _).last rfl
  | v10 t =>
    obtain rfl : v = 0x10000 := h
    refine (plain_num32 0x00010000 (by decide)).cons ?_
    rw [if_neg (by decide), if_pos rfl]
    refine Plain.last (a := t) ?_ rfl
    unfold readMaxp10
    exact (plain_u16 _).cons <| (plain_u16 _).cons <| (plain_u16 _).cons <| (plain_u16 _).cons <|
      (plain_u16 _).cons <| (plain_u16 _).cons <| (plain_u16 _).cons <| (plain_u16 _).cons <| (plain_u16 _).cons <|
      (plain_u16 _).cons <| (plain_u16 _).cons <| (plain_u16 _).cons <| (plain_u16 _).cons <| (plain_u16 _).last rfl

/-- Any other version is rejected. -/
theorem C91_maxp_version (v : UInt32) (h1 : v ≠ 0x5000) (h2 : v ≠ 0x10000) (B : Bytes) (hB : At [u32 v] B 0) :
    readMaxp (Rd.new B) = .err := by
  unfold readMaxp
  rw [bind_run, Rd.new, plain_u32 v B 0 0 [0] hB]
  simp only
  rw [if_neg h1, if_neg h2]
  rfl

theorem C91_gasp (g : Gasp) (h : g.gaspRanges.length ≤ 65535) (B : Bytes) (hB : At (gaspRows g) B 0) :
    ∃ rd, readGasp (Rd.new B) = .ok (g, rd) := by
  refine Plain.new ?_ hB
  unfold readGasp gaspRows
  refine (plain_u16 _).cons (Plain.last (a := g.gaspRanges) (plain_counted h fun r _ => ?_) rfl)
  unfold readGaspRecord
  exact (plain_u16 r.rangeMaxPPEM).cons ((plain_u16 r.rangeGaspBehavior).last rfl)

theorem C91_cvt (l : List Int16) (B : Bytes) (hB : Follows B (l.map i16)) : ∃ rd, readCvt (Rd.new B) = .ok (l, rd) := by
  have hw : widths (l.map i16) = 2 * l.length := by
    clear hB
    induction l with
    | nil => rfl
    | cons a l ih => rw [List.map_cons, widths_cons, ih, List.length_cons]; simp only [Cell.width]; omega
  refine ⟨_, cvt_words (base := 0) (pos := 0) (stk := [0]) ?_ hB.1 (by have := hB.2; omega)⟩
  have := hB.2
  show l.length < B.length + 1
  omega

/-- The programs in `fpgm` and `prep` are the table. -/
theorem C91_program (l : Bytes) (B : Bytes) (hB : Follows B [.text l]) : ∃ rd, readProgram (Rd.new B) = .ok (l, rd) := by
  obtain ⟨⟨h1, _⟩, h2⟩ := hB
  have h3 : (B.drop 0).take l.length = l := h1
  simp only [widths, Cell.width, List.map_cons, List.map_nil, List.sum_cons, List.sum_nil] at h2
  rw [List.drop_zero, List.take_of_length_le (by omega)] at h3
  subst h3
  exact ⟨_, rfl⟩

/-! ### `OS/2` -/

open FT.Os2 in
/-- Where `OS/2` is read right: the vendor is a tag. The fields of later versions are there if the version has them. -/
structure Os2Readable (o : Os2) : Prop where
  vendor : o.core.achVendID.Valid
  v1 : o.ulCodePageRange1.isSome = decide (1 ≤ o.core.version.toNat) ∧ o.ulCodePageRange2.isSome = decide (1 ≤ o.core.version.toNat)
  v2 : o.sxHeight.isSome = decide (2 ≤ o.core.version.toNat) ∧ o.sCapHeight.isSome = decide (2 ≤ o.core.version.toNat) ∧
    o.usDefaultChar.isSome = decide (2 ≤ o.core.version.toNat) ∧ o.usBreakChar.isSome = decide (2 ≤ o.core.version.toNat) ∧
    o.usMaxContext.isSome = decide (2 ≤ o.core.version.toNat)
  v5 : o.usLowerOpticalPointSize.isSome = decide (5 ≤ o.core.version.toNat) ∧
    o.usUpperOpticalPointSize.isSome = decide (5 ≤ o.core.version.toNat)

theorem some_of {α : Type} {x : Option α} {p : Prop} [Decidable p] (h : x.isSome = decide p) (d : α) :
    x = if p then some (x.getD d) else none := by
  by_cases hp : p
  · rw [if_pos hp]
    rw [decide_eq_true hp] at h
    cases x with
    | none => cases h
    | some a => rfl
  · rw [if_neg hp]
    rw [decide_eq_false hp] at h
    cases x with
    | none => rfl
    | some a => cases h

theorem plain_panose (p : Os2.Panose) : Plain Os2.readPanose p [.text [p.panose0, p.panose1, p.panose2, p.panose3, p.panose4,
    p.panose5, p.panose6, p.panose7, p.panose8, p.panose9]] := by
  refine Plain.text ?_
  unfold Os2.readPanose
  exact (plain_u8 _).cons <| (plain_u8 _).cons <| (plain_u8 _).cons <| (plain_u8 _).cons <| (plain_u8 _).cons <|
    (plain_u8 _).cons <| (plain_u8 _).cons <| (plain_u8 _).cons <| (plain_u8 _).cons <| (plain_u8 _).last rfl

theorem C91_os2 (o : Os2.Os2) (h : Os2Readable o) (B : Bytes) (hB : At (os2Rows o) B 0) :
    ∃ rd, Os2.readOs2 (Rd.new B) = .ok (o, rd) := by
  refine Plain.new ?_ hB
  have g0 : o.core.version > 0 ↔ 0 < o.core.version.toNat := Os2.gt_iff o.core.version 0 (by omega)
  have g1 : o.core.version > 1 ↔ 1 < o.core.version.toNat := Os2.gt_iff o.core.version 1 (by omega)
  have g4 : o.core.version > 4 ↔ 4 < o.core.version.toNat := Os2.gt_iff o.core.version 4 (by omega)
  have a1 := some_of h.v1.1 0
  have a2 := some_of h.v1.2 0
  have b1 := some_of h.v2.1 0
  have b2 := some_of h.v2.2.1 0
  have b3 := some_of h.v2.2.2.1 0
  have b4 := some_of h.v2.2.2.2.1 0
  have b5 := some_of h.v2.2.2.2.2 0
  have c1 := some_of h.v5.1 0
  have c2 := some_of h.v5.2 0
  have hv := h.vendor
  obtain ⟨core, x1, x2, y1, y2, y3, y4, y5, z1, z2⟩ := o
  simp only at *
  have k1 : Plain (Os2.readV1 ⟨core, none, none, none, none, none, none, none, none, none⟩)
      ⟨core, x1, x2, none, none, none, none, none, none, none⟩
      (if 1 ≤ core.version.toNat then [u32 (x1.getD 0), u32 (x2.getD 0)] else []) := by
    unfold Os2.readV1
    simp only
    by_cases hc : 1 ≤ core.version.toNat
    · rw [if_pos (g0.mpr hc), if_pos hc]
      rw [if_pos hc] at a1 a2
      exact (plain_u32 _).cons ((plain_u32 _).last (by rw [← a1, ← a2]))
    · rw [if_neg (fun e => hc (g0.mp e)), if_neg hc]
      rw [if_neg hc] at a1 a2
      rw [a1, a2]
      exact plain_pure _
  have k2 : Plain (Os2.readV2 ⟨core, x1, x2, none, none, none, none, none, none, none⟩)
      ⟨core, x1, x2, y1, y2, y3, y4, y5, none, none⟩
      (if 2 ≤ core.version.toNat then [i16 (y1.getD 0), i16 (y2.getD 0), u16 (y3.getD 0), u16 (y4.getD 0), u16 (y5.getD 0)]
        else []) := by
    unfold Os2.readV2
    simp only
    by_cases hc : 2 ≤ core.version.toNat
    · rw [if_pos (g1.mpr hc), if_pos hc]
      rw [if_pos hc] at b1 b2 b3 b4 b5
      exact (plain_i16 _).cons <| (plain_i16 _).cons <| (plain_u16 _).cons <| (plain_u16 _).cons <|
        (plain_u16 _).last (by rw [← b1, ← b2, ← b3, ← b4, ← b5])
    · rw [if_neg (fun e => hc (g1.mp e)), if_neg hc]
      rw [if_neg hc] at b1 b2 b3 b4 b5
      rw [b1, b2, b3, b4, b5]
      exact plain_pure _
  have k3 : Plain (Os2.readV5 ⟨core, x1, x2, y1, y2, y3, y4, y5, none, none⟩)
      ⟨core, x1, x2, y1, y2, y3, y4, y5, z1, z2⟩
      (if 5 ≤ core.version.toNat then [u16 (z1.getD 0), u16 (z2.getD 0)] else []) := by
    unfold Os2.readV5
    simp only
    by_cases hc : 5 ≤ core.version.toNat
    · rw [if_pos (g4.mpr hc), if_pos hc]
      rw [if_pos hc] at c1 c2
      exact (plain_u16 _).cons ((plain_u16 _).last (by rw [← c1, ← c2]))
    · rw [if_neg (fun e => hc (g4.mp e)), if_neg hc]
      rw [if_neg hc] at c1 c2
      rw [c1, c2]
      exact plain_pure _
  unfold Os2.readOs2 os2Rows
  refine Plain.bind (a := core) ?_ (k1.bind (k2.bind k3))
  unfold Os2.readCore
  exact (plain_u16 _).cons <| (plain_i16 _).cons <| (plain_u16 _).cons <| (plain_u16 _).cons <| (plain_u16 _).cons <|
    (plain_i16 _).cons <| (plain_i16 _).cons <| (plain_i16 _).cons <| (plain_i16 _).cons <| (plain_i16 _).cons <|
    (plain_i16 _).cons <| (plain_i16 _).cons <| (plain_i16 _).cons <| (plain_i16 _).cons <| (plain_i16 _).cons <|
    (plain_i16 _).cons <| (plain_panose _).cons <| (plain_u32 _).cons <| (plain_u32 _).cons <| (plain_u32 _).cons <|
    (plain_u32 _).cons <| (plain_tag hv).cons <| (plain_u16 _).cons <| (plain_u16 _).cons <| (plain_u16 _).cons <|
    (plain_i16 _).cons <| (plain_i16 _).cons <| (plain_i16 _).cons <| (plain_u16 _).cons <| (plain_u16 _).last rfl

/-! ### `hmtx` -/

/-- Metrics of all glyphs, `n` of them with an advance width: the rest have the last one. -/
def metricsSay (full : List Hmtx.Metric) (lsbs : List Int16) : List Hmtx.Metric :=
  full ++ lsbs.filterMap fun x => full.getLast?.map fun m => ⟨m.advanceWidth, x⟩

theorem C91_hmtx (full : List Hmtx.Metric) (lsbs : List Int16) (h0 : full ≠ []) (hn : full.length ≤ 65535) (B : Bytes)
    (hB : Follows B (full.flatMap (fun m => [u16 m.advanceWidth, i16 m.lsb]) ++ lsbs.map i16)) :
    ∃ rd, Hmtx.fromBytes (UInt16.ofNat full.length) (Rd.new B) = .ok (metricsSay full lsbs, rd) := by
  obtain ⟨h1, h2⟩ := hB
  rw [shows_append] at h1
  obtain ⟨s1, s2⟩ := h1
  have hw : widths (lsbs.map i16) = 2 * lsbs.length := by
    clear h2 s2
    induction lsbs with
    | nil => rfl
    | cons a l ih => rw [List.map_cons, widths_cons, ih, List.length_cons]; simp only [Cell.width]; omega
  rw [widths_append, hw] at h2
  have k : Plain (deCounted Hmtx.readMetric full.length) full (full.flatMap fun m => [u16 m.advanceWidth, i16 m.lsb]) :=
    plain_list fun m _ => (plain_u16 _).cons ((plain_i16 _).last rfl)
  unfold Hmtx.fromBytes Rd.new
  rw [bind_run, ofNat16_toNat hn, k B 0 0 [0] s1]
  simp only
  rw [bind_run]
  unfold readVec
  rw [readVec_words (base := 0) (l := lsbs) (by have := shows_words_fit s2; simp only; omega) s2 (by omega)]
  simp only
  cases hl : full.getLast? with
  | none => rw [List.getLast?_eq_none_iff] at hl; exact absurd hl h0
  | some m =>
    have e : metricsSay full lsbs = full ++ lsbs.map (fun x => ⟨m.advanceWidth, x⟩) := by
      unfold metricsSay
      rw [hl]
      simp
    rw [e]
    exact ⟨_, rfl⟩

/-- Without a full metric the reader panics. -/
theorem C91_hmtx_none (B : Bytes) : Hmtx.fromBytes 0 (Rd.new B) = .panic := by
  have : ∀ fuel (r : Rd), ∃ l r', readVecFuel readI16 fuel r = .ok (l, r') := by
    intro fuel
    induction fuel with
    | zero => intro r; exact ⟨_, _, rfl⟩
    | succ k ih =>
      intro r
      rw [readVecFuel]
      beta_reduce
      have hp : readI16 r ≠ .panic := by
        obtain ⟨B, pos, stk⟩ := r
        by_cases h : pos + 2 ≤ B.length
        · obtain ⟨y, _, e⟩ := readU16_ok (r := ⟨B, pos, stk⟩) h
          unfold readI16
          rw [bind_run, e]
          simp [pure_run]
        · rw [readI16_end (by omega)]; simp
      cases hr : readI16 r with
      | ok x =>
        obtain ⟨l, r', e⟩ := ih x.2
        obtain ⟨v, r2⟩ := x
        simp only at e ⊢
        rw [e]
        exact ⟨_, _, rfl⟩
      | err => exact ⟨_, _, rfl⟩
      | panic => exact absurd hr hp
  obtain ⟨l, r', e⟩ := this (B.length + 1) (Rd.new B)
  unfold Hmtx.fromBytes
  rw [bind_run]
  rw [show deCounted Hmtx.readMetric (UInt16.toNat 0) (Rd.new B) = .ok ([], Rd.new B) from rfl]
  simp only
  rw [bind_run]
  unfold readVec
  rw [show (Rd.new B).inp.length + 1 = B.length + 1 from rfl, e]
  rfl

/-! ### `avar` and `fvar` -/

theorem C91_avar (maps : List (List (ℚ × ℚ))) (hn : maps.length ≤ 65535) (hm : ∀ m ∈ maps, m.length ≤ 65535) (B : Bytes)
    (hB : At (avarRows maps) B 0) : ∃ rd, readAvar (Rd.new B) = .ok (maps, rd) := by
  refine Plain.new ?_ hB
  unfold readAvar avarRows
  exact (plain_num16 1 (by decide)).cons <| (plain_num16 0 (by decide)).cons <| (plain_num16 0 (by decide)).cons <|
    plain_counted hn fun m h => plain_counted (hm m h) fun x _ => (plain_f2dot14 x.1).cons ((plain_f2dot14 x.2).last rfl)

/-- The axes and then the instances of `fvar`; instances have PostScript names or not, all alike. -/
def fvarBody (f : Fvar) : List Cell :=
  f.axes.flatMap (fun a => [tag a.axisTag, fixed a.minValue, fixed a.defaultValue, fixed a.maxValue, u16 a.flags, u16 a.axisNameID]) ++
  f.instances.flatMap (fun i => [u16 i.subfamilyNameID, u16 i.flags] ++ (i.coordinates.map fixed ++
    i.postscriptNameID.toList.map u16))

/-- The `fvar` table: the axes may be anywhere; the reserved field can have any value. -/
def anyFvarRows (f : Fvar) (named : Bool) (reserved : UInt16) : List Cell :=
  [.num 2 1, .num 2 0, .ref 2 (At (fvarBody f)), u16 reserved, .num 2 f.axes.length, .num 2 20, .num 2 f.instances.length,
   .num 2 (4 * f.axes.length + if named then 6 else 4)]

/-- Where `fvar` is read right: fewer than 16383 axes, numbers that fit `f32`. -/
structure FvarReadable (f : Fvar) (named : Bool) : Prop where
  axes : f.axes.length < 16383
  instances : f.instances.length ≤ 65535
  axis : ∀ a ∈ f.axes, a.axisTag.Valid ∧ FixedVal a.minValue ∧ FixedVal a.defaultValue ∧ FixedVal a.maxValue
  inst : ∀ i ∈ f.instances, i.coordinates.length = f.axes.length ∧ (∀ x ∈ i.coordinates, FixedVal x) ∧
    i.postscriptNameID.isSome = named

theorem plain_instance {f : Fvar} {named : Bool} (h : FvarReadable f named) {i : Instance} (hi : i ∈ f.instances) :
    Plain (readInstanceChecked (UInt16.ofNat f.axes.length) (UInt16.ofNat (4 * f.axes.length + if named then 6 else 4))) i
      ([u16 i.subfamilyNameID, u16 i.flags] ++ (i.coordinates.map fixed ++ i.postscriptNameID.toList.map u16)) := by
  obtain ⟨h1, h2, h3⟩ := h.inst i hi
  have ha := h.axes
  unfold readInstanceChecked
  have e1 : (UInt16.ofNat f.axes.length).toNat = f.axes.length := ofNat16_toNat (by omega)
  have e2 : (UInt16.ofNat (4 * f.axes.length + if named then 6 else 4)).toNat = 4 * f.axes.length + if named then 6 else 4 :=
    ofNat16_toNat (by split <;> omega)
  rw [e1, e2, if_pos (by omega)]
  have e3 : decide ((4 * f.axes.length + if named then 6 else 4) = f.axes.length * 4 + 6) = named := by
    cases named <;> simp <;> omega
  rw [e3, ← h1]
  unfold readInstance
  have hc : Plain (deCounted readFixed i.coordinates.length) i.coordinates (i.coordinates.map fixed) :=
    plain_list1 fun x hx => plain_fixed (h2 x hx)
  obtain ⟨a, b, c, d⟩ := i
  simp only at *
  refine (plain_u16 _).cons ((plain_u16 _).cons (hc.bind ?_))
  cases d with
  | none =>
    cases h3
    rw [if_neg (by decide)]
    exact plain_pure _
  | some n =>
    cases h3
    rw [if_pos (by rfl)]
    exact (plain_u16 n).last rfl

theorem C91_fvar (f : Fvar) (named : Bool) (reserved : UInt16) (h : FvarReadable f named) (B : Bytes)
    (hB : At (anyFvarRows f named reserved) B 0) : ∃ rd, readFvar (Rd.new B) = .ok (f, rd) := by
  obtain ⟨s1, s2, ⟨s3, s4, s5⟩, s6⟩ := hB
  have ha := h.axes
  have hk : Plain (deCounted readAxisRecord f.axes.length >>= fun axes =>
      deCounted (readInstanceChecked (UInt16.ofNat f.axes.length) (UInt16.ofNat (4 * f.axes.length + if named then 6 else 4)))
        f.instances.length >>= fun instances => pure (Fvar.mk axes instances)) f (fvarBody f) := by
    refine Plain.bind (a := f.axes) (plain_list fun a hx => ?_) ((plain_list fun i hi => plain_instance h hi).last rfl)
    obtain ⟨h1, h2, h3, h4⟩ := h.axis a hx
    unfold readAxisRecord
    exact (plain_tag h1).cons <| (plain_fixed h2).cons <| (plain_fixed h3).cons <| (plain_fixed h4).cons <|
      (plain_u16 _).cons <| (plain_u16 _).last rfl
  obtain ⟨y, e1, e2⟩ := readU16_ok (r := ⟨B, 4, [0, 0]⟩) s3
  simp only [Cell.width, Nat.zero_add, Nat.reduceAdd] at s2 s4 s5 s6
  unfold readFvar Rd.new
  simp only [bind_run, pushTop]
  rw [plain_num16 1 (by decide) B 0 0 [0, 0] ⟨s1, trivial⟩]
  simp only [widths, Cell.width, List.map_cons, List.map_nil, List.sum_cons, List.sum_nil, Nat.zero_add, Nat.add_zero]
  rw [plain_num16 0 (by decide) B 0 2 [0, 0] ⟨s2, trivial⟩]
  simp only [widths, Cell.width, List.map_cons, List.map_nil, List.sum_cons, List.sum_nil, Nat.add_zero, Nat.reduceAdd]
  rw [e2]
  simp only [Nat.reduceAdd]
  rw [plain_u16 reserved B 0 6 [0, 0] ⟨s6.1, trivial⟩]
  simp only [widths, Cell.width, List.map_cons, List.map_nil, List.sum_cons, List.sum_nil, Nat.add_zero, Nat.reduceAdd]
  rw [plain_count (n := f.axes.length) (by omega) B 0 8 [0, 0] ⟨s6.2.1, trivial⟩]
  simp only [widths, Cell.width, List.map_cons, List.map_nil, List.sum_cons, List.sum_nil, Nat.add_zero, Nat.reduceAdd]
  rw [plain_num16 20 (by decide) B 0 10 [0, 0] ⟨s6.2.2.1, trivial⟩]
  simp only [widths, Cell.width, List.map_cons, List.map_nil, List.sum_cons, List.sum_nil, Nat.add_zero, Nat.reduceAdd]
  rw [plain_count h.instances B 0 12 [0, 0] ⟨s6.2.2.2.1, trivial⟩]
  simp only [widths, Cell.width, List.map_cons, List.map_nil, List.sum_cons, List.sum_nil, Nat.add_zero, Nat.reduceAdd]
  rw [plain_num16 (UInt16.ofNat (4 * f.axes.length + if named then 6 else 4))
    (by rw [ofNat16_toNat (by split <;> omega)]; push_cast; split <;> omega) B 0 14 [0, 0] ⟨s6.2.2.2.2.1, trivial⟩]
  simp only [topOfTable, setPtr, Nat.zero_add]
  rw [ofNat16_toNat (show f.axes.length ≤ 65535 by omega), ofNat16_toNat h.instances, e1]
  have := hk B _ _ [0, 0] s5
  simp only [bind_run] at this
  exact ⟨_, this⟩

/-! ### Outside the guards -/

/-- Wherever the rows are shown, `p` panics. -/
def Crashes {α : Type} (p : Reader α) (rows : List Cell) : Prop :=
  ∀ (B : Bytes) (base pos : Nat) (stk : List Nat), Shows B base pos rows → p ⟨B, pos, stk⟩ = .panic

theorem Plain.then {α β : Type} {p : Reader α} {f : α → Reader β} {a : α} {c : Cell} {s : List Cell}
    (h : Plain p a [c]) (h' : Crashes (f a) s) : Crashes (p >>= f) (c :: s) := by
  intro B base pos stk hs
  rw [bind_run, h B base pos stk ⟨hs.1, trivial⟩]
  exact h' B base _ stk hs.2

/-- Dates outside the years that the date library knows panic. -/
theorem C91_head_date (h : Head) (hf : FixedVal h.fontRevision) (h1 : -2 ^ 63 ≤ h.created.secs) (h2 : h.created.secs < 2 ^ 63)
    (hd : ¬ (dateMin ≤ h.created.secs ∧ h.created.secs ≤ dateMax)) (B : Bytes) (hB : At (headRows h) B 0) :
    readHead (Rd.new B) = .panic := by
  have key : Crashes readHead (headRows h) := by
    unfold readHead headRows
    refine (plain_u16 _).then <| (plain_u16 _).then <| (plain_fixed hf).then <| (plain_u32 _).then <| (plain_u32 _).then <|
      (plain_u16 _).then <| (plain_u16 _).then ?_
    intro B base pos stk hs
    obtain ⟨⟨e1, e2⟩, _⟩ := hs
    have : readDate ⟨B, pos, stk⟩ = .panic := by
      unfold readDate
      rw [bind_run, readI64_ok e1 h1 h2 e2]
      have : (Int64.ofInt h.created.secs).toInt = h.created.secs := by
        rw [Int64.toInt_ofInt, Int.bmod_def, show Int64.size = 18446744073709551616 from rfl]
        split <;> omega
      simp only [this]
      rw [if_neg hd]
      rfl
    rw [bind_run, this]
  exact key B 0 0 [0] hB

/-- Every fixed point number is read as the nearest `f32` … -/
theorem C91_fixed (v : ℚ) (B : Bytes) (hB : At [fixed v] B 0) :
    ∃ rd, readFixed (Rd.new B) = .ok (rne (rne (v * 65536) / 65536), rd) := ⟨_, fixed_read hB⟩

/-- … so not every one is read exactly: 256 + 1/65536 is read as 256. -/
theorem C91_fixed_rounds : ∃ (v : ℚ) (B : Bytes) (w : ℚ) (rd : Rd), At [fixed v] B 0 ∧ readFixed (Rd.new B) = .ok (w, rd) ∧ w ≠ v :=
  ⟨16777217 / 65536, [1, 0, 0, 1], 256, ⟨[1, 0, 0, 1], 4, [0]⟩,
    ⟨⟨by decide, 16777217, by decide, by decide, by decide, by norm_num⟩, trivial⟩, by decide +kernel, by norm_num⟩

/-- From 16383 axes on, `fvar` with instances panics: the size of an instance does not fit 16 bits. -/
theorem C91_fvar_axes (n s : UInt16) (h : 16383 ≤ n.toNat) (r : Rd) : readInstanceChecked n s r = .panic := by
  unfold readInstanceChecked
  rw [if_neg (by omega)]
  rfl

/-! ### Examples -/

/-- Metrics of two glyphs with an advance width and one without. -/
example : ∃ rd, Hmtx.fromBytes 2 (Rd.new [1, 244, 0, 10, 2, 88, 255, 251, 0, 7]) =
    .ok ([⟨500, 10⟩, ⟨600, -5⟩, ⟨600, 7⟩], rd) :=
  C91_hmtx [⟨500, 10⟩, ⟨600, -5⟩] [7] (by simp) (by decide) _ ⟨⟨⟨by decide, by decide⟩, ⟨by decide, by decide⟩, ⟨by decide, by decide⟩,
    ⟨by decide, by decide⟩, ⟨by decide, by decide⟩, trivial⟩, rfl⟩

/-- An `fvar` table with two stray bytes before its axis. -/
def strangeFvar : Bytes :=
  [0, 1, 0, 0, 0, 18, 7, 7, 0, 1, 0, 20, 0, 1, 0, 10, 9, 9,
   119, 103, 104, 116, 0, 100, 0, 0, 1, 144, 0, 0, 3, 132, 0, 0, 0, 1, 1, 0,
   1, 1, 0, 0, 2, 188, 128, 0, 1, 2]

def strangeAxes : Fvar :=
  ⟨[⟨⟨119, 103, 104, 116⟩, 100, 400, 900, 1, 256⟩], [⟨257, 0, [1401 / 2], some 258⟩]⟩

theorem strangeFvar_follows : At (anyFvarRows strangeAxes true 0x0707) strangeFvar 0 := by
  refine ⟨⟨by decide, by decide⟩, ⟨by decide, by decide⟩, ⟨by decide, by decide, ?_⟩, ⟨by decide, by decide⟩, ⟨by decide, by decide⟩,
    ⟨by decide, by decide⟩, ⟨by decide, by decide⟩, ⟨by decide, by decide⟩, trivial⟩
  exact ⟨rfl, ⟨by decide, 6553600, by decide, by decide, by decide, by norm_num⟩,
    ⟨by decide, 26214400, by decide, by decide, by decide, by norm_num⟩,
    ⟨by decide, 58982400, by decide, by decide, by decide, by norm_num⟩,
    ⟨by decide, by decide⟩, ⟨by decide, by decide⟩, ⟨by decide, by decide⟩, ⟨by decide, by decide⟩,
    ⟨by decide, 45907968, by decide, by decide, by decide, by norm_num⟩, ⟨by decide, by decide⟩, trivial⟩

example : ∃ rd, readFvar (Rd.new strangeFvar) = .ok (strangeAxes, rd) := by
  have v : ∀ n : ℤ, -32768 ≤ n → n ≤ 32767 → FixedVal (n : ℚ) := fun n a b => fixedVal_int a b
  have v100 := v 100 (by omega) (by omega)
  have v400 := v 400 (by omega) (by omega)
  have v900 := v 900 (by omega) (by omega)
  push_cast at v100 v400 v900
  refine C91_fvar strangeAxes true 0x0707 ⟨by decide, by decide, ?_, ?_⟩ strangeFvar strangeFvar_follows
  · intro a ha
    simp only [strangeAxes, List.mem_singleton] at ha
    subst ha
    exact ⟨by decide, v100, v400, v900⟩
  · intro i hi
    simp only [strangeAxes, List.mem_singleton] at hi
    subst hi
    refine ⟨rfl, fun x hx => ?_, rfl⟩
    simp only [List.mem_singleton] at hx
    subst hx
    exact .inr ⟨1401, 14, by decide, by decide, by decide, by norm_num⟩

/-- A version 0.5 `maxp` table. -/
example : ∃ rd, readMaxp (Rd.new [0, 0, 80, 0, 1, 44]) = .ok (⟨0x8000, .v05 ⟨300⟩⟩, rd) :=
  C91_maxp _ rfl _ ⟨⟨by decide, by decide⟩, ⟨by decide, by decide⟩, trivial⟩

end FT.Props
