import Verif.Model.Strings
import Verif.Props.Fvar
import Verif.Props.NameTable
import Verif.Lemmas.FixedEven

/-! C51: the `post` table. -/

namespace FT.Props
open FT FT.Strings FT.Tables FT.F32 FT.Reader

/-! ### Version numbers -/

/-- Versions that survive: a fraction in 32nds and a whole part of a byte; 1.0, 2.0, 2.5, 3.0 among them. -/
def PostVersion (v : UInt32) : Prop := v.toNat % 2048 = 0 ∧ v.toNat / 65536 ≤ 255
instance (v : UInt32) : Decidable (PostVersion v) := by unfold PostVersion; infer_instance

theorem reads_version {v : UInt32} (h : PostVersion v) :
    ∃ b, encVersion16Dot16 v = .ok b ∧ b.length = 4 ∧ Reads readVersion16Dot16 b v := by
  obtain ⟨h1, h2⟩ := h
  have hv := v.toNat_lt
  obtain ⟨M, hM⟩ : ∃ M, M = v.toNat / 65536 := ⟨_, rfl⟩
  obtain ⟨k, hk⟩ : ∃ k, k = v.toNat % 65536 / 2048 := ⟨_, rfl⟩
  have hk32 : k < 32 := by omega
  have hm : v.toNat % 65536 * 160 / 65536 = 5 * k := by omega
  have hval : v.toNat = M * 65536 + k * 2048 := by omega
  rw [← hM] at h2
  refine ⟨encU8 0 ++ encU8 (UInt8.ofNat M) ++ encU8 (UInt8.ofNat (5 * k)) ++ encU8 0, ?_, rfl, ?_⟩
  · unfold encVersion16Dot16
    simp only
    rw [← hM, if_neg (by omega), hm]
  · have e1 : (UInt8.ofNat M).toNat = M := by rw [UInt8.toNat_ofNat']; exact Nat.mod_eq_of_lt (by simpa using by omega)
    have e2 : (UInt8.ofNat (5 * k)).toNat = 5 * k := by
      rw [UInt8.toNat_ofNat']; exact Nat.mod_eq_of_lt (by simpa using by omega)
    have q1 : rne (((5 * k : ℕ) : ℚ) / 160) = (k : ℚ) / 32 := by
      have := rne_exact (k : ℤ) (-5) (by rw [abs_of_nonneg (by positivity)]; norm_num; omega) (by norm_num)
      have e : ((5 * k : ℕ) : ℚ) / 160 = ((k : ℤ) : ℚ) * 2 ^ (-5 : ℤ) := by push_cast; norm_num; ring
      rw [e, this]; norm_num; ring
    have q2 : rne ((M : ℚ) + (k : ℚ) / 32) = (M : ℚ) + (k : ℚ) / 32 := by
      have := rne_exact ((32 * M + k : ℕ) : ℤ) (-5) (by rw [abs_of_nonneg (by positivity)]; norm_num; omega) (by norm_num)
      have e : (M : ℚ) + (k : ℚ) / 32 = (((32 * M + k : ℕ) : ℤ) : ℚ) * 2 ^ (-5 : ℤ) := by push_cast; norm_num; ring
      rw [e, this]
    have q3 : rhe (((M : ℚ) + (k : ℚ) / 32) * 65536) = (v.toNat : ℤ) := by
      have : ((M : ℚ) + (k : ℚ) / 32) * 65536 = ((v.toNat : ℤ) : ℚ) := by rw [hval]; push_cast; ring
      rw [this, rhe_int]
    unfold readVersion16Dot16
    simp only [List.append_assoc]
    refine Reads.bind (reads_u8 _) (Reads.bind (reads_u8 _) (Reads.bind (reads_u8 _) ?_))
    have := (reads_u8 0).map fun _ => UInt32.ofNat (rhe (rne (((UInt8.ofNat M).toNat : ℚ) +
      rne (((UInt8.ofNat (5 * k)).toNat : ℚ) / 160)) * 65536)).toNat
    rw [e1, e2, q1, q2, q3] at this ⊢
    have ev : UInt32.ofNat ((v.toNat : ℤ)).toNat = v := by simp
    rw [ev] at this ⊢
    exact this

/-! ### Glyph names -/

/-- A name outside the standard Macintosh list. -/
def Custom (n : String) : Prop := n ∉ appleNames
instance (n : String) : Decidable (Custom n) := by unfold Custom; infer_instance

theorem appleNames_length : appleNames.length = 258 := by decide +kernel

theorem fromUtf8_utf8 (s : String) : fromUtf8 (utf8 s) = .ok s := by
  unfold fromUtf8 utf8
  have : String.fromUTF8? ⟨s.toUTF8.data.toList.toArray⟩ = some s := by
    rw [Array.toArray_toList]
    unfold String.fromUTF8?
    have h : (⟨s.toUTF8.data⟩ : ByteArray).IsValidUTF8 := s.isValidUTF8
    rw [dif_pos h]
    rfl
  rw [this]; rfl

/-- A stored name: a length byte and the UTF-8 bytes. -/
def storedName (n : String) : Bytes := encU8 (UInt8.ofNat (utf8 n).length) ++ utf8 n

theorem glyphNames_ok : ∀ (ns : List String) (items : Nat),
    258 + items + (ns.filter (fun n => decide (Custom n))).length ≤ 65536 →
    ∃ offs : List UInt16, encGlyphNames items ns =
        (encVec encU16 offs, encVec storedName (ns.filter (fun n => decide (Custom n)))) ∧
      offs.length = ns.length ∧
      ∀ prev : List String, prev.length = items →
        Res.mapL (glyphNameAt (prev ++ ns.filter (fun n => decide (Custom n)))) offs = .ok ns
  | [], items, _ => ⟨[], rfl, rfl, fun _ _ => rfl⟩
  | n :: ns, items, h => by
    unfold encGlyphNames
    cases hi : appleNames.idxOf? n with
    | some i =>
      have hmem : n ∈ appleNames ∧ appleNames[i]? = some n := by
        have := List.idxOf?_eq_some_iff.1 hi
        obtain ⟨hl, hx, _⟩ := this
        exact ⟨hx ▸ List.getElem_mem hl, by rw [List.getElem?_eq_getElem hl, hx]⟩
      have hnc : ¬ Custom n := fun k => k hmem.1
      have hil : i < 258 := by
        have := List.getElem?_eq_some_iff.1 hmem.2
        obtain ⟨q, _⟩ := this
        rw [appleNames_length] at q; exact q
      have hf : (n :: ns).filter (fun n => decide (Custom n)) = ns.filter (fun n => decide (Custom n)) := by
        rw [List.filter_cons_of_neg]; simpa using hnc
      rw [hf] at h ⊢
      obtain ⟨offs, e, hl, hr⟩ := glyphNames_ok ns items h
      refine ⟨UInt16.ofNat i :: offs, ?_, by simp [hl], ?_⟩
      · simp only [e, encVec_cons]
      · intro prev hp
        simp only [Res.mapL]
        have : glyphNameAt (prev ++ ns.filter (fun n => decide (Custom n))) (UInt16.ofNat i) = .ok n := by
          unfold glyphNameAt
          rw [ofNat16_toNat (by omega), if_pos hil, hmem.2]; rfl
        rw [this, hr prev hp]
    | none =>
      have hc : Custom n := by
        intro hm
        rw [List.idxOf?_eq_none_iff] at hi
        exact hi hm
      have hf : (n :: ns).filter (fun n => decide (Custom n)) = n :: ns.filter (fun n => decide (Custom n)) := by
        rw [List.filter_cons_of_pos]; simpa using hc
      rw [hf] at h ⊢
      simp only [List.length_cons] at h
      obtain ⟨offs, e, hl, hr⟩ := glyphNames_ok ns (items + 1) (by omega)
      refine ⟨UInt16.ofNat (258 + items) :: offs, ?_, by simp [hl], ?_⟩
      · simp only [e, encVec_cons, storedName, List.append_assoc]
      · intro prev hp
        simp only [Res.mapL]
        have h1 : glyphNameAt (prev ++ n :: ns.filter (fun n => decide (Custom n))) (UInt16.ofNat (258 + items)) = .ok n := by
          unfold glyphNameAt
          rw [ofNat16_toNat (by omega), if_neg (by omega), Nat.add_sub_cancel_left, ← hp]
          simp
        have h2 := hr (prev ++ [n]) (by simp [hp])
        rw [List.append_assoc, List.singleton_append] at h2
        rw [h1, h2]

theorem readStored_ok (stk : List Nat) : ∀ (ns : List String) (k : Nat), ns.length < k →
    (∀ n ∈ ns, (utf8 n).length ≤ 255) →
    ∀ pre, readStored k ⟨pre ++ encVec storedName ns, pre.length, stk⟩ =
      .ok (ns, ⟨pre ++ encVec storedName ns, pre.length + (encVec storedName ns).length, stk⟩)
  | [], k + 1, _, _, pre => by
    unfold readStored
    have : readU8 ⟨pre ++ encVec storedName [], pre.length, stk⟩ = .err := by
      simp [readU8, bind_run, consume, encVec]
    rw [this]; simp [encVec]
  | n :: ns, k + 1, hk, hl, pre => by
    unfold readStored
    have hn := hl n (by simp)
    obtain ⟨inp, hinp⟩ : ∃ inp, inp = pre ++ encVec storedName (n :: ns) := ⟨_, rfl⟩
    have r1 := reads_u8 (UInt8.ofNat (utf8 n).length) pre (utf8 n ++ encVec storedName ns) stk
    have e1 : pre ++ encU8 (UInt8.ofNat (utf8 n).length) ++ (utf8 n ++ encVec storedName ns) = inp := by
      rw [hinp, encVec_cons, storedName]; simp only [List.append_assoc]
    rw [e1] at r1
    rw [← hinp, r1]
    simp only
    have el : (UInt8.ofNat (utf8 n).length).toNat = (utf8 n).length := by
      rw [UInt8.toNat_ofNat']; exact Nat.mod_eq_of_lt (by simpa using by omega)
    have r2 := reads_bytes (utf8 n) el (pre ++ encU8 (UInt8.ofNat (utf8 n).length)) (encVec storedName ns) stk
    have e2 : pre ++ encU8 (UInt8.ofNat (utf8 n).length) ++ utf8 n ++ encVec storedName ns = inp := by
      rw [hinp, encVec_cons, storedName]; simp only [List.append_assoc]
    rw [e2, List.length_append] at r2
    rw [bind_run, r2]; simp only
    rw [bind_run, fromUtf8_utf8]; simp only [Reader.lift]
    have r3 := readStored_ok stk ns k (by simpa using hk) (fun x hx => hl x (List.mem_cons_of_mem _ hx))
      (pre ++ storedName n)
    have e3 : pre ++ storedName n ++ encVec storedName ns = inp := by
      rw [hinp, encVec_cons]; simp only [List.append_assoc]
    rw [e3] at r3
    have e4 : pre.length + (encU8 (UInt8.ofNat (utf8 n).length)).length + (utf8 n).length = (pre ++ storedName n).length := by
      simp [storedName, Nat.add_assoc]
    rw [e4, bind_run, r3]; simp only [pure_run]
    simp [encVec_cons, Nat.add_assoc]

/-- The fields of a table without names that can be written. -/
structure PostOk (p : Post) : Prop where
  version : PostVersion p.version
  angle : FixedVal p.italicAngle

/-- The names a version 2 table can hold. -/
structure NamesOk (v : List String) : Prop where
  count : v.length ≤ 65535
  customCount : (v.filter (fun n => decide (Custom n))).length ≤ 65278
  short : ∀ n ∈ v, Custom n → (utf8 n).length ≤ 255

theorem encVec_pos_length {α : Type} {enc : α → Bytes} (h : ∀ a, 0 < (enc a).length) (l : List α) :
    l.length ≤ (encVec enc l).length := by
  induction l with
  | nil => simp
  | cons a l ih => rw [encVec_cons, List.length_append, List.length_cons]; have := h a; omega

theorem core_ok {p : Post} (h : PostOk p) : ∃ core, encPostCore p = .ok core ∧ core.length = 32 ∧
    Reads readPostCore core { p with glyphnames := none } := by
  obtain ⟨b, e, l, r⟩ := reads_version h.version
  refine ⟨_, by unfold encPostCore; rw [e, Res.ok_bind]; rfl, ?_, ?_⟩
  · simp [l, encFixed_length]
  · unfold readPostCore
    refine r.bind (Reads.bind (C04_fixed_values h.angle) ((reads_i16 _).bind ((reads_i16 _).bind
      ((reads_u32 _).bind ((reads_u32 _).bind ((reads_u32 _).bind ((reads_u32 _).bind ?_)))))))
    exact (reads_u32 p.maxMemType1).map fun x => Post.mk p.version p.italicAngle p.underlinePosition p.underlineThickness
      p.isFixedPitch p.minMemType42 p.maxMemType42 p.minMemType1 x none

/-- A version 2 table with names reads back equal. -/
theorem C51_names {p : Post} {v : List String} (h : PostOk p) (hv : p.version = 0x20000) (hn : p.glyphnames = some v)
    (ok : NamesOk v) : ∃ bs, encPost p = .ok bs ∧ readPost (Rd.new bs) = .ok (p, ⟨bs, bs.length, [0]⟩) := by
  obtain ⟨core, e, l, r⟩ := core_ok h
  obtain ⟨offs, eg, hl, hr⟩ := glyphNames_ok v 0 (by have := ok.customCount; omega)
  obtain ⟨cust, hcust⟩ : ∃ c, c = v.filter (fun n => decide (Custom n)) := ⟨_, rfl⟩
  have hshort : ∀ n ∈ cust, (utf8 n).length ≤ 255 := by
    intro n hm
    rw [hcust, List.mem_filter] at hm
    exact ok.short n hm.1 (of_decide_eq_true hm.2)
  have hcount := ok.count
  rw [← hcust] at eg hr
  refine ⟨core ++ (encU16 (UInt16.ofNat v.length) ++ (encVec encU16 offs ++ encVec storedName cust)), ?_, ?_⟩
  · unfold encPost
    rw [e, Res.ok_bind, if_pos hv, hn]; simp only [eg]; rfl
  · have rn : ReadsEnd readGlyphNames (encU16 (UInt16.ofNat v.length) ++ (encVec encU16 offs ++ encVec storedName cust)) v := by
      unfold readGlyphNames
      refine (reads_u16 _).bindEnd (Reads.bindEnd (reads_deCounted' (enc := encU16) (l := offs)
        (by rw [ofNat16_toNat hcount, hl]) fun a _ => reads_u16 a) ?_)
      intro pre stk
      rw [bind_run]; simp only [getInp]
      have r2 := readStored_ok stk cust ((pre ++ encVec storedName cust).length + 1) (by
        have : ∀ n, 0 < (storedName n).length := by intro n; simp [storedName]
        have := encVec_pos_length this cust
        rw [List.length_append]; omega) hshort pre
      rw [bind_run, r2]; simp only
      have r3 := hr [] rfl
      rw [List.nil_append] at r3
      rw [r3]; simp only [Reader.lift]
    have : ReadsEnd readPost (core ++ (encU16 (UInt16.ofNat v.length) ++ (encVec encU16 offs ++ encVec storedName cust))) p := by
      unfold readPost
      refine r.bindEnd ?_
      simp only
      rw [if_pos hv]
      intro pre stk
      rw [bind_run, rn pre stk]; simp only [pure_run]
      rw [← hn]
    simpa [Rd.new] using this [] [0]

/-- Tables of any other version read back equal but for the names, which are not stored. -/
theorem C51_other_versions {p : Post} (h : PostOk p) (hv : p.version ≠ 0x20000) :
    ∃ bs, encPost p = .ok bs ∧ RoundTripsAt readPost bs { p with glyphnames := none } := by
  obtain ⟨core, e, l, r⟩ := core_ok h
  refine ⟨core, by unfold encPost; rw [e, Res.ok_bind, if_neg hv]; rfl, ?_⟩
  unfold readPost
  refine r.bind' (bs' := []) ?_ (by simp)
  simp only
  rw [if_neg hv]
  exact Reads.pure _

/-- A version 2 table without names is written but cannot be read. -/
theorem C51_names_missing {p : Post} (h : PostOk p) (hv : p.version = 0x20000) (hn : p.glyphnames = none) :
    ∃ bs, encPost p = .ok bs ∧ readPost (Rd.new bs) = .err := by
  obtain ⟨core, e, l, r⟩ := core_ok h
  refine ⟨core, by unfold encPost; rw [e, Res.ok_bind, if_pos hv, hn]; rfl, ?_⟩
  unfold readPost Rd.new
  have := r [] [] [0]
  simp only [List.nil_append, List.append_nil, List.length_nil, Nat.zero_add] at this
  rw [bind_run, this]; simp only
  rw [if_pos hv, bind_run]
  have : readGlyphNames ⟨core, core.length, [0]⟩ = .err := by
    unfold readGlyphNames
    rw [bind_run]
    have : readU16 ⟨core, core.length, [0]⟩ = .err := by simp [readU16, bind_run, consume]
    rw [this]
  rw [this]

/-- A table that refers to a name it does not hold makes the reader panic instead of failing. -/
theorem C51_dangling_name_panics : ∃ bs : Bytes, readPost (Rd.new bs) = .panic := by
  have ok : PostOk ⟨0x20000, 0, 0, 0, 0, 0, 0, 0, 0, none⟩ :=
    ⟨by decide, by have := fixedVal_int (n := 0) (by norm_num) (by norm_num); simpa using this⟩
  obtain ⟨core, e, l, r⟩ := core_ok ok
  refine ⟨core ++ (encU16 1 ++ encU16 258), ?_⟩
  have r1 := r [] (encU16 1 ++ encU16 258) [0]
  simp only [List.nil_append, List.length_nil, Nat.zero_add] at r1
  unfold readPost Rd.new
  rw [bind_run, r1]; simp only
  rw [if_pos trivial, bind_run]
  have : readGlyphNames ⟨core ++ (encU16 1 ++ encU16 258), core.length, [0]⟩ = .panic := by
    unfold readGlyphNames
    have r2 := reads_u16 1 core (encU16 258) [0]
    have r3 := reads_deCounted' (n := (1 : UInt16).toNat) (p := readU16) (enc := encU16) (l := [258]) (by rfl)
      (fun a _ => reads_u16 a) (core ++ encU16 1) [] [0]
    simp only [encVec, List.flatMap_cons, List.flatMap_nil, List.append_assoc, List.append_nil] at r2 r3
    have e2 : core.length + (encU16 1).length = (core ++ encU16 1).length := by simp
    rw [bind_run, r2]; simp only
    rw [e2, bind_run, r3]; simp only
    rw [bind_run]; simp only [getInp]
    have : ∀ (inp : Bytes) (k : Nat), readStored (k + 1) ⟨inp, inp.length, [0]⟩ = .ok ([], ⟨inp, inp.length, [0]⟩) := by
      intro inp k
      unfold readStored
      have : readU8 ⟨inp, inp.length, [0]⟩ = .err := by simp [readU8, bind_run, consume]
      rw [this]
    have e3 : (core ++ encU16 1).length + (encU16 258).length = (core ++ (encU16 1 ++ encU16 258)).length := by
      simp
    rw [e3, bind_run, this]; rfl
  rw [this]

theorem readStored_short : ∀ (k : Nat) (r r' : Rd) (l : List String), readStored k r = .ok (l, r') →
    ∀ n ∈ l, (utf8 n).length ≤ 255
  | 0, r, r', l, h => by simp only [readStored, pure_run] at h; cases h; simp
  | k + 1, r, r', l, h => by
    unfold readStored at h
    cases h1 : readU8 r with
    | err => rw [h1] at h; simp only at h; cases h; simp
    | panic => rw [h1] at h; simp at h
    | ok x =>
      obtain ⟨m, r1⟩ := x
      rw [h1] at h; simp only at h
      obtain ⟨bs, r2, h2, h⟩ := Props.Reader.bind_inv h
      obtain ⟨s, r3, h3, h⟩ := Props.Reader.bind_inv h
      obtain ⟨rest, r4, h4, h⟩ := Props.Reader.bind_inv h
      simp only [pure_run] at h; cases h
      intro n hn
      rcases List.mem_cons.1 hn with e | e
      · have hl := deCounted_length h2
        have hs : fromUtf8 bs = .ok s := by
          cases hx : fromUtf8 bs with
          | ok y => rw [hx] at h3; simp only [Reader.lift] at h3; cases h3; rfl
          | err => rw [hx] at h3; simp [Reader.lift] at h3
          | panic => rw [hx] at h3; simp [Reader.lift] at h3
        have hb : utf8 s = bs := by
          unfold fromUtf8 String.fromUTF8? at hs
          split at hs
          · simp only [Res.unwrap_some] at hs; cases hs
            simp [utf8, String.fromUTF8]
          · cases hs
        rw [e, hb, hl]
        have := m.toNat_lt
        omega
      · exact readStored_short k _ _ _ h4 n e

/-- Every name ever read is standard or at most 255 bytes long: longer ones do not survive. -/
theorem C51_long_names_lost {r r' : Rd} {p : Post} {v : List String} (h : readPost r = .ok (p, r'))
    (hn : p.glyphnames = some v) : v.length ≤ 65535 ∧ ∀ n ∈ v, Custom n → (utf8 n).length ≤ 255 := by
  unfold readPost at h
  obtain ⟨core, r1, h1, h⟩ := Props.Reader.bind_inv h
  split at h
  · obtain ⟨names, r2, h2, h⟩ := Props.Reader.bind_inv h
    simp only [pure_run] at h; cases h
    cases hn
    unfold readGlyphNames at h2
    obtain ⟨m, r3, h3, h2⟩ := Props.Reader.bind_inv h2
    obtain ⟨offs, r4, h4, h2⟩ := Props.Reader.bind_inv h2
    obtain ⟨inp, r5, h5, h2⟩ := Props.Reader.bind_inv h2
    obtain ⟨stored, r6, h6, h2⟩ := Props.Reader.bind_inv h2
    have hm : Res.mapL (glyphNameAt stored) offs = .ok v := by
      cases hx : Res.mapL (glyphNameAt stored) offs with
      | ok y => rw [hx] at h2; simp only [Reader.lift] at h2; cases h2; rfl
      | err => rw [hx] at h2; simp [Reader.lift] at h2
      | panic => rw [hx] at h2; simp [Reader.lift] at h2
    have hs := readStored_short _ _ _ _ h6
    have hl := deCounted_length h4
    have hall : ∀ (offs : List UInt16) (v : List String), Res.mapL (glyphNameAt stored) offs = .ok v →
        v.length = offs.length ∧ ∀ n ∈ v, Custom n → (utf8 n).length ≤ 255 := by
      intro offs
      induction offs with
      | nil => intro v hv; simp only [Res.mapL] at hv; cases hv; simp
      | cons o offs ih =>
        intro v hv
        simp only [Res.mapL] at hv
        cases ho : glyphNameAt stored o with
        | err => rw [ho] at hv; simp at hv
        | panic => rw [ho] at hv; simp at hv
        | ok n =>
          rw [ho] at hv
          cases hr : Res.mapL (glyphNameAt stored) offs with
          | err => rw [hr] at hv; simp at hv
          | panic => rw [hr] at hv; simp at hv
          | ok ns =>
            rw [hr] at hv; simp only at hv; cases hv
            obtain ⟨i1, i2⟩ := ih ns hr
            refine ⟨by simp [i1], ?_⟩
            intro x hx hc
            rcases List.mem_cons.1 hx with e | e
            · subst e
              unfold glyphNameAt at ho
              split at ho
              · cases ha : appleNames[o.toNat]? with
                | none => rw [ha] at ho; cases ho
                | some y =>
                  rw [ha] at ho; simp only [Res.unwrap_some] at ho; cases ho
                  exact absurd (List.mem_of_getElem? ha) hc
              · cases ha : stored[o.toNat - 258]? with
                | none => rw [ha] at ho; cases ho
                | some y =>
                  rw [ha] at ho; simp only [Res.unwrap_some] at ho; cases ho
                  exact hs _ (List.mem_of_getElem? ha)
            · exact i2 x e hc
    obtain ⟨e1, e2⟩ := hall offs v hm
    refine ⟨?_, e2⟩
    rw [e1, hl]
    have := m.toNat_lt
    omega
  · simp only [pure_run] at h; cases h
    have : p.glyphnames = none := by
      unfold readPostCore at h1
      iterate 9 obtain ⟨_, _, _, h1⟩ := Props.Reader.bind_inv h1
      simp only [pure_run] at h1; cases h1; rfl
    rw [this] at hn; cases hn

/-- Standard and custom names mixed, one custom name used twice. -/
example : PostOk ⟨0x20000, -12, -100, 50, 0, 0, 0, 0, 0, some [".notdef", "A.alt", "space", "A.alt", "f_f_i"]⟩ ∧
    NamesOk [".notdef", "A.alt", "space", "A.alt", "f_f_i"] := by
  refine ⟨⟨by decide, ?_⟩, by decide, ?_, ?_⟩
  · have := fixedVal_int (n := -12) (by norm_num) (by norm_num)
    simpa using this
  · exact le_trans (List.length_filter_le _ _) (by decide)
  · intro n hn _
    simp only [List.mem_cons, List.not_mem_nil, or_false] at hn
    rcases hn with rfl | rfl | rfl | rfl | rfl <;> decide

example : PostVersion 0x28000 ∧ PostVersion 0x10000 ∧ PostVersion 0x30000 := by decide

end FT.Props
