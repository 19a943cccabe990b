import Verif.Model.TupleVar
import Verif.Props.PackedRuns
import Verif.Props.GlyphComposite
import Verif.Props.FontSave

/-!
C39, C40: tuple variation headers and tuple variation stores.
-/

namespace FT.Props
open FT FT.TupleVar FT.F32 Reader

/-! ### Specification -/

/-- A tuple of coordinates as 2.14 numbers, present if `b`. -/
inductive OptTuple (axes : Nat) : Prop → Option (List ℚ) → Bytes → Prop
  | absent {b : Prop} : ¬ b → OptTuple axes b none []
  | present {b : Prop} (ps : List Int16) : b → ps.length = axes → OptTuple axes b (some (ps.map fixed14)) (encVec encI16 ps)

/-- The bytes of a tuple variation header: size, a word with the index of a shared tuple in its lowest 12 bits, the peak tuple
if bit 15 is set, and start and end tuples if bit 14 is set. -/
def DescribesHeader (axes : Nat) (h : Header) (bs : Bytes) : Prop :=
  ∃ peak start stop : Bytes, bs = encU16 h.size ++ encU16 h.flags ++ peak ++ start ++ stop ∧
    h.sharedTupleIndex.toNat = h.flags.toNat % 4096 ∧
    OptTuple axes (WordBit h.flags 15) h.peakTuple peak ∧
    OptTuple axes (WordBit h.flags 14) h.startTuple start ∧
    OptTuple axes (WordBit h.flags 14) h.endTuple stop

/-- The given deltas with the numbers of their points, counted from `i`. -/
def givenFrom : Nat → List (Option Delta) → List (Nat × Delta)
  | _, [] => []
  | i, none :: l => givenFrom (i + 1) l
  | i, some d :: l => (i, d) :: givenFrom (i + 1) l

/-- The bytes of deltas: for glyphs, all x and then all y. -/
inductive DeltaBytes : Bool → List Delta → Bytes → Prop
  | pairs (xs ys : List Int16) (bx b : Bytes) : xs.length = ys.length → DeltaRuns xs bx → DeltaRuns ys b →
      DeltaBytes true (List.zipWith Delta.d2 xs ys) (bx ++ b)
  | single (vs : List Int16) (b : Bytes) : DeltaRuns vs b → DeltaBytes false (vs.map Delta.d1) b

/-- The point numbers for which the deltas stand. -/
def pointNumbers (pointCount : Nat) : Option (List UInt16) → List Nat
  | none => List.range pointCount
  | some pts => pts.map UInt16.toNat

/-- The data of one tuple: its own point numbers if bit 13 is set (otherwise the shared ones hold), then the deltas for these
points, in order. -/
def DescribesData (isGvar : Bool) (pointCount : Nat) (shared : Option (List UInt16)) (v : Variation) (bs : Bytes) : Prop :=
  ∃ (nums : Option (List UInt16)) (pb db : Bytes) (ds : List Delta), bs = pb ++ db ∧
    (WordBit v.header.flags 13 ∧ DescribesPoints nums pb ∨ ¬ WordBit v.header.flags 13 ∧ nums = shared ∧ pb = []) ∧
    DeltaBytes isGvar ds db ∧ v.deltas.length = pointCount ∧
    givenFrom 0 v.deltas = (pointNumbers pointCount nums).zip ds ∧ (pointNumbers pointCount nums).length = ds.length

/-- Concatenated bytes of a list. -/
inductive Concat {α : Type} (R : α → Bytes → Prop) : List α → Bytes → Prop
  | nil : Concat R [] []
  | cons (a : α) (l : List α) (b bs : Bytes) : R a b → Concat R l bs → Concat R (a :: l) (b ++ bs)

/-- The bytes of a tuple variation store: a word with the number of tuples in its lowest 12 bits and bit 15 if there are shared
point numbers, the offset of the data, the headers, the shared point numbers, the data. -/
def DescribesStore (axes : Nat) (isGvar : Bool) (pointCount : Nat) (vs : List Variation) (bs : Bytes) : Prop :=
  ∃ (word off : UInt16) (hb sb db : Bytes) (shared : Option (List UInt16)), bs = encU16 word ++ encU16 off ++ hb ++ sb ++ db ∧
    word.toNat % 4096 = vs.length ∧
    (WordBit word 15 ∧ DescribesPoints shared sb ∨ ¬ WordBit word 15 ∧ shared = some [] ∧ sb = []) ∧
    Concat (fun v b => DescribesHeader axes v.header b) vs hb ∧
    Concat (DescribesData isGvar pointCount shared) vs db

/-! ### Headers -/

theorem tvHas_pow (f m : UInt16) (k : Nat) (h : m.toNat = 2 ^ k) : TupleVar.has f m = true ↔ WordBit f k := cHas_pow f m k h

theorem and_mask12 (f : UInt16) : (f &&& TUPLE_INDEX_MASK).toNat = f.toNat % 4096 := by
  rw [UInt16.toNat_and]
  exact Nat.and_two_pow_sub_one_eq_mod f.toNat 12

theorem reads_optTuple {axes : Nat} {b : Prop} {c : Bool} (hc : c = true ↔ b) {t : Option (List ℚ)} {bs : Bytes}
    (h : OptTuple axes b t bs) : Reads (readOptTuple c axes) bs t := by
  unfold readOptTuple
  cases h with
  | absent hb =>
    rw [if_neg (by rwa [hc])]
    exact Reads.pure none
  | present ps hb hl =>
    rw [if_pos (by rwa [hc])]
    have h1 := (reads_deCounted' (p := readI16) (enc := encI16) (n := axes) hl.symm (fun a _ => reads_i16 a)).map
      (fun l => l.map (fun p : Int16 => f2dot14FromPacked p.toInt))
    have e : ps.map (fun p : Int16 => f2dot14FromPacked p.toInt) = ps.map fixed14 := by
      apply List.map_congr_left
      intro p _
      exact C04_f2dot14_value p
    rw [e] at h1
    exact h1.map some

/-- **C39** (reading). Every tuple variation header is read as OpenType defines it, wherever it lies. -/
theorem C39_reads_any (axes : Nat) (h : Header) (bs : Bytes) (hd : DescribesHeader axes h bs) :
    RoundTripsAt (readHeader axes) bs h := by
  obtain ⟨peak, start, stop, rfl, hs, h1, h2, h3⟩ := hd
  simp only [List.append_assoc]
  refine Reads.bind (reads_u16 _) ?_
  refine Reads.bind (reads_u16 _) ?_
  refine Reads.bind (reads_optTuple (tvHas_pow _ _ 15 rfl) h1) ?_
  refine Reads.bind (reads_optTuple (tvHas_pow _ _ 14 rfl) h2) ?_
  refine Reads.bind' (bs' := []) (reads_optTuple (tvHas_pow _ _ 14 rfl) h3) ?_ (by simp)
  have e : h.flags &&& TUPLE_INDEX_MASK = h.sharedTupleIndex := by
    apply UInt16.toNat_inj.mp
    rw [and_mask12, hs]
  rw [e]
  exact Reads.pure _

/-- All coordinates are 2.14 numbers, one for each axis; a tuple is present exactly if its flag is set. -/
def HeaderFits (axes : Nat) (h : Header) : Prop :=
  (∃ b, OptTuple axes (WordBit h.flags 15) h.peakTuple b) ∧ (∃ b, OptTuple axes (WordBit h.flags 14) h.startTuple b) ∧
    (∃ b, OptTuple axes (WordBit h.flags 14) h.endTuple b) ∧
    h.sharedTupleIndex.toNat < 4096 ∧ h.flags ||| h.sharedTupleIndex = (h.flags &&& 0xF000) ||| h.sharedTupleIndex

theorem encVecR_fixed14 : ∀ ps : List Int16, encVecR encF2dot14 (ps.map fixed14) = .ok (encVec encI16 ps)
  | [] => rfl
  | p :: ps => by
    have e : encF2dot14 (fixed14 p) = .ok (encI16 p) := by
      unfold encF2dot14
      have := C04_f2dot14 p
      rw [C04_f2dot14_value] at this
      unfold fixed14
      rw [this]
      simp [Res.ok_bind]
    simp only [List.map_cons, encVecR, e, encVecR_fixed14 ps, encVec_cons]

theorem encOptTuple_ok {axes : Nat} {b : Prop} {c : Bool} (hc : c = true ↔ b) {t : Option (List ℚ)} {bs : Bytes}
    (h : OptTuple axes b t bs) : encOptTuple c t = .ok bs := by
  unfold encOptTuple
  cases h with
  | absent hb => rw [if_neg (by rwa [hc])]
  | present ps hb hl =>
    rw [if_pos (by rwa [hc])]
    exact encVecR_fixed14 ps

theorem wordBit_small {f : UInt16} {k : Nat} (h : f.toNat < 4096) (hk : 12 ≤ k) : ¬ WordBit f k := by
  unfold WordBit
  have : 2 ^ 12 ≤ 2 ^ k := Nat.pow_le_pow_right (by omega) hk
  rw [Nat.div_eq_of_lt (by omega)]
  decide

theorem index_of_or {f s : UInt16} (h1 : s.toNat < 4096) (h2 : f ||| s = (f &&& 0xF000) ||| s) :
    (f ||| s).toNat % 4096 = s.toNat := by
  rw [h2, UInt16.toNat_or, UInt16.toNat_and]
  show ((f.toNat &&& 61440) ||| s.toNat) % 4096 = s.toNat
  apply Nat.eq_of_testBit_eq
  intro i
  rw [show 4096 = 2 ^ 12 from rfl, Nat.testBit_mod_two_pow, Nat.testBit_or, Nat.testBit_and]
  by_cases hi : i < 12
  · have : Nat.testBit 61440 i = false := by
      have : ∀ j : Fin 12, Nat.testBit 61440 j = false := by decide
      exact this ⟨i, hi⟩
    simp [hi, this]
  · have : s.toNat.testBit i = false := by
      apply Nat.testBit_lt_two_pow
      exact Nat.lt_of_lt_of_le h1 (Nat.pow_le_pow_right (by omega) (by omega) : 2 ^ 12 ≤ 2 ^ i)
    simp [hi, this]

/-- **C39** (writing). A header which fits is written as OpenType defines it, with the index of the shared tuple in the word of
the flags. -/
theorem C39_writes (axes : Nat) (h : Header) (hf : HeaderFits axes h) :
    ∃ bs, encHeader h = .ok bs ∧ DescribesHeader axes { h with flags := h.flags ||| h.sharedTupleIndex } bs := by
  obtain ⟨⟨b1, h1⟩, ⟨b2, h2⟩, ⟨b3, h3⟩, h4, h5⟩ := hf
  refine ⟨encU16 h.size ++ encU16 (h.sharedTupleIndex ||| h.flags) ++ b1 ++ b2 ++ b3, ?_, b1, b2, b3, ?_, ?_, ?_, ?_, ?_⟩
  · unfold encHeader
    rw [encOptTuple_ok (tvHas_pow _ _ 15 rfl) h1, encOptTuple_ok (tvHas_pow _ _ 14 rfl) h2, encOptTuple_ok (tvHas_pow _ _ 14 rfl) h3]
    rfl
  · simp only [UInt16.or_comm]
  · exact (index_of_or h4 h5).symm
  all_goals
    have hb : ∀ k, 12 ≤ k → (WordBit (h.flags ||| h.sharedTupleIndex) k ↔ WordBit h.flags k) := by
      intro k hk
      rw [wordBit_or]
      exact ⟨fun hh => hh.resolve_right (wordBit_small h4 hk), Or.inl⟩
    simp only
    rw [hb _ (by omega)]
    assumption

/-- **C39** (round trip). A header which fits reads back equal, except that the flags word then also holds the index of the
shared tuple. -/
theorem C39_roundtrip (axes : Nat) (h : Header) (hf : HeaderFits axes h) :
    ∃ bs, encHeader h = .ok bs ∧ RoundTripsAt (readHeader axes) bs { h with flags := h.flags ||| h.sharedTupleIndex } := by
  obtain ⟨bs, e, hd⟩ := C39_writes axes h hf
  exact ⟨bs, e, C39_reads_any axes _ bs hd⟩

/-- **C39** (after reading). Every header that is described — so every header which was read — is written as exactly the bytes
it was read from. -/
theorem C39_stable (axes : Nat) (h : Header) (bs : Bytes) (hd : DescribesHeader axes h bs) : encHeader h = .ok bs := by
  obtain ⟨peak, start, stop, rfl, hs, h1, h2, h3⟩ := hd
  unfold encHeader
  rw [encOptTuple_ok (tvHas_pow _ _ 15 rfl) h1, encOptTuple_ok (tvHas_pow _ _ 14 rfl) h2, encOptTuple_ok (tvHas_pow _ _ 14 rfl) h3]
  have e : h.sharedTupleIndex ||| h.flags = h.flags := by
    apply UInt16.toNat_inj.mp
    rw [UInt16.toNat_or, hs, ← and_mask12, UInt16.toNat_and]
    apply Nat.eq_of_testBit_eq
    intro i
    rw [Nat.testBit_or, Nat.testBit_and]
    cases h.flags.toNat.testBit i <;> simp
  simp only [Res.ok_bind, Res.pure_eq, e]

/-- **C39** (missing tuple). If a flag asks for a tuple which is not there, writing panics. -/
theorem C39_missing_panics (h : Header) (hm : WordBit h.flags 15 ∧ h.peakTuple = none ∨
    ¬ WordBit h.flags 15 ∧ WordBit h.flags 14 ∧ h.startTuple = none) : encHeader h = .panic := by
  have e15 := tvHas_pow h.flags EMBEDDED_PEAK_TUPLE 15 rfl
  have e14 := tvHas_pow h.flags INTERMEDIATE_REGION 14 rfl
  unfold encHeader encOptTuple
  rcases hm with ⟨h1, h2⟩ | ⟨h1, h2, h3⟩
  · rw [if_pos (e15.mpr h1), h2]
    rfl
  · rw [if_neg (by rwa [e15]), if_pos (e14.mpr h2), h3]
    rfl

/-- **C39** (stale index). A header which was read keeps the index of its shared tuple in the flags; giving it another index
mixes the two. -/
theorem C39_stale_index : ∃ h h' : Header, ∃ bs : Bytes, readHeader 0 (Rd.new [0, 0, 0, 1]) = .ok (h, ⟨[0, 0, 0, 1], 4, [0]⟩) ∧
    encHeader { h with sharedTupleIndex := 2 } = .ok bs ∧ readHeader 0 (Rd.new bs) = .ok (h', ⟨bs, 4, [0]⟩) ∧ h'.sharedTupleIndex = 3 :=
  ⟨⟨0, 1, 1, none, none, none⟩, ⟨0, 3, 3, none, none, none⟩, [0, 0, 0, 3], by decide, by decide, by decide, rfl⟩

example : HeaderFits 2 ⟨0, 0xA000, 0, some [1, -1 / 2], none, none⟩ := by
  refine ⟨⟨encVec encI16 [16384, -8192], ?_⟩, ⟨_, .absent (by decide)⟩, ⟨_, .absent (by decide)⟩, by decide, by decide⟩
  have : (some [1, -1 / 2] : Option (List ℚ)) = some (([16384, -8192] : List Int16).map fixed14) := by
    have h1 : (16384 : Int16).toInt = 16384 := by decide
    have h2 : (-8192 : Int16).toInt = -8192 := by decide
    simp only [List.map_cons, List.map_nil, fixed14, h1, h2]
    norm_num
  rw [this]
  exact .present _ (by decide) rfl

/-! ### Stores: reading -/

theorem reads_concat {α : Type} {R : α → Bytes → Prop} {p : Reader α} (h : ∀ a b, R a b → Reads p b a) :
    ∀ {l : List α} {bs : Bytes}, Concat R l bs → Reads (deCounted p l.length) bs l := by
  intro l bs hc
  induction hc with
  | nil => exact Reads.deCounted_nil p
  | cons a l b bs hab _ ih => exact Reads.deCounted_cons (h a b hab) ih

theorem concat_map {α β : Type} {R : α → Bytes → Prop} {S : β → Bytes → Prop} (f : α → β) (h : ∀ a b, R a b → S (f a) b) :
    ∀ {l : List α} {bs : Bytes}, Concat R l bs → Concat S (l.map f) bs := by
  intro l bs hc
  induction hc with
  | nil => exact .nil
  | cons a l b bs hab _ ih => exact .cons _ _ _ _ (h a b hab) ih

theorem givenFrom_ge : ∀ (l : List (Option Delta)) (i : Nat), ∀ p ∈ givenFrom i l, i ≤ p.1
  | [], _, p, h => by simp [givenFrom] at h
  | none :: l, i, p, h => by
    have := givenFrom_ge l (i + 1) p h
    omega
  | some d :: l, i, p, h => by
    rcases List.mem_cons.mp h with rfl | h
    · exact Nat.le_refl _
    · have := givenFrom_ge l (i + 1) p h
      omega

theorem place_given : ∀ (l : List (Option Delta)) (i : Nat) (pts : List UInt16) (ds : List Delta),
    givenFrom i l = (pts.map UInt16.toNat).zip ds → pts.length = ds.length → place l.length i pts ds = .ok l
  | [], _, _, _, _, _ => by unfold place; rfl
  | none :: l, i, pts, ds, h, hl => by
    have h' : givenFrom (i + 1) l = (pts.map UInt16.toNat).zip ds := h
    have ih := place_given l (i + 1) pts ds h' hl
    cases pts with
    | nil =>
      show place (l.length + 1) i [] ds = _
      unfold place
      rw [ih]
      rfl
    | cons p ps =>
      have hne : p.toNat ≠ i := by
        cases ds with
        | nil => simp at hl
        | cons d ds =>
          have := givenFrom_ge l (i + 1) (p.toNat, d) (by rw [h']; simp)
          simp only at this
          omega
      show place (l.length + 1) i (p :: ps) ds = _
      unfold place
      rw [if_neg hne, ih]
      rfl
  | some d :: l, i, pts, ds, h, hl => by
    cases pts with
    | nil => simp [givenFrom] at h
    | cons p ps =>
      cases ds with
      | nil => simp at hl
      | cons e ds =>
        simp only [givenFrom, List.map_cons, List.zip_cons_cons, List.cons.injEq, Prod.mk.injEq] at h
        obtain ⟨⟨h1, h2⟩, h3⟩ := h
        subst h2
        show place (l.length + 1) i (p :: ps) (d :: ds) = _
        unfold place
        rw [if_pos h1.symm]
        simp only
        rw [place_given l (i + 1) ps ds h3 (by simpa using hl)]
        rfl

theorem pointsOr_numbers (pc : UInt16) (nums : Option (List UInt16)) : (pointsOr pc nums).map UInt16.toNat = pointNumbers pc.toNat nums := by
  cases nums with
  | some pts => rfl
  | none =>
    unfold pointsOr pointNumbers
    rw [List.map_map]
    conv => rhs; rw [← List.map_id (List.range pc.toNat)]
    apply List.map_congr_left
    intro i hi
    have h1 := List.mem_range.mp hi
    have h2 := pc.toNat_lt
    simp
    omega

theorem reads_deltas {isGvar : Bool} {ds : List Delta} {bs : Bytes} (h : DeltaBytes isGvar ds bs) :
    Reads (readDeltas isGvar ds.length) bs ds := by
  unfold readDeltas
  cases h with
  | pairs xs ys bx b hl hx hy =>
    rw [if_pos rfl]
    have e1 : (List.zipWith Delta.d2 xs ys).length = xs.length := by rw [List.length_zipWith]; omega
    refine Reads.bind (by rw [e1]; exact C37_reads_any xs bx hx) ?_
    rw [e1, hl]
    exact Reads.map (List.zipWith Delta.d2 xs) (C37_reads_any ys b hy)
  | single vs b hv =>
    rw [if_neg (by decide), List.length_map]
    exact Reads.map (List.map Delta.d1) (C37_reads_any vs bs hv)

theorem reads_points {pc : UInt16} {nums : Option (List UInt16)} {bs : Bytes} (h : DescribesPoints nums bs) :
    Reads (readPoints pc) bs (pointsOr pc nums) := Reads.map (pointsOr pc) (C38_reads_any nums bs h)

theorem reads_variation {isGvar : Bool} {pc : UInt16} {shared : Option (List UInt16)} {v : Variation} {bs : Bytes}
    (h : DescribesData isGvar pc.toNat shared v bs) : Reads (readVariation isGvar pc (pointsOr pc shared) v.header) bs v := by
  obtain ⟨nums, pb, db, ds, rfl, hp, hd, hlen, hg, hn⟩ := h
  have e13 := tvHas_pow v.header.flags PRIVATE_POINT_NUMBERS 13 rfl
  have hnl : (pointsOr pc nums).length = ds.length := by
    rw [← hn, ← pointsOr_numbers, List.length_map]
  unfold readVariation
  have h1 : Reads (if TupleVar.has v.header.flags PRIVATE_POINT_NUMBERS then readPoints pc else pure (pointsOr pc shared)) pb
      (pointsOr pc nums) := by
    rcases hp with ⟨h1, h2⟩ | ⟨h1, rfl, rfl⟩
    · rw [if_pos (e13.mpr h1)]
      exact reads_points h2
    · rw [if_neg (by rwa [e13])]
      exact Reads.pure _
  refine Reads.bind h1 ?_
  rw [hnl]
  refine Reads.bind' (bs' := []) (reads_deltas hd) ?_ (by simp)
  rw [← hlen]
  exact (Reads.lift (place_given v.deltas 0 _ ds (by rw [pointsOr_numbers, hg]) hnl)).map (fun all => (⟨v.header, all⟩ : Variation))

theorem reads_variations {isGvar : Bool} {pc : UInt16} {shared : Option (List UInt16)} :
    ∀ {vs : List Variation} {bs : Bytes}, Concat (DescribesData isGvar pc.toNat shared) vs bs →
      Reads (readVariations isGvar pc (pointsOr pc shared) (vs.map Variation.header)) bs vs := by
  intro vs bs h
  induction h with
  | nil => exact Reads.pure _
  | cons v vs b bs hv _ ih =>
    rw [List.map_cons]
    unfold readVariations
    refine Reads.bind (reads_variation hv) ?_
    exact ih.map (fun l => v :: l)

/-- **C40** (reading). Every tuple variation store with one-byte point counts is read as OpenType defines it: shared and private
point numbers, any division into runs. -/
theorem C40_reads_any (axes : UInt16) (isGvar : Bool) (pointCount : UInt16) (vs : List Variation) (bs : Bytes)
    (h : DescribesStore axes.toNat isGvar pointCount.toNat vs bs) :
    RoundTripsAt (readStore axes isGvar pointCount) bs vs := by
  obtain ⟨word, off, hb, sb, db, shared, rfl, hw, hs, hh, hd⟩ := h
  simp only [List.append_assoc]
  refine Reads.bind (reads_u16 _) ?_
  refine Reads.bind (reads_u16 _) ?_
  have e1 : (word &&& 0x0FFF).toNat = (vs.map Variation.header).length := by
    rw [List.length_map, ← hw]; exact and_mask12 word
  rw [e1]
  refine Reads.bind (reads_concat (fun a b hab => C39_reads_any axes.toNat a b hab)
    (concat_map (S := fun h b => DescribesHeader axes.toNat h b) Variation.header (fun _ _ hh => hh) hh)) ?_
  have e15 : (word &&& 0x8000 != 0) = true ↔ WordBit word 15 := by
    rw [← cHas_pow word 0x8000 15 rfl]
    unfold Glyf.cHas
    rw [bne_iff_ne, beq_iff_eq]
    constructor
    · intro hne
      have hbit : word.toNat.testBit 15 = true := by
        cases hb : word.toNat.testBit 15 with
        | true => rfl
        | false =>
          exfalso
          apply hne
          apply UInt16.toNat_inj.mp
          rw [UInt16.toNat_and]
          show word.toNat &&& 2 ^ 15 = 0
          apply Nat.eq_of_testBit_eq
          intro i
          rw [Nat.testBit_and, Nat.testBit_two_pow]
          by_cases hi : 15 = i
          · subst hi; simp [hb]
          · simp [hi]
      have := (cHas_pow word 0x8000 15 rfl).mpr ((wordBit_test word 15).mpr hbit)
      unfold Glyf.cHas at this
      exact beq_iff_eq.mp this
    · intro e h0
      rw [e] at h0
      exact absurd h0 (by decide)
  have h1 : Reads (if word &&& 0x8000 != 0 then readPoints pointCount else pure []) sb (pointsOr pointCount shared) := by
    rcases hs with ⟨h1, h2⟩ | ⟨h1, rfl, rfl⟩
    · rw [if_pos (e15.mpr h1)]
      exact reads_points h2
    · rw [if_neg (by rwa [e15])]
      exact Reads.pure _
  refine Reads.bind h1 ?_
  exact reads_variations hd

/-! ### Stores: writing -/

/-- The first number of a delta. -/
def firstOf : Delta → Int16
  | .d1 v => v
  | .d2 x _ => x

/-- The second number of a delta, if there is one. -/
def secondOf : Delta → Option Int16
  | .d1 _ => none
  | .d2 _ y => some y

/-- Deltas for glyphs are pairs, others single numbers. -/
def DeltaKind (isGvar : Bool) (d : Delta) : Prop := (secondOf d).isSome = isGvar

/-- A variation which can be written: the header fits; there is one delta, possibly omitted, for each point; nowhere 256 zeros
in a row; if deltas are omitted, 1 to 127 are left, for points with steps of at most 255; if none is omitted, bit 13 of the flags
is not set. -/
def VariationFits (axes : Nat) (isGvar : Bool) (pointCount : Nat) (v : Variation) : Prop :=
  HeaderFits axes v.header ∧ v.deltas.length = pointCount ∧
  (∀ p ∈ givenFrom 0 v.deltas, DeltaKind isGvar p.2) ∧
  (¬ List.replicate 256 (0 : Int16) <:+: (givenFrom 0 v.deltas).map (fun p => firstOf p.2)) ∧
  (¬ List.replicate 256 (0 : Int16) <:+: (givenFrom 0 v.deltas).filterMap (fun p => secondOf p.2)) ∧
  ((none ∈ v.deltas ∧ ∃ pts : List UInt16, pts.map UInt16.toNat = (givenFrom 0 v.deltas).map Prod.fst ∧ SmallSteps pts ∧
      1 ≤ pts.length ∧ pts.length ≤ 127) ∨
    (none ∉ v.deltas ∧ ¬ WordBit v.header.flags 13))

/-- What a variation says: deltas and the region where they hold. -/
def variationContent (v : Variation) : List (Option Delta) × Option (List ℚ) × Option (List ℚ) × Option (List ℚ) × UInt16 :=
  (v.deltas, v.header.peakTuple, v.header.startTuple, v.header.endTuple, v.header.sharedTupleIndex)

/-- Size of a header in bytes. -/
def headerSize (axes : Nat) (h : Header) : Nat :=
  4 + (if WordBit h.flags 15 then 2 * axes else 0) + (if WordBit h.flags 14 then 4 * axes else 0)

theorem any_none (l : List (Option Delta)) : l.any Option.isNone = true ↔ none ∈ l := by
  rw [List.any_eq_true]
  constructor
  · rintro ⟨x, hx, hn⟩
    cases x with
    | none => exact hx
    | some _ => simp at hn
  · intro h; exact ⟨none, h, rfl⟩

theorem deltaX_eq : ∀ (l : List (Option Delta)) (i : Nat), deltaX l = (givenFrom i l).map (fun p => firstOf p.2)
  | [], _ => rfl
  | none :: l, i => deltaX_eq l (i + 1)
  | some (.d1 v) :: l, i => by
    show v :: deltaX l = _
    rw [deltaX_eq l (i + 1)]; rfl
  | some (.d2 x y) :: l, i => by
    show x :: deltaX l = _
    rw [deltaX_eq l (i + 1)]; rfl

theorem deltaY_eq : ∀ (l : List (Option Delta)) (i : Nat), deltaY l = (givenFrom i l).filterMap (fun p => secondOf p.2)
  | [], _ => rfl
  | none :: l, i => deltaY_eq l (i + 1)
  | some (.d1 v) :: l, i => by
    show deltaY l = _
    rw [deltaY_eq l (i + 1)]; rfl
  | some (.d2 x y) :: l, i => by
    show y :: deltaY l = _
    rw [deltaY_eq l (i + 1)]; rfl

theorem givenPoints_eq : ∀ (l : List (Option Delta)) (i : Nat), i + l.length ≤ 65536 →
    (givenPoints i l).map UInt16.toNat = (givenFrom i l).map Prod.fst
  | [], _, _ => rfl
  | none :: l, i, h => by
    simp only [List.length_cons] at h
    exact givenPoints_eq l (i + 1) (by omega)
  | some d :: l, i, h => by
    simp only [List.length_cons] at h
    simp only [givenPoints, givenFrom, List.map_cons]
    rw [ofNat16_toNat (by omega), givenPoints_eq l (i + 1) (by omega)]

theorem given_all : ∀ (l : List (Option Delta)) (i : Nat), none ∉ l → (givenFrom i l).map Prod.fst = List.range' i l.length
  | [], _, _ => rfl
  | none :: l, _, h => by simp at h
  | some d :: l, i, h => by
    simp only [givenFrom, List.map_cons, List.length_cons, List.range'_succ]
    rw [given_all l (i + 1) (by intro hm; exact h (List.mem_cons_of_mem _ hm))]

theorem toNat_inj_list : ∀ {a b : List UInt16}, a.map UInt16.toNat = b.map UInt16.toNat → a = b
  | [], [], _ => rfl
  | [], _ :: _, h => by simp at h
  | _ :: _, [], h => by simp at h
  | x :: a, y :: b, h => by
    simp only [List.map_cons, List.cons.injEq] at h
    rw [UInt16.toNat_inj.mp h.1, toNat_inj_list h.2]

theorem zipWith_pairs (ds : List Delta) (h : ∀ d ∈ ds, DeltaKind true d) :
    List.zipWith Delta.d2 (ds.map firstOf) (ds.filterMap secondOf) = ds ∧ (ds.map firstOf).length = (ds.filterMap secondOf).length := by
  induction ds with
  | nil => exact ⟨rfl, rfl⟩
  | cons d ds ih =>
    obtain ⟨e1, e2⟩ := ih (fun x hx => h x (List.mem_cons_of_mem _ hx))
    cases d with
    | d1 v => exact absurd (h _ List.mem_cons_self) (by unfold DeltaKind secondOf; simp)
    | d2 x y =>
      constructor
      · simp only [List.map_cons, firstOf, List.filterMap_cons, secondOf, List.zipWith_cons_cons, e1]
      · simp only [List.map_cons, List.filterMap_cons, secondOf, List.length_cons, e2]

theorem map_singles (ds : List Delta) (h : ∀ d ∈ ds, DeltaKind false d) : (ds.map firstOf).map Delta.d1 = ds ∧ ds.filterMap secondOf = [] := by
  induction ds with
  | nil => exact ⟨rfl, rfl⟩
  | cons d ds ih =>
    obtain ⟨e1, e2⟩ := ih (fun x hx => h x (List.mem_cons_of_mem _ hx))
    cases d with
    | d1 v =>
      constructor
      · simp only [List.map_cons, firstOf, e1]
      · simp only [List.filterMap_cons, secondOf, e2]
    | d2 x y => exact absurd (h _ List.mem_cons_self) (by unfold DeltaKind secondOf; simp)

theorem encDeltas_ok {l : List Int16} (h : ¬ List.replicate 256 (0 : Int16) <:+: l) :
    ∃ bs, unwrapR (PackedDeltas.encode l) = .ok bs ∧ DeltaRuns l bs := by
  obtain ⟨bs, e⟩ := (C37_succeeds_iff l).mpr h
  exact ⟨bs, by rw [e]; rfl, C37_writes l bs e⟩

/-- Writing the deltas of a variation. -/
theorem encDeltaBytes {isGvar : Bool} {l : List (Option Delta)} (hk : ∀ p ∈ givenFrom 0 l, DeltaKind isGvar p.2)
    (hx : ¬ List.replicate 256 (0 : Int16) <:+: (givenFrom 0 l).map (fun p => firstOf p.2))
    (hy : ¬ List.replicate 256 (0 : Int16) <:+: (givenFrom 0 l).filterMap (fun p => secondOf p.2)) :
    ∃ bx by_, unwrapR (PackedDeltas.encode (deltaX l)) = .ok bx ∧
      (if (deltaY l).isEmpty then .ok [] else unwrapR (PackedDeltas.encode (deltaY l))) = .ok by_ ∧
      DeltaBytes isGvar ((givenFrom 0 l).map Prod.snd) (bx ++ by_) := by
  rw [deltaX_eq l 0, deltaY_eq l 0]
  obtain ⟨bx, ex, rx⟩ := encDeltas_ok hx
  obtain ⟨b, ey, ry⟩ := encDeltas_ok hy
  have e1 : (givenFrom 0 l).map (fun p => firstOf p.2) = ((givenFrom 0 l).map Prod.snd).map firstOf := by
    rw [List.map_map]; rfl
  have e2 : (givenFrom 0 l).filterMap (fun p => secondOf p.2) = ((givenFrom 0 l).map Prod.snd).filterMap secondOf := by
    rw [List.filterMap_map]; rfl
  have hk' : ∀ d ∈ (givenFrom 0 l).map Prod.snd, DeltaKind isGvar d := by
    intro d hd
    obtain ⟨p, hp, rfl⟩ := List.mem_map.mp hd
    exact hk p hp
  rw [e1] at ex rx ⊢
  rw [e2] at ey ry ⊢
  generalize (givenFrom 0 l).map Prod.snd = ds at *
  cases isGvar with
  | true =>
    obtain ⟨z1, z2⟩ := zipWith_pairs ds hk'
    by_cases hem : (ds.filterMap secondOf).isEmpty = true
    · refine ⟨bx, [], ex, by rw [if_pos hem], ?_⟩
      have hnil : ds.filterMap secondOf = [] := by simpa using hem
      have h3 := DeltaBytes.pairs _ _ _ _ z2 rx (by rw [hnil]; exact DeltaRuns.done)
      rwa [z1] at h3
    · refine ⟨bx, b, ex, by rw [if_neg hem]; exact ey, ?_⟩
      have h3 := DeltaBytes.pairs _ _ _ _ z2 rx ry
      rwa [z1] at h3
  | false =>
    obtain ⟨z1, z2⟩ := map_singles ds hk'
    refine ⟨bx, [], ex, by rw [z2]; rfl, ?_⟩
    have h3 := DeltaBytes.single _ _ rx
    rw [z1] at h3
    simpa using h3

theorem unzip_zip {α β : Type} : ∀ l : List (α × β), l = (l.map Prod.fst).zip (l.map Prod.snd)
  | [] => rfl
  | (a, b) :: l => by
    simp only [List.map_cons, List.zip_cons_cons]
    rw [← unzip_zip l]

theorem headerFits_private {axes : Nat} {h : Header} (hf : HeaderFits axes h) (s : UInt16) :
    HeaderFits axes { h with size := s, flags := h.flags ||| PRIVATE_POINT_NUMBERS } := by
  obtain ⟨h1, h2, h3, h4, h5⟩ := hf
  have hb : ∀ k, k ≠ 13 → (WordBit (h.flags ||| PRIVATE_POINT_NUMBERS) k ↔ WordBit h.flags k) := by
    intro k hk
    rw [wordBit_or]
    refine ⟨fun hh => hh.resolve_right ?_, Or.inl⟩
    rw [wordBit_test]
    show ¬ Nat.testBit (2 ^ 13) k = true
    rw [Nat.testBit_two_pow]
    simp; omega
  refine ⟨?_, ?_, ?_, h4, ?_⟩
  · simp only; rw [hb 15 (by decide)]; exact h1
  · simp only; rw [hb 14 (by decide)]; exact h2
  · simp only; rw [hb 14 (by decide)]; exact h3
  · simp only
    have e : (h.flags ||| PRIVATE_POINT_NUMBERS) ||| h.sharedTupleIndex = (h.flags ||| h.sharedTupleIndex) ||| PRIVATE_POINT_NUMBERS := by
      rw [UInt16.or_assoc, UInt16.or_comm PRIVATE_POINT_NUMBERS, ← UInt16.or_assoc]
    rw [e, h5]
    apply UInt16.toNat_inj.mp
    simp only [UInt16.toNat_or, UInt16.toNat_and]
    apply Nat.eq_of_testBit_eq
    intro i
    simp only [Nat.testBit_or, Nat.testBit_and]
    by_cases hp : Nat.testBit (PRIVATE_POINT_NUMBERS.toNat) i = true
    · have : Nat.testBit ((0xF000 : UInt16).toNat) i = true := by
        have hi : i = 13 := by
          have : PRIVATE_POINT_NUMBERS.toNat = 2 ^ 13 := rfl
          rw [this, Nat.testBit_two_pow] at hp
          simp at hp; omega
        subst hi; decide
      rw [hp, this]
      simp
    · simp only [Bool.not_eq_true] at hp
      simp [hp]

theorem encVariation_eq {v : Variation} {data hb : Bytes} (h1 : encData v = .ok data)
    (h2 : encHeader (finalHeader v data.length) = .ok hb) : encVariation v = .ok (hb, data) := by
  unfold encVariation
  rw [h1]
  simp only [Res.ok_bind]
  rw [h2]
  rfl

theorem encVariation_ok {axes : Nat} {isGvar : Bool} {pc : Nat} {v : Variation} (hpc : pc ≤ 65535) (hf : VariationFits axes isGvar pc v) :
    ∃ (hb db : Bytes) (v' : Variation), encVariation v = .ok (hb, db) ∧ variationContent v' = variationContent v ∧
      v'.header.size = UInt16.ofNat db.length ∧ DescribesHeader axes v'.header hb ∧ DescribesData isGvar pc none v' db := by
  obtain ⟨h1, h2, h3, h4, h5, h6⟩ := hf
  obtain ⟨bx, b, ex, ey, hdb⟩ := encDeltaBytes h3 h4 h5
  rcases h6 with ⟨hn, pts, hp1, hp2, hp3, hp4⟩ | ⟨hn, hbit⟩
  · have hpts : givenPoints 0 v.deltas = pts := by
      apply toNat_inj_list
      rw [givenPoints_eq _ _ (by omega), hp1]
    obtain ⟨pb, ep, hdp⟩ := C38_writes pts hp2 hp3 hp4
    have hany : v.deltas.any Option.isNone = true := (any_none _).mpr hn
    have ed : encData v = .ok (pb ++ bx ++ b) := by
      unfold encData
      rw [if_pos hany, hpts, ep, ex, ey]
      rfl
    obtain ⟨sz, hsz⟩ : ∃ sz, sz = UInt16.ofNat (pb ++ bx ++ b).length := ⟨_, rfl⟩
    have hfit := headerFits_private h1 sz
    obtain ⟨hb, eh, hdh⟩ := C39_writes axes _ hfit
    obtain ⟨H, hH⟩ : ∃ H : Header, H = ⟨sz, (v.header.flags ||| PRIVATE_POINT_NUMBERS) ||| v.header.sharedTupleIndex,
      v.header.sharedTupleIndex, v.header.peakTuple, v.header.startTuple, v.header.endTuple⟩ := ⟨_, rfl⟩
    refine ⟨hb, pb ++ bx ++ b, ⟨H, v.deltas⟩, encVariation_eq ed ?_, by rw [hH]; rfl, by rw [hH]; exact hsz, by rw [hH]; exact hdh, ?_⟩
    · unfold finalHeader
      rw [if_pos hany, ← hsz, eh]
    · refine ⟨some pts, pb, bx ++ b, (givenFrom 0 v.deltas).map Prod.snd, by simp, Or.inl ⟨?_, hdp⟩, hdb, h2, ?_, ?_⟩
      · simp only [hH]
        rw [wordBit_or, wordBit_or]
        exact Or.inl (Or.inr (by decide))
      · simp only [pointNumbers]
        rw [hp1]
        exact unzip_zip _
      · simp only [pointNumbers]
        rw [hp1, List.length_map, List.length_map]
  · have hany : ¬ v.deltas.any Option.isNone = true := by rw [any_none]; exact hn
    have ed : encData v = .ok (bx ++ b) := by
      unfold encData
      rw [if_neg hany, ex, ey]
      rfl
    obtain ⟨sz, hsz⟩ : ∃ sz, sz = UInt16.ofNat (bx ++ b).length := ⟨_, rfl⟩
    have hfit : HeaderFits axes { v.header with size := sz } := h1
    obtain ⟨hb, eh, hdh⟩ := C39_writes axes _ hfit
    obtain ⟨H, hH⟩ : ∃ H : Header, H = ⟨sz, v.header.flags ||| v.header.sharedTupleIndex,
      v.header.sharedTupleIndex, v.header.peakTuple, v.header.startTuple, v.header.endTuple⟩ := ⟨_, rfl⟩
    refine ⟨hb, bx ++ b, ⟨H, v.deltas⟩, encVariation_eq ed ?_, by rw [hH]; rfl, by rw [hH]; exact hsz, by rw [hH]; exact hdh, ?_⟩
    · unfold finalHeader
      rw [if_neg hany, ← hsz, eh]
    · refine ⟨none, [], bx ++ b, (givenFrom 0 v.deltas).map Prod.snd, by simp, Or.inr ⟨?_, rfl, rfl⟩, hdb, h2, ?_, ?_⟩
      · simp only [hH]
        rw [wordBit_or]
        rintro (hh | hh)
        · exact hbit hh
        · exact wordBit_small h1.2.2.2.1 (by decide) hh
      · simp only [pointNumbers]
        rw [List.range_eq_range', ← h2, ← given_all _ _ hn]
        exact unzip_zip _
      · simp only [pointNumbers]
        rw [List.range_eq_range', ← h2, ← given_all _ _ hn, List.length_map, List.length_map]

theorem optTuple_isSome {axes : Nat} {b : Prop} {t : Option (List ℚ)} {bs : Bytes} (h : OptTuple axes b t bs) : t.isSome = true ↔ b := by
  cases h with
  | absent hb => simp [hb]
  | present ps hb hl => simp [hb]

theorem optTuple_length {axes : Nat} {b : Prop} [Decidable b] {t : Option (List ℚ)} {bs : Bytes} (h : OptTuple axes b t bs) :
    bs.length = if b then 2 * axes else 0 := by
  cases h with
  | absent hb => rw [if_neg hb]; rfl
  | present ps hb hl => rw [if_pos hb, encVec_length (fun a => encI16_length a), hl]

theorem header_length {axes : Nat} {h : Header} {bs : Bytes} (hd : DescribesHeader axes h bs) : bs.length = headerSize axes h := by
  obtain ⟨b1, b2, b3, rfl, _, h1, h2, h3⟩ := hd
  simp only [List.length_append, encU16_length, optTuple_length h1, optTuple_length h2, optTuple_length h3]
  unfold headerSize
  split <;> split <;> omega

/-- **C40** (writing). A store whose variations can be written is written as OpenType defines it: the offset and the sizes are
right, all points are the shared points, and each header and its data say what the variation said. -/
theorem C40_writes (axes : Nat) (isGvar : Bool) (pointCount : Nat) (vs : List Variation) (hpc : pointCount ≤ 65535)
    (hn : vs.length < 4096) (hf : ∀ v ∈ vs, VariationFits axes isGvar pointCount v)
    (hs : (vs.map (fun v => headerSize axes v.header)).sum ≤ 65531) :
    ∃ (bs hb db : Bytes) (word off : UInt16) (vs' : List Variation), encStore vs = .ok bs ∧
      bs = encU16 word ++ encU16 off ++ hb ++ [0] ++ db ∧ off.toNat = 4 + hb.length ∧
      WordBit word 15 ∧ word.toNat % 4096 = vs.length ∧
      vs'.map variationContent = vs.map variationContent ∧
      Concat (fun v b => DescribesHeader axes v.header b) vs' hb ∧
      Concat (fun v b => DescribesData isGvar pointCount none v b ∧ v.header.size = UInt16.ofNat b.length) vs' db := by
  have key : ∀ l : List Variation, (∀ v ∈ l, VariationFits axes isGvar pointCount v) →
      ∃ (parts : List (Bytes × Bytes)) (l' : List Variation), Res.mapL encVariation l = .ok parts ∧
        l'.map variationContent = l.map variationContent ∧
        Concat (fun v b => DescribesHeader axes v.header b) l' (parts.map Prod.fst).flatten ∧
        Concat (fun v b => DescribesData isGvar pointCount none v b ∧ v.header.size = UInt16.ofNat b.length) l' (parts.map Prod.snd).flatten ∧
        (parts.map Prod.fst).flatten.length = (l.map (fun v => headerSize axes v.header)).sum := by
    intro l
    induction l with
    | nil => intro _; exact ⟨[], [], rfl, rfl, .nil, .nil, rfl⟩
    | cons v l ih =>
      intro hl
      obtain ⟨parts, l', e, hc, h1, h2, h3⟩ := ih (fun x hx => hl x (List.mem_cons_of_mem _ hx))
      obtain ⟨hb, db, v', ev, hcv, hsz, hdh, hdd⟩ := encVariation_ok hpc (hl v List.mem_cons_self)
      refine ⟨(hb, db) :: parts, v' :: l', by simp only [Res.mapL, ev, e], by simp only [List.map_cons, hcv, hc], ?_, ?_, ?_⟩
      · simp only [List.map_cons, List.flatten_cons]
        exact .cons _ _ _ _ hdh h1
      · simp only [List.map_cons, List.flatten_cons]
        exact .cons _ _ _ _ ⟨hdd, hsz⟩ h2
      · simp only [List.map_cons, List.flatten_cons, List.length_append, List.sum_cons, h3]
        have : hb.length = headerSize axes v.header := by
          have hf1 := (hl v List.mem_cons_self).1
          obtain ⟨⟨c1, o1⟩, ⟨c2, o2⟩, ⟨c3, o3⟩, _⟩ := hf1
          rw [header_length hdh]
          obtain ⟨_, _, _, _, _, p1, p2, p3⟩ := hdh
          -- presence of the tuples decides the size
          unfold variationContent at hcv
          simp only [Prod.mk.injEq] at hcv
          obtain ⟨_, q1, q2, _, _⟩ := hcv
          have i15 : WordBit v'.header.flags 15 ↔ WordBit v.header.flags 15 := by
            rw [← optTuple_isSome p1, ← optTuple_isSome o1, q1]
          have i14 : WordBit v'.header.flags 14 ↔ WordBit v.header.flags 14 := by
            rw [← optTuple_isSome p2, ← optTuple_isSome o2, q2]
          unfold headerSize
          simp only [i15, i14]
        omega
  obtain ⟨parts, vs', e, hc, h1, h2, h3⟩ := key vs hf
  have hlen : vs'.length = vs.length := by
    have := congrArg List.length hc
    simpa using this
  refine ⟨_, (parts.map Prod.fst).flatten, (parts.map Prod.snd).flatten, UInt16.ofNat vs.length ||| 0x8000,
    UInt16.ofNat (4 + (parts.map Prod.fst).flatten.length), vs', ?_, rfl, ?_, ?_, ?_, hc, h1, h2⟩
  · unfold encStore
    rw [e]
    simp only [Res.ok_bind]
    have hm : (parts.map Prod.fst).flatten.length % 65536 = (parts.map Prod.fst).flatten.length := Nat.mod_eq_of_lt (by omega)
    rw [hm, if_neg (by omega)]
    simp only [List.append_assoc, List.cons_append, List.nil_append]
  · exact ofNat16_toNat (by omega)
  · rw [wordBit_or]
    exact Or.inr (by decide)
  · rw [UInt16.toNat_or, ofNat16_toNat (by omega)]
    show (vs.length ||| 32768) % 4096 = vs.length
    apply Nat.eq_of_testBit_eq
    intro i
    rw [show 4096 = 2 ^ 12 from rfl, Nat.testBit_mod_two_pow, Nat.testBit_or, show 32768 = 2 ^ 15 from rfl, Nat.testBit_two_pow]
    by_cases hi : i < 12
    · simp [hi]; omega
    · have : vs.length.testBit i = false := by
        apply Nat.testBit_lt_two_pow
        exact Nat.lt_of_lt_of_le hn (Nat.pow_le_pow_right (by omega) (by omega) : 2 ^ 12 ≤ 2 ^ i)
      simp [hi, this]

theorem concat_weaken {α : Type} {R S : α → Bytes → Prop} (h : ∀ a b, R a b → S a b) {l : List α} {bs : Bytes} (hc : Concat R l bs) :
    Concat S l bs := by
  have := concat_map (S := S) id h hc
  simpa using this

/-- **C40** (round trip). A store whose variations can be written reads back with the same deltas at the same points and the same
regions. -/
theorem C40_roundtrip (axes : UInt16) (isGvar : Bool) (pointCount : UInt16) (vs : List Variation)
    (hn : vs.length < 4096) (hf : ∀ v ∈ vs, VariationFits axes.toNat isGvar pointCount.toNat v)
    (hs : (vs.map (fun v => headerSize axes.toNat v.header)).sum ≤ 65531) :
    ∃ (bs : Bytes) (vs' : List Variation), encStore vs = .ok bs ∧ RoundTripsAt (readStore axes isGvar pointCount) bs vs' ∧
      vs'.map variationContent = vs.map variationContent := by
  obtain ⟨bs, hb, db, word, off, vs', e, rfl, _, hw, hw2, hc, h1, h2⟩ :=
    C40_writes axes.toNat isGvar pointCount.toNat vs (by have := pointCount.toNat_lt; omega) hn hf hs
  refine ⟨_, vs', e, C40_reads_any axes isGvar pointCount vs' _ ?_, hc⟩
  have hlen : vs'.length = vs.length := by
    have := congrArg List.length hc
    simpa using this
  exact ⟨word, off, hb, [0], db, none, rfl, by rw [hw2, hlen], Or.inl ⟨hw, .all⟩, h1, concat_weaken (fun _ _ h => h.1) h2⟩

/-- **C40** (all deltas omitted). A variation all of whose deltas are omitted is not read back: its empty list of points means
"all points". -/
theorem C40_all_omitted : ∃ bs : Bytes, encStore [⟨⟨0, 0, 0, none, none, none⟩, [none]⟩] = .ok bs ∧
    readStore 0 false 1 (Rd.new bs) = .err := ⟨[128, 1, 0, 8, 0, 1, 32, 0, 0, 0], by decide, by decide⟩

/-- **C40** (private points). A variation marked as having its own points, all of whose deltas are given, is not read back. -/
theorem C40_private_flag_kept : ∃ bs : Bytes, encStore [⟨⟨0, 0x2000, 0, none, none, none⟩, [some (.d1 1), some (.d1 2)]⟩] = .ok bs ∧
    readStore 0 false 2 (Rd.new bs) = .err := ⟨[128, 1, 0, 8, 0, 3, 32, 0, 0, 1, 1, 2], by decide, by decide⟩

example : VariationFits 1 true 4 ⟨⟨0, 0x8000, 0, some [1], none, none⟩, [none, some (.d2 5 (-300)), some (.d2 0 0), none]⟩ := by
  refine ⟨⟨⟨encVec encI16 [16384], ?_⟩, ⟨_, .absent (by decide)⟩, ⟨_, .absent (by decide)⟩, by decide, by decide⟩, rfl, ?_, ?_, ?_,
    Or.inl ⟨by decide, [1, 2], by decide, ?_, by decide, by decide⟩⟩
  · have : (some [1] : Option (List ℚ)) = some (([16384] : List Int16).map fixed14) := by
      have h1 : (16384 : Int16).toInt = 16384 := by decide
      simp only [List.map_cons, List.map_nil, fixed14, h1]
      norm_num
    rw [this]
    exact .present _ (by decide) rfl
  · intro p hp
    simp only [givenFrom, List.mem_cons, List.not_mem_nil, or_false] at hp
    rcases hp with rfl | rfl <;> rfl
  · intro h; have := h.length_le; rw [List.length_replicate] at this; simp [givenFrom] at this
  · intro h; have := h.length_le; rw [List.length_replicate] at this; simp [givenFrom, secondOf] at this
  · unfold SmallSteps
    repeat (first | exact List.IsChain.singleton _ | refine List.isChain_cons_cons.mpr ⟨by decide, ?_⟩)

end FT.Props
