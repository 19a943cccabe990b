import Verif.Model.Glyf
import Verif.Lemmas.Reads
import Verif.Lemmas.ResBind

/-!
C28: simple glyph descriptions.
-/

namespace FT.Props
open FT Reader FT.Glyf

/-! ### Specification: the OpenType format of a simple glyph -/

/-- Bit `k` of a flag byte. -/
def FlagBit (f : UInt8) (k : Nat) : Prop := f.toNat / 2 ^ k % 2 = 1

/-- A run-length encoded list of flags: bit 3 says that the next byte counts repetitions. -/
inductive FlagBytes : Bytes → List UInt8 → Prop
  | nil : FlagBytes [] []
  | one (f : UInt8) (bs : Bytes) (fs : List UInt8) : ¬ FlagBit f 3 → FlagBytes bs fs → FlagBytes (f :: bs) (f :: fs)
  | run (f n : UInt8) (bs : Bytes) (fs : List UInt8) : FlagBit f 3 → FlagBytes bs fs →
      FlagBytes (f :: n :: bs) (List.replicate (n.toNat + 1) f ++ fs)

/-- The bytes of one coordinate step: bits `short` and `same` of the flag decide between one byte of either sign, no byte
for a zero step, and a 16-bit number. -/
inductive StepBytes (short same : Nat) (f : UInt8) : Int → Bytes → Prop
  | up (b : UInt8) : FlagBit f short → FlagBit f same → StepBytes short same f b.toNat [b]
  | down (b : UInt8) : FlagBit f short → ¬ FlagBit f same → StepBytes short same f (-b.toNat) [b]
  | same : ¬ FlagBit f short → FlagBit f same → StepBytes short same f 0 []
  | word (d : Int16) : ¬ FlagBit f short → ¬ FlagBit f same → StepBytes short same f d.toInt (encI16 d)

/-- The bytes of a list of coordinates, each relative to the one before. -/
inductive CoordBytes (short same : Nat) : Int → List UInt8 → List Int → Bytes → Prop
  | nil (last : Int) : CoordBytes short same last [] [] []
  | cons (last x : Int) (f : UInt8) (fs : List UInt8) (xs : List Int) (b bs : Bytes) :
      StepBytes short same f (x - last) b → CoordBytes short same x fs xs bs →
      CoordBytes short same last (f :: fs) (x :: xs) (b ++ bs)

/-- The bytes describe the simple glyph: number of contours, bounding box, last point number of each contour,
instructions, flags, x and y coordinates. -/
def DescribesSimple (g : Glyph) (bs : Bytes) : Prop :=
  ∃ (ends : List UInt16) (flags : List UInt8) (flagBytes xBytes yBytes : Bytes),
    bs = encI16 (Int16.ofInt g.contours.length) ++ encI16 g.xMin ++ encI16 g.yMin ++ encI16 g.xMax ++ encI16 g.yMax ++
      encVec encU16 ends ++ encU16 (UInt16.ofNat g.instructions.length) ++ g.instructions ++ flagBytes ++ xBytes ++ yBytes ∧
    (1 ≤ g.contours.length ∧ g.contours.length ≤ 32767) ∧
    ends.length = g.contours.length ∧
    (∀ (i : Nat) (e : UInt16), ends[i]? = some e → e.toNat + 1 = ((g.contours.take (i + 1)).map List.length).sum) ∧
    g.instructions.length ≤ 32767 ∧
    FlagBytes flagBytes flags ∧
    CoordBytes 1 4 0 flags (g.contours.flatten.map (fun p => p.x.toInt)) xBytes ∧
    CoordBytes 2 5 0 flags (g.contours.flatten.map (fun p => p.y.toInt)) yBytes ∧
    (∀ (i : Nat) (p : Point) (f : UInt8), g.contours.flatten[i]? = some p → flags[i]? = some f →
      (p.onCurve = true ↔ FlagBit f 0)) ∧
    (g.overlap = true ↔ ∃ f ∈ flags, FlagBit f 6) ∧
    g.components = []

/-- Steps between neighbouring points fit 16 bits, beginning from the origin. -/
def StepsFit : Int → Int → List Point → Prop
  | _, _, [] => True
  | x, y, p :: ps => (-32768 ≤ p.x.toInt - x ∧ p.x.toInt - x ≤ 32767) ∧ (-32768 ≤ p.y.toInt - y ∧ p.y.toInt - y ≤ 32767) ∧
    StepsFit p.x.toInt p.y.toInt ps

instance StepsFit.dec : (x y : Int) → (ps : List Point) → Decidable (StepsFit x y ps)
  | _, _, [] => isTrue trivial
  | x, y, p :: ps => by
    unfold StepsFit
    have := StepsFit.dec p.x.toInt p.y.toInt ps
    infer_instance

instance (f : UInt8) (k : Nat) : Decidable (FlagBit f k) := by unfold FlagBit; infer_instance

/-! ### Bits -/

set_option maxRecDepth 100000 in
theorem gflag_bits : ∀ n : Nat, n < 256 →
    (has (UInt8.ofNat n) ON_CURVE_POINT = true ↔ n / 2 ^ 0 % 2 = 1) ∧
    (has (UInt8.ofNat n) X_SHORT_VECTOR = true ↔ n / 2 ^ 1 % 2 = 1) ∧
    (has (UInt8.ofNat n) Y_SHORT_VECTOR = true ↔ n / 2 ^ 2 % 2 = 1) ∧
    (has (UInt8.ofNat n) REPEAT_FLAG = true ↔ n / 2 ^ 3 % 2 = 1) ∧
    (has (UInt8.ofNat n) X_SAME = true ↔ n / 2 ^ 4 % 2 = 1) ∧
    (has (UInt8.ofNat n) Y_SAME = true ↔ n / 2 ^ 5 % 2 = 1) ∧
    (has (UInt8.ofNat n) OVERLAP_SIMPLE = true ↔ n / 2 ^ 6 % 2 = 1) := by decide +kernel

theorem gflag_bit (f : UInt8) :
    (has f ON_CURVE_POINT = true ↔ FlagBit f 0) ∧ (has f X_SHORT_VECTOR = true ↔ FlagBit f 1) ∧
    (has f Y_SHORT_VECTOR = true ↔ FlagBit f 2) ∧ (has f REPEAT_FLAG = true ↔ FlagBit f 3) ∧
    (has f X_SAME = true ↔ FlagBit f 4) ∧ (has f Y_SAME = true ↔ FlagBit f 5) ∧
    (has f OVERLAP_SIMPLE = true ↔ FlagBit f 6) := by
  have := gflag_bits f.toNat f.toNat_lt
  rw [UInt8.ofNat_toNat] at this
  exact this

theorem int16_ofInt {z : Int} (h1 : -32768 ≤ z) (h2 : z ≤ 32767) : (Int16.ofInt z).toInt = z :=
  Int16.toInt_ofInt_of_le (by omega) (by omega)

theorem addI16_to (a b x : Int16) (h : x.toInt = a.toInt + b.toInt) : addI16 a b = .ok x := by
  have h1 := x.le_toInt
  have h2 := x.toInt_lt
  unfold addI16
  simp only
  rw [if_pos (by omega), ← h, Int16.ofInt_toInt]

theorem subI16_to (a b x : Int16) (h : x.toInt = a.toInt - b.toInt) : subI16 a b = .ok x := by
  have h1 := x.le_toInt
  have h2 := x.toInt_lt
  unfold subI16
  simp only
  rw [if_pos (by omega), ← h, Int16.ofInt_toInt]

/-! ### Reading -/

theorem reads_orCrash {α : Type} {p : Reader α} {bs : Bytes} {a : α} (h : Reads p bs a) : Reads (orCrash p) bs a := by
  intro pre rest stk
  unfold orCrash
  rw [h pre rest stk]

theorem FlagBytes.length_pos {bs : Bytes} {fs : List UInt8} (h : FlagBytes bs fs) : fs = [] → bs = [] := by
  intro hf
  cases h with
  | nil => rfl
  | one => cases hf
  | run f n bs fs => simp [List.replicate_succ] at hf

theorem reads_flags {bs : Bytes} {fs : List UInt8} (h : FlagBytes bs fs) : ∀ k, fs.length ≤ k →
    Reads (readFlags k fs.length) bs fs := by
  induction h with
  | nil => intro k _; cases k <;> exact Reads.pure _
  | one f bs fs hf _ ih =>
    intro k hk
    cases k with
    | zero => simp at hk
    | succ k =>
      simp only [List.length_cons] at hk ⊢
      unfold readFlags
      refine Reads.bind' (bs := encU8 f) (bs' := bs) (reads_u8 f) ?_ rfl
      rw [if_neg (by rw [(gflag_bit f).2.2.2.1]; exact hf)]
      exact (ih k (by omega)).map (fun fs => f :: fs)
  | run f n bs fs hf _ ih =>
    intro k hk
    have hlen : (List.replicate (n.toNat + 1) f ++ fs).length = (n.toNat + fs.length) + 1 := by simp; omega
    rw [hlen] at hk ⊢
    cases k with
    | zero => omega
    | succ k =>
      unfold readFlags
      refine Reads.bind' (bs := encU8 f) (bs' := n :: bs) (reads_u8 f) ?_ rfl
      rw [if_pos ((gflag_bit f).2.2.2.1.mpr hf)]
      refine Reads.bind' (bs := encU8 n) (bs' := bs) (reads_u8 n) ?_ rfl
      have e : n.toNat + fs.length - n.toNat = fs.length := by omega
      rw [e]
      exact (ih k (by omega)).map (fun fs => f :: (List.replicate n.toNat f ++ fs))

theorem reads_coord {short same : Nat} {ms mm : UInt8} (hs : ∀ f, has f ms = true ↔ FlagBit f short)
    (hm : ∀ f, has f mm = true ↔ FlagBit f same) {f : UInt8} {last x : Int16} {b : Bytes}
    (h : StepBytes short same f (x.toInt - last.toInt) b) : Reads (readCoord ms mm f last) b x := by
  unfold readCoord
  generalize hd : x.toInt - last.toInt = d at h
  cases h with
  | up c h1 h2 =>
    rw [if_pos ((hs f).mpr h1)]
    refine Reads.bind' (bs := encU8 c) (bs' := []) (reads_u8 c) ?_ (by rfl)
    rw [if_pos ((hm f).mpr h2)]
    refine Reads.lift (addI16_to _ _ _ ?_)
    have := c.toNat_lt
    rw [int16_ofInt (by omega) (by omega)]
    omega
  | down c h1 h2 =>
    rw [if_pos ((hs f).mpr h1)]
    refine Reads.bind' (bs := encU8 c) (bs' := []) (reads_u8 c) ?_ (by rfl)
    rw [if_neg (fun e => h2 ((hm f).mp e))]
    refine Reads.lift (subI16_to _ _ _ ?_)
    have := c.toNat_lt
    rw [int16_ofInt (by omega) (by omega)]
    omega
  | same h1 h2 =>
    rw [if_neg (fun e => h1 ((hs f).mp e)), if_pos ((hm f).mpr h2)]
    have : x = last := by
      apply Int16.toInt_inj.mp
      omega
    subst this
    exact Reads.pure _
  | word d' h1 h2 =>
    rw [if_neg (fun e => h1 ((hs f).mp e)), if_neg (fun e => h2 ((hm f).mp e))]
    refine Reads.bind' (bs' := []) (reads_i16 d') ?_ (by simp)
    exact Reads.lift (addI16_to _ _ _ (by omega))

theorem reads_coords {short same : Nat} {ms mm : UInt8} (hs : ∀ f, has f ms = true ↔ FlagBit f short)
    (hm : ∀ f, has f mm = true ↔ FlagBit f same) : ∀ (xs : List Int16) (last : Int16) (fs : List UInt8) (bs : Bytes),
    CoordBytes short same last.toInt fs (xs.map Int16.toInt) bs → Reads (readCoords ms mm last fs) bs xs
  | [], last, fs, bs, h => by
    cases h
    exact Reads.pure _
  | x :: xs, last, fs, bs, h => by
    rw [List.map_cons] at h
    cases h with
    | cons _ _ f fs _ b bs h1 h2 =>
      unfold readCoords
      refine Reads.bind (reads_coord hs hm h1) ?_
      exact (reads_coords hs hm xs x fs bs h2).map (fun xs => x :: xs)

theorem coordBytes_length {short same : Nat} {last : Int} {fs : List UInt8} {xs : List Int} {bs : Bytes}
    (h : CoordBytes short same last fs xs bs) : fs.length = xs.length := by
  induction h with
  | nil => rfl
  | cons => simp [*]

theorem pointsOf_eq : ∀ (ps : List Point) (fs : List UInt8), fs.length = ps.length →
    (∀ (i : Nat) (p : Point) (f : UInt8), ps[i]? = some p → fs[i]? = some f → (p.onCurve = true ↔ FlagBit f 0)) →
    pointsOf (ps.map Point.x) (ps.map Point.y) fs = ps
  | [], fs, _, _ => by cases fs <;> rfl
  | p :: ps, [], h, _ => by simp at h
  | p :: ps, f :: fs, h, hb => by
    simp only [List.map_cons, pointsOf]
    rw [pointsOf_eq ps fs (by simpa using h) (fun i p' f' h1 h2 => hb (i + 1) p' f' (by simpa using h1) (by simpa using h2))]
    have h0 := hb 0 p f rfl rfl
    rw [← (gflag_bit f).1] at h0
    congr 1
    cases p with
    | mk x y o =>
      simp only at h0 ⊢
      congr 1
      cases o <;> cases hh : has f ON_CURVE_POINT <;> simp_all

theorem sliceContours_ok : ∀ (cs : List (List Point)) (pre : List Point) (es : List Nat), es.length = cs.length →
    (∀ (i : Nat) (e : Nat), es[i]? = some e → e = pre.length + ((cs.take (i + 1)).map List.length).sum) →
    sliceContours (pre ++ cs.flatten) pre.length es = .ok cs
  | [], pre, es, h, _ => by
    have : es = [] := List.length_eq_zero_iff.mp (by simpa using h)
    subst this
    rfl
  | c :: cs, pre, [], h, _ => by simp at h
  | c :: cs, pre, e :: es, h, he => by
    have h0 := he 0 e rfl
    simp only [Nat.zero_add, List.take_succ_cons, List.take_zero, List.map_cons, List.map_nil, List.sum_cons, List.sum_nil,
      Nat.add_zero] at h0
    simp only [sliceContours]
    rw [if_neg (by simp [h0])]
    have ih := sliceContours_ok cs (pre ++ c) es (by simpa using h) (by
      intro i e' h'
      have := he (i + 1) e' (by simpa using h')
      rw [this, List.take_succ_cons, List.map_cons, List.sum_cons, List.length_append]
      omega)
    rw [List.length_append, ← h0, List.append_assoc, ← List.flatten_cons] at ih
    rw [ih]
    simp only
    congr 2
    rw [h0, List.drop_left, Nat.add_sub_cancel_left, List.flatten_cons, List.take_left]

theorem last_end : ∀ (cs : List (List Point)) (es : List UInt16), cs ≠ [] → es.length = cs.length →
    (∀ (i : Nat) (e : UInt16), es[i]? = some e → e.toNat + 1 = ((cs.take (i + 1)).map List.length).sum) →
    (es.map (fun x => 1 + x.toNat)).getLast? = some cs.flatten.length := by
  intro cs es hne hl he
  have hpos : 0 < cs.length := by cases cs with | nil => exact absurd rfl hne | cons => simp
  rw [List.getLast?_eq_getElem?, List.length_map, List.getElem?_map, hl]
  have hlt : cs.length - 1 < es.length := by omega
  rw [List.getElem?_eq_getElem hlt, Option.map_some]
  have := he (cs.length - 1) es[cs.length - 1] (List.getElem?_eq_getElem hlt)
  rw [show cs.length - 1 + 1 = cs.length by omega, List.take_length, ← List.length_flatten] at this
  rw [← this]
  congr 1
  omega

theorem reads_instructions (l : List UInt8) (h : l.length ≤ 32767) :
    Reads readInstructions (encU16 (UInt16.ofNat l.length) ++ l) l := by
  unfold readInstructions
  have e : encU16 (UInt16.ofNat l.length) = encI16 (Int16.ofNat l.length) := by
    unfold encI16
    rfl
  rw [e]
  refine Reads.bind (reads_i16 _) ?_
  have hz : (Int16.ofNat l.length).toInt = l.length := Int16.toInt_ofNat_of_lt (by omega)
  rw [hz]
  by_cases hl : l = []
  · subst hl
    rw [if_neg (by simp)]
    exact Reads.pure _
  · have : 0 < l.length := List.length_pos_iff.mpr hl
    rw [if_pos (by omega), Int.toNat_natCast]
    have := reads_deCounted (p := readU8) (enc := encU8) l (fun a _ => reads_u8 a)
    rwa [encVec_u8] at this

/-- **C28** (reading). Any valid OpenType description of a simple glyph — however its flags are run-length encoded and
whichever form its coordinate steps take — is read as the glyph it describes. -/
theorem C28_reads_any (g : Glyph) (bs : Bytes) (h : DescribesSimple g bs) : Reads readGlyph bs g := by
  obtain ⟨ends, flags, fb, xb, yb, rfl, ⟨hn1, hn2⟩, hel, he, hi, hf, hx, hy, hon, hov, hc⟩ := h
  have hn : (Int16.ofInt g.contours.length).toInt = g.contours.length := int16_ofInt (by omega) (by omega)
  have hflen : flags.length = g.contours.flatten.length := by
    have := coordBytes_length hx
    rwa [List.length_map] at this
  simp only [List.append_assoc]
  unfold readGlyph
  refine Reads.bind (reads_i16 _) ?_
  refine Reads.bind (reads_i16 _) ?_
  refine Reads.bind (reads_i16 _) ?_
  refine Reads.bind (reads_i16 _) ?_
  refine Reads.bind (reads_i16 _) ?_
  rw [hn, if_neg (by omega), Int.toNat_natCast]
  refine Reads.bind' (bs' := []) (a := (g.contours, g.instructions, g.overlap)) ?_ ?_ (by rw [List.append_nil])
  · unfold readSimple
    refine Reads.bind (reads_deCounted' (enc := encU16) hel.symm (fun x _ => reads_orCrash (reads_u16 x))) ?_
    rw [← List.append_assoc]
    refine Reads.bind (reads_instructions _ hi) ?_
    have hlast := last_end g.contours ends (by rintro e; rw [e] at hn1; simp at hn1) hel he
    simp only [hlast]
    have hfl := reads_flags hf flags.length (Nat.le_refl _)
    rw [hflen] at hfl
    refine Reads.bind hfl ?_
    have e1 : g.contours.flatten.map (fun p => p.x.toInt) = (g.contours.flatten.map Point.x).map Int16.toInt := by
      rw [List.map_map]; rfl
    have e2 : g.contours.flatten.map (fun p => p.y.toInt) = (g.contours.flatten.map Point.y).map Int16.toInt := by
      rw [List.map_map]; rfl
    rw [e1] at hx
    rw [e2] at hy
    refine Reads.bind (reads_coords (fun f => (gflag_bit f).2.1) (fun f => (gflag_bit f).2.2.2.2.1) _ 0 flags xb hx) ?_
    refine Reads.bind' (bs' := [])
      (reads_coords (fun f => (gflag_bit f).2.2.1) (fun f => (gflag_bit f).2.2.2.2.2.1) _ 0 flags yb hy) ?_ (by rw [List.append_nil])
    rw [pointsOf_eq _ flags hflen hon]
    have hsl := sliceContours_ok g.contours [] (ends.map (fun x => 1 + x.toNat)) (by rw [List.length_map, hel]) (by
      intro i e hie
      rw [List.getElem?_map, Option.map_eq_some_iff] at hie
      obtain ⟨u, hu, rfl⟩ := hie
      rw [← he i u hu]
      simp only [List.length_nil]
      omega)
    simp only [List.nil_append, List.length_nil] at hsl
    refine Reads.bind' (bs := []) (bs' := []) (Reads.lift hsl) ?_ rfl
    have hany : flags.any (fun f => has f OVERLAP_SIMPLE) = g.overlap := by
      rw [Bool.eq_iff_iff, List.any_eq_true, hov]
      constructor
      · rintro ⟨f, h1, h2⟩; exact ⟨f, h1, (gflag_bit f).2.2.2.2.2.2.mp h2⟩
      · rintro ⟨f, h1, h2⟩; exact ⟨f, h1, (gflag_bit f).2.2.2.2.2.2.mpr h2⟩
    rw [hany]
    exact Reads.pure _
  · have : (⟨g.xMin, g.xMax, g.yMin, g.yMax, g.contours, g.instructions, [], g.overlap⟩ : Glyph) = g := by
      cases g; simp only at hc; subst hc; rfl
    simp only [this]
    exact Reads.pure _

/-! ### Writing -/

theorem compileCoord_step (short same : Nat) (ms mm : UInt8) (f : UInt8) (d : Int16)
    (h : (FlagBit f short ↔ (compileCoord ms mm d).1 &&& ms ≠ 0) ∧ (FlagBit f same ↔ (compileCoord ms mm d).1 &&& mm ≠ 0))
    (h1 : (ms ||| mm) &&& ms ≠ 0) (h2 : (ms ||| mm) &&& mm ≠ 0) (h3 : ms &&& mm = 0) (h4 : mm &&& ms = 0) (h5 : ms ≠ 0)
    (h6 : mm ≠ 0) : StepBytes short same f d.toInt (compileCoord ms mm d).2 := by
  revert h
  unfold compileCoord
  have hlo := d.le_toInt
  have hhi := d.toInt_lt
  by_cases h0 : d.toInt = 0
  · rw [if_pos h0]
    simp only [h4, UInt8.and_self, ne_eq, not_true_eq_false, iff_false, h6, not_false_eq_true, iff_true]
    rintro ⟨ha, hb⟩
    rw [h0]
    exact .same ha hb
  rw [if_neg h0]
  by_cases hr : -255 ≤ d.toInt ∧ d.toInt ≤ 255
  · rw [if_pos hr]
    by_cases hp : 0 < d.toInt
    · rw [if_pos hp]
      rintro ⟨ha, hb⟩
      have := StepBytes.up (short := short) (same := same) (f := f) (UInt8.ofNat d.toInt.toNat) (ha.mpr h1) (hb.mpr h2)
      have e : (((UInt8.ofNat d.toInt.toNat).toNat : Nat) : Int) = d.toInt := by
        rw [UInt8.toNat_ofNat_of_lt' (by show d.toInt.toNat < 256; omega)]; omega
      rwa [e] at this
    · rw [if_neg hp]
      simp only [h3, UInt8.and_self, ne_eq, not_true_eq_false, iff_false, h5, not_false_eq_true, iff_true]
      rintro ⟨ha, hb⟩
      have := StepBytes.down (short := short) (same := same) (f := f) (UInt8.ofNat (-d.toInt).toNat) ha hb
      have e : (((UInt8.ofNat (-d.toInt).toNat).toNat : Nat) : Int) = -d.toInt := by
        rw [UInt8.toNat_ofNat_of_lt' (by show (-d.toInt).toNat < 256; omega)]; omega
      rw [e, Int.neg_neg] at this
      exact this
  · rw [if_neg hr]
    simp only [UInt8.zero_and, ne_eq, not_true_eq_false, iff_false]
    rintro ⟨ha, hb⟩
    exact .word d ha hb

/-- The flag bits `compileCoord` chooses. -/
theorem compileCoord_flag (ms mm : UInt8) (d : Int16) :
    (compileCoord ms mm d).1 = mm ∨ (compileCoord ms mm d).1 = ms ||| mm ∨ (compileCoord ms mm d).1 = ms ∨
      (compileCoord ms mm d).1 = 0 := by
  unfold compileCoord
  split
  · exact Or.inl rfl
  · split
    · split
      · exact Or.inr (Or.inl rfl)
      · exact Or.inr (Or.inr (Or.inl rfl))
    · exact Or.inr (Or.inr (Or.inr rfl))

/-- The flag `_compile_deltas_greedy` writes. -/
theorem written_flag (on : Bool) (fx fy : UInt8)
    (hx : fx = X_SAME ∨ fx = X_SHORT_VECTOR ||| X_SAME ∨ fx = X_SHORT_VECTOR ∨ fx = 0)
    (hy : fy = Y_SAME ∨ fy = Y_SHORT_VECTOR ||| Y_SAME ∨ fy = Y_SHORT_VECTOR ∨ fy = 0) (f : UInt8)
    (hf : f = ((if on then ON_CURVE_POINT else 0) ||| fx ||| fy)) :
    (on = true ↔ FlagBit f 0) ∧ (FlagBit f 1 ↔ fx &&& X_SHORT_VECTOR ≠ 0) ∧ (FlagBit f 2 ↔ fy &&& Y_SHORT_VECTOR ≠ 0) ∧
    ¬ FlagBit f 3 ∧ (FlagBit f 4 ↔ fx &&& X_SAME ≠ 0) ∧ (FlagBit f 5 ↔ fy &&& Y_SAME ≠ 0) ∧ ¬ FlagBit f 6 := by
  subst hf
  unfold FlagBit
  rcases hx with rfl | rfl | rfl | rfl <;> rcases hy with rfl | rfl | rfl | rfl <;> cases on <;> decide

theorem compileDeltas_ok : ∀ (ps : List Point) (lx ly : Int16), StepsFit lx.toInt ly.toInt ps →
    ∃ fs xb yb, compileDeltas lx ly ps = .ok (fs, xb, yb) ∧ FlagBytes fs fs ∧
      CoordBytes 1 4 lx.toInt fs (ps.map (fun p => p.x.toInt)) xb ∧
      CoordBytes 2 5 ly.toInt fs (ps.map (fun p => p.y.toInt)) yb ∧
      (∀ (i : Nat) (p : Point) (f : UInt8), ps[i]? = some p → fs[i]? = some f → (p.onCurve = true ↔ FlagBit f 0)) ∧
      ¬ ∃ f ∈ fs, FlagBit f 6
  | [], lx, ly, _ => ⟨[], [], [], rfl, .nil, .nil _, .nil _, by simp, by simp⟩
  | p :: ps, lx, ly, h => by
    obtain ⟨hx, hy, hs⟩ := h
    obtain ⟨fs, xb, yb, e, hf, hxs, hys, hon, hov⟩ := compileDeltas_ok ps p.x p.y hs
    have ex : subI16 p.x lx = .ok (Int16.ofInt (p.x.toInt - lx.toInt)) := subI16_to _ _ _ (int16_ofInt hx.1 hx.2)
    have ey : subI16 p.y ly = .ok (Int16.ofInt (p.y.toInt - ly.toInt)) := subI16_to _ _ _ (int16_ofInt hy.1 hy.2)
    have w := written_flag p.onCurve _ _ (compileCoord_flag X_SHORT_VECTOR X_SAME (Int16.ofInt (p.x.toInt - lx.toInt)))
      (compileCoord_flag Y_SHORT_VECTOR Y_SAME (Int16.ofInt (p.y.toInt - ly.toInt))) _ rfl
    have sx := compileCoord_step 1 4 X_SHORT_VECTOR X_SAME _ (Int16.ofInt (p.x.toInt - lx.toInt)) ⟨w.2.1, w.2.2.2.2.1⟩
      (by decide) (by decide) (by decide) (by decide) (by decide) (by decide)
    have sy := compileCoord_step 2 5 Y_SHORT_VECTOR Y_SAME _ (Int16.ofInt (p.y.toInt - ly.toInt)) ⟨w.2.2.1, w.2.2.2.2.2.1⟩
      (by decide) (by decide) (by decide) (by decide) (by decide) (by decide)
    rw [int16_ofInt hx.1 hx.2] at sx
    rw [int16_ofInt hy.1 hy.2] at sy
    refine ⟨_, _, _, by unfold compileDeltas; simp only [ex, ey, e, Res.ok_bind, Res.pure_eq]; rfl, ?_, ?_, ?_, ?_, ?_⟩
    · exact .one _ _ _ w.2.2.2.1 hf
    · exact .cons _ _ _ _ _ _ _ sx hxs
    · exact .cons _ _ _ _ _ _ _ sy hys
    · intro i q f h1 h2
      cases i with
      | zero =>
        simp only [List.getElem?_cons_zero, Option.some.injEq] at h1 h2
        subst h1 h2
        exact w.1
      | succ i =>
        simp only [List.getElem?_cons_succ] at h1 h2
        exact hon i q f h1 h2
    · rintro ⟨f, hm, hb⟩
      rcases List.mem_cons.mp hm with rfl | hm
      · exact w.2.2.2.2.2.2 hb
      · exact hov ⟨f, hm, hb⟩

theorem endPoints_ok : ∀ (cs : List (List Point)) (count : Int16), -1 ≤ count.toInt →
    (∀ c ∈ cs, c.length ≤ 32767) → count.toInt + (cs.map List.length).sum ≤ 32767 →
    (count.toInt = -1 → ∀ c, cs.head? = some c → c ≠ []) →
    ∃ es, endPoints count cs = .ok es ∧ es.length = cs.length ∧
      ∀ (i : Nat) (e : UInt16), es[i]? = some e → (e.toNat : Int) = count.toInt + ((cs.take (i + 1)).map List.length).sum
  | [], count, _, _, _, _ => ⟨[], rfl, rfl, by simp⟩
  | c :: cs, count, h1, hl, hsum, hne => by
    have hc := hl c (by simp)
    rw [List.map_cons, List.sum_cons] at hsum
    have hi : (Int16.ofInt c.length).toInt = c.length := int16_ofInt (by omega) (by omega)
    have hpos : count.toInt = -1 → 0 < c.length := fun e => List.length_pos_iff.mpr (hne e c rfl)
    have hco : (Int16.ofInt (count.toInt + c.length)).toInt = count.toInt + c.length := int16_ofInt (by omega) (by omega)
    have ea : addI16 count (Int16.ofInt c.length) = .ok (Int16.ofInt (count.toInt + c.length)) :=
      addI16_to _ _ _ (by rw [hco, hi])
    have hnn : 0 ≤ count.toInt + c.length := by
      by_cases e : count.toInt = -1
      · have := hpos e; omega
      · omega
    obtain ⟨es, e, hlen, he⟩ := endPoints_ok cs (Int16.ofInt (count.toInt + c.length)) (by rw [hco]; omega)
      (fun c' h' => hl c' (by simp [h'])) (by rw [hco]; omega) (by rw [hco]; omega)
    refine ⟨_, by unfold endPoints; simp only [ea, e, Res.ok_bind, Res.pure_eq]; rfl, by simp [hlen], ?_⟩
    intro i u hu
    cases i with
    | zero =>
      simp only [List.getElem?_cons_zero, Option.some.injEq] at hu
      subst hu
      simp only [Nat.zero_add, List.take_succ_cons, List.take_zero, List.map_cons, List.map_nil, List.sum_cons, List.sum_nil,
        Nat.add_zero]
      have hu2 : ((Int16.ofInt (count.toInt + c.length)).toUInt16.toNat : Int) = count.toInt + c.length := by
        obtain ⟨n, hn⟩ := Int.eq_ofNat_of_zero_le hnn
        rw [hn]
        show ((BitVec.ofInt 16 (n : Int)).toNat : Int) = n
        rw [BitVec.ofInt_natCast, BitVec.toNat_ofNat, Nat.mod_eq_of_lt (by omega)]
      exact hu2
    | succ i =>
      simp only [List.getElem?_cons_succ] at hu
      rw [he i u hu, hco, List.take_succ_cons, List.map_cons, List.sum_cons]
      omega

/-- **C28** (writing). A glyph with outlines and no components is written as a valid OpenType description of itself, except
that the overlap mark is dropped: as long as its first contour is not empty, there are at most 32767 contours, 32767
points in a contour, 32768 points in all and 32767 bytes of instructions, and neighbouring points (the first one being
compared with the origin) differ by an amount which fits a signed 16-bit number. -/
theorem C28_writes (g : Glyph) (hc : g.components = []) (hne : g.contours ≠ []) (hf : ∀ c, g.contours.head? = some c → c ≠ [])
    (hn : g.contours.length ≤ 32767) (hl : ∀ c ∈ g.contours, c.length ≤ 32767) (hp : g.contours.flatten.length ≤ 32768)
    (hi : g.instructions.length ≤ 32767) (hs : StepsFit 0 0 g.contours.flatten) :
    ∃ bs, encGlyph g = .ok bs ∧ DescribesSimple { g with overlap := false } bs := by
  obtain ⟨fs, xb, yb, e, hfl, hx, hy, hon, hov⟩ := compileDeltas_ok g.contours.flatten 0 0 hs
  have hm1 : (-1 : Int16).toInt = -1 := by decide
  obtain ⟨es, ee, hel, he⟩ := endPoints_ok g.contours (-1) (by rw [hm1]) hl
    (by rw [hm1, ← List.length_flatten]; omega) (fun _ => hf)
  have hpos : 1 ≤ g.contours.length := List.length_pos_iff.mpr hne
  refine ⟨_, by
    unfold encGlyph
    rw [if_neg (by simp [Glyph.isEmpty, hne, hc]), if_neg (by simp [Glyph.hasComponents, hc])]
    unfold encSimple
    simp only [ee, e, Res.ok_bind, Res.pure_eq]
    rfl, ?_⟩
  refine ⟨es, fs, fs, xb, yb, ?_, ⟨hpos, hn⟩, hel, ?_, hi, hfl, hx, hy, hon, ?_, hc⟩
  · have : (if g.instructions.isEmpty = true then encU16 0
        else encU16 (UInt16.ofNat g.instructions.length) ++ g.instructions) =
        encU16 (UInt16.ofNat g.instructions.length) ++ g.instructions := by
      cases h : g.instructions with
      | nil => rfl
      | cons => rfl
    rw [this]
    simp only [encCore, List.append_assoc]
  · intro i u hu
    have := he i u hu
    rw [hm1] at this
    show u.toNat + 1 = ((g.contours.take (i + 1)).map List.length).sum
    omega
  · simp only [Bool.false_eq_true, false_iff]
    exact hov

/-- **C28** (round trip). Reading back what was written gives the same contours with their points and on-curve marks,
bounding box and instructions; only the overlap mark is lost. -/
theorem C28_roundtrip (g : Glyph) (hc : g.components = []) (hne : g.contours ≠ [])
    (hf : ∀ c, g.contours.head? = some c → c ≠ [])
    (hn : g.contours.length ≤ 32767) (hl : ∀ c ∈ g.contours, c.length ≤ 32767) (hp : g.contours.flatten.length ≤ 32768)
    (hi : g.instructions.length ≤ 32767) (hs : StepsFit 0 0 g.contours.flatten) :
    ∃ bs, encGlyph g = .ok bs ∧ Reads readGlyph bs { g with overlap := false } := by
  obtain ⟨bs, e, h⟩ := C28_writes g hc hne hf hn hl hp hi hs
  exact ⟨bs, e, C28_reads_any _ _ h⟩

/-- A square with a quadratic corner, 300 units wide. -/
def sampleGlyph : Glyph :=
  ⟨0, 300, -10, 300, [[⟨0, 0, true⟩, ⟨300, 0, true⟩, ⟨300, 300, false⟩, ⟨0, 300, true⟩], [], [⟨5, -10, true⟩]], [1, 2, 3], [],
    false⟩

example : ∃ bs, encGlyph sampleGlyph = .ok bs ∧ Reads readGlyph bs sampleGlyph :=
  C28_roundtrip sampleGlyph rfl (by decide) (by intro c hc; cases hc; decide) (by decide) (by decide) (by decide) (by decide)
    (by decide)

example : encGlyph sampleGlyph = .ok
    [0, 3, 0, 0, 255, 246, 1, 44, 1, 44, 0, 3, 0, 3, 0, 4, 0, 3, 1, 2, 3, 0x31, 0x21, 0x10, 0x21, 0x13,
      1, 44, 254, 212, 5, 1, 44, 254, 202] := by
  decide +kernel

/-- A description using a repeated flag and the overlap mark is read too. -/
example : DescribesSimple ⟨0, 2, 0, 0, [[⟨1, 0, true⟩, ⟨2, 0, true⟩]], [], [], true⟩
    [0, 1, 0, 0, 0, 0, 0, 2, 0, 0, 0, 1, 0, 0, 0x7B, 1, 1, 1] := by
  refine ⟨[1], [0x7B, 0x7B], [0x7B, 1], [1, 1], [], by decide, by decide, by decide, ?_, by decide, ?_, ?_, ?_, ?_, ?_, rfl⟩
  · intro i e h
    match i, h with
    | 0, h => cases h; decide
    | i + 1, h => simp at h
  · exact FlagBytes.run 0x7B 1 [] [] (by decide) .nil
  · exact .cons 0 1 _ _ _ [1] [1] (.up 1 (by decide) (by decide)) (.cons 1 2 _ _ _ [1] [] (.up 1 (by decide) (by decide)) (.nil _))
  · exact .cons 0 0 _ _ _ [] [] (.same (by decide) (by decide)) (.cons 0 0 _ _ _ [] [] (.same (by decide) (by decide)) (.nil _))
  · intro i p f h1 h2
    match i, h1, h2 with
    | 0, h1, h2 => cases h1; cases h2; decide
    | 1, h1, h2 => cases h1; cases h2; decide
    | i + 2, h1, h2 => simp at h1
  · exact ⟨fun _ => ⟨0x7B, by decide, by decide⟩, fun _ => rfl⟩

/-- **C28** (exactness of the step guard). When some neighbouring points differ by more, writing panics. -/
theorem C28_step_overflow (g : Glyph) (hc : g.components = []) (hs : ¬ StepsFit 0 0 g.contours.flatten) :
    encGlyph g = .panic := by
  have key : ∀ (ps : List Point) (lx ly : Int16), ¬ StepsFit lx.toInt ly.toInt ps → compileDeltas lx ly ps = .panic := by
    intro ps
    induction ps with
    | nil => intro lx ly h; exact absurd trivial h
    | cons p ps ih =>
      intro lx ly h
      unfold compileDeltas
      by_cases hx : -32768 ≤ p.x.toInt - lx.toInt ∧ p.x.toInt - lx.toInt ≤ 32767
      · by_cases hy : -32768 ≤ p.y.toInt - ly.toInt ∧ p.y.toInt - ly.toInt ≤ 32767
        · have := ih p.x p.y (fun hh => h ⟨hx, hy, hh⟩)
          have ex : subI16 p.x lx = .ok (Int16.ofInt (p.x.toInt - lx.toInt)) := subI16_to _ _ _ (int16_ofInt hx.1 hx.2)
          have ey : subI16 p.y ly = .ok (Int16.ofInt (p.y.toInt - ly.toInt)) := subI16_to _ _ _ (int16_ofInt hy.1 hy.2)
          simp only [ex, ey, this, Res.ok_bind]
          rfl
        · have ex : subI16 p.x lx = .ok (Int16.ofInt (p.x.toInt - lx.toInt)) := subI16_to _ _ _ (int16_ofInt hx.1 hx.2)
          have ey : subI16 p.y ly = .panic := by unfold subI16; simp only; rw [if_neg hy]
          simp only [ex, ey, Res.ok_bind]
          rfl
      · have ex : subI16 p.x lx = .panic := by unfold subI16; simp only; rw [if_neg hx]
        rw [ex]
        rfl
  have hne : g.contours ≠ [] := by rintro e; rw [e] at hs; exact hs trivial
  have hcd := key g.contours.flatten 0 0 hs
  unfold encGlyph
  rw [if_neg (by simp [Glyph.isEmpty, hne, hc]), if_neg (by simp [Glyph.hasComponents, hc])]
  unfold encSimple
  have hep : ∀ (cs : List (List Point)) (n : Int16), (∃ l, endPoints n cs = .ok l) ∨ endPoints n cs = .panic := by
    intro cs
    induction cs with
    | nil => intro n; exact Or.inl ⟨_, rfl⟩
    | cons c cs ih =>
      intro n
      unfold endPoints
      have hadd : (∃ s, addI16 n (Int16.ofInt c.length) = .ok s) ∨ addI16 n (Int16.ofInt c.length) = .panic := by
        unfold addI16
        simp only
        split
        · exact Or.inl ⟨_, rfl⟩
        · exact Or.inr rfl
      rcases hadd with ⟨s, e⟩ | e
      · rw [e]
        rcases ih s with ⟨l, e'⟩ | e'
        · exact Or.inl ⟨s.toUInt16 :: l, by simp only [Res.ok_bind, e', Res.pure_eq]⟩
        · exact Or.inr (by simp only [Res.ok_bind, e']; rfl)
      · rw [e]
        exact Or.inr rfl
  rcases hep g.contours (-1) with ⟨l, e⟩ | e
  · simp only [e, hcd, Res.ok_bind]
    rfl
  · rw [e]
    rfl

example : encGlyph ⟨0, 0, 0, 0, [[⟨-20000, 0, true⟩, ⟨20000, 0, true⟩]], [], [], false⟩ = .panic :=
  C28_step_overflow _ rfl (by rintro ⟨_, _, ⟨_, h⟩, _⟩; revert h; decide)

/-- **C28** (exactness of the point guard). With more than 32768 points (no contour having more than 32767) writing panics. -/
theorem C28_too_many_points (g : Glyph) (hc : g.components = []) (hl : ∀ c ∈ g.contours, c.length ≤ 32767)
    (hp : 32768 < g.contours.flatten.length) : encGlyph g = .panic := by
  have key : ∀ (cs : List (List Point)) (n : Int16), -1 ≤ n.toInt → (∀ c ∈ cs, c.length ≤ 32767) →
      32767 < n.toInt + (cs.map List.length).sum → endPoints n cs = .panic := by
    intro cs
    induction cs with
    | nil =>
      intro n _ _ h
      have := n.toInt_lt
      simp only [List.map_nil, List.sum_nil] at h
      omega
    | cons c cs ih =>
      intro n hn hl h
      have hc := hl c (by simp)
      have hi : (Int16.ofInt c.length).toInt = c.length := int16_ofInt (by omega) (by omega)
      rw [List.map_cons, List.sum_cons] at h
      unfold endPoints
      by_cases hs : n.toInt + c.length ≤ 32767
      · have hco : (Int16.ofInt (n.toInt + c.length)).toInt = n.toInt + c.length := int16_ofInt (by omega) hs
        rw [addI16_to n _ (Int16.ofInt (n.toInt + c.length)) (by rw [hco, hi])]
        simp only [Res.ok_bind]
        rw [ih _ (by omega) (fun c' h' => hl c' (by simp [h'])) (by omega)]
        rfl
      · have : addI16 n (Int16.ofInt c.length) = .panic := by
          unfold addI16
          simp only
          rw [if_neg (by omega)]
        rw [this]
        rfl
  have hne : g.contours ≠ [] := by rintro e; rw [e] at hp; simp at hp
  have hm1 : (-1 : Int16).toInt = -1 := by decide
  unfold encGlyph
  rw [if_neg (by simp [Glyph.isEmpty, hne, hc]), if_neg (by simp [Glyph.hasComponents, hc])]
  unfold encSimple
  rw [key g.contours (-1) (by rw [hm1]) hl (by rw [hm1, ← List.length_flatten]; omega)]
  rfl

example : encGlyph ⟨0, 0, 0, 0, [List.replicate 20000 ⟨0, 0, true⟩, List.replicate 20000 ⟨1, 0, false⟩], [], [], false⟩ = .panic :=
  C28_too_many_points _ rfl
    (by intro c hc; rcases List.mem_cons.mp hc with rfl | hc
        · rw [List.length_replicate]; omega
        · rw [List.mem_singleton.mp hc, List.length_replicate]; omega)
    (by rw [List.flatten_cons, List.length_append, List.flatten_cons, List.length_append, List.length_replicate, List.length_replicate]; omega)

/-- **C28** (outside the guard). A glyph with neither contours nor components is written as nothing; reading nothing fails,
so the `glyf` table must recognise it by its empty slot. -/
theorem C28_empty (g : Glyph) (hc : g.components = []) (hne : g.contours = []) : encGlyph g = .ok [] := by
  unfold encGlyph
  rw [if_pos (by simp [Glyph.isEmpty, hne, hc])]

/-- **C28** (outside the guard). A glyph whose first contour is empty is written with 65535 as that contour's last point, and
what was written cannot be read back. -/
theorem C28_first_contour_empty :
    ∃ bs, encGlyph ⟨0, 0, 0, 0, [[], [⟨1, 1, true⟩]], [], [], false⟩ = .ok bs ∧ readGlyph (Rd.new bs) = .panic := by
  refine ⟨[0, 2, 0, 0, 0, 0, 0, 0, 0, 0, 255, 255, 0, 0, 0, 0, 0x37, 1, 1], by decide +kernel, by decide +kernel⟩

/-- **C28** (overlap). The full claim, overlap mark included, is false of the code. -/
theorem C28_overlap_lost :
    ∃ g bs, encGlyph g = .ok bs ∧ g.overlap = true ∧ g.components = [] ∧
      ∃ g', Reads readGlyph bs g' ∧ g'.overlap = false := by
  obtain ⟨bs, e, h⟩ := C28_roundtrip { sampleGlyph with overlap := true } rfl (by decide)
    (by intro c hc; cases hc; decide) (by decide) (by decide) (by decide) (by decide)
    (by decide)
  exact ⟨_, bs, e, rfl, rfl, _, h, rfl⟩

end FT.Props
