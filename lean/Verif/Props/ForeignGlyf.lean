import Verif.Props.ForeignCmap
import Verif.Props.GlyphComposite
import Verif.Lemmas.CliGvar

/-!
C93: the outlines of any font, whichever program wrote it.
-/

namespace FT.Props
open FT Reader FT.Glyf FT.Save FT.Cli

/-! ### Specification -/

/-- Width of an entry of `loca`. -/
def locWidth (long : Bool) : Nat := if long then 4 else 2

/-- Where the data of glyph `i` begins: short entries are half of it. -/
def location (L : Bytes) (long : Bool) (i : Nat) : Nat := if long then field L (4 * i) 4 else 2 * field L (2 * i) 2

/-- The data of a glyph begins with a valid description of it, simple or composite. -/
def GlyphStored (G : Bytes) (start : Nat) (g : Glyph) : Prop :=
  ∃ b rest, G.drop start = b ++ rest ∧ (DescribesSimple g b ∨ DescribesComposite g b)

/-- `glyf` and `loca` say that these are the glyphs of the font: one location more than there are glyphs, each glyph where its
location says, glyphs of no length empty. -/
structure OutlinesSay (L G : Bytes) (long : Bool) (gs : List Glyph) : Prop where
  count : L.length / locWidth long = gs.length + 1
  glyphs : ∀ (i : Nat) (g : Glyph), gs[i]? = some g →
    (location L long i = location L long (i + 1) ∧ g = ⟨0, 0, 0, 0, [], [], [], false⟩) ∨
    (location L long i ≠ location L long (i + 1) ∧ GlyphStored G (location L long i) g)

/-! ### Reading until the end -/

theorem vec_read {α : Type} {p : Reader α} {w : Nat} (hw : 0 < w) {B : Bytes} {stk : List Nat}
    (hend : ∀ pos, B.length < pos + w → p ⟨B, pos, stk⟩ = .err) : ∀ (fuel pos : Nat) {Q : Nat → α → Prop},
    (∀ i, pos + w * i + w ≤ B.length → ∃ a, Q i a ∧ p ⟨B, pos + w * i, stk⟩ = .ok (a, ⟨B, pos + w * i + w, stk⟩)) →
    B.length < pos + w * fuel → pos ≤ B.length →
    ∃ l r, l.length = (B.length - pos) / w ∧ (∀ i a, l[i]? = some a → Q i a) ∧ readVecFuel p fuel ⟨B, pos, stk⟩ = .ok (l, r)
  | 0, pos, Q, _, hf, hp => by omega
  | k + 1, pos, Q, h, hf, hp => by
    rw [readVecFuel]
    beta_reduce
    by_cases hb : B.length < pos + w
    · rw [hend pos hb]
      refine ⟨[], _, ?_, by simp, rfl⟩
      rw [List.length_nil, Nat.div_eq_of_lt (by omega)]
    · obtain ⟨a, q0, e0⟩ := h 0 (by omega)
      rw [Nat.mul_zero, Nat.add_zero] at e0
      obtain ⟨l, r, e1, e2, e3⟩ := vec_read hw hend k (pos + w) (Q := fun i => Q (i + 1)) (by
        intro i hi
        obtain ⟨b, g1, g2⟩ := h (i + 1) (by rw [Nat.mul_succ]; omega)
        refine ⟨b, g1, ?_⟩
        rw [show pos + w + w * i = pos + w * (i + 1) by rw [Nat.mul_succ]; omega]
        exact g2) (by rw [Nat.mul_succ] at hf; omega) (by omega)
      rw [e0]
      simp only
      rw [e3]
      refine ⟨a :: l, r, ?_, ?_, rfl⟩
      · rw [List.length_cons, e1, show B.length - pos = (B.length - (pos + w)) + w by omega, Nat.add_div_right _ hw]
      · intro i b hb'
        cases i with
        | zero => cases hb'; exact q0
        | succ i => exact e2 i b hb'

theorem consume_end {n pos : Nat} {B : Bytes} {stk : List Nat} (h : B.length < pos + n) : consume n ⟨B, pos, stk⟩ = .err := by
  unfold consume
  rw [if_pos h]

theorem readU32_end {pos : Nat} {B : Bytes} {stk : List Nat} (h : B.length < pos + 4) : readU32 ⟨B, pos, stk⟩ = .err := by
  unfold readU32
  rw [bind_run, consume_end h]

/-- The entries of `loca`. -/
theorem raw_read (L : Bytes) (long : Bool) : ∃ l r, Loca.readRaw long (Rd.new L) = .ok (l, r) ∧
    l.length = L.length / locWidth long ∧ ∀ i a, l[i]? = some a → a.toNat = location L long i := by
  unfold Loca.readRaw locWidth location Rd.new
  cases long with
  | true =>
    simp only [if_true]
    obtain ⟨l, r, e1, e2, e3⟩ := vec_read (p := readU32) (w := 4) (by omega) (B := L) (stk := [0])
      (fun pos h => readU32_end h) (L.length + 1) 0 (Q := fun i a => a.toNat = field L (4 * i) 4)
      (fun i hi => by
        obtain ⟨v, g1, g2⟩ := readU32_ok (r := ⟨L, 0 + 4 * i, [0]⟩) (by simp only; omega)
        simp only at g1
        exact ⟨v, by rw [g1, Nat.zero_add], g2⟩) (by omega) (by omega)
    exact ⟨l, r, e3, by simpa using e1, e2⟩
  | false =>
    simp only [Bool.false_eq_true, if_false]
    obtain ⟨l, r, e1, e2, e3⟩ := vec_read (p := readU16) (w := 2) (by omega) (B := L) (stk := [0])
      (fun pos h => readU16_end h) (L.length + 1) 0 (Q := fun i a => a.toNat = field L (2 * i) 2)
      (fun i hi => by
        obtain ⟨v, g1, g2⟩ := readU16_ok (r := ⟨L, 0 + 2 * i, [0]⟩) (by simp only; omega)
        simp only at g1
        exact ⟨v, by rw [g1, Nat.zero_add], g2⟩) (by omega) (by omega)
    refine ⟨l.map (fun v => UInt32.ofNat (v.toNat * 2)), r, ?_, by simpa using e1, ?_⟩
    · rw [bind_run]
      unfold readVec
      rw [e3]
      rfl
    · intro i a ha
      rw [List.getElem?_map, Option.map_eq_some_iff] at ha
      obtain ⟨v, hv, rfl⟩ := ha
      have := v.toNat_lt
      rw [← e2 i v hv, ofNat32_toNat (by omega)]
      omega

theorem pairs_spec : ∀ (l : List UInt32) (n : Nat), l.length = n + 1 → (Loca.pairs l).length = n ∧
    ∀ (i : Nat) (x : Option UInt32), (Loca.pairs l)[i]? = some x → ∃ a b, l[i]? = some a ∧ l[i + 1]? = some b ∧
      x = if a = b then none else some a
  | [], n, h => by simp at h
  | [a], n, h => by
    obtain rfl : n = 0 := by simpa using h.symm
    exact ⟨rfl, by simp [Loca.pairs]⟩
  | a :: b :: l, n, h => by
    cases n with
    | zero => simp at h
    | succ n =>
      obtain ⟨h1, h2⟩ := pairs_spec (b :: l) n (by simpa using h)
      refine ⟨by simp [Loca.pairs, h1], ?_⟩
      intro i x hx
      cases i with
      | zero =>
        simp only [Loca.pairs, List.getElem?_cons_zero, Option.some.injEq] at hx
        exact ⟨a, b, rfl, rfl, hx.symm⟩
      | succ i =>
        simp only [Loca.pairs, List.getElem?_cons_succ] at hx
        obtain ⟨a', b', g1, g2, g3⟩ := h2 i x hx
        exact ⟨a', b', by simpa using g1, by simpa using g2, g3⟩

theorem glyphStored_read {G : Bytes} {start : Nat} {g : Glyph} {stk : List Nat} (h : GlyphStored G start g) :
    ∃ r, r.inp = G ∧ r.stk = stk ∧ readGlyph ⟨G, start, stk⟩ = .ok (g, r) := by
  obtain ⟨b, rest, e, hd⟩ := h
  have hr : Reads readGlyph b g := by
    rcases hd with hd | hd
    · exact C28_reads_any g b hd
    · exact C29_reads_any g b hd
  have hne : b ≠ [] := by
    rintro rfl
    rcases hd with ⟨_, _, _, _, _, hb, _⟩ | ⟨_, _, _, hb, _⟩ <;>
    · have := congrArg List.length hb
      simp [encI16, encU16] at this
  have hlt : start < G.length := by
    rcases Nat.lt_or_ge start G.length with h | h
    · exact h
    · rw [List.drop_eq_nil_iff.mpr h] at e
      simp at e
      exact absurd e.1 hne
  have hG : G = G.take start ++ b ++ rest := by rw [List.append_assoc, ← e, List.take_append_drop]
  have hl : (G.take start).length = start := by rw [List.length_take]; omega
  have := hr (G.take start) rest stk
  rw [← hG, hl] at this
  exact ⟨_, rfl, rfl, this⟩

theorem glyphs_read (G : Bytes) (stk : List Nat) : ∀ (locs : List (Option UInt32)) (gs : List Glyph) (ptr : Nat), locs.length = gs.length →
    (∀ (i : Nat) (g : Glyph) (x : Option UInt32), gs[i]? = some g → locs[i]? = some x →
      (x = none ∧ g = emptyGlyph) ∨ ∃ a, x = some a ∧ GlyphStored G a.toNat g) →
    Loca.readGlyphs emptyGlyph readGlyph locs ⟨G, ptr, stk⟩ = .ok (gs, ⟨G, ptr, stk⟩)
  | [], gs, ptr, h, _ => by
    obtain rfl : gs = [] := List.length_eq_zero_iff.mp h.symm
    rfl
  | x :: locs, [], ptr, h, _ => by simp at h
  | x :: locs, g :: gs, ptr, h, hg => by
    have ih := fun p => glyphs_read G stk locs gs p (by simpa using h) (fun i g' x' h1 h2 => hg (i + 1) g' x' (by simpa using h1) (by simpa using h2))
    rcases hg 0 g x rfl rfl with ⟨rfl, rfl⟩ | ⟨a, rfl, ha⟩
    · unfold Loca.readGlyphs
      rw [bind_run, ih]
      rfl
    · unfold Loca.readGlyphs
      obtain ⟨⟨i2, p2, s2⟩, e1, e2, e3⟩ := glyphStored_read (stk := stk) ha
      simp only at e1 e2
      subst e1 e2
      rw [bind_run]
      simp only [getPtr]
      rw [bind_run]
      simp only [setPtr]
      rw [bind_run, e3]
      simp only
      rw [bind_run, show setPtr ptr ⟨i2, p2, s2⟩ = .ok ((), ⟨i2, ptr, s2⟩) from rfl]
      simp only
      rw [bind_run, ih]
      rfl

/-- **C93** (outlines). The `glyf` and `loca` tables of any font are read as the glyphs they say, whether locations are short or
long, in whatever order and with whatever gaps or overlaps the data is stored, however flags are repeated, steps stored and
components placed. -/
theorem C93_outlines (L G : Bytes) (long : Bool) (gs : List Glyph) (h : OutlinesSay L G long gs) :
    ∃ locs, runAll (Loca.fromBytes long) L = .ok locs ∧ runAll (Loca.readGlyphs emptyGlyph readGlyph locs) G = .ok gs := by
  obtain ⟨raw, r, e1, e2, e3⟩ := raw_read L long
  obtain ⟨p1, p2⟩ := pairs_spec raw gs.length (by rw [e2, h.count])
  refine ⟨Loca.pairs raw, ?_, ?_⟩
  · unfold runAll Loca.fromBytes
    rw [bind_run, e1]
    rfl
  · have := glyphs_read G [0] (Loca.pairs raw) gs 0 p1 (by
      intro i g x hg hx
      obtain ⟨a, b, g1, g2, rfl⟩ := p2 i x hx
      have ha := e3 i a g1
      have hb := e3 (i + 1) b g2
      rcases h.glyphs i g hg with ⟨q1, q2⟩ | ⟨q1, q2⟩
      · left
        refine ⟨if_pos (UInt32.toNat_inj.mp (by rw [ha, hb, q1])), q2⟩
      · right
        refine ⟨a, if_neg (by rintro rfl; exact q1 (by rw [← ha, ← hb])), ?_⟩
        rwa [ha])
    unfold runAll Rd.new
    rw [this]

/-! ### Outside -/

/-- Reading these bytes panics, wherever they are. -/
def CrashesOn {α : Type} (p : Reader α) (bs : Bytes) : Prop :=
  ∀ (pre rest : Bytes) (stk : List Nat), p ⟨pre ++ bs ++ rest, pre.length, stk⟩ = .panic

theorem CrashesOn.first {α β : Type} {p : Reader α} {f : α → Reader β} {bs : Bytes} (h : CrashesOn p bs) : CrashesOn (p >>= f) bs := by
  intro pre rest stk
  rw [bind_run, h]

theorem CrashesOn.after {α β : Type} {p : Reader α} {f : α → Reader β} {bs bs' : Bytes} {a : α} (h1 : Reads p bs a)
    (h2 : CrashesOn (f a) bs') : CrashesOn (p >>= f) (bs ++ bs') := by
  intro pre rest stk
  have e1 := h1 pre (bs' ++ rest) stk
  have e2 := h2 (pre ++ bs) rest stk
  rw [bind_run]
  simp only [List.append_assoc, List.length_append] at e1 e2 ⊢
  rw [e1]
  exact e2

theorem CrashesOn.append {α : Type} {p : Reader α} {bs : Bytes} (h : CrashesOn p bs) (more : Bytes) : CrashesOn p (bs ++ more) := by
  intro pre rest stk
  have := h pre (more ++ rest) stk
  simpa [List.append_assoc] using this

theorem addI16_over {a b : Int16} (h : a.toInt + b.toInt < -32768 ∨ 32767 < a.toInt + b.toInt) : addI16 a b = .panic := by
  unfold addI16
  simp only
  rw [if_neg (by omega)]

theorem subI16_over {a b : Int16} (h : a.toInt - b.toInt < -32768 ∨ 32767 < a.toInt - b.toInt) : subI16 a b = .panic := by
  unfold subI16
  simp only
  rw [if_neg (by omega)]

theorem crashes_lift {α : Type} {x : Res α} (h : x = .panic) : CrashesOn (Reader.lift x) [] := by
  intro pre rest stk
  rw [h]
  rfl

theorem crashes_coord {short same : Nat} {ms mm : UInt8} (hs : ∀ f, has f ms = true ↔ FlagBit f short)
    (hm : ∀ f, has f mm = true ↔ FlagBit f same) {f : UInt8} {last : Int16} {x : Int} {b : Bytes}
    (h : StepBytes short same f (x - last.toInt) b) (hx : x < -32768 ∨ 32767 < x) : CrashesOn (readCoord ms mm f last) b := by
  unfold readCoord
  generalize hd : x - last.toInt = d at h
  cases h with
  | up c h1 h2 =>
    rw [if_pos ((hs f).mpr h1)]
    have := CrashesOn.after (bs' := []) (reads_u8 c) (f := fun c => if has f mm then Reader.lift (addI16 last (Int16.ofInt c.toNat))
      else Reader.lift (subI16 last (Int16.ofInt c.toNat))) (by
        beta_reduce
        rw [if_pos ((hm f).mpr h2)]
        have := c.toNat_lt
        exact crashes_lift (addI16_over (by rw [int16_ofInt (by omega) (by omega)]; omega)))
    simpa [encU8] using this
  | down c h1 h2 =>
    rw [if_pos ((hs f).mpr h1)]
    have := CrashesOn.after (bs' := []) (reads_u8 c) (f := fun c => if has f mm then Reader.lift (addI16 last (Int16.ofInt c.toNat))
      else Reader.lift (subI16 last (Int16.ofInt c.toNat))) (by
        beta_reduce
        rw [if_neg (fun e => h2 ((hm f).mp e))]
        have := c.toNat_lt
        exact crashes_lift (subI16_over (by rw [int16_ofInt (by omega) (by omega)]; omega)))
    simpa [encU8] using this
  | same h1 h2 =>
    have := last.le_toInt
    have := last.toInt_lt
    omega
  | word d' h1 h2 =>
    rw [if_neg (fun e => h1 ((hs f).mp e)), if_neg (fun e => h2 ((hm f).mp e))]
    have := CrashesOn.after (bs' := []) (reads_i16 d') (f := fun c => Reader.lift (addI16 last c))
      (crashes_lift (addI16_over (by omega)))
    simpa using this

theorem crashes_coords {short same : Nat} {ms mm : UInt8} (hs : ∀ f, has f ms = true ↔ FlagBit f short)
    (hm : ∀ f, has f mm = true ↔ FlagBit f same) : ∀ (xs : List Int) (last : Int16) (fs : List UInt8) (bs : Bytes),
    CoordBytes short same last.toInt fs xs bs → (∃ x ∈ xs, x < -32768 ∨ 32767 < x) → CrashesOn (readCoords ms mm last fs) bs
  | [], last, fs, bs, h, hx => by simp at hx
  | x :: xs, last, fs, bs, h, hx => by
    cases h with
    | cons _ _ f fs _ b bs h1 h2 =>
      unfold readCoords
      by_cases hb : x < -32768 ∨ 32767 < x
      · exact (crashes_coord hs hm h1 hb).first.append _
      · have e : (Int16.ofInt x).toInt = x := int16_ofInt (by omega) (by omega)
        obtain ⟨y, hy, hy'⟩ := hx
        have hy2 : y ∈ xs := by
          rcases List.mem_cons.mp hy with rfl | h
          · exact absurd hy' hb
          · exact h
        rw [← e] at h1 h2
        exact CrashesOn.after (reads_coord hs hm h1) (crashes_coords hs hm xs (Int16.ofInt x) fs bs h2 ⟨y, hy2, hy'⟩).first

/-- **C93** (outside the guard: large coordinates). Coordinates are sums of steps; if one of them does not fit 16 bits, reading
the glyph panics. -/
theorem C93_overflow (xMin yMin xMax yMax : Int16) (ends : List UInt16) (last : UInt16) (instr : List UInt8) (flags : List UInt8)
    (xs ys : List Int) (fb xb yb : Bytes) (hn : ends.length ≤ 32767) (hl : ends.getLast? = some last)
    (hc : last.toNat + 1 = flags.length) (hi : instr.length ≤ 32767) (hf : FlagBytes fb flags)
    (hx : CoordBytes 1 4 0 flags xs xb) (hy : CoordBytes 2 5 0 flags ys yb)
    (hb : (∃ x ∈ xs, x < -32768 ∨ 32767 < x) ∨ ∃ y ∈ ys, y < -32768 ∨ 32767 < y) :
    CrashesOn readGlyph (encI16 (Int16.ofInt ends.length) ++ encI16 xMin ++ encI16 yMin ++ encI16 xMax ++ encI16 yMax ++
      encVec encU16 ends ++ encU16 (UInt16.ofNat instr.length) ++ instr ++ fb ++ xb ++ yb) := by
  have hpos : 0 < ends.length := by cases ends with | nil => simp at hl | cons => simp
  have hn' : (Int16.ofInt ends.length).toInt = ends.length := int16_ofInt (by omega) (by omega)
  simp only [List.append_assoc]
  unfold readGlyph
  refine CrashesOn.after (reads_i16 _) ?_
  refine CrashesOn.after (reads_i16 _) ?_
  refine CrashesOn.after (reads_i16 _) ?_
  refine CrashesOn.after (reads_i16 _) ?_
  refine CrashesOn.after (reads_i16 _) ?_
  rw [hn', if_neg (by omega), Int.toNat_natCast]
  refine CrashesOn.first ?_
  unfold readSimple
  refine CrashesOn.after (reads_deCounted' (enc := encU16) rfl (fun x _ => reads_orCrash (reads_u16 x))) ?_
  rw [← List.append_assoc]
  refine CrashesOn.after (reads_instructions _ hi) ?_
  have hlast : (ends.map (fun x => 1 + x.toNat)).getLast? = some flags.length := by
    rw [List.getLast?_map, hl, Option.map_some, ← hc, Nat.add_comm]
  simp only [hlast]
  refine CrashesOn.after (reads_flags hf flags.length (Nat.le_refl _)) ?_
  by_cases h1 : ∃ x ∈ xs, x < -32768 ∨ 32767 < x
  · exact (crashes_coords (fun f => (gflag_bit f).2.1) (fun f => (gflag_bit f).2.2.2.2.1) xs 0 flags xb hx h1).first.append _
  · have hxs : (xs.map Int16.ofInt).map Int16.toInt = xs := by
      rw [List.map_map]
      conv => rhs; rw [← List.map_id xs]
      apply List.map_congr_left
      intro x hx'
      have : ¬ (x < -32768 ∨ 32767 < x) := fun h => h1 ⟨x, hx', h⟩
      exact int16_ofInt (by omega) (by omega)
    rw [← hxs] at hx
    refine CrashesOn.after (reads_coords (fun f => (gflag_bit f).2.1) (fun f => (gflag_bit f).2.2.2.2.1) _ 0 flags xb hx) ?_
    have h2 := hb.resolve_left h1
    exact (crashes_coords (fun f => (gflag_bit f).2.2.1) (fun f => (gflag_bit f).2.2.2.2.2.1) ys 0 flags yb hy h2).first

/-- **C93** (outside the guard: many instructions). A count of instruction bytes of 32768 or more is taken for none, and what
follows is read from the first instruction on. -/
theorem C93_many_instructions (n : UInt16) (h : 32768 ≤ n.toNat) : Reads readInstructions (encU16 n) [] := by
  have e : encU16 n = encI16 n.toInt16 := rfl
  rw [e]
  unfold readInstructions
  refine Reads.bind' (bs' := []) (reads_i16 n.toInt16) ?_ (by simp)
  have h1 := signed_toInt16 n
  have h2 := n.toNat_lt
  unfold signed16 at h1
  rw [if_neg (by rw [h1]; split <;> omega)]
  exact Reads.pure _

/-- **C93** (outside the guard: no contours). A simple glyph of no contours, which has a bounding box and possibly a count of no
instructions, is taken for a composite one and is an error. -/
theorem C93_no_contours (box more : Bytes) (h : box.length = 8) (hm : more = [] ∨ more = [0, 0]) :
    readGlyph (Rd.new ([0, 0] ++ box ++ more)) = .err := by
  match box, h with
  | [a, b, c, d, e, f, g, i], _ =>
    rcases hm with rfl | rfl <;> rfl

/-- **C93** (outside the guard). A location outside the data is an error, also if it belongs to the last glyph. -/
theorem C93_outside (G : Bytes) (a : UInt32) (locs : List (Option UInt32)) (h : G.length < a.toNat + 2) :
    runAll (Loca.readGlyphs emptyGlyph readGlyph (some a :: locs)) G = .err := by
  unfold runAll Rd.new Loca.readGlyphs
  rw [bind_run]
  simp only [getPtr]
  rw [bind_run]
  simp only [setPtr]
  rw [bind_run]
  unfold readGlyph
  rw [bind_run]
  unfold readI16
  rw [bind_run, readU16_end h]

/-! ### Examples -/

/-- A triangle whose three flags are stored as one with two repetitions. -/
def sampleTriangle : Glyph := ⟨1, 3, 1, 6, [[⟨1, 1, true⟩, ⟨2, 3, true⟩, ⟨3, 6, true⟩]], [7], [], false⟩

def triangleBytes : Bytes := [0, 1, 0, 1, 0, 1, 0, 3, 0, 6, 0, 2, 0, 1, 7, 0x3F, 2, 1, 1, 1, 1, 2, 3]

theorem triangle_described : DescribesSimple sampleTriangle triangleBytes := by
  refine ⟨[2], [0x3F, 0x3F, 0x3F], [0x3F, 2], [1, 1, 1], [1, 2, 3], by decide, by decide, by decide, ?_, by decide, ?_, ?_, ?_, ?_, ?_, rfl⟩
  · intro i e h
    match i, h with
    | 0, h => cases h; decide
    | i + 1, h => simp at h
  · exact .run 0x3F 2 [] [] (by decide) .nil
  · exact .cons _ _ _ _ _ [1] _ (.up 1 (by decide) (by decide)) (.cons _ _ _ _ _ [1] _ (.up 1 (by decide) (by decide))
      (.cons _ _ _ _ _ [1] _ (.up 1 (by decide) (by decide)) (.nil _)))
  · exact .cons _ _ _ _ _ [1] _ (.up 1 (by decide) (by decide)) (.cons _ _ _ _ _ [2] _ (.up 2 (by decide) (by decide))
      (.cons _ _ _ _ _ [3] _ (.up 3 (by decide) (by decide)) (.nil _)))
  · intro i p f h1 h2
    match i, h1, h2 with
    | 0, h1, h2 => cases h1; cases h2; decide
    | 1, h1, h2 => cases h1; cases h2; decide
    | 2, h1, h2 => cases h1; cases h2; decide
    | i + 3, h1, h2 => simp at h2
  · decide

/-- The triangle twice as wide, matched by points and moved by bytes. -/
def samplePair : Glyph := ⟨0, 9, 0, 9, [], [], [⟨0, ⟨2 - 1 / 2, 0, 0, 1, -1, 2⟩, none, 0x0062⟩, ⟨0, ⟨1, 0, 0, 1, 0, 0⟩, some (1, 2), 0⟩], false⟩

def pairBytes : Bytes := [255, 255, 0, 0, 0, 0, 0, 9, 0, 9, 0, 0x62, 0, 0, 255, 2, 0x60, 0, 0x40, 0, 0, 0, 0, 0, 1, 2]

theorem pair_described : DescribesComposite samplePair pairBytes := by
  have e1 : (2 - 1 / 2 : ℚ) = fixed14 24576 := by
    unfold fixed14
    rw [show (24576 : Int16).toInt = 24576 by decide]
    norm_num
  have e2 : (1 : ℚ) = fixed14 16384 := by
    unfold fixed14
    rw [show (16384 : Int16).toInt = 16384 by decide]
    norm_num
  refine ⟨-1, [0, 0x62, 0, 0, 255, 2, 0x60, 0, 0x40, 0] ++ [0, 0, 0, 0, 1, 2], [], by decide, by decide, ?_, ?_, by decide, rfl⟩
  · refine .more _ _ _ _ ?_ (by decide) (.last _ _ ?_ (by decide))
    · refine ⟨-1, 2, [255, 2], [0x60, 0, 0x40, 0], by decide, .offsetBytes (-1) 2 (by decide) (by decide), by norm_num, by norm_num, ?_⟩
      simp only [e1]
      rw [show ([0x60, 0, 0x40, 0] : Bytes) = encI16 24576 ++ encI16 16384 by decide]
      have := ScaleBytes.separate (f := 0x62) 24576 16384 (by decide) (by decide) (by decide)
      rwa [← e2] at this
    · exact ⟨0, 0, [1, 2], [], by decide, .pointBytes 1 2 (by decide) (by decide), by norm_num, by norm_num,
        .unscaled (by decide) (by decide) (by decide)⟩
  · right
    exact ⟨by decide, rfl, rfl⟩

/-- A font of three glyphs, the last one stored first, with short locations and a byte left over. -/
example : OutlinesSay [0, 13, 0, 0, 0, 0, 0, 25, 0] (pairBytes ++ triangleBytes) false [sampleTriangle, ⟨0, 0, 0, 0, [], [], [], false⟩, samplePair] where
  count := by decide
  glyphs := by
    intro i g h
    match i, h with
    | 0, h => cases h; exact .inr ⟨by decide, triangleBytes, [], by decide, .inl triangle_described⟩
    | 1, h => cases h; exact .inl ⟨by decide, rfl⟩
    | 2, h => cases h; exact .inr ⟨by decide, pairBytes, triangleBytes, by decide, .inr pair_described⟩
    | i + 3, h => simp at h

/-- Two steps of 20000 leave 16 bits. -/
example : CrashesOn readGlyph (encI16 1 ++ encI16 0 ++ encI16 0 ++ encI16 0 ++ encI16 0 ++ encVec encU16 [1] ++ encU16 0 ++ [] ++
    [0x20, 0x20] ++ (encI16 20000 ++ encI16 20000) ++ []) :=
  C93_overflow 0 0 0 0 [1] 1 [] [0x20, 0x20] [20000, 40000] [0, 0] _ _ _ (by decide) rfl (by decide) (by decide)
    (.one _ _ _ (by decide) (.one _ _ _ (by decide) .nil))
    (.cons _ _ _ _ _ (encI16 20000) (encI16 20000) (.word 20000 (by decide) (by decide))
      (.cons _ _ _ _ _ (encI16 20000) [] (.word 20000 (by decide) (by decide)) (.nil _)))
    (.cons _ _ _ _ _ [] _ (.same (by decide) (by decide)) (.cons _ _ _ _ _ [] _ (.same (by decide) (by decide)) (.nil _)))
    (.inl ⟨40000, by simp, by omega⟩)

end FT.Props
