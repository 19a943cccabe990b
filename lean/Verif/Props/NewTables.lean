import Verif.Model.NewTables
import Verif.Props.Nearest
import Verif.Props.Stat
import Verif.Props.PostTable
import Verif.Props.SimpleTables
import Verif.Lemmas.Field

/-!
# C108: tables made from scratch

`head::new`, `maxp::new05` and `new10`, `post::new` and `set_version`, and the four constructors of axis values of the `STAT`
table: what they put into a font, and what is read from it afterwards.
-/

namespace FT.Props
open FT FT.F32 FT.NewTables FT.Tables FT.Strings FT.Glyf Reader

/-! ### head -/

/-- A date the calendar library can hold. -/
def DateOk (d : Date) : Prop := dateMin ≤ d.secs ∧ d.secs ≤ dateMax

/-- **C52** (any revision). A head table with any `f32` revision below 32768 reads back equal but for the revision, which is off by
at most 1/65536, and fractions of seconds, which are lost. -/
theorem C52_head_any (h : Head) (hr : IsF32 h.fontRevision) (hb : |h.fontRevision| < 32768) (hc : DateOk h.created)
    (hm : DateOk h.modified) : ∃ y : ℚ, |y - h.fontRevision| ≤ 1 / 65536 ∧
      RoundTripsAt readHead (encHead h)
        { h with fontRevision := y, created := ⟨h.created.secs, 0⟩, modified := ⟨h.modified.secs, 0⟩ } := by
  obtain ⟨h1, h2, h3, h4, h5, h6, h7, h8, h9, h10, h11, h12, h13, h14, h15, h16, h17, h18⟩ := h
  simp only at hr hb hc hm
  obtain ⟨y, hy, hf⟩ : ∃ y : ℚ, |y - h3| ≤ 1 / 65536 ∧ Reads readFixed (encFixed h3) y := by
    rcases le_or_gt |h3| 128 with hs | hs
    · obtain ⟨p, _, hf, he⟩ := C04_fixed_nearest hr hs
      refine ⟨_, he.trans (by norm_num), hf⟩
    · obtain ⟨y, hf, he⟩ := C04_fixed_far hr hs.le hb
      refine ⟨y, ?_, hf⟩
      rcases he with rfl | rfl
      · simp
      · simp
  refine ⟨y, hy, ?_⟩
  unfold encHead readHead
  refine Reads.bind (reads_u16 _) (Reads.bind (reads_u16 _) (Reads.bind hf (Reads.bind (reads_u32 _)
    (Reads.bind (reads_u32 _) (Reads.bind (reads_u16 _) (Reads.bind (reads_u16 _)
    (Reads.bind (C52_date h8 hc.1 hc.2) (Reads.bind (C52_date h9 hm.1 hm.2)
    (Reads.bind (reads_i16 _) (Reads.bind (reads_i16 _) (Reads.bind (reads_i16 _) (Reads.bind (reads_i16 _)
    (Reads.bind (reads_u16 _) (Reads.bind (reads_u16 _) (Reads.bind (reads_i16 _) (Reads.bind (reads_i16 _)
    (Reads.bind' (reads_i16 _) (Reads.pure _) (List.append_nil _).symm)))))))))))))))))

/-- **C108** (head). A new head table is 54 bytes long: version 1.0, no checksum yet, the magic number, flags 0 and 1, the given units
per em and box, no style, smallest size 6, direction hint 2, short offsets. It reads back with the given revision, off by at
most 1/65536, and the two clock readings in whole seconds. -/
theorem C108_head {now1 now2 : Date} {rev : ℚ} {upm : UInt16} {x0 y0 x1 y1 : Int16} (hr : IsF32 rev) (hb : |rev| < 32768)
    (h1 : DateOk now1) (h2 : DateOk now2) :
    (encHead (newHead now1 now2 rev upm x0 y0 x1 y1) =
      [0, 1, 0, 0] ++ encFixed rev ++ [0, 0, 0, 0] ++ [0x5F, 0x0F, 0x3C, 0xF5] ++ [0, 3] ++ encU16 upm ++
      encI64 (Int64.ofInt now1.secs) ++ encI64 (Int64.ofInt now2.secs) ++
      encI16 x0 ++ encI16 y0 ++ encI16 x1 ++ encI16 y1 ++ [0, 0, 0, 6, 0, 2, 0, 0, 0, 0]) ∧
    ∃ (y : ℚ) (h : Head), |y - rev| ≤ 1 / 65536 ∧
      RoundTripsAt readHead (encHead (newHead now1 now2 rev upm x0 y0 x1 y1)) h ∧
      h.fontRevision = y ∧ h.unitsPerEm = upm ∧ h.xMin = x0 ∧ h.yMin = y0 ∧ h.xMax = x1 ∧ h.yMax = y1 ∧
      h.created = ⟨now1.secs, 0⟩ ∧ h.modified = ⟨now2.secs, 0⟩ := by
  refine ⟨?_, ?_⟩
  · simp only [encHead, newHead, encDate, List.append_assoc]
    rfl
  · obtain ⟨y, hy, hh⟩ := C52_head_any (newHead now1 now2 rev upm x0 y0 x1 y1) hr hb h1 h2
    exact ⟨y, _, hy, hh, rfl, rfl, rfl, rfl, rfl, rfl, rfl, rfl⟩

/-! ### maxp -/

/-- **C108** (maxp). A new version 0.5 table is `00 00 50 00` and the number of glyphs; a new version 1.0 table is 32 bytes long, has
one zone, and everything not given is 0. Both read back equal, and have the number of glyphs given. -/
theorem C108_maxp (n points contours cpoints ccontours elements depth : UInt16) :
    (encMaxp (newMaxp05 n) = .ok ([0, 0, 0x50, 0] ++ encU16 n) ∧
      RoundTripsAt readMaxp ([0, 0, 0x50, 0] ++ encU16 n) (newMaxp05 n) ∧ (newMaxp05 n).numGlyphs = n) ∧
    (let bs : Bytes := [0, 1, 0, 0] ++ encU16 n ++ encU16 points ++ encU16 contours ++ encU16 cpoints ++ encU16 ccontours ++
        [0, 1] ++ List.replicate 12 0 ++ encU16 elements ++ encU16 depth;
      encMaxp (new10 n points contours cpoints ccontours elements depth) = .ok bs ∧
      RoundTripsAt readMaxp bs (new10 n points contours cpoints ccontours elements depth) ∧
      (new10 n points contours cpoints ccontours elements depth).numGlyphs = n) := by
  have e1 : encMaxp (newMaxp05 n) = .ok ([0, 0, 0x50, 0] ++ encU16 n) := by
    have : encVersion16Dot16 0x8000 = .ok [0, 0, 0x50, 0] := by decide
    unfold encMaxp newMaxp05
    simp only [this, Res.ok_bind]
    rfl
  have e2 : encMaxp (new10 n points contours cpoints ccontours elements depth) =
      .ok ([0, 1, 0, 0] ++ encU16 n ++ encU16 points ++ encU16 contours ++ encU16 cpoints ++ encU16 ccontours ++
        [0, 1] ++ List.replicate 12 0 ++ encU16 elements ++ encU16 depth) := by
    have : encVersion16Dot16 0x10000 = .ok [0, 1, 0, 0] := by decide
    unfold encMaxp new10
    have e0 : encU16 0 = [0, 0] := rfl
    have e1 : encU16 1 = [0, 1] := rfl
    simp only [this, Res.ok_bind, encMaxp10, e0, e1, List.append_assoc]
    rfl
  refine ⟨⟨e1, ?_, rfl⟩, e2, ?_, rfl⟩
  · obtain ⟨bs, h, r⟩ := C52_maxp (newMaxp05 n) rfl
    rw [e1] at h; cases h; exact r
  · obtain ⟨bs, h, r⟩ := C52_maxp (new10 n points contours cpoints ccontours elements depth) rfl
    rw [e2] at h; cases h; exact r

/-- **C108** (number of glyphs). Setting the number of glyphs of any maxp table changes that and nothing else. -/
theorem C108_set_num_glyphs (m : Maxp) (n k : UInt16) : (m.setNumGlyphs n).numGlyphs = n ∧
    (m.setNumGlyphs n).version = m.version ∧ (m.setNumGlyphs n).setNumGlyphs k = m.setNumGlyphs k ∧
    m.setNumGlyphs m.numGlyphs = m := by
  obtain ⟨v, t⟩ := m
  cases t <;> exact ⟨rfl, rfl, rfl, rfl⟩

/-! ### post -/

/-- A version in 32nds, below 256: 1, 2, 2.5 and 3 among them. -/
theorem fromNum_version {n : Nat} (hn : n < 8192) : fromNum ((n : ℚ) / 32) = .ok (UInt32.ofNat (n * 2048)) := by
  have e : (n : ℚ) / 32 * 65536 = ((n * 2048 : ℤ) : ℚ) := by push_cast; ring
  unfold fromNum
  rw [e, rhe_int]
  simp only
  rw [if_pos (by constructor <;> omega)]
  congr 2

theorem version_bits {n : Nat} (hn : n < 8192) : (UInt32.ofNat (n * 2048)).toNat = n * 2048 := by
  rw [UInt32.toNat_ofNat']; exact Nat.mod_eq_of_lt (by omega)

theorem postVersion_of {n : Nat} (hn : n < 8192) : PostVersion (UInt32.ofNat (n * 2048)) := by
  unfold PostVersion
  rw [version_bits hn]
  omega

theorem version_two {n : Nat} (hn : n < 8192) : UInt32.ofNat (n * 2048) = 0x20000 ↔ n = 64 := by
  constructor
  · intro h
    have := congrArg UInt32.toNat h
    rw [version_bits hn] at this
    have e : (0x20000 : UInt32).toNat = 131072 := rfl
    omega
  · rintro rfl; rfl

/-- **C108** (post). A new post table of a version in 32nds below 256 is written and reads back with the given fields, the pitch as 1
or 0, and no memory limits; the names come back exactly for version 2. -/
theorem C108_post {n : Nat} (hn : n < 8192) {angle : ℚ} (ha : FixedVal angle) (pos thick : Int16) (mono : Bool)
    (names : Option (List String)) (hv : n = 64 → ∃ v, names = some v ∧ NamesOk v) :
    ∃ p bs, newPost (n / 32) angle pos thick mono names = .ok p ∧ encPost p = .ok bs ∧
      ∃ q r, readPost (Rd.new bs) = .ok (q, r) ∧
        q = { version := UInt32.ofNat (n * 2048), italicAngle := angle, underlinePosition := pos, underlineThickness := thick,
              isFixedPitch := if mono then 1 else 0, minMemType42 := 0, maxMemType42 := 0, minMemType1 := 0, maxMemType1 := 0,
              glyphnames := if n = 64 then names else none } := by
  obtain ⟨p, hp⟩ : ∃ p : Post, p = ⟨UInt32.ofNat (n * 2048), angle, pos, thick, if mono then 1 else 0, 0, 0, 0, 0, names⟩ :=
    ⟨_, rfl⟩
  have e0 : newPost (n / 32) angle pos thick mono names = .ok p := by
    unfold newPost
    rw [fromNum_version hn, Res.ok_bind, hp]
    rfl
  have hok : PostOk p := ⟨by rw [hp]; exact postVersion_of hn, by rw [hp]; exact ha⟩
  have hver : p.version = UInt32.ofNat (n * 2048) := by rw [hp]
  by_cases h : n = 64
  · obtain ⟨v, hv, hnames⟩ := hv h
    obtain ⟨bs, e, r⟩ := C51_names hok (by rw [hver]; exact (version_two hn).2 h) (by rw [hp]; exact hv) hnames
    exact ⟨p, bs, e0, e, _, _, r, by rw [if_pos h, hp]⟩
  · obtain ⟨bs, e, r⟩ := C51_other_versions hok (by rw [hver]; exact fun hc => h ((version_two hn).1 hc))
    have := r [] [] [0]
    simp only [List.nil_append, List.append_nil, List.length_nil] at this
    exact ⟨p, bs, e0, e, _, _, this, by rw [if_neg h, hp]⟩

/-- **C108** (set_version). Changing the version changes nothing else of the table. Setting any version but 2 loses the names on the
way through a file; setting version 2 brings in those the table has. -/
theorem C108_set_version {p : Post} {n : Nat} (hn : n < 8192) (ha : FixedVal p.italicAngle) :
    ∃ q, setVersion p (n / 32) = .ok q ∧ q = { p with version := UInt32.ofNat (n * 2048) } ∧
      (n ≠ 64 → ∃ bs r, encPost q = .ok bs ∧ readPost (Rd.new bs) = .ok ({ q with glyphnames := none }, r)) ∧
      (n = 64 → ∀ v, p.glyphnames = some v → NamesOk v → ∃ bs r, encPost q = .ok bs ∧ readPost (Rd.new bs) = .ok (q, r)) := by
  refine ⟨_, by unfold setVersion; rw [fromNum_version hn, Res.ok_bind]; rfl, rfl, ?_, ?_⟩
  · intro h
    obtain ⟨bs, e, r⟩ := C51_other_versions (p := { p with version := UInt32.ofNat (n * 2048) }) ⟨postVersion_of hn, ha⟩
      (fun hc => h ((version_two hn).1 hc))
    have := r [] [] [0]
    simp only [List.nil_append, List.append_nil, List.length_nil] at this
    exact ⟨bs, _, e, this⟩
  · intro h v hv hok
    obtain ⟨bs, e, r⟩ := C51_names (p := { p with version := UInt32.ofNat (n * 2048) }) ⟨postVersion_of hn, ha⟩
      ((version_two hn).2 h) hv hok
    exact ⟨bs, _, e, r⟩

/-- **C108** (versions that do not fit). A version below -1/131072 or from 65536 on makes `new` and `set_version` panic. -/
theorem C108_version_panics {v : ℚ} (h : v < -1 / 131072 ∨ 65536 ≤ v) (p : Post) (angle : ℚ) (pos thick : Int16) (mono : Bool)
    (names : Option (List String)) : newPost v angle pos thick mono names = .panic ∧ setVersion p v = .panic := by
  have e : fromNum v = .panic := by
    have hb := rhe_bounds (v * 65536)
    unfold fromNum
    simp only
    rw [if_neg]
    rintro ⟨h1, h2⟩
    have g1 : (0 : ℚ) ≤ rhe (v * 65536) := by exact_mod_cast h1
    have g2 : (rhe (v * 65536) : ℚ) ≤ 2 ^ 32 - 1 := by
      have : rhe (v * 65536) ≤ 2 ^ 32 - 1 := by omega
      exact_mod_cast this
    rcases h with h | h
    · linarith [hb.2]
    · linarith [hb.1]
  exact ⟨by unfold newPost; rw [e]; rfl, by unfold setVersion; rw [e]; rfl⟩

/-- **C108** (versions just above 2). A version above 2 by up to 409/65536 is not version 2, so no names are written; but what is written
is version 2, so the table cannot be read. -/
theorem C108_just_above_two {p : Post} (h1 : 0x20000 < p.version.toNat) (h2 : p.version.toNat ≤ 0x20000 + 409)
    (ha : FixedVal p.italicAngle) : ∃ bs, encPost p = .ok bs ∧ readPost (Rd.new bs) = .err := by
  have h20 : PostVersion 0x20000 := by decide
  obtain ⟨bs, e, r⟩ := C51_names_missing (p := { p with version := 0x20000, glyphnames := none }) ⟨h20, ha⟩ rfl rfl
  refine ⟨bs, ?_, r⟩
  rw [← e]
  have ev : encVersion16Dot16 p.version = encVersion16Dot16 0x20000 := by
    have a : p.version.toNat / 65536 = 2 := by omega
    have b : p.version.toNat % 65536 * 160 / 65536 = 0 := by omega
    unfold encVersion16Dot16
    simp only [a, b]
    rfl
  have hne : p.version ≠ 0x20000 := by
    intro hc
    rw [hc] at h1
    exact absurd h1 (by decide)
  unfold encPost encPostCore
  simp only [ev, if_neg hne]
  rfl

/-! ### STAT -/

/-- The axis values which the four constructors make. -/
inductive Made : Stat.AxisValue → Prop
  | format1 (axis flags name : UInt16) (value : ℚ) : Made (newFormat1 axis flags name value)
  | format2 (axis flags name : UInt16) (value lo hi : ℚ) : Made (newFormat2 axis flags name value lo hi)
  | format3 (axis flags name : UInt16) (value linked : ℚ) : Made (newFormat3 axis flags name value linked)
  | format4 (flags name : UInt16) (mapping : List (UInt16 × ℚ)) : Made (newFormat4 flags name mapping)

/-- **C108** (axis values). The values the constructors make are exactly those that fit one format. -/
theorem C108_made_iff (v : Stat.AxisValue) : Made v ↔ Stat.Plain v := by
  constructor
  · rintro (⟨⟩ | ⟨⟩ | ⟨⟩ | ⟨⟩)
    · exact ⟨rfl, rfl, .inl rfl⟩
    · exact ⟨rfl, rfl, .inr rfl⟩
    · exact ⟨rfl, rfl, .inl rfl⟩
    · exact ⟨rfl, rfl, rfl, rfl⟩
  · obtain ⟨ax, fl, nm, nom, rg, lk, loc⟩ := v
    cases loc with
    | some m =>
      rintro ⟨h1, h2, h3, h4⟩
      simp only at h1 h2 h3 h4
      subst h1 h2 h3 h4
      exact .format4 fl nm m
    | none =>
      rintro ⟨h1, h2, h3⟩
      simp only at h1 h2 h3
      obtain ⟨a, rfl⟩ := Option.isSome_iff_exists.1 h1
      obtain ⟨x, rfl⟩ := Option.isSome_iff_exists.1 h2
      cases rg with
      | none => cases lk with
        | none => exact .format1 a fl nm x
        | some l => exact .format3 a fl nm x l
      | some q =>
        rcases h3 with h3 | h3
        · exact absurd h3 (by simp)
        · subst h3
          exact .format2 a fl nm x q.1 q.2

/-- **C108** (STAT). A table with a fallback name and values made by the constructors reads back equal. -/
theorem C108_stat {t : Stat.Table} (h : Stat.TableOk t) (he : t.elided.isSome) (hm : ∀ v ∈ t.values, Made v) :
    ∃ bs, Stat.encStat t = .ok bs ∧ ∀ pre rest stk, ∃ ptr, Stat.readStat ⟨pre ++ bs ++ rest, pre.length, stk⟩ =
      .ok (t, ⟨pre ++ bs ++ rest, ptr, pre.length :: stk⟩) := by
  obtain ⟨bs, e, _, r⟩ := Stat.C71_roundtrip h
  have hk : Stat.keptTable t = t := by
    obtain ⟨el, ax, vs⟩ := t
    obtain ⟨x, rfl⟩ := Option.isSome_iff_exists.1 he
    unfold Stat.keptTable
    simp only [Option.getD_some]
    congr 1
    conv_rhs => rw [← List.map_id vs]
    apply List.map_congr_left
    intro v hv
    exact (Stat.C71_plain (h.values v hv).axis).2 ((C108_made_iff v).1 (hm v hv))
  rw [hk] at r
  exact ⟨bs, e, r⟩

/-! ### Examples -/

/-- A font of revision 1.1 (as an `f32`), made half a second past a full one. -/
example : IsF32 (9227469 / 8388608) ∧ |(9227469 / 8388608 : ℚ)| < 32768 ∧ DateOk ⟨3876422400, 500000000⟩ ∧
    (encHead (newHead ⟨3876422400, 500000000⟩ ⟨3876422400, 500001000⟩ (9227469 / 8388608) 1000 0 (-200) 600 800)).take 8 =
      [0, 1, 0, 0, 0, 1, 0x19, 0x9A] := by
  refine ⟨by unfold IsF32; decide +kernel, by norm_num [abs_of_pos], by unfold DateOk; decide, by decide +kernel⟩

example : FixedVal 0 ∧ NamesOk [".notdef", "A", "uni20B9"] :=
  ⟨.inl ⟨0, by norm_num, by norm_num⟩, by decide +kernel, by decide +kernel, by decide +kernel⟩

/-- 2.001 is such a version: its bits are 0x20042. -/
example : fromNum (8392802 / 4194304) = .ok 0x20042 := by decide +kernel

example : Stat.TableOk ⟨some 2, [⟨⟨0x77, 0x67, 0x68, 0x74⟩, 256, 0⟩],
      [newFormat1 0 0 257 300, newFormat2 0 2 258 400 350 450, newFormat3 0 0 259 700 400, newFormat4 0 260 [(0, 900)]]⟩ ∧
    ∀ v ∈ [newFormat1 0 0 257 300, newFormat2 0 2 258 400 350 450, newFormat3 0 0 259 700 400, newFormat4 0 260 [(0, 900)]],
      Made v := by
  have w : ∀ n : ℤ, -32768 ≤ n → n ≤ 32767 → FixedVal n := fun n h1 h2 => fixedVal_int h1 h2
  refine ⟨⟨by decide, by decide, ?_, by decide⟩, ?_⟩
  · intro v hv
    simp only [List.mem_cons, List.not_mem_nil, or_false] at hv
    rcases hv with rfl | rfl | rfl | rfl <;>
      refine ⟨by simp [newFormat1, newFormat2, newFormat3, newFormat4], by decide, ?_, ?_, ?_, ?_⟩ <;>
      simp [newFormat1, newFormat2, newFormat3, newFormat4, BMap.Sorted] <;>
      first
        | exact_mod_cast w 300 (by norm_num) (by norm_num)
        | exact_mod_cast w 400 (by norm_num) (by norm_num)
        | exact_mod_cast w 700 (by norm_num) (by norm_num)
        | exact_mod_cast w 900 (by norm_num) (by norm_num)
        | exact ⟨by exact_mod_cast w 350 (by norm_num) (by norm_num), by exact_mod_cast w 450 (by norm_num) (by norm_num)⟩
  · intro v hv
    simp only [List.mem_cons, List.not_mem_nil, or_false] at hv
    rcases hv with rfl | rfl | rfl | rfl
    · exact .format1 ..
    · exact .format2 ..
    · exact .format3 ..
    · exact .format4 ..

end FT.Props
