import Verif.Props.SpecLayout
import Verif.Props.GlyphSimple

/-!
# C81: the bytes written follow the OpenType specification, tables of varying size
-/

namespace FT.Props
open FT FT.Off FT.F32 FT.Tables FT.AxisMaps FT.Strings

/-! ### `hmtx` -/

/-- The `hmtx` table: `n` pairs of advance width and left side bearing, then left side bearings only. -/
def hmtxRows (l : List Hmtx.Metric) (n : Nat) : List Cell :=
  (l.take n).flatMap (fun m => [u16 m.advanceWidth, i16 m.lsb]) ++ (l.drop n).map (fun m => i16 m.lsb)

theorem lays_metrics (e : Nat) : ∀ (l : List Hmtx.Metric) (i : Nat), Lays (Hmtx.encMetrics e i l) (hmtxRows l (e + 1 - i))
  | [], i => by simp only [hmtxRows, Hmtx.encMetrics, List.take_nil, List.drop_nil, List.flatMap_nil, List.map_nil]; exact lays_nil
  | m :: l, i => by
    have ih := lays_metrics e l (i + 1)
    unfold Hmtx.encMetrics
    by_cases h : i ≤ e
    · rw [if_pos h]
      rw [show e + 1 - (i + 1) = e - i from by omega] at ih
      rw [show e + 1 - i = (e - i) + 1 from by omega]
      unfold hmtxRows at ih ⊢
      rw [List.take_succ_cons, List.drop_succ_cons, List.flatMap_cons, List.append_assoc]
      exact ((lays_u16 _).cons (lays_i16 _)).append ih
    · rw [if_neg h]
      rw [show e + 1 - (i + 1) = 0 from by omega] at ih
      rw [show e + 1 - i = 0 from by omega]
      unfold hmtxRows at ih ⊢
      simp only [List.take_zero, List.drop_zero, List.flatMap_nil, List.nil_append, List.map_cons] at ih ⊢
      exact (lays_i16 _).cons ih

/-- The table is laid out with as many full metrics as the writer says (the number that goes to `hhea`). -/
theorem C81_hmtx (l : List Hmtx.Metric) (h : l.length ≤ 65535) :
    (Hmtx.toBytes l).2.toNat ≤ l.length ∧ Follows (Hmtx.toBytes l).1 (hmtxRows l (Hmtx.toBytes l).2.toNat) := by
  cases l with
  | nil => exact ⟨Nat.le_refl _, lays_nil.follows⟩
  | cons m l =>
    have hb : ∀ k, Hmtx.endIndex (m :: l) k ≤ k := by
      intro k
      induction k with
      | zero => exact Nat.le_refl _
      | succ k ih =>
        unfold Hmtx.endIndex
        split
        · omega
        · exact Nat.le_refl _
    have := hb ((m :: l).length - 1)
    have hl : (m :: l).length = l.length + 1 := rfl
    have e : (Hmtx.toBytes (m :: l)).2.toNat = Hmtx.endIndex (m :: l) ((m :: l).length - 1) + 1 := by
      show (UInt16.ofNat _).toNat = _
      rw [ofNat16_toNat (by omega)]
    rw [e]
    exact ⟨by omega, (lays_metrics _ _ 0).follows⟩

/-! ### `avar` and `fvar` -/

/-- The `avar` table. -/
def avarRows (maps : List (List (ℚ × ℚ))) : List Cell :=
  [.num 2 1, .num 2 0, .num 2 0, .num 2 maps.length] ++
    maps.flatMap fun m => .num 2 m.length :: m.flatMap fun x => [f2dot14 x.1, f2dot14 x.2]

theorem C81_avar (maps : List (List (ℚ × ℚ))) (hn : maps.length ≤ 65535) (hm : ∀ m ∈ maps, m.length ≤ 65535)
    (hg : ∀ m ∈ maps, ∀ x ∈ m, OnGrid x.1 ∧ OnGrid x.2) : ∃ bs, encAvar maps = .ok bs ∧ Follows bs (avarRows maps) := by
  have hp : ∀ m ∈ maps, ∃ b, encSegment m = .ok b := by
    intro m h
    obtain ⟨b, hb⟩ := encVecR_ok (enc := encAxisValue) m (by
      intro x hx
      obtain ⟨b1, e1, _⟩ := encF2dot14_grid (hg m h x hx).1
      obtain ⟨b2, e2, _⟩ := encF2dot14_grid (hg m h x hx).2
      exact ⟨b1 ++ b2, by unfold encAxisValue; rw [e1, e2]; rfl⟩)
    exact ⟨_, by unfold encSegment; rw [hb]; rfl⟩
  obtain ⟨b, hb⟩ := encVecR_ok maps hp
  refine ⟨_, by unfold encAvar; rw [hb]; rfl, ?_⟩
  refine ((lays_u16 1).cons <| (lays_u16 0).cons <| (lays_u16 0).cons <| (lays_count hn).cons <| lays_vecR hb ?_).follows
  intro m h c hc
  unfold encSegment at hc
  obtain ⟨d, hd, hc⟩ := Res.bind_inv hc
  cases hc
  refine (lays_count (hm m h)).cons (lays_vecR hd ?_)
  intro x hx y hy
  unfold encAxisValue at hy
  obtain ⟨y1, h1, hy⟩ := Res.bind_inv hy
  obtain ⟨y2, h2, hy⟩ := Res.bind_inv hy
  cases hy
  exact (lays_f2dot14 (hg m h x hx).1 h1).cons (lays_f2dot14 (hg m h x hx).2 h2)

/-- The `fvar` table. Instances either all have a PostScript name or none does. -/
def fvarRows (f : Fvar) (hasNames : Bool) : List Cell :=
  [.num 2 1, .num 2 0, .num 2 16, .num 2 2, .num 2 f.axes.length, .num 2 20, .num 2 f.instances.length,
   .num 2 (4 * f.axes.length + if hasNames then 6 else 4)] ++
  (f.axes.flatMap (fun a => [tag a.axisTag, fixed a.minValue, fixed a.defaultValue, fixed a.maxValue, u16 a.flags,
    u16 a.axisNameID]) ++
  f.instances.flatMap (fun i => [u16 i.subfamilyNameID, .num 2 0] ++ (i.coordinates.map fixed ++
    i.postscriptNameID.toList.map u16)))

theorem C81_fvar (f : Fvar) (bs : Bytes) (h : encFvar f = .ok bs) (ha : f.axes.length ≤ 16382)
    (hi : f.instances.length ≤ 65535)
    (hv : ∀ a ∈ f.axes, FixedVal a.minValue ∧ FixedVal a.defaultValue ∧ FixedVal a.maxValue)
    (hc : ∀ i ∈ f.instances, ∀ x ∈ i.coordinates, FixedVal x) :
    Follows bs (fvarRows f (f.instances.any fun i => i.postscriptNameID.isSome)) := by
  unfold encFvar at h
  simp only at h
  split at h
  · cases h
  · next hn =>
    obtain ⟨ib, hib, h⟩ := Res.bind_inv h
    cases h
    have hcount : ∀ b : Bool, Lays (encU16 (UInt16.ofNat (f.axes.length * 4 + if b = true then 6 else 4)))
        [.num 2 (4 * f.axes.length + if b then 6 else 4)] := by
      intro b
      have := lays_count (n := f.axes.length * 4 + if b = true then 6 else 4) (by split <;> omega)
      convert this using 2
      push_cast
      split <;> simp [mul_comm]
    unfold fvarRows
    refine ((lays_u16 1).cons <| (lays_u16 0).cons <| (lays_u16 16).cons <| (lays_u16 2).cons <| (lays_count (by omega)).cons <|
      (lays_u16 20).cons <| (lays_count hi).cons <| (hcount _).cons <| Lays.append (lays_vec ?_) (lays_vecR hib ?_)).follows
    · intro a ha
      obtain ⟨h1, h2, h3⟩ := hv a ha
      exact (lays_tag _).cons <| (lays_fixed h1).cons <| (lays_fixed h2).cons <| (lays_fixed h3).cons <|
        (lays_u16 _).cons (lays_u16 _)
    · intro i hi b hb
      unfold encInstance at hb
      have hx : Lays (encU16 i.subfamilyNameID ++ (encU16 0 ++ encVec encFixed i.coordinates))
          ([u16 i.subfamilyNameID, .num 2 0] ++ i.coordinates.map fixed) :=
        (lays_u16 _).cons <| (lays_u16 0).cons <| lays_vec1 fun x hx => lays_fixed (hc i hi x hx)
      rw [← List.append_assoc]
      simp only at hb
      split at hb
      · next hs =>
        split at hb
        · next n e =>
          cases hb
          rw [e]
          exact hx.append (lays_u16 n)
        · cases hb
      · next hs =>
        cases hb
        have : i.postscriptNameID = none := by
          rw [Bool.not_eq_true, List.any_eq_false] at hs
          have := hs i hi
          cases e : i.postscriptNameID with
          | none => rfl
          | some => rw [e] at this; exact absurd rfl this
        rw [this]
        simpa using hx

/-! ### `name` -/

/-- The records of the `name` table: each names a piece of the storage area, the strings lying there one after the other. -/
def nameRecordRows : Nat → List (NameRecord × Bytes) → List Cell
  | _, [] => []
  | used, (r, s) :: l => [u16 r.platformID, u16 r.encodingID, u16 r.languageID, u16 r.nameID, .num 2 s.length, .num 2 used] ++
      nameRecordRows (used + s.length) l

/-- The `name` table, version 0, with the strings already encoded. -/
def nameRows (l : List (NameRecord × Bytes)) : List Cell :=
  [.num 2 0, .num 2 l.length, .num 2 (6 + 12 * l.length)] ++ (nameRecordRows 0 l ++ [.text (l.flatMap Prod.snd)])

theorem lays_names (lib : Legacy) : ∀ (rs : List NameRecord) (used : Nat) (recs pool : Bytes),
    encNames lib used rs = .ok (recs, pool) → used + pool.length ≤ 65535 →
    ∃ l : List (NameRecord × Bytes), l.map Prod.fst = rs ∧
      (∀ x ∈ l, ∃ e, getEncoding x.1.platformID x.1.encodingID = .ok e ∧ x.2 = encodeString lib e x.1.string) ∧
      Lays recs (nameRecordRows used l) ∧ pool = l.flatMap Prod.snd
  | [], used, recs, pool, h, _ => by
    cases h
    exact ⟨[], rfl, by simp, lays_nil, rfl⟩
  | r :: rs, used, recs, pool, h, hu => by
    unfold encNames at h
    obtain ⟨e, he, h⟩ := Res.bind_inv h
    obtain ⟨⟨recs', pool'⟩, h', h⟩ := Res.bind_inv h
    cases h
    rw [List.length_append] at hu
    obtain ⟨l, h1, h2, h3, h4⟩ := lays_names lib rs _ _ _ h' (by omega)
    refine ⟨(r, encodeString lib e r.string) :: l, by simp [h1], ?_, ?_, by simp [h4]⟩
    · intro x hx
      rcases List.mem_cons.1 hx with rfl | hx
      · exact ⟨e, he, rfl⟩
      · exact h2 x hx
    · unfold encNameInternal internalRecord nameRecordRows
      refine Lays.append ?_ h3
      exact (lays_u16 _).cons <| (lays_u16 _).cons <| (lays_u16 _).cons <| (lays_u16 _).cons <|
        (lays_count (by omega)).cons (lays_count (by omega))

/-- Each record's string is encoded as its platform and encoding demand. -/
theorem C81_name (lib : Legacy) (rs : List NameRecord) (bs : Bytes) (h : encName lib rs = .ok bs) (hn : rs.length ≤ 65535)
    (hp : bs.length ≤ 65535) : ∃ l : List (NameRecord × Bytes), l.map Prod.fst = rs ∧
      (∀ x ∈ l, ∃ e, getEncoding x.1.platformID x.1.encodingID = .ok e ∧ x.2 = encodeString lib e x.1.string) ∧
      Follows bs (nameRows l) := by
  unfold encName at h
  simp only at h
  split at h
  · next hr =>
    rw [Nat.mod_eq_of_lt (by omega)] at hr h
    obtain ⟨⟨recs, pool⟩, he, h⟩ := Res.bind_inv h
    cases h
    simp only [List.length_append] at hp
    obtain ⟨l, h1, h2, h3, h4⟩ := lays_names lib rs 0 recs pool he (by omega)
    refine ⟨l, h1, h2, ?_⟩
    have hl : l.length = rs.length := by rw [← h1, List.length_map]
    have c1 : Lays (encU16 (UInt16.ofNat rs.length)) [.num 2 l.length] := by rw [hl]; exact lays_count hn
    have c2 : Lays (encU16 (UInt16.ofNat (6 + 12 * rs.length))) [.num 2 (6 + 12 * l.length)] := by
      have := lays_count (n := 6 + 12 * rs.length) (by omega)
      rw [← hl] at this ⊢
      push_cast at this
      exact this
    rw [h4]
    exact ((lays_u16 0).cons <| c1.cons <| c2.cons <| h3.append (lays_text _)).follows
  · cases h

/-! ### `post` -/

/-- The version field of the specification for a version number. -/
def otVersion (v : UInt32) : Option ℤ :=
  if v = 0x10000 then some 0x00010000 else if v = 0x20000 then some 0x00020000
  else if v = 0x28000 then some 0x00025000 else if v = 0x30000 then some 0x00030000 else none

/-- The glyph names which are not standard Macintosh names. -/
def ownNames (ns : List String) : List String := ns.filter fun n => !appleNames.contains n

/-- The index given to name number `k`: its place among the Macintosh names, or 258 plus its place among the others. -/
def nameIndex (ns : List String) (k : Nat) (n : String) : ℤ :=
  if appleNames.contains n then appleNames.idxOf n else 258 + (ownNames (ns.take k)).length

/-- The `post` table; version 2.0 has the number of glyphs, an index for each, and the other names as Pascal strings. -/
def postRows (p : Post) (v : ℤ) : List Cell :=
  [.num 4 v, fixed p.italicAngle, i16 p.underlinePosition, i16 p.underlineThickness, u32 p.isFixedPitch, u32 p.minMemType42,
   u32 p.maxMemType42, u32 p.minMemType1, u32 p.maxMemType1] ++
  match p.version, p.glyphnames with
  | 0x20000, some ns => .num 2 ns.length :: (ns.mapIdx (fun k n => .num 2 (nameIndex ns k n)) ++
      (ownNames ns).flatMap fun n => [.num 1 (utf8 n).length, .text (utf8 n)])
  | _, _ => []

theorem idxOf?_cases (n : String) : (∃ i, appleNames.idxOf? n = some i ∧ appleNames.contains n = true ∧ appleNames.idxOf n = i ∧ i < 258) ∨
    (appleNames.idxOf? n = none ∧ appleNames.contains n = false) := by
  cases h : appleNames.idxOf? n with
  | none =>
    refine .inr ⟨rfl, ?_⟩
    rw [List.idxOf?_eq_none_iff] at h
    simpa using h
  | some i =>
    have h' : List.findIdx? (· == n) appleNames = some i := h
    rw [List.findIdx?_eq_some_iff_findIdx_eq] at h'
    have : appleNames.idxOf n = i := h'.2
    refine .inl ⟨i, rfl, ?_, this, by rw [← appleNames_length]; exact h'.1⟩
    have hm : n ∈ appleNames := by rw [← List.idxOf_lt_length_iff, this]; exact h'.1
    simpa using hm

theorem own_append (a b : List String) : ownNames (a ++ b) = ownNames a ++ ownNames b := List.filter_append ..
theorem own_cons_std {n : String} (h : appleNames.contains n = true) (l : List String) : ownNames (n :: l) = ownNames l := by
  unfold ownNames
  rw [List.filter_cons, h]
  rfl
theorem own_cons_own {n : String} (h : appleNames.contains n = false) (l : List String) :
    ownNames (n :: l) = n :: ownNames l := by
  unfold ownNames
  rw [List.filter_cons, h]
  rfl

theorem lays_glyphNames : ∀ (ns pre : List String), 258 + (ownNames (pre ++ ns)).length ≤ 65536 →
    (∀ n ∈ ns, (utf8 n).length ≤ 255) →
    Lays (encGlyphNames (ownNames pre).length ns).1 (ns.mapIdx fun k n => .num 2 (nameIndex (pre ++ ns) (pre.length + k) n)) ∧
    Lays (encGlyphNames (ownNames pre).length ns).2 ((ownNames ns).flatMap fun n => [.num 1 (utf8 n).length, .text (utf8 n)])
  | [], pre, _, _ => ⟨lays_nil, lays_nil⟩
  | n :: ns, pre, h, hl => by
    have ih := lays_glyphNames ns (pre ++ [n]) (by rw [List.append_assoc]; exact h) (fun m hm => hl m (by simp [hm]))
    rw [List.append_assoc, List.singleton_append] at ih
    rw [List.mapIdx_cons]
    have hidx : (fun k m => Cell.num 2 (nameIndex (pre ++ n :: ns) (pre.length + (k + 1)) m)) =
        fun k m => Cell.num 2 (nameIndex (pre ++ n :: ns) ((pre ++ [n]).length + k) m) := by
      funext k m
      rw [List.length_append, List.length_singleton, Nat.add_assoc, Nat.add_comm 1 k]
    rw [hidx]
    have htake : (pre ++ n :: ns).take pre.length = pre := List.take_left
    unfold encGlyphNames
    rcases idxOf?_cases n with ⟨i, e1, e2, e3, e4⟩ | ⟨e1, e2⟩
    · have ho : (ownNames (pre ++ [n])).length = (ownNames pre).length := by
        rw [own_append, own_cons_std e2]; simp [ownNames]
      have ho' : ownNames (n :: ns) = ownNames ns := own_cons_std e2 _
      rw [ho] at ih
      rw [e1, ho']
      refine ⟨?_, ih.2⟩
      have : Lays (encU16 (UInt16.ofNat i)) [.num 2 (nameIndex (pre ++ n :: ns) (pre.length + 0) n)] := by
        unfold nameIndex
        rw [if_pos e2, e3]
        exact lays_count (by omega)
      exact this.cons ih.1
    · have ho : (ownNames (pre ++ [n])).length = (ownNames pre).length + 1 := by
        rw [own_append, own_cons_own e2]; simp [ownNames]
      have ho' : ownNames (n :: ns) = n :: ownNames ns := own_cons_own e2 _
      rw [ho] at ih
      rw [e1, ho', List.flatMap_cons]
      have hn : (ownNames pre).length + 1 ≤ (ownNames (pre ++ n :: ns)).length := by
        rw [own_append, own_cons_own e2]; simp
      constructor
      · have : Lays (encU16 (UInt16.ofNat (258 + (ownNames pre).length)))
            [.num 2 (nameIndex (pre ++ n :: ns) (pre.length + 0) n)] := by
          unfold nameIndex
          rw [if_neg (by rw [e2]; decide), Nat.add_zero, htake]
          have := lays_count (n := 258 + (ownNames pre).length) (by omega)
          push_cast at this
          exact this
        exact this.cons ih.1
      · have hu := hl n (by simp)
        have : Lays (encU8 (UInt8.ofNat (utf8 n).length)) [.num 1 (utf8 n).length] := by
          have := lays_u8 (UInt8.ofNat (utf8 n).length)
          have e : (UInt8.ofNat (utf8 n).length).toNat = (utf8 n).length := by simp; omega
          rwa [u8, e] at this
        have := (this.cons (lays_text (utf8 n))).append ih.2
        rw [List.append_assoc] at this
        exact this

theorem C81_post (p : Post) (v : ℤ) (hv : otVersion p.version = some v) (ha : FixedVal p.italicAngle)
    (hn : ∀ ns ∈ p.glyphnames, ns.length ≤ 65535 ∧ (ownNames ns).length ≤ 65278 ∧ ∀ n ∈ ns, (utf8 n).length ≤ 255) :
    ∃ bs, encPost p = .ok bs ∧ Follows bs (postRows p v) := by
  obtain ⟨version, italicAngle, up, ut, fp, m1, m2, m3, m4, names⟩ := p
  have hver : ∃ b, encVersion16Dot16 version = .ok b ∧ Lays b [.num 4 v] := by
    unfold otVersion at hv
    simp only at hv
    split at hv
    · next e => subst e; cases hv; exact ⟨[0, 1, 0, 0], by decide, lays_num rfl (by omega) (by decide)⟩
    · split at hv
      · next e => subst e; cases hv; exact ⟨[0, 2, 0, 0], by decide, lays_num rfl (by omega) (by decide)⟩
      · split at hv
        · next e => subst e; cases hv; exact ⟨[0, 2, 0x50, 0], by decide, lays_num rfl (by omega) (by decide)⟩
        · split at hv
          · next e => subst e; cases hv; exact ⟨[0, 3, 0, 0], by decide, lays_num rfl (by omega) (by decide)⟩
          · cases hv
  obtain ⟨vb, e1, l1⟩ := hver
  have hcore := l1.cons <| (lays_fixed ha).cons <| (lays_i16 up).cons <| (lays_i16 ut).cons <| (lays_u32 fp).cons <|
    (lays_u32 m1).cons <| (lays_u32 m2).cons <| (lays_u32 m3).cons (lays_u32 m4)
  simp only at hcore
  unfold encPost encPostCore
  simp only [e1, Res.ok_bind, Res.pure_eq]
  by_cases h2 : version = 0x20000
  · subst h2
    rw [if_pos rfl]
    cases names with
    | none => exact ⟨_, rfl, by simpa [postRows] using hcore.follows⟩
    | some ns =>
      obtain ⟨n1, n2, n3⟩ := hn ns rfl
      have := lays_glyphNames ns [] (by simp only [List.nil_append]; omega) n3
      simp only [List.nil_append, List.length_nil, Nat.zero_add, ownNames, List.filter_nil] at this
      refine ⟨_, rfl, ?_⟩
      exact (hcore.append <| (lays_count n1).cons <| this.1.append this.2).follows
  · rw [if_neg h2]
    refine ⟨_, rfl, ?_⟩
    have : postRows ⟨version, italicAngle, up, ut, fp, m1, m2, m3, m4, names⟩ v =
        [.num 4 v, fixed italicAngle, i16 up, i16 ut, u32 fp, u32 m1, u32 m2, u32 m3, u32 m4] ++ [] := by
      unfold postRows
      simp only
      split
      · next e => exact absurd rfl h2
      · rfl
    rw [this, List.append_nil]
    exact hcore.follows

/-! ### `STAT` -/

/-- An axis value table, format 4, 3, 2 or 1. -/
def statValueRows (v : Stat.AxisValue) : List Cell := match v.locations, v.linked, v.range with
  | some m, _, _ => [.num 2 4, .num 2 m.length, u16 v.flags, u16 v.nameID] ++ m.flatMap fun x => [u16 x.1, fixed x.2]
  | none, some l, _ => [.num 2 3, u16 (v.axisIndex.getD 0), u16 v.flags, u16 v.nameID, fixed (v.nominal.getD 0), fixed l]
  | none, none, some r => [.num 2 2, u16 (v.axisIndex.getD 0), u16 v.flags, u16 v.nameID, fixed (v.nominal.getD 0),
      fixed r.1, fixed r.2]
  | none, none, none => [.num 2 1, u16 (v.axisIndex.getD 0), u16 v.flags, u16 v.nameID, fixed (v.nominal.getD 0)]

/-- The `STAT` table, version 1.2 if an axis value needs it and 1.1 otherwise. The axis value offsets count from the start of
their array. -/
def statRows (t : Stat.Table) : List Cell :=
  [.num 2 1, .num 2 (if ∃ v ∈ t.values, v.locations ≠ none then 2 else 1), .num 2 8, .num 2 t.axes.length,
   if t.axes = [] then .null 4 else .off 4 (t.axes.flatMap fun a => [tag a.tag, u16 a.nameID, u16 a.ordering]),
   .num 2 t.values.length,
   if t.values = [] then .null 4 else .off 4 (t.values.map fun v => .off 2 (statValueRows v)),
   u16 (t.elided.getD 17)]

theorem shown_off {B : Bytes} {base pos w n : Nat} {rows : List Cell} (h : Cell.Shown B base pos (.num w n)) (h0 : 0 < n)
    (h1 : n < 256 ^ w) (hr : Shows B (base + n) (base + n) rows) : Cell.Shown B base pos (.off w rows) := by
  obtain ⟨a, b⟩ := h
  have e : field B pos w = n := by
    have : (n : ℤ) % 256 ^ w = n := Int.emod_eq_of_lt (by omega) (by exact_mod_cast h1)
    rw [this] at b
    exact_mod_cast b
  refine ⟨a, by omega, ?_⟩
  rw [e]; exact hr

theorem shown_null {B : Bytes} {base pos w : Nat} (h : Cell.Shown B base pos (.num w 0)) : Cell.Shown B base pos (.null w) := by
  obtain ⟨a, b⟩ := h
  refine ⟨a, ?_⟩
  simpa using b

theorem fixedVal_zero : FixedVal 0 := by
  have := fixedVal_int (n := 0) (by omega) (by omega)
  simpa using this

theorem lays_statValue {v : Stat.AxisValue} (hv : Stat.ValueOk v) (hm : ∀ m ∈ v.locations, m.length ≤ 65535) {b : Bytes}
    (h : FT.Stat.encAxisValue v = .ok b) : Lays b (statValueRows v) := by
  have hnom : FixedVal (v.nominal.getD 0) := by
    cases e : v.nominal with
    | none => exact fixedVal_zero
    | some x => exact hv.nominal x e
  have hhead : ∀ (k : UInt16) (c : Bytes), FT.Stat.encHead k v = .ok c →
      Lays c [u16 k, u16 (v.axisIndex.getD 0), u16 v.flags, u16 v.nameID] := by
    intro k c hc
    unfold FT.Stat.encHead at hc
    obtain ⟨i, hi, hc⟩ := Res.bind_inv hc
    cases hc
    have : v.axisIndex.getD 0 = i := by
      cases e : v.axisIndex with
      | none => rw [e] at hi; cases hi
      | some j => rw [e] at hi; cases hi; rfl
    rw [this]
    exact (lays_u16 _).cons <| (lays_u16 _).cons <| (lays_u16 _).cons <| lays_u16 _
  unfold FT.Stat.encAxisValue at h
  unfold statValueRows
  cases hl : v.locations with
  | some m =>
    rw [hl] at h
    cases h
    exact (lays_u16 4).cons <| (lays_count (hm m hl)).cons <| (lays_u16 _).cons <| (lays_u16 _).cons <|
      lays_vec fun x hx => (lays_u16 _).cons (lays_fixed ((hv.locations m hl).2 x hx))
  | none =>
    rw [hl] at h
    cases hk : v.linked with
    | some l =>
      rw [hk] at h
      obtain ⟨c, hc, h⟩ := Res.bind_inv h
      cases h
      exact (hhead 3 c hc).append ((lays_fixed hnom).cons (lays_fixed (hv.linked l hk)))
    | none =>
      rw [hk] at h
      cases hr : v.range with
      | some r =>
        rw [hr] at h
        obtain ⟨c, hc, h⟩ := Res.bind_inv h
        cases h
        exact (hhead 2 c hc).append ((lays_fixed hnom).cons <| (lays_fixed (hv.range r hr).1).cons (lays_fixed (hv.range r hr).2))
      | none =>
        rw [hr] at h
        obtain ⟨c, hc, h⟩ := Res.bind_inv h
        cases h
        exact (hhead 1 c hc).append (lays_fixed hnom)

theorem shows_statValues {B : Bytes} {base : Nat} : ∀ (vs : List Stat.AxisValue) (offset : UInt16) (pos : Nat) (os bs : Bytes),
    FT.Stat.encValues offset vs = .ok (os, bs) → 0 < offset.toNat → (∀ v ∈ vs, Stat.ValueOk v) →
    (∀ v ∈ vs, ∀ m ∈ v.locations, m.length ≤ 65535) →
    (∀ v ∈ vs, ∀ b, FT.Stat.encAxisValue v = .ok b → b.length ≤ 65535) →
    os <+: B.drop pos → bs <+: B.drop (base + offset.toNat) →
    Shows B base pos (vs.map fun v => .off 2 (statValueRows v))
  | [], _, _, _, _, _, _, _, _, _, _, _ => trivial
  | v :: vs, offset, pos, os, bs, h, h0, hv, hm, hb, p1, p2 => by
    unfold FT.Stat.encValues at h
    obtain ⟨b, h1, h⟩ := Res.bind_inv h
    obtain ⟨offset', h2, h⟩ := Res.bind_inv h
    obtain ⟨⟨os', bs'⟩, h3, h⟩ := Res.bind_inv h
    cases h
    have hl := hb v (by simp) b h1
    have ho : offset'.toNat = offset.toNat + b.length := by
      unfold FT.Stat.addLen at h2
      split at h2
      · next hlt =>
        cases h2
        rw [ofNat16_toNat hl] at hlt
        rw [UInt16.toNat_add, ofNat16_toNat hl, Nat.mod_eq_of_lt (by omega)]
      · cases h2
    refine ⟨?_, ?_⟩
    · have hn := ((lays_u16 offset).2 B base pos ((List.prefix_append _ _).trans p1)).1
      exact shown_off hn h0 offset.toNat_lt ((lays_statValue (hv v (by simp)) (hm v (by simp)) h1).2 B _ _
        ((List.prefix_append _ _).trans p2))
    · refine shows_statValues vs offset' _ os' bs' h3 (by omega) (fun w hw => hv w (by simp [hw]))
        (fun w hw => hm w (by simp [hw])) (fun w hw => hb w (by simp [hw])) (prefix_right p1) ?_
      rw [ho, ← Nat.add_assoc]
      exact prefix_right p2

theorem C81_stat (t : Stat.Table) (ht : Stat.TableOk t) (bs : Bytes) (h : FT.Stat.encStat t = .ok bs) :
    Shows bs 0 0 (statRows t) := by
  unfold FT.Stat.encStat at h
  obtain ⟨offset, h1, h⟩ := Res.bind_inv h
  obtain ⟨⟨os, bodies⟩, h2, h⟩ := Res.bind_inv h
  cases h
  have hsz : ∀ v ∈ t.values, Stat.size v ≤ 65535 := by
    intro v hv
    have := List.le_sum_of_mem (List.mem_map_of_mem (f := Stat.size) hv)
    have := ht.fits
    omega
  have hn : t.values.length ≤ 32767 := by have := ht.fits; omega
  have hoff : offset.toNat = 2 * t.values.length := by
    unfold FT.Stat.firstOffset at h1
    split at h1
    · cases h1
      rw [UInt16.toNat_mul, ofNat16_toNat (by omega), show UInt16.toNat 2 = 2 from rfl]
      exact Nat.mod_eq_of_lt (by omega)
    · cases h1
  have hax := ht.axisCount
  have hos : ∀ (vs : List Stat.AxisValue) (o : UInt16) (os bs : Bytes), FT.Stat.encValues o vs = .ok (os, bs) →
      os.length = 2 * vs.length := by
    intro vs
    induction vs with
    | nil => intro o os bs h; cases h; rfl
    | cons v vs ih =>
      intro o os bs h
      unfold FT.Stat.encValues at h
      obtain ⟨b, _, h⟩ := Res.bind_inv h
      obtain ⟨o', _, h⟩ := Res.bind_inv h
      obtain ⟨⟨os', bs'⟩, h3, h⟩ := Res.bind_inv h
      cases h
      have := ih _ _ _ h3
      simp only [List.length_append, encU16_length, List.length_cons]
      omega
  have hlen := hos _ _ _ _ h2
  have hcore : Lays (FT.Stat.encCore t) [.num 2 1, .num 2 (if ∃ v ∈ t.values, v.locations ≠ none then 2 else 1), .num 2 8,
      .num 2 t.axes.length, .num 4 ((if t.axes = [] then 0 else 20 : Nat) : ℤ), .num 2 t.values.length,
      .num 4 ((if t.values = [] then 0 else 20 + 8 * t.axes.length : Nat) : ℤ), u16 (t.elided.getD 17)] := by
    unfold FT.Stat.encCore
    refine (lays_u16 1).cons <| Lays.cons ?_ <| (lays_u16 8).cons <| (lays_count hax).cons <| Lays.cons ?_ <|
      (lays_count (by omega)).cons <| Lays.cons ?_ (lays_u16 _)
    · have : (t.values.any (fun v => v.locations.isSome) = true) ↔ ∃ v ∈ t.values, v.locations ≠ none := by
        rw [List.any_eq_true]
        simp only [Option.isSome_iff_ne_none]
      by_cases hc : ∃ v ∈ t.values, v.locations ≠ none
      · rw [if_pos (this.mpr hc), if_pos hc]; exact lays_u16 2
      · rw [if_neg (fun h => hc (this.mp h)), if_neg hc]; exact lays_u16 1
    · cases t.axes with
      | nil => exact lays_u32 0
      | cons => exact lays_u32 20
    · cases t.values with
      | nil => exact lays_u32 0
      | cons v l =>
        have := lays_u32 (UInt32.ofNat (20 + 8 * t.axes.length))
        rw [u32, ofNat32_toNat (by omega)] at this
        exact this
  have haxes : Lays (encVec FT.Stat.encAxis t.axes) (t.axes.flatMap fun a => [tag a.tag, u16 a.nameID, u16 a.ordering]) :=
    lays_vec fun a _ => (lays_tag _).cons <| (lays_u16 _).cons <| lays_u16 _
  generalize hB : FT.Stat.encCore t ++ (encVec FT.Stat.encAxis t.axes ++ (os ++ bodies)) = B
  have p0 : FT.Stat.encCore t <+: B.drop 0 := by rw [← hB]; exact List.prefix_append _ _
  have p1 : encVec FT.Stat.encAxis t.axes ++ (os ++ bodies) <+: B.drop 20 := by
    have := prefix_right (a := FT.Stat.encCore t) (b := encVec FT.Stat.encAxis t.axes ++ (os ++ bodies)) (B := B) (pos := 0)
      (by rw [hB]; simp)
    rwa [Stat.encCore_length, Nat.zero_add] at this
  have p2 : os ++ bodies <+: B.drop (20 + 8 * t.axes.length) := by
    have := prefix_right p1
    rwa [Stat.encAxes_length] at this
  have p3 : bodies <+: B.drop (20 + 8 * t.axes.length + offset.toNat) := by
    have := prefix_right p2
    rwa [hlen, ← hoff] at this
  obtain ⟨c1, c2, c3, c4, c5, c6, c7, c8, -⟩ := hcore.2 B 0 0 p0
  refine ⟨c1, c2, c3, c4, ?_, ?_, ?_, ?_, trivial⟩
  · by_cases e : t.axes = []
    · simp only [if_pos e] at c5 ⊢; exact shown_null c5
    · simp only [if_neg e] at c5 ⊢
      exact shown_off c5 (by omega) (by omega) (by rw [Nat.zero_add]; exact haxes.2 B 20 20 ((List.prefix_append _ _).trans p1))
  · have : (if t.axes = [] then Cell.null 4 else
        .off 4 (t.axes.flatMap fun a => [tag a.tag, u16 a.nameID, u16 a.ordering])).width = 4 := by split <;> rfl
    rw [this]
    exact c6
  · have : (if t.axes = [] then Cell.null 4 else
        .off 4 (t.axes.flatMap fun a => [tag a.tag, u16 a.nameID, u16 a.ordering])).width = 4 := by split <;> rfl
    rw [this]
    by_cases e : t.values = []
    · simp only [if_pos e] at c7 ⊢; exact shown_null c7
    · simp only [if_neg e] at c7 ⊢
      refine shown_off c7 (by omega) (by omega) ?_
      rw [Nat.zero_add]
      have : t.values.length ≠ 0 := by rwa [Ne, List.length_eq_zero_iff]
      refine shows_statValues t.values offset _ os bodies h2 (by omega) ht.values ?_ ?_ ((List.prefix_append _ _).trans p2) p3
      · intro v hv m hm
        have := hsz v hv
        unfold Stat.size at this
        rw [hm] at this
        simp only at this
        omega
      · intro v hv b hb
        rw [Stat.encValue_length hb]
        exact hsz v hv
  · have e1 : (if t.axes = [] then Cell.null 4 else
        .off 4 (t.axes.flatMap fun a => [tag a.tag, u16 a.nameID, u16 a.ordering])).width = 4 := by split <;> rfl
    have e2 : (if t.values = [] then Cell.null 4 else .off 4 (t.values.map fun v => .off 2 (statValueRows v))).width = 4 := by
      split <;> rfl
    rw [e1, e2]
    exact c8

/-! ### `cmap` subtables and the `gvar` header -/

/-- A format 4 subtable. -/
def cmap4Rows (t : Cmap.Cmap4) : List Cell :=
  [u16 t.format, u16 t.length, u16 t.language, u16 t.segCountX2, u16 t.searchRange, u16 t.entrySelector, u16 t.rangeShift] ++
  (t.endCode.map u16 ++ ([u16 t.reservedPad] ++ (t.startCode.map u16 ++ (t.idDelta.map i16 ++ (t.idRangeOffsets.map u16 ++
    t.glyphIdArray.map u16)))))

theorem C81_cmap4 (t : Cmap.Cmap4) : Follows (Cmap.encCmap4 t) (cmap4Rows t) := by
  unfold Cmap.encCmap4 cmap4Rows
  exact ((lays_u16 _).cons <| (lays_u16 _).cons <| (lays_u16 _).cons <| (lays_u16 _).cons <| (lays_u16 _).cons <|
    (lays_u16 _).cons <| (lays_u16 _).cons <| (lays_vec1 fun x _ => lays_u16 x).append <| (lays_u16 _).cons <|
    (lays_vec1 fun x _ => lays_u16 x).append <| (lays_vec1 fun x _ => lays_i16 x).append <|
    (lays_vec1 fun x _ => lays_u16 x).append <| lays_vec1 fun x _ => lays_u16 x).follows

/-- A format 12 subtable. -/
def cmap12Rows (t : Cmap.Cmap12) : List Cell :=
  [u16 t.format, u16 t.reserved, u32 t.length, u32 t.language, .num 4 t.groups.length] ++
  t.groups.flatMap fun g => [u32 g.startCharCode, u32 g.endCharCode, u32 g.startGlyphID]

theorem C81_cmap12 (t : Cmap.Cmap12) (h : t.groups.length ≤ 4294967295) : Follows (Cmap.encCmap12 t) (cmap12Rows t) := by
  unfold Cmap.encCmap12 cmap12Rows
  have : Lays (encU32 (UInt32.ofNat t.groups.length)) [.num 4 t.groups.length] := by
    have := lays_u32 (UInt32.ofNat t.groups.length)
    rwa [u32, ofNat32_toNat h] at this
  exact ((lays_u16 _).cons <| (lays_u16 _).cons <| (lays_u32 _).cons <| (lays_u32 _).cons <| this.cons <|
    lays_vec fun g _ => (lays_u32 _).cons <| (lays_u32 _).cons <| lays_u32 _).follows

/-! ### Examples -/

example : FixedVal 1 ∧ FixedVal (3 / 2) ∧ FixedVal 900 ∧ FixedVal (-25 / 2) :=
  ⟨by simpa using fixedVal_int (n := 1) (by omega) (by omega), .inl ⟨98304, by decide, by norm_num⟩,
   by simpa using fixedVal_int (n := 900) (by omega) (by omega), .inl ⟨-819200, by decide, by norm_num⟩⟩

/-- A version 2 `OS/2` table shows its cap height at offset 88. -/
example (o : Os2.Os2) (h : o.core.version = 2) : (field (Os2.encOs2 o) 88 2 : ℤ) = (o.sCapHeight.getD 0).toInt % 65536 := by
  have := (C81_os2 o).1
  unfold os2Rows at this
  rw [h] at this
  rw [shows_append, shows_append, if_pos (by decide), if_pos (by decide), shows_append] at this
  simp only [widths, List.map_cons, List.map_nil, List.sum_cons, List.sum_nil, Cell.width, List.length_cons,
    List.length_nil] at this
  exact this.2.2.1.2.1.2

example (o : Os2.Os2) : Follows (Os2.encOs2 o) (os2Rows o) := C81_os2 o

/-- Metrics with a monospaced tail, and the number of full ones. -/
example : (Hmtx.toBytes [⟨500, 10⟩, ⟨600, -5⟩, ⟨600, 7⟩]).2 = 2 ∧
    Follows (Hmtx.toBytes [⟨500, 10⟩, ⟨600, -5⟩, ⟨600, 7⟩]).1
      [.num 2 500, .num 2 10, .num 2 600, .num 2 (-5), .num 2 7] :=
  ⟨by decide, (C81_hmtx _ (by decide)).2⟩

/-- A weight axis with two instances. -/
def sampleFvar : Fvar :=
  ⟨[⟨⟨119, 103, 104, 116⟩, 100, 400, 900, 0, 256⟩], [⟨257, 0, [400], none⟩, ⟨258, 0, [900], none⟩]⟩

example : ∃ bs, encFvar sampleFvar = .ok bs ∧ Follows bs (fvarRows sampleFvar false) := by
  have v : ∀ n : ℤ, -32768 ≤ n → n ≤ 32767 → FixedVal (n : ℚ) := fun n a b => fixedVal_int a b
  have v100 := v 100 (by omega) (by omega)
  have v400 := v 400 (by omega) (by omega)
  have v900 := v 900 (by omega) (by omega)
  push_cast at v100 v400 v900
  refine ⟨_, rfl, C81_fvar sampleFvar _ rfl (by decide) (by decide) ?_ ?_⟩
  · intro a ha
    simp only [sampleFvar, List.mem_singleton] at ha
    subst ha
    exact ⟨v100, v400, v900⟩
  · intro i hi x hx
    simp only [sampleFvar, List.mem_cons, List.not_mem_nil, or_false] at hi
    rcases hi with rfl | rfl <;>
    · simp only [List.mem_singleton] at hx
      subst hx
      assumption

/-- Names of both kinds: "A" is Macintosh name 36, the others get 258 and 259. -/
example : [nameIndex ["f_i", "A", "T_h"] 0 "f_i", nameIndex ["f_i", "A", "T_h"] 1 "A", nameIndex ["f_i", "A", "T_h"] 2 "T_h"] =
    [258, 36, 259] := by decide +kernel

example : ∃ bs, encPost ⟨0x20000, 0, -100, 50, 0, 0, 0, 0, 0, some ["f_i", "A", "T_h"]⟩ = .ok bs ∧
    Follows bs (postRows ⟨0x20000, 0, -100, 50, 0, 0, 0, 0, 0, some ["f_i", "A", "T_h"]⟩ 0x20000) :=
  C81_post _ _ rfl fixedVal_zero (by
    intro ns h
    cases h
    exact ⟨by decide, by decide +kernel, by decide +kernel⟩)

end FT.Props
