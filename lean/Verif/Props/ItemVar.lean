import Verif.Lemmas.Tab32
import Verif.Model.ItemVar
import Verif.Props.Fvar

/-!
# C45: item variation data, region lists and item variation stores
-/

namespace FT.Props
open FT FT.Reader FT.F32 FT.Off FT.ItemVar FT.AxisMaps

/-! ## Item variation data -/

/-- Specification: the bytes of one row of deltas, of which the first `k` take two bytes and the others one. -/
inductive RowBytes : Nat → List Int16 → Bytes → Prop
  | nil (k) : RowBytes k [] []
  | word {k d l bs} : RowBytes k l bs → RowBytes (k + 1) (d :: l) (encI16 d ++ bs)
  | byte {d : Int8} {l bs} : RowBytes 0 l bs → RowBytes 0 (d.toInt16 :: l) (encI8 d ++ bs)

theorem reads_row : ∀ {k : Nat} {l : List Int16} {bs : Bytes}, RowBytes k l bs → ∀ (short ix : Nat), k = short - ix →
    Reads (readRow short ix l.length) bs l
  | _, _, _, .nil k, short, ix, _ => Reads.pure _
  | _, _, _, .word (k := k) (d := d) (l := l) h, short, ix, hk => by
    have h' := reads_row h short (ix + 1) (by omega)
    simp only [List.length_cons, readRow]
    rw [if_pos (by omega)]
    exact Reads.bind (reads_i16 d) (h'.map fun l => d :: l)
  | _, _, _, .byte (d := d) (l := l) h, short, ix, hk => by
    have h' := reads_row h short (ix + 1) (by omega)
    simp only [List.length_cons, readRow]
    rw [if_neg (by omega)]
    exact Reads.bind ((reads_i8 d).map Int8.toInt16) (h'.map fun l => d.toInt16 :: l)

/-- Item variation data in the OpenType layout, with any number `k` of two-byte columns, is read as the rows it
describes. -/
theorem C45_data_layout {k : Nat} (hk : k ≤ 65535) {regions : List UInt16} (hr : regions.length ≤ 65535)
    {rows : List (List Int16 × Bytes)} (hn : rows.length ≤ 65535)
    (hrow : ∀ r ∈ rows, r.1.length = regions.length ∧ RowBytes k r.1 r.2) :
    RoundTripsAt readData
      (encU16 (UInt16.ofNat rows.length) ++ encU16 (UInt16.ofNat k) ++ encU16 (UInt16.ofNat regions.length) ++
        encVec encU16 regions ++ rows.flatMap Prod.snd)
      ⟨regions, rows.map Prod.fst⟩ := by
  have hrows : ∀ l : List (List Int16 × Bytes), (∀ r ∈ l, r.1.length = regions.length ∧ RowBytes k r.1 r.2) →
      Reads (deCounted (readRow k 0 regions.length) l.length) (l.flatMap Prod.snd) (l.map Prod.fst) := by
    intro l
    induction l with
    | nil => intro _; exact Reads.deCounted_nil _
    | cons a l ih =>
      intro h
      have h1 := h a (by simp)
      have := reads_row h1.2 k 0 (by omega)
      rw [h1.1] at this
      simp only [List.flatMap_cons, List.map_cons, List.length_cons]
      exact Reads.deCounted_cons this (ih fun r hr => h r (List.mem_cons_of_mem _ hr))
  have e : Reads (deCounted (readRow k 0 regions.length) rows.length) (rows.flatMap Prod.snd) (rows.map Prod.fst) :=
    hrows rows hrow
  show Reads readData _ _
  unfold readData
  have e' : Reads (deCounted (readRow (UInt16.ofNat k).toNat 0 regions.length) (UInt16.ofNat rows.length).toNat)
      (rows.flatMap Prod.snd) (rows.map Prod.fst) := by
    rw [ofNat16_toNat hk, ofNat16_toNat hn]; exact e
  refine Reads.bind' (reads_u16 (UInt16.ofNat rows.length)) (Reads.bind (reads_u16 (UInt16.ofNat k))
    (Reads.bind (reads_counted (enc := encU16) regions hr fun a _ => reads_u16 a)
      (Reads.map (fun d => (⟨regions, d⟩ : Data)) e'))) ?_
  simp [encCounted]

example : RowBytes 1 [300, -2] ([1, 44] ++ ([254] ++ [])) :=
  .word (d := 300) (.byte (d := -2) (.nil 0))

/-- Specification: one delta per region in every row, and counts that fit their fields. -/
structure DataOk (d : Data) : Prop where
  regions : d.regions.length ≤ 65535
  rows : d.deltas.length ≤ 65535
  width : ∀ r ∈ d.deltas, r.length = d.regions.length

theorem encRow_words (short : Nat) : ∀ (l : List Int16) (ix : Nat), ix + l.length ≤ short →
    RowBytes (short - ix) l (encRow short ix l)
  | [], ix, _ => .nil _
  | d :: l, ix, h => by
    simp only [List.length_cons] at h
    have := encRow_words short l (ix + 1) (by omega)
    simp only [encRow]
    rw [if_pos (by omega)]
    have e : short - ix = (short - (ix + 1)) + 1 := by omega
    rw [e]
    exact .word this

/-- Item variation data with one delta per region in every row reads back equal, wherever it is put. -/
theorem C45_data {d : Data} (h : DataOk d) : RoundTripsAt readData (encData d) d := by
  have := C45_data_layout (k := d.regions.length) h.regions h.regions
    (rows := d.deltas.map fun r => (r, encRow d.regions.length 0 r)) (by simpa using h.rows) (by
      intro r hr
      obtain ⟨x, hx, rfl⟩ := List.mem_map.mp hr
      exact ⟨h.width x hx, encRow_words _ x 0 (by simp [h.width x hx])⟩)
  have e1 : (d.deltas.map fun r => (r, encRow d.regions.length 0 r)).map Prod.fst = d.deltas := by
    rw [List.map_map]; exact List.map_id _
  have e2 : (d.deltas.map fun r => (r, encRow d.regions.length 0 r)).flatMap Prod.snd =
      encVec (encRow d.regions.length 0) d.deltas := by
    rw [List.flatMap_map]; rfl
  rw [e1, e2] at this
  simp only [List.length_map] at this
  have e3 : encData d = encU16 (UInt16.ofNat d.deltas.length) ++ encU16 (UInt16.ofNat d.regions.length) ++
      encU16 (UInt16.ofNat d.regions.length) ++ encVec encU16 d.regions ++
      encVec (encRow d.regions.length 0) d.deltas := by
    simp [encData, encCounted]
  rw [e3]
  exact this

example : DataOk ⟨[3, 0], [[-200, 1], [300, -32768], [0, 5]]⟩ := ⟨by decide, by decide, by decide⟩

/-- Rows whose length is not the number of regions are written without complaint: a missing delta swallows bytes
that are not its own or makes the data unreadable, and a surplus delta, shortened to eight bits, shifts the following
rows. -/
theorem C45_data_wrong_width :
    readData (Rd.new (encData ⟨[0, 1], [[1]]⟩)) = .err ∧
    (∃ r, readData (Rd.new (encData ⟨[0], [[], [7]]⟩ ++ [9, 9])) = .ok (⟨[0], [[7], [2313]]⟩, r)) ∧
    (∃ r, readData (Rd.new (encData ⟨[0], [[1, 2], [3]]⟩)) = .ok (⟨[0], [[1], [512]]⟩, r)) := by
  refine ⟨by decide +kernel, ⟨⟨encData ⟨[0], [[], [7]]⟩ ++ [9, 9], 12, [0]⟩, by decide +kernel⟩,
    ⟨⟨encData ⟨[0], [[1, 2], [3]]⟩, 12, [0]⟩, by decide +kernel⟩⟩

/-- With more than 65535 rows the count wraps: only the first rows, as many as the count modulo 65536, are read. -/
theorem C45_data_many_rows {d : Data} (hr : d.regions.length ≤ 65535) (hw : ∀ r ∈ d.deltas, r.length = d.regions.length) :
    ∃ r, readData (Rd.new (encData d)) = .ok (⟨d.regions, d.deltas.take (d.deltas.length % 65536)⟩, r) := by
  obtain ⟨n, hn⟩ : ∃ n, n = d.deltas.length % 65536 := ⟨_, rfl⟩
  have hlt : n ≤ 65535 := by omega
  have hle : n ≤ d.deltas.length := by rw [hn]; exact Nat.mod_le _ _
  have hlen : (d.deltas.take n).length = n := by rw [List.length_take]; omega
  have h := C45_data (d := ⟨d.regions, d.deltas.take n⟩) ⟨hr, by simp only; omega, fun r hr => hw r (List.mem_of_mem_take hr)⟩
  have e : encData d = encData ⟨d.regions, d.deltas.take n⟩ ++ encVec (encRow d.regions.length 0) (d.deltas.drop n) := by
    have e0 : UInt16.ofNat d.deltas.length = UInt16.ofNat n := by
      apply UInt16.toNat_inj.mp
      rw [UInt16.toNat_ofNat', UInt16.toNat_ofNat']; omega
    have e1 : encVec (encRow d.regions.length 0) d.deltas = encVec (encRow d.regions.length 0) (d.deltas.take n) ++
        encVec (encRow d.regions.length 0) (d.deltas.drop n) := by
      rw [← encVec_append, List.take_append_drop]
    unfold encData
    rw [e1, e0]
    simp only [hlen, List.append_assoc]
  rw [← hn, e]
  have := h [] (encVec (encRow d.regions.length 0) (d.deltas.drop n)) [0]
  simp only [List.nil_append, List.length_nil] at this
  exact ⟨_, this⟩

example : (65536 + 1) % 65536 = 1 := rfl

/-! ## Region lists -/

/-- Specification: `y` is `x` with every coordinate rounded to F2DOT14. -/
def RoundedAxis (x y : RegionAxis) : Prop :=
  roundF2dot14 x.start = .ok y.start ∧ roundF2dot14 x.peak = .ok y.peak ∧ roundF2dot14 x.stop = .ok y.stop

/-- Specification: all three coordinates are F2DOT14 numbers. -/
def AxisOnGrid (x : RegionAxis) : Prop := OnGrid x.start ∧ OnGrid x.peak ∧ OnGrid x.stop

theorem reads_regionAxis {x : RegionAxis} {b : Bytes} (h : encRegionAxis x = .ok b) :
    ∃ y, RoundedAxis x y ∧ Reads readRegionAxis b y := by
  unfold encRegionAxis at h
  cases h1 : encF2dot14 x.start with
  | err => rw [h1] at h; simp at h
  | panic => rw [h1] at h; simp at h
  | ok b1 =>
    cases h2 : encF2dot14 x.peak with
    | err => rw [h1, h2] at h; simp at h
    | panic => rw [h1, h2] at h; simp at h
    | ok b2 =>
      cases h3 : encF2dot14 x.stop with
      | err => rw [h1, h2, h3] at h; simp at h
      | panic => rw [h1, h2, h3] at h; simp at h
      | ok b3 =>
        rw [h1, h2, h3] at h; simp only [Res.ok_bind] at h; cases h
        obtain ⟨y1, e1, r1, _⟩ := reads_rounded h1
        obtain ⟨y2, e2, r2, _⟩ := reads_rounded h2
        obtain ⟨y3, e3, r3, _⟩ := reads_rounded h3
        exact ⟨⟨y1, y2, y3⟩, ⟨e1, e2, e3⟩, r1.bind (r2.bind (r3.map fun c => (⟨y1, y2, c⟩ : RegionAxis)))⟩

theorem encRegionAxis_length {x : RegionAxis} {b : Bytes} (h : encRegionAxis x = .ok b) : b.length = 6 := by
  unfold encRegionAxis at h
  obtain ⟨b1, h1, h⟩ := Res.bind_inv h
  obtain ⟨b2, h2, h⟩ := Res.bind_inv h
  obtain ⟨b3, h3, h⟩ := Res.bind_inv h
  cases h
  have two : ∀ {v : ℚ} {b : Bytes}, encF2dot14 v = .ok b → b.length = 2 := by
    intro v b hb
    unfold encF2dot14 at hb
    obtain ⟨p, hp, hb⟩ := Res.bind_inv hb
    cases hb; rfl
  simp [two h1, two h2, two h3]

theorem encVecR_length {α : Type} {enc : α → Res Bytes} {k : Nat} : ∀ {l : List α} {b : Bytes},
    (∀ a ∈ l, ∀ b, enc a = .ok b → b.length = k) → encVecR enc l = .ok b → b.length = k * l.length
  | [], b, _, h => by simp only [encVecR] at h; cases h; rfl
  | a :: l, b, hk, h => by
    simp only [encVecR] at h
    cases ha : enc a with
    | err => rw [ha] at h; simp at h
    | panic => rw [ha] at h; simp at h
    | ok b0 =>
      cases hb : encVecR enc l with
      | err => rw [ha, hb] at h; simp at h
      | panic => rw [ha, hb] at h; simp at h
      | ok b1 =>
        rw [ha, hb] at h; simp only at h; cases h
        have := encVecR_length (fun x hx => hk x (List.mem_cons_of_mem _ hx)) hb
        have := hk a (by simp) _ ha
        simp only [List.length_append, List.length_cons, Nat.mul_add, Nat.mul_one, Nat.add_comm]
        omega

theorem reads_regions {n : Nat} : ∀ (l : List (List RegionAxis)) (b : Bytes), (∀ r ∈ l, r.length = n) →
    encVecR (encVecR encRegionAxis) l = .ok b →
    ∃ ys, List.Forall₂ (List.Forall₂ RoundedAxis) l ys ∧ Reads (deCounted (deCounted readRegionAxis n) l.length) b ys
  | [], b, _, e => by
    simp only [encVecR] at e; cases e
    exact ⟨[], .nil, Reads.deCounted_nil _⟩
  | a :: l, b, hl, e => by
    simp only [encVecR] at e
    cases ha : encVecR encRegionAxis a with
    | err => rw [ha] at e; simp at e
    | panic => rw [ha] at e; simp at e
    | ok b0 =>
      cases hb : encVecR (encVecR encRegionAxis) l with
      | err => rw [ha, hb] at e; simp at e
      | panic => rw [ha, hb] at e; simp at e
      | ok b1 =>
        rw [ha, hb] at e; simp only at e; cases e
        obtain ⟨y, hy, r⟩ := reads_vecR (R := RoundedAxis) (fun x b hb => reads_regionAxis hb) a b0 ha
        rw [hl a (by simp)] at r
        obtain ⟨ys, hys, rs⟩ := reads_regions l b1 (fun m hm => hl m (List.mem_cons_of_mem _ hm)) hb
        exact ⟨y :: ys, .cons hy hys, Reads.deCounted_cons r rs⟩

/-- A region list whose counts are true reads back with every coordinate rounded to F2DOT14. -/
theorem C45_regions_rounded {l : RegionList} (hc : l.regionCount.toNat = l.regions.length)
    (ha : ∀ r ∈ l.regions, r.length = l.axisCount.toNat) {b : Bytes} (h : encRegionList l = .ok b) :
    ∃ rs, List.Forall₂ (List.Forall₂ RoundedAxis) l.regions rs ∧ RoundTripsAt readRegionList b { l with regions := rs } := by
  unfold encRegionList at h
  obtain ⟨b1, h1, h⟩ := Res.bind_inv h
  cases h
  obtain ⟨rs, hr, e⟩ := reads_regions l.regions b1 ha h1
  refine ⟨rs, hr, ?_⟩
  show Reads readRegionList _ _
  unfold readRegionList
  refine Reads.bind (reads_u16 _) (Reads.bind (reads_u16 _) ?_)
  rw [hc]
  exact Reads.map (fun x => ({ l with regions := x } : RegionList)) e

theorem roundedAxis_grid {x y : RegionAxis} (hg : AxisOnGrid x) (h : RoundedAxis x y) : x = y := by
  obtain ⟨_, _, e1⟩ := encF2dot14_grid hg.1
  obtain ⟨_, _, e2⟩ := encF2dot14_grid hg.2.1
  obtain ⟨_, _, e3⟩ := encF2dot14_grid hg.2.2
  obtain ⟨h1, h2, h3⟩ := h
  rw [e1] at h1; rw [e2] at h2; rw [e3] at h3
  cases x; cases y
  simp only at h1 h2 h3
  injection h1 with h1; injection h2 with h2; injection h3 with h3
  subst h1; subst h2; subst h3; rfl

theorem forall₂_mem {α : Type} {R : α → α → Prop} {l m : List α} (h : List.Forall₂ R l m)
    (hi : ∀ a ∈ l, ∀ b, R a b → a = b) : l = m := by
  induction h with
  | nil => rfl
  | cons h _ ih =>
    rw [hi _ (by simp) _ h, ih fun a ha b hb => hi a (List.mem_cons_of_mem _ ha) b hb]

theorem encRegions_grid {regions : List (List RegionAxis)} (hg : ∀ r ∈ regions, ∀ x ∈ r, AxisOnGrid x) :
    ∃ b, encVecR (encVecR encRegionAxis) regions = .ok b := by
  refine encVecR_ok _ fun r hr => encVecR_ok _ fun x hx => ?_
  obtain ⟨g1, g2, g3⟩ := hg r hr x hx
  obtain ⟨b1, e1, _⟩ := encF2dot14_grid g1
  obtain ⟨b2, e2, _⟩ := encF2dot14_grid g2
  obtain ⟨b3, e3, _⟩ := encF2dot14_grid g3
  exact ⟨b1 ++ (b2 ++ b3), by unfold encRegionAxis; rw [e1, e2, e3]; rfl⟩

/-- A region list whose counts are true and whose coordinates are F2DOT14 numbers reads back equal. -/
theorem C45_regions {l : RegionList} (hc : l.regionCount.toNat = l.regions.length)
    (ha : ∀ r ∈ l.regions, r.length = l.axisCount.toNat) (hg : ∀ r ∈ l.regions, ∀ x ∈ r, AxisOnGrid x) :
    ∃ b, encRegionList l = .ok b ∧ RoundTripsAt readRegionList b l := by
  obtain ⟨b, hb⟩ := encRegions_grid hg
  have he : encRegionList l = .ok (encU16 l.axisCount ++ (encU16 l.regionCount ++ b)) := by
    unfold encRegionList; rw [hb]; rfl
  obtain ⟨rs, hr, h⟩ := C45_regions_rounded hc ha he
  have : l.regions = rs := forall₂_mem hr fun r hr m hm => forall₂_mem hm fun x hx y hy =>
    roundedAxis_grid (hg r hr x hx) hy
  rw [← this] at h
  exact ⟨_, he, h⟩

example : AxisOnGrid ⟨0, 1, 1⟩ := by
  refine ⟨⟨0, by norm_num, by norm_num, by norm_num⟩, ⟨16384, by norm_num, by norm_num, by norm_num⟩,
    ⟨16384, by norm_num, by norm_num, by norm_num⟩⟩

/-! ## Item variation stores -/

/-- Specification: a store whose counts fit, whose regions have one entry per axis, with F2DOT14 coordinates. -/
structure StoreOk (s : Store) : Prop where
  regions : s.regions.length ≤ 65535
  axes : ∀ r ∈ s.regions, r.length = s.axisCount.toNat
  grid : ∀ r ∈ s.regions, ∀ x ∈ r, AxisOnGrid x
  data : s.data.length ≤ 65535
  dataOk : ∀ d ∈ s.data, DataOk d

theorem mapL_unwrap_some {α : Type} : ∀ (l : List α), Res.mapL Res.unwrap (l.map some) = .ok l
  | [] => rfl
  | a :: l => by
    have := mapL_unwrap_some l
    simp only [List.map_cons, Res.mapL, Res.unwrap, this]

theorem readsTabN_store {s : Store} (h : StoreOk s) {rb : Bytes}
    (hrb : encRegionList ⟨s.axisCount, UInt16.ofNat s.regions.length, s.regions⟩ = .ok rb) :
    ReadsTabN readStore (storeTab rb s.data) { s with format := 1 } := by
  obtain ⟨b, hb, hr⟩ := C45_regions (l := ⟨s.axisCount, UInt16.ofNat s.regions.length, s.regions⟩)
    (ofNat16_toNat h.regions) h.axes h.grid
  rw [hrb] at hb; cases hb
  have hr' : Reads readRegionList rb ⟨s.axisCount, UInt16.ofNat s.regions.length, s.regions⟩ := hr
  unfold readStore storeTab
  refine ReadsTabN.bind (readsTab_u16 1).near (ReadsTabN.bind (readsTabN_link .w32 false false none hr'.child.near) ?_)
  refine ReadsTabN.bind' (readsTabN_counted2 s.data _ some h.data fun d hd =>
    readsTabN_link .w32 true false none (Reads.child (C45_data (h.dataOk d hd))).near) ?_ (append_nil _).symm
  refine ReadsTabN.bind' (t := .nil) (ReadsTabN.lift rfl) (ReadsTabN.bind' (t := .nil)
    (ReadsTabN.lift (mapL_unwrap_some s.data)) (ReadsTabN.pure _) rfl) rfl

/-- Such a store, if written in at most 65536 bytes, reads back equal but for its format number, which becomes 1. -/
theorem C45_store {s : Store} (h : StoreOk s) {bs : Bytes} (hs : encStore s = .ok bs) (hl : bs.length ≤ 65535) :
    ∃ r, readStore (Rd.new bs) = .ok ({ s with format := 1 }, r) := by
  unfold encStore at hs
  cases hrb : encRegionList ⟨s.axisCount, UInt16.ofNat s.regions.length, s.regions⟩ with
  | err => rw [hrb] at hs; simp at hs
  | panic => rw [hrb] at hs; simp at hs
  | ok rb =>
    rw [hrb] at hs; simp only at hs
    obtain ⟨ext, h1, _, _, h4⟩ := C05_offsets_right _ bs hs [] []
    simp only [List.nil_append, List.append_nil, List.length_nil] at h1 h4
    have := readsTabN_store h hrb bs 0 0 ext [] (by
      intro x hx
      have := h4 x hx
      omega) h1
    exact ⟨_, this⟩

/-- Specification: the number of bytes of a store in the OpenType layout with two-byte deltas. -/
def storeSize (s : Store) : Nat :=
  8 + 4 * s.data.length + (4 + 6 * (s.axisCount.toNat * s.regions.length)) +
    (s.data.map fun d => 6 + 2 * d.regions.length + 2 * (d.regions.length * d.deltas.length)).sum

theorem encRow_length (short : Nat) : ∀ (l : List Int16) (ix : Nat), ix + l.length ≤ short →
    (encRow short ix l).length = 2 * l.length
  | [], _, _ => rfl
  | d :: l, ix, h => by
    simp only [List.length_cons] at h
    have := encRow_length short l (ix + 1) (by omega)
    simp only [encRow, List.length_append, List.length_cons, this]
    rw [if_pos (by omega)]; simp only [encI16_length]; omega

theorem encData_length {d : Data} (h : DataOk d) :
    (encData d).length = 6 + 2 * d.regions.length + 2 * (d.regions.length * d.deltas.length) := by
  have h1 : ∀ l : List (List Int16), (∀ r ∈ l, r.length = d.regions.length) →
      (encVec (encRow d.regions.length 0) l).length = 2 * (d.regions.length * l.length) := by
    intro l
    induction l with
    | nil => intro _; rfl
    | cons a l ih =>
      intro hl
      have ha := hl a (by simp)
      have := ih fun r hr => hl r (List.mem_cons_of_mem _ hr)
      have e := encRow_length d.regions.length a 0 (by omega)
      simp only [encVec_cons, List.length_append, List.length_cons, e, this, ha, Nat.mul_add]
      omega
  simp only [encData, encCounted, List.length_append, encU16_length, h1 _ h.width,
    encVec_length (k := 2) (fun a => encU16_length a)]
  omega

theorem encRegionList_length {s : Store} (h : StoreOk s) {rb : Bytes}
    (hrb : encRegionList ⟨s.axisCount, UInt16.ofNat s.regions.length, s.regions⟩ = .ok rb) :
    rb.length = 4 + 6 * (s.axisCount.toNat * s.regions.length) := by
  unfold encRegionList at hrb
  obtain ⟨b1, h1, hrb⟩ := Res.bind_inv hrb
  cases hrb
  have := encVecR_length (k := 6 * s.axisCount.toNat) (fun r hr b hb => by
    rw [encVecR_length (k := 6) (fun x _ b hb => encRegionAxis_length hb) hb, h.axes r hr]) h1
  simp only [List.length_append, encU16_length, this, Nat.mul_assoc]
  omega

theorem concat_links_size (data : List Data) :
    size (Tab.concat (data.map fun d => Tab.link .w32 true false none (.bytes (encData d)) .nil)) = 4 * data.length ∧
    descSize (Tab.concat (data.map fun d => Tab.link .w32 true false none (.bytes (encData d)) .nil)) false = 0 ∧
    descSize (Tab.concat (data.map fun d => Tab.link .w32 true false none (.bytes (encData d)) .nil)) true =
      (data.map fun d => (encData d).length).sum := by
  induction data with
  | nil => exact ⟨rfl, rfl, rfl⟩
  | cons d l ih =>
    obtain ⟨h1, h2, h3⟩ := ih
    simp only [List.map_cons, Tab.concat, Tab.append, size, descSize, h1, h2, h3, List.length_cons, Width.size,
      List.sum_cons, if_true, Bool.true_eq_false, if_false]
    refine ⟨by omega, trivial, by omega⟩

theorem storeTab_size (rb : Bytes) (data : List Data) :
    size (storeTab rb data) = 8 + 4 * data.length ∧ descSize (storeTab rb data) false = rb.length ∧
    descSize (storeTab rb data) true = (data.map fun d => (encData d).length).sum := by
  obtain ⟨h1, h2, h3⟩ := concat_links_size data
  simp only [storeTab, Tab.append, size, descSize, h1, h2, h3, Width.size, encU16_length, Bool.false_eq_true, if_false,
    if_true, Bool.true_eq_false]
  refine ⟨by omega, by omega, by omega⟩

theorem storeTab_widths (rb : Bytes) (data : List Data) (base d v : Nat) :
    ∀ x ∈ distances (storeTab rb data) base d v, x.1 = .w32 := by
  have h : ∀ (data : List Data) (base d v : Nat), ∀ x ∈ distances (Tab.concat (data.map fun d =>
      Tab.link .w32 true false none (.bytes (encData d)) .nil)) base d v, x.1 = .w32 := by
    intro data
    induction data with
    | nil => intro base d v x hx; simp [Tab.concat, distances] at hx
    | cons a l ih =>
      intro base d v x hx
      simp only [List.map_cons, Tab.concat, Tab.append, distances, List.mem_cons, List.mem_append, List.cons_append,
        List.nil_append] at hx
      rcases hx with rfl | hx
      · rfl
      · exact ih _ _ _ x hx
  intro x hx
  simp only [storeTab, Tab.append, distances, List.mem_cons, List.cons_append, List.nil_append] at hx
  rcases hx with rfl | hx
  · rfl
  · exact h _ _ _ _ x hx

/-- Every such store below four gigabytes is written. -/
theorem C45_store_writes {s : Store} (h : StoreOk s) (hl : storeSize s ≤ 4294967295) :
    ∃ bs, encStore s = .ok bs := by
  obtain ⟨rb, hrb, _⟩ := C45_regions (l := ⟨s.axisCount, UInt16.ofNat s.regions.length, s.regions⟩)
    (ofNat16_toNat h.regions) h.axes h.grid
  have e1 := encRegionList_length h hrb
  obtain ⟨h1, h2, h3⟩ := storeTab_size rb s.data
  have e2 : (s.data.map fun d => (encData d).length).sum =
      (s.data.map fun d => 6 + 2 * d.regions.length + 2 * (d.regions.length * d.deltas.length)).sum := by
    congr 1
    exact List.map_congr_left fun d hd => encData_length (h.dataOk d hd)
  have ht : total (storeTab rb s.data) = storeSize s := by
    unfold total storeSize; rw [h1, h2, h3, e2, e1]
  obtain ⟨bs, hbs⟩ := (C05_outcome (storeTab rb s.data)).1 fun x hx => by
    have := distances_le _ 0 _ _ (total (storeTab rb s.data)) (by unfold total; omega) (by unfold total; omega) x hx
    rw [storeTab_widths _ _ _ _ _ x hx]
    show x.2.2 ≤ 4294967295
    omega
  exact ⟨bs, by unfold encStore; rw [hrb]; exact hbs⟩

/-- A store whose bytes number at most 65535 is written, in exactly that many bytes, and reads back. -/
theorem C45_store_written {s : Store} (h : StoreOk s) (hl : storeSize s ≤ 65535) :
    ∃ bs, encStore s = .ok bs ∧ bs.length = storeSize s ∧
      ∃ r, readStore (Rd.new bs) = .ok ({ s with format := 1 }, r) := by
  obtain ⟨rb, hrb, _⟩ := C45_regions (l := ⟨s.axisCount, UInt16.ofNat s.regions.length, s.regions⟩)
    (ofNat16_toNat h.regions) h.axes h.grid
  have e1 := encRegionList_length h hrb
  obtain ⟨h1, h2, h3⟩ := storeTab_size rb s.data
  have e2 : (s.data.map fun d => (encData d).length).sum =
      (s.data.map fun d => 6 + 2 * d.regions.length + 2 * (d.regions.length * d.deltas.length)).sum := by
    congr 1
    exact List.map_congr_left fun d hd => encData_length (h.dataOk d hd)
  have ht : total (storeTab rb s.data) = storeSize s := by
    unfold total storeSize; rw [h1, h2, h3, e2, e1]
  obtain ⟨bs, hbs⟩ := C05_small_succeeds (storeTab rb s.data) (by omega)
  have hs : encStore s = .ok bs := by unfold encStore; rw [hrb]; exact hbs
  obtain ⟨ext, _, _, g3, _⟩ := C05_offsets_right _ bs hbs [] []
  have hlen : bs.length = storeSize s := by
    obtain ⟨t', hd, D, V, i0, i1, i2, i3, rfl⟩ := toBytes_parts hbs
    have hsz := resolve_sizes _ _ _ _ _ i0
    have l1 := size_shallow _ _ i1
    have l2 := descSize_serDesc _ _ _ i2
    have l3 := descSize_serDesc _ _ _ i3
    rw [hsz.1] at l1
    rw [hsz.2] at l2 l3
    simp only [List.length_append, l1, l2, l3]
    exact ht
  exact ⟨bs, hs, hlen, C45_store h hs (by omega)⟩

example : storeSize ⟨1, 1, [[⟨0, 1, 1⟩]], [⟨[0], [[-200], [-50], [100], [200]]⟩]⟩ = 38 := by decide

example : StoreOk ⟨1, 1, [[⟨0, 1, 1⟩]], [⟨[0], [[-200], [-50], [100], [200]]⟩]⟩ where
  regions := by decide
  axes := by decide
  grid := by
    intro r hr x hx
    simp only [List.mem_singleton] at hr; subst hr
    simp only [List.mem_singleton] at hx; subst hx
    exact ⟨⟨0, by norm_num, by norm_num, by norm_num⟩, ⟨16384, by norm_num, by norm_num, by norm_num⟩,
      ⟨16384, by norm_num, by norm_num, by norm_num⟩⟩
  data := by decide
  dataOk := by
    intro d hd
    simp only [List.mem_singleton] at hd; subst hd
    exact ⟨by decide, by decide, by decide⟩

theorem resolve_raw_inv {bs : Bytes} {r t' : Tab} {base d v : Nat} (h : resolve (.raw bs r) base d v = .ok t') :
    ∃ r', t' = .raw bs r' ∧ resolve r base d v = .ok r' := by
  simp only [resolve] at h
  cases e : resolve r base d v with
  | err => simp [e] at h
  | panic => simp [e] at h
  | ok r' => rw [e] at h; simp only at h; cases h; exact ⟨r', rfl, rfl⟩

theorem resolve_link_inv {w : Width} {vec opt : Bool} {o : Option Nat} {c r t' : Tab} {base d v : Nat}
    (h : resolve (.link w vec opt o c r) base d v = .ok t') :
    ∃ o' c' r', t' = .link w vec opt o' c' r' ∧ setOff w opt ((if vec then v else d) - base) = .ok o' ∧
      resolve r base (if vec then d else d + total c) (if vec then v + total c else v) = .ok r' := by
  simp only [resolve] at h
  cases e0 : setOff w opt ((if vec then v else d) - base) with
  | err => simp [e0] at h
  | panic => simp [e0] at h
  | ok o' =>
    simp only [e0] at h
    cases e1 : resolve c (if vec then v else d) ((if vec then v else d) + size c)
        ((if vec then v else d) + size c + descSize c false) with
    | err => simp [e1] at h
    | panic => simp [e1] at h
    | ok c' =>
      simp only [e1] at h
      cases e2 : resolve r base (if vec then d else d + total c) (if vec then v + total c else v) with
      | err => simp [e2] at h
      | panic => simp [e2] at h
      | ok r' => simp only [e2] at h; cases h; exact ⟨o', c', r', rfl, rfl, rfl⟩

theorem shallow_raw_inv {bs x : Bytes} {r : Tab} (h : shallow (.raw bs r) = .ok x) :
    ∃ y, x = bs ++ y ∧ shallow r = .ok y := by
  simp only [shallow] at h
  cases e : shallow r with
  | err => simp [e] at h
  | panic => simp [e] at h
  | ok y => simp only [e] at h; cases h; exact ⟨y, rfl, rfl⟩

theorem shallow_link_inv {w : Width} {vec opt : Bool} {o : Option Nat} {c r : Tab} {x : Bytes}
    (h : shallow (.link w vec opt o c r) = .ok x) : ∃ n y, o = some n ∧ x = w.enc n ++ y ∧ shallow r = .ok y := by
  simp only [shallow] at h
  cases o with
  | none => simp at h
  | some n =>
    cases e : shallow r with
    | err => simp [e] at h
    | panic => simp [e] at h
    | ok y => simp only [e] at h; cases h; exact ⟨n, y, rfl, rfl, rfl⟩

theorem setOff_inv {w : Width} {opt : Bool} {n m : Nat} (h : setOff w opt n = .ok (some m)) : m = n ∧ n ≤ w.max := by
  unfold setOff at h
  split at h
  · cases h; exact ⟨rfl, by assumption⟩
  · split at h <;> cases h

/-- The fields of a written store start with the format, the offset of the region list, the number of data tables and
the offset of the first one. -/
theorem storeTab_prefix {rb : Bytes} {d : Data} {l : List Data} {bs : Bytes} (h : toBytes (storeTab rb (d :: l)) = .ok bs) :
    ∃ tail, bs = encU16 1 ++ (encU32 (UInt32.ofNat (12 + 4 * l.length)) ++
      (encU16 (UInt16.ofNat (l.length + 1)) ++ (encU32 (UInt32.ofNat (12 + 4 * l.length + rb.length)) ++ tail))) ∧
      12 + 4 * l.length + rb.length ≤ 4294967295 := by
  obtain ⟨h1, h2, h3⟩ := storeTab_size rb (d :: l)
  simp only [List.length_cons] at h1
  obtain ⟨t', hd, D, V, i0, i1, i2, i3, rfl⟩ := toBytes_parts h
  rw [h1, h2] at i0
  unfold storeTab at i0
  simp only [List.map_cons, Tab.concat, Tab.append] at i0
  obtain ⟨t1, rfl, a0⟩ := resolve_raw_inv i0
  obtain ⟨o1, c1, t2, rfl, j1, a1⟩ := resolve_link_inv a0
  obtain ⟨t3, rfl, a2⟩ := resolve_raw_inv a1
  obtain ⟨o2, c2, t4, rfl, j2, a3⟩ := resolve_link_inv a2
  obtain ⟨y1, rfl, b1⟩ := shallow_raw_inv i1
  obtain ⟨n1, y2, rfl, rfl, b2⟩ := shallow_link_inv b1
  obtain ⟨y3, rfl, b3⟩ := shallow_raw_inv b2
  obtain ⟨n2, y4, rfl, rfl, b4⟩ := shallow_link_inv b3
  obtain ⟨k1, m1⟩ := setOff_inv j1
  obtain ⟨k2, m2⟩ := setOff_inv j2
  simp only [Bool.false_eq_true, if_false, if_true, Nat.sub_zero] at k1 k2 m2
  have k1' : n1 = 12 + 4 * l.length := by omega
  have k2' : n2 = 12 + 4 * l.length + rb.length := by omega
  subst k1' k2'
  refine ⟨y4 ++ D ++ V, ?_, ?_⟩
  · simp only [Width.enc, List.append_assoc, List.length_cons]
  · simp only [Width.max] at m2; omega

/-- A store whose region list reaches beyond 65535 bytes from the start is written, but reading it panics. -/
theorem C45_store_far {s : Store} (h : StoreOk s) {bs : Bytes} (hs : encStore s = .ok bs) (hd : s.data ≠ [])
    (hfar : 65535 < 8 + 4 * s.data.length + (4 + 6 * (s.axisCount.toNat * s.regions.length)))
    (hnear : 8 + 4 * s.data.length ≤ 65535) :
    readStore (Rd.new bs) = .panic := by
  unfold encStore at hs
  cases hrb : encRegionList ⟨s.axisCount, UInt16.ofNat s.regions.length, s.regions⟩ with
  | err => rw [hrb] at hs; simp at hs
  | panic => rw [hrb] at hs; simp at hs
  | ok rb =>
    rw [hrb] at hs; simp only at hs
    have e1 := encRegionList_length h hrb
    obtain ⟨d, l, hdl⟩ : ∃ d l, s.data = d :: l := by
      cases e : s.data with
      | nil => exact absurd e hd
      | cons d l => exact ⟨d, l, rfl⟩
    rw [hdl] at hs hfar hnear
    simp only [List.length_cons] at hfar hnear
    obtain ⟨tail, hbs, hmax⟩ := storeTab_prefix hs
    obtain ⟨ext, g1, _, _, g4⟩ := C05_offsets_right _ bs hs [] []
    simp only [List.nil_append, List.append_nil, List.length_nil] at g1 g4
    unfold storeTab at g1
    obtain ⟨x1, x2, -, a1, g1⟩ := holds_append' _ _ _ _ _ _ g1
    obtain ⟨x3, x4, -, a2, g1⟩ := holds_append' _ _ _ _ _ _ g1
    obtain ⟨b, hb, hr⟩ := C45_regions (l := ⟨s.axisCount, UInt16.ofNat s.regions.length, s.regions⟩)
      (ofNat16_toNat h.regions) h.axes h.grid
    rw [hrb] at hb; cases hb
    have hr' : Reads readRegionList rb ⟨s.axisCount, UInt16.ofNat s.regions.length, s.regions⟩ := hr
    have r1 := (readsTab_u16 1) bs 0 0 x1 [] a1
    have off1 : ∃ y, Near 0 y ∧ Holds bs (Tab.link .w32 false false none (.bytes rb) .nil) 0
        (0 + size (Tab.bytes (encU16 1))) y := by
      obtain ⟨off, e1, e2, q1, q2, q3, q4, q5, q6, q7⟩ := a2
      refine ⟨x3, ?_, ⟨off, e1, e2, q1, q2, q3, q4, q5, q6, q7⟩⟩
      have hoff : off = 12 + 4 * l.length := by
        have p1 : encU32 (UInt32.ofNat (12 + 4 * l.length)) <+: bs.drop (0 + size (Tab.bytes (encU16 1))) := by
          rw [hbs]; exact ⟨_, rfl⟩
        have t1 := reads_of_prefix' (readWidth32 (UInt32.ofNat off)) q3 [] (by simp)
        have t2 := reads_of_prefix' (readWidth32 (UInt32.ofNat (12 + 4 * l.length))) p1 [] (by simp)
        rw [t1] at t2
        injection t2 with t2; injection t2 with t2 _
        rw [ofNat32_toNat q2, ofNat32_toNat (by omega)] at t2
        exact t2
      have he1 : e1 = [] := q5.2
      have he2 : e2 = [] := q6
      intro x hx
      rw [q7, he1, he2] at hx
      simp only [List.append_nil, List.mem_singleton] at hx
      subst hx
      simp only; omega
    obtain ⟨y, hy, hyh⟩ := off1
    have r2 := readsTabN_link .w32 false false none hr'.child.near bs 0 _ y [] hy hyh
    unfold readStore
    rw [Reader.bind_run]
    have e0 : Rd.new bs = ⟨bs, 0, [0]⟩ := rfl
    rw [e0, r1]
    simp only
    rw [Reader.bind_run, r2]
    simp only
    rw [Reader.bind_run]
    have r3 : readCounted (readOffset .w32 readData) ⟨bs, 0 + size (Tab.bytes (encU16 1)) +
        size (Tab.link .w32 false false none (.bytes rb) .nil), [0]⟩ = .panic := by
      unfold readCounted
      rw [Reader.bind_run]
      have p1 : encU16 (UInt16.ofNat (l.length + 1)) <+: bs.drop (0 + size (Tab.bytes (encU16 1)) +
          size (Tab.link .w32 false false none (.bytes rb) .nil)) := by
        rw [hbs]; exact ⟨_, rfl⟩
      rw [reads_of_prefix' (reads_u16 _) p1 [0] (by simp)]
      simp only
      rw [ofNat16_toNat (by omega)]
      simp only [deCounted]
      have p2 : encU32 (UInt32.ofNat (12 + 4 * l.length + rb.length)) <+: bs.drop (0 + size (Tab.bytes (encU16 1)) +
          size (Tab.link .w32 false false none (.bytes rb) .nil) + (encU16 (UInt16.ofNat (l.length + 1))).length) := by
        rw [hbs]; exact ⟨_, rfl⟩
      have t2 := reads_of_prefix' (readWidth32 (UInt32.ofNat (12 + 4 * l.length + rb.length))) p2 [0] (by simp)
      rw [ofNat32_toNat (by omega)] at t2
      rw [Reader.bind_run]
      have r4 : readOffset .w32 readData ⟨bs, 0 + size (Tab.bytes (encU16 1)) +
          size (Tab.link .w32 false false none (.bytes rb) .nil) + (encU16 (UInt16.ofNat (l.length + 1))).length, [0]⟩ =
          .panic := by
        unfold readOffset
        rw [Reader.bind_run, t2]
        simp only
        rw [if_neg (by omega), if_pos (by omega)]; rfl
      rw [r4]
    rw [r3]

/-- A store to which `C45_store_far` applies: 110 regions of 100 axes. -/
example : ∃ s bs, StoreOk s ∧ encStore s = .ok bs ∧ s.data ≠ [] ∧
    65535 < 8 + 4 * s.data.length + (4 + 6 * (s.axisCount.toNat * s.regions.length)) ∧ 8 + 4 * s.data.length ≤ 65535 := by
  obtain ⟨s, hs⟩ : ∃ s : Store, s = ⟨1, 100, List.replicate 110 (List.replicate 100 ⟨0, 1, 1⟩), [⟨[], []⟩]⟩ := ⟨_, rfl⟩
  have hok : StoreOk s := by
    subst hs
    refine ⟨by simp, ?_, ?_, by simp, ?_⟩
    · intro r hr; rw [List.eq_of_mem_replicate hr]; simp
    · intro r hr x hx
      rw [List.eq_of_mem_replicate hr] at hx
      rw [List.eq_of_mem_replicate hx]
      exact ⟨⟨0, by norm_num, by norm_num, by norm_num⟩, ⟨16384, by norm_num, by norm_num, by norm_num⟩,
        ⟨16384, by norm_num, by norm_num, by norm_num⟩⟩
    · intro d hd; simp only [List.mem_singleton] at hd; subst hd; exact ⟨by decide, by decide, by decide⟩
  obtain ⟨bs, hbs⟩ := C45_store_writes hok (by subst hs; simp [storeSize])
  exact ⟨s, bs, hok, hbs, by subst hs; simp, by subst hs; simp, by subst hs; simp⟩

/-- A null offset to the region list makes reading panic, whatever follows. -/
theorem C45_null_regions (format : UInt16) (rest : Bytes) :
    readStore (Rd.new (encU16 format ++ (encU32 0 ++ (encU16 0 ++ rest)))) = .panic := by
  generalize hB : encU16 format ++ (encU32 0 ++ (encU16 0 ++ rest)) = B
  have p1 : encU16 format <+: B.drop 0 := by rw [← hB]; exact ⟨_, rfl⟩
  have p2 : encU32 0 <+: B.drop 2 := by rw [← hB]; exact ⟨_, rfl⟩
  have p3 : encU16 0 <+: B.drop 6 := by rw [← hB]; exact ⟨_, rfl⟩
  have r1 := reads_of_prefix' (reads_u16 format) p1 [0] (by simp)
  have r2 : readOffset .w32 readRegionList ⟨B, 2, [0]⟩ = .ok (none, ⟨B, 6, [0]⟩) := by
    unfold readOffset
    rw [Reader.bind_run, reads_of_prefix' (readWidth32 0) p2 [0] (by simp)]
    rfl
  have r3 : readCounted (readOffset .w32 readData) ⟨B, 6, [0]⟩ = .ok ([], ⟨B, 8, [0]⟩) := by
    unfold readCounted
    rw [Reader.bind_run, reads_of_prefix' (reads_u16 0) p3 [0] (by simp)]
    rfl
  unfold readStore
  have e0 : Rd.new B = ⟨B, 0, [0]⟩ := rfl
  rw [Reader.bind_run, e0, r1]
  show (readOffset .w32 readRegionList >>= _) ⟨B, 2, [0]⟩ = _
  rw [Reader.bind_run, r2]
  show (readCounted (readOffset .w32 readData) >>= _) ⟨B, 6, [0]⟩ = _
  rw [Reader.bind_run, r3]
  rfl

/-- A null offset to a table of item variation data makes reading panic although the region list can be read. -/
theorem C45_null_data (format : UInt16) {l : RegionList} {rb : Bytes} (hl : RoundTripsAt readRegionList rb l) (rest : Bytes) :
    readStore (Rd.new (encU16 format ++ (encU32 12 ++ (encU16 1 ++ (encU32 0 ++ (rb ++ rest)))))) = .panic := by
  have r0 := hl (encU16 format ++ (encU32 12 ++ (encU16 1 ++ encU32 0))) rest [0]
  have hB' : encU16 format ++ (encU32 12 ++ (encU16 1 ++ encU32 0)) ++ rb ++ rest =
      encU16 format ++ (encU32 12 ++ (encU16 1 ++ (encU32 0 ++ (rb ++ rest)))) := by simp only [List.append_assoc]
  have hlen : (encU16 format ++ (encU32 12 ++ (encU16 1 ++ encU32 0))).length = 12 := by simp
  rw [hB', hlen] at r0
  generalize hB : encU16 format ++ (encU32 12 ++ (encU16 1 ++ (encU32 0 ++ (rb ++ rest)))) = B at r0 ⊢
  have p1 : encU16 format <+: B.drop 0 := by rw [← hB]; exact ⟨_, rfl⟩
  have p2 : encU32 12 <+: B.drop 2 := by rw [← hB]; exact ⟨_, rfl⟩
  have p3 : encU16 1 <+: B.drop 6 := by rw [← hB]; exact ⟨_, rfl⟩
  have p4 : encU32 0 <+: B.drop 8 := by rw [← hB]; exact ⟨_, rfl⟩
  have r1 := reads_of_prefix' (reads_u16 format) p1 [0] (by simp)
  have r2 : readOffset .w32 readRegionList ⟨B, 2, [0]⟩ = .ok (some l, ⟨B, 6, [0]⟩) := by
    unfold readOffset
    rw [Reader.bind_run, reads_of_prefix' (readWidth32 12) p2 [0] (by simp)]
    simp only
    rw [if_neg (by decide), if_neg (by decide), Reader.bind_run]
    show (followOffset _ >>= _) ⟨B, 6, [0]⟩ = _
    have hf : followOffset (UInt16.ofNat (UInt32.toNat 12)) ⟨B, 6, [0]⟩ = .ok ((), ⟨B, 12, [0]⟩) := by
      have hle : 12 ≤ B.length := by rw [← hB]; simp; omega
      show (if 0 + 12 > B.length then Res.err else .ok ((), (⟨B, 0 + 12, [0]⟩ : Rd))) = _
      rw [if_neg (by omega)]
    rw [Reader.bind_run, hf]
    show (readRegionList >>= _) ⟨B, 12, [0]⟩ = _
    rw [Reader.bind_run, r0]
    rfl
  have r3 : readCounted (readOffset .w32 readData) ⟨B, 6, [0]⟩ = .ok ([none], ⟨B, 12, [0]⟩) := by
    have r4 : readOffset .w32 readData ⟨B, 8, [0]⟩ = .ok (none, ⟨B, 12, [0]⟩) := by
      unfold readOffset
      rw [Reader.bind_run, reads_of_prefix' (readWidth32 0) p4 [0] (by simp)]
      rfl
    unfold readCounted
    rw [Reader.bind_run, reads_of_prefix' (reads_u16 1) p3 [0] (by simp)]
    show (readOffset .w32 readData >>= _) ⟨B, 8, [0]⟩ = _
    rw [Reader.bind_run, r4]
    rfl
  unfold readStore
  have e0 : Rd.new B = ⟨B, 0, [0]⟩ := rfl
  rw [Reader.bind_run, e0, r1]
  show (readOffset .w32 readRegionList >>= _) ⟨B, 2, [0]⟩ = _
  rw [Reader.bind_run, r2]
  show (readCounted (readOffset .w32 readData) >>= _) ⟨B, 6, [0]⟩ = _
  rw [Reader.bind_run, r3]
  rfl

example : readStore (Rd.new [0, 1, 0, 0, 0, 12, 0, 1, 0, 0, 0, 0, 0, 1, 0, 1, 0, 0, 64, 0, 64, 0]) = .panic := by
  obtain ⟨b, h1, h2⟩ := C45_regions (l := ⟨1, 1, [[⟨0, 1, 1⟩]]⟩) (by decide) (by simp) (by
    intro r hr x hx
    simp only [List.mem_singleton] at hr
    subst hr
    simp only [List.mem_singleton] at hx
    subst hx
    exact ⟨⟨0, by norm_num, by norm_num, by norm_num⟩, ⟨16384, by norm_num, by norm_num, by norm_num⟩,
        ⟨16384, by norm_num, by norm_num, by norm_num⟩⟩)
  have hb : encRegionList ⟨1, 1, [[⟨0, 1, 1⟩]]⟩ = .ok [0, 1, 0, 1, 0, 0, 64, 0, 64, 0] := by decide +kernel
  rw [hb] at h1
  cases h1
  exact C45_null_data 1 h2 []

theorem encVecR_all {α : Type} {enc : α → Res Bytes} : ∀ {l : List α} {b : Bytes}, encVecR enc l = .ok b →
    ∀ a ∈ l, ∃ b, enc a = .ok b
  | [], _, _, a, ha => by simp at ha
  | x :: l, b, h, a, ha => by
    simp only [encVecR] at h
    cases hx : enc x with
    | err => rw [hx] at h; simp at h
    | panic => rw [hx] at h; simp at h
    | ok b0 =>
      cases hb : encVecR enc l with
      | err => rw [hx, hb] at h; simp at h
      | panic => rw [hx, hb] at h; simp at h
      | ok b1 =>
        rcases List.mem_cons.mp ha with rfl | ha
        · exact ⟨b0, hx⟩
        · exact encVecR_all hb a ha

/-- A region with a coordinate that is refused by the F2DOT14 writer makes writing the store panic. -/
theorem C45_store_range {s : Store} (h : ∃ r ∈ s.regions, ∃ x ∈ r, encF2dot14 x.start = .err ∨
    encF2dot14 x.peak = .err ∨ encF2dot14 x.stop = .err) : encStore s = .panic := by
  obtain ⟨r, hr, x, hx, h⟩ := h
  unfold encStore
  cases e : encRegionList ⟨s.axisCount, UInt16.ofNat s.regions.length, s.regions⟩ with
  | err => rfl
  | panic => rfl
  | ok b =>
    unfold encRegionList at e
    obtain ⟨b1, h1, _⟩ := Res.bind_inv e
    obtain ⟨b2, h2⟩ := encVecR_all h1 r hr
    obtain ⟨b3, h3⟩ := encVecR_all h2 x hx
    unfold encRegionAxis at h3
    obtain ⟨c1, g1, h3⟩ := Res.bind_inv h3
    obtain ⟨c2, g2, h3⟩ := Res.bind_inv h3
    obtain ⟨c3, g3, h3⟩ := Res.bind_inv h3
    rcases h with h | h | h
    · rw [h] at g1; cases g1
    · rw [h] at g2; cases g2
    · rw [h] at g3; cases g3

example : encStore ⟨1, 1, [[⟨0, 1, 2⟩]], []⟩ = .panic :=
  C45_store_range ⟨[⟨0, 1, 2⟩], List.mem_singleton_self _, ⟨0, 1, 2⟩, List.mem_singleton_self _,
    .inr (.inr (by unfold encF2dot14; rw [C04_f2dot14_two_refused]; rfl))⟩

end FT.Props
