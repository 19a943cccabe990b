import Verif.Lemmas.Cmap4b
import Verif.Props.Cmap12

/-!
C34: format 4 character maps.
-/

namespace FT.Props
open FT Reader FT.Cmap

/-! ### Specification -/

/-- OpenType's lookup of character `c` in a format 4 subtable (at the beginning of `bs`): the first segment whose end is
not below `c` decides; glyph 0 if it starts after `c`; otherwise add the delta to the character, or to the entry of
the glyph array found from the place of the range offset field (0 stays 0). -/
def Lookup4 (bs : Bytes) (c g : Nat) : Prop :=
  let n := field bs 6 2 / 2
  let endAt := fun i => field bs (14 + 2 * i) 2
  let startAt := fun i => field bs (16 + 2 * n + 2 * i) 2
  let deltaAt := fun i => field bs (16 + 4 * n + 2 * i) 2
  let place := fun i => 16 + 6 * n + 2 * i
  let rangeOffset := fun i => field bs (place i) 2
  ∃ i < n, (∀ j < i, endAt j < c) ∧ c ≤ endAt i ∧
    g = if c < startAt i then 0
      else if rangeOffset i = 0 then (c + deltaAt i) % 65536
      else
        let x := field bs (place i + rangeOffset i + 2 * (c - startAt i)) 2
        if x = 0 then 0 else (x + deltaAt i) % 65536

/-- The glyph of a character in a map, 0 if there is none. -/
def GlyphOf (m : Map) (c g : Nat) : Prop := Lists m c g ∨ (g = 0 ∧ ∀ g', ¬ Lists m c g')

/-- The format 4 subtable for a map. -/
abbrev sub4 (p e lang : UInt16) (m : Map) : Subtable := ⟨4, p, e, lang, m, none⟩

/-! ### Building -/

/-- Shape of a successfully built subtable. -/
structure Built (m : Map) (lang : UInt16) (t : Cmap4) (segs : List (Nat × Nat)) (ds : List Int16) (os : List UInt16) : Prop where
  codesEq : segs.flatMap codes = m.map (fun x => x.1.toNat)
  bounds : ∀ x ∈ segs, x.1 ≤ x.2 ∧ x.2 ≤ 65534
  format : t.format = 4
  length : t.length = UInt16.ofNat (t.glyphIdArray.length * 2 + 16 + 8 * (UInt16.ofNat (segs.length + 1)).toNat)
  language : t.language = lang
  seg : t.segCountX2 = UInt16.ofNat ((UInt16.ofNat (segs.length + 1)).toNat * 2)
  small : (UInt16.ofNat (segs.length + 1)).toNat * 2 ≤ 65535
  starts : t.startCode = (segs.map Prod.fst ++ [65535]).map UInt16.ofNat
  ends : t.endCode = (segs.map Prod.snd ++ [65535]).map UInt16.ofNat
  delta : t.idDelta = ds ++ [1]
  offs : t.idRangeOffsets = os ++ [0]
  loop : deltaLoop m (segs.length + 1) 0 segs [] = .ok (ds, os, t.glyphIdArray)
  search : Font.getSearchRange (UInt16.ofNat (segs.length + 1)) 2 = .ok (t.searchRange, t.entrySelector, t.rangeShift)

theorem keys_asc {m : Map} (hs : BMap.Sorted m) : (m.map (fun x => x.1.toNat)).Pairwise (· < ·) := by
  rw [List.pairwise_map]
  exact hs.imp (fun h => by simpa [Key.lt] using h)

theorem zip_fst_snd : ∀ (l : List (Nat × Nat)), (l.map Prod.fst).zip (l.map Prod.snd) = l
  | [] => rfl
  | x :: l => by simp [zip_fst_snd l]

/-- What the segmentation of a map with codes below 0xFFFF is. -/
theorem segs_of {m : Map} (hs : BMap.Sorted m) {c0 : Nat} {cs : List Nat} (hm : m.map (fun x => x.1.toNat) = c0 :: cs)
    (hk : ∀ c ∈ m.map (fun x => x.1.toNat), c ≤ 65534) :
    ∃ e l, segLoop m c0 c0 cs = .ok (l.map Prod.fst, e :: l.map Prod.snd) ∧
      ((c0, e) :: l).flatMap codes = m.map (fun x => x.1.toNat) ∧ ∀ x ∈ (c0, e) :: l, x.1 ≤ x.2 ∧ x.2 ≤ 65534 := by
  have hp := keys_asc hs
  have hg : ∀ c ∈ c0 :: cs, ∃ g, BMap.get? m (UInt32.ofNat c) = some g := fun c hc => get_some_of_mem hs (by rw [hm]; exact hc)
  rw [hm] at hp hk
  obtain ⟨e, l, e1, e2, e3⟩ := segLoop_ok m hs cs c0 c0 (Nat.le_refl _) (hk c0 (by simp)) (hg c0 (by simp)) hp
    (fun c hc => ⟨hk c (by simp [hc]), hg c (by simp [hc])⟩)
  refine ⟨e, l, e1, ?_, e3⟩
  rw [e2, hm]
  simp only [codes]
  rw [show c0 + 1 - c0 = 1 by omega]
  rfl

theorem fromMapping4_high (lang : UInt16) (m : Map) (hs : BMap.Sorted m) (h : ∃ x ∈ m, 65535 ≤ x.1.toNat) :
    fromMapping4 lang m = .panic := by
  unfold fromMapping4
  split
  · rfl
  · rename_i c0 cs hm
    have hp := keys_asc hs
    have hg : ∀ c ∈ c0 :: cs, ∃ g, BMap.get? m (UInt32.ofNat c) = some g := fun c hc => get_some_of_mem hs (by rw [hm]; exact hc)
    simp only [toU16]
    by_cases hc0 : 65535 < c0
    · rw [if_pos hc0]; rfl
    rw [if_neg hc0]
    simp only [Res.ok_bind]
    rw [hm] at hp
    have hbig : ∃ c ∈ c0 :: cs, 65535 ≤ c := by
      obtain ⟨x, hx, h⟩ := h
      exact ⟨x.1.toNat, by rw [← hm]; exact List.mem_map.mpr ⟨x, hx, rfl⟩, h⟩
    rcases segLoop_high m cs c0 c0 (Nat.le_refl _) (hg c0 (by simp)) hp (fun c hc => hg c (by simp [hc])) hbig with h | ⟨e, l, h, hx⟩
    · rw [h]; rfl
    · rw [h]
      simp only [Res.ok_bind]
      have : (c0 :: l.map Prod.fst).zip (e :: l.map Prod.snd) = (c0, e) :: l := zip_fst_snd ((c0, e) :: l)
      rw [this, deltaLoop_high m _ _ _ _ hx]
      rfl

theorem built_of_ok {lang : UInt16} {m : Map} (hs : BMap.Sorted m) {t : Cmap4} (h : fromMapping4 lang m = .ok t) :
    ∃ segs ds os, Built m lang t segs ds os := by
  have hk : ∀ c ∈ m.map (fun x => x.1.toNat), c ≤ 65534 := by
    intro c hc
    obtain ⟨x, hx, rfl⟩ := List.mem_map.mp hc
    rcases Nat.lt_or_ge x.1.toNat 65535 with h' | h'
    · omega
    · rw [fromMapping4_high lang m hs ⟨x, hx, h'⟩] at h; cases h
  unfold fromMapping4 at h
  split at h
  · cases h
  · rename_i c0 cs hm
    obtain ⟨e, l, e1, e2, e3⟩ := segs_of hs hm hk
    have hc0 : c0 ≤ 65534 := hk c0 (by rw [hm]; simp)
    simp only [toU16] at h
    rw [if_neg (by omega)] at h
    simp only [Res.ok_bind, e1] at h
    have hz : (c0 :: l.map Prod.fst).zip (e :: l.map Prod.snd) = (c0, e) :: l := zip_fst_snd ((c0, e) :: l)
    rw [hz] at h
    obtain ⟨⟨ds, os, gs⟩, h1, h⟩ := Res.bind_inv h
    obtain ⟨⟨sr, es, rs⟩, h2, h⟩ := Res.bind_inv h
    split at h
    · cases h
    rename_i hsm
    simp only [pure, Res.ok.injEq] at h
    subst h
    have hlen : (e :: l.map Prod.snd).length + 1 = ((c0, e) :: l).length + 1 := by simp
    rw [hlen] at h1 h2 hsm
    refine ⟨(c0, e) :: l, ds, os, ⟨e2, e3, rfl, ?_, rfl, ?_, by omega, rfl, rfl, rfl, rfl, h1, h2⟩⟩
    · simp only [hlen]
    · simp only [hlen]

theorem glyphAt_of_mem {m : Map} (hs : BMap.Sorted m) {x : UInt32 × UInt16} (hx : x ∈ m) : glyphAt m x.1.toNat = x.2 := by
  unfold glyphAt
  have : BMap.get? m (UInt32.ofNat x.1.toNat) = some x.2 := (BMap.get?_eq_some hs).mpr (by simpa using hx)
  rw [this]; rfl

theorem insertAll_keys {m : Map} (hs : BMap.Sorted m) : insertAll m (m.map (fun x => x.1.toNat)) [] = m := by
  have : (m.map (fun x => x.1.toNat)).map (fun c => (UInt32.ofNat c, glyphAt m c)) = m := by
    rw [List.map_map]
    conv => rhs; rw [← List.map_id m]
    apply List.map_congr_left
    intro x hx
    simp only [Function.comp, id, glyphAt_of_mem hs hx]
    simp
  unfold insertAll
  rw [this]
  exact BMap.collect_of_sorted hs

/-! ### Reading -/

/-- The subtable as it is read: the search fields are not kept. -/
def asRead (t : Cmap4) : Cmap4 := { t with searchRange := 0, entrySelector := 0, rangeShift := 0, reservedPad := 0 }

theorem reads_skip (bs : Bytes) {n : Nat} (h : bs.length = n) : Reads (skip n) bs () := by
  intro pre rest stk
  subst h
  simp [skip]

theorem reads_orEmpty {α : Type} {p : Reader (List α)} {bs : Bytes} {a : List α} (h : Reads p bs a) : Reads (orEmpty p) bs a := by
  intro pre rest stk
  unfold orEmpty
  rw [h pre rest stk]

theorem reads_cmap4 (t : Cmap4) (n : Nat) (h1 : t.segCountX2.toNat = n * 2) (h2 : t.endCode.length = n)
    (h3 : t.startCode.length = n) (h4 : t.idDelta.length = n) (h5 : t.idRangeOffsets.length = n)
    (h6 : t.length.toNat = t.glyphIdArray.length * 2 + 16 + 8 * n) : Reads readCmap4 (encCmap4 t) (asRead t) := by
  have hn : t.segCountX2.toNat / 2 = n := by omega
  unfold readCmap4
  refine (reads_u16 _).bind ((reads_u16 _).bind ((reads_u16 _).bind ((reads_u16 _).bind ?_)))
  simp only [hn]
  have e1 : encU16 t.searchRange ++ (encU16 t.entrySelector ++ (encU16 t.rangeShift ++ (encVec encU16 t.endCode ++ (encU16 t.reservedPad ++
      (encVec encU16 t.startCode ++ (encVec encI16 t.idDelta ++ (encVec encU16 t.idRangeOffsets ++
      encVec encU16 t.glyphIdArray))))))) =
      (encU16 t.searchRange ++ (encU16 t.entrySelector ++ encU16 t.rangeShift)) ++ (encVec encU16 t.endCode ++ (encU16 t.reservedPad ++
      (encVec encU16 t.startCode ++ (encVec encI16 t.idDelta ++ (encVec encU16 t.idRangeOffsets ++
      encVec encU16 t.glyphIdArray))))) := by simp only [List.append_assoc]
  rw [e1]
  refine (reads_skip _ (by simp)).bind ?_
  refine (reads_deCounted' h2.symm (fun x _ => reads_u16 x)).bind ((reads_skip _ (by simp)).bind ?_)
  refine (reads_deCounted' h3.symm (fun x _ => reads_u16 x)).bind ?_
  refine (reads_deCounted' h4.symm (fun x _ => reads_i16 x)).bind ?_
  refine (reads_deCounted' h5.symm (fun x _ => reads_u16 x)).bind ?_
  rw [if_neg (by omega)]
  exact (reads_orEmpty (reads_deCounted' (by omega) (fun x _ => reads_u16 x))).map
    (fun g => (⟨t.format, t.length, t.language, t.segCountX2, 0, 0, 0, t.endCode, 0, t.startCode, t.idDelta, t.idRangeOffsets, g⟩ : Cmap4))

/-- Reading a format 4 subtable at its place in a table. -/
theorem read4 {t : Cmap4} (hr : Reads readCmap4 (encCmap4 t) (asRead t)) (hf : t.format = 4) (p e : UInt16)
    (pre post : Bytes) (ptr base : Nat) (stk : List Nat) (off : UInt32) (ho : base + off.toNat = pre.length) :
    readSubtable ⟨p, e, off⟩ ⟨pre ++ encCmap4 t ++ post, ptr, base :: stk⟩ = match toMapping4 (asRead t) with
      | .ok m => .ok (⟨4, p, e, t.language, m, none⟩,
          ⟨pre ++ encCmap4 t ++ post, pre.length + (encCmap4 t).length, base :: stk⟩)
      | .err => .err
      | .panic => .panic := by
  have h1 := hr pre post (base :: stk)
  have h2 : peek 2 ⟨pre ++ encCmap4 t ++ post, pre.length, base :: stk⟩ =
      .ok ([0, 4], ⟨pre ++ encCmap4 t ++ post, pre.length, base :: stk⟩) := by
    unfold peek
    rw [if_neg (by simp [encCmap4])]
    simp only [List.append_assoc, List.drop_append_length]
    simp only [encCmap4, hf]
    rfl
  unfold readSubtable
  rw [Reader.bind_run]
  simp only [topOfTable]
  rw [Reader.bind_run]
  simp only [setPtr, ho]
  rw [Reader.bind_run, h2]
  simp only
  rw [if_neg (by decide), if_pos trivial, Reader.bind_run, h1]
  simp only
  rw [Reader.bind_run]
  cases toMapping4 (asRead t) <;> rfl

/-- Size in bytes of a built subtable. -/
theorem encCmap4_length {m : Map} {lang : UInt16} {t : Cmap4} {segs : List (Nat × Nat)} {ds : List Int16} {os : List UInt16}
    (b : Built m lang t segs ds os) (hl : ds.length = segs.length ∧ os.length = segs.length) :
    (encCmap4 t).length = 16 + 8 * (segs.length + 1) + 2 * t.glyphIdArray.length := by
  simp only [encCmap4, List.length_append, encVec_length (k := 2) (enc := encU16) (fun _ => rfl),
    encVec_length (k := 2) (enc := encI16) (fun _ => rfl), encU16_length, b.starts, b.ends, b.delta, b.offs,
    List.length_map, List.length_cons, List.length_nil, hl.1, hl.2]
  omega

theorem deltaLoop_lengths (m : Map) (n : Nat) : ∀ (l : List (Nat × Nat)) (i : Nat) (gia : List UInt16) (ds : List Int16)
    (os gs : List UInt16), deltaLoop m n i l gia = .ok (ds, os, gs) → ds.length = l.length ∧ os.length = l.length
  | [], i, gia, ds, os, gs, h => by
    simp only [deltaLoop] at h
    cases h; exact ⟨rfl, rfl⟩
  | (s, e) :: l, i, gia, ds, os, gs, h => by
    simp only [deltaLoop] at h
    split at h
    · cases h
    obtain ⟨b, hb, h⟩ := Res.bind_inv h
    cases b with
    | true =>
      rw [if_pos rfl] at h
      split at h
      · cases h
      obtain ⟨⟨ds', os', gs'⟩, h1, h2⟩ := Res.bind_inv h
      simp only [pure, Res.ok.injEq, Prod.mk.injEq] at h2
      obtain ⟨rfl, rfl, rfl⟩ := h2
      have := deltaLoop_lengths m n l (i + 1) _ ds' os' _ h1
      simp [this]
    | false =>
      rw [if_neg (by simp)] at h
      split at h
      · cases h
      obtain ⟨⟨ds', os', gs'⟩, h1, h2⟩ := Res.bind_inv h
      simp only [pure, Res.ok.injEq, Prod.mk.injEq] at h2
      obtain ⟨rfl, rfl, rfl⟩ := h2
      have := deltaLoop_lengths m n l (i + 1) _ ds' os' _ h1
      simp [this]

theorem Built.sizes {m : Map} {lang : UInt16} {t : Cmap4} {segs : List (Nat × Nat)} {ds : List Int16} {os : List UInt16}
    (b : Built m lang t segs ds os) : ds.length = segs.length ∧ os.length = segs.length :=
  deltaLoop_lengths m _ _ _ _ _ _ _ b.loop

theorem Built.means {m : Map} {lang : UInt16} {t : Cmap4} {segs : List (Nat × Nat)} {ds : List Int16} {os : List UInt16}
    (b : Built m lang t segs ds os) (hfit : (encCmap4 t).length ≤ 65535) :
    SegsMean m t.glyphIdArray (segs.length + 1) 0 segs ds os := by
  rw [encCmap4_length b b.sizes] at hfit
  exact (deltaLoop_means m _ segs 0 [] ds os _ b.loop (fun x hx => (b.bounds x hx).1) (by omega) (by omega)).2

theorem Built.reads {m : Map} {lang : UInt16} {t : Cmap4} {segs : List (Nat × Nat)} {ds : List Int16} {os : List UInt16}
    (b : Built m lang t segs ds os) (hfit : (encCmap4 t).length ≤ 65535) :
    Reads readCmap4 (encCmap4 t) (asRead t) := by
  obtain ⟨h1, h2⟩ := b.sizes
  rw [encCmap4_length b b.sizes] at hfit
  have hn : (UInt16.ofNat (segs.length + 1)).toNat = segs.length + 1 := ofNat16_toNat (by omega)
  refine reads_cmap4 t (segs.length + 1) ?_ ?_ ?_ ?_ ?_ ?_
  · rw [b.seg, hn, ofNat16_toNat (by omega)]
  · rw [b.ends]; simp
  · rw [b.starts]; simp
  · rw [b.delta]; simp [h1]
  · rw [b.offs]; simp [h2]
  · rw [b.length, hn, ofNat16_toNat (by omega)]

theorem Built.toMapping {m : Map} (hs : BMap.Sorted m) {lang : UInt16} {t : Cmap4} {segs : List (Nat × Nat)} {ds : List Int16} {os : List UInt16}
    (b : Built m lang t segs ds os) (hfit : (encCmap4 t).length ≤ 65535) : toMapping4 (asRead t) = .ok m := by
  have hl : (asRead t).startCode.length = segs.length + 1 := by
    simp only [asRead, b.starts]; simp
  unfold toMapping4
  rw [if_neg (by omega), hl, Nat.add_sub_cancel, List.range_eq_range',
    expandLoop_ok m (asRead t) segs (segs.length + 1) rfl b.starts b.ends ds os b.delta b.offs (b.means hfit) b.bounds
      segs.length 0 [] (by omega), List.drop_zero, b.codesEq, insertAll_keys hs]

/-! ### C34 -/

/-- **C34**. A map that can be saved in format 4 in at most 65535 bytes is read back unchanged. -/
theorem C34_roundtrip (p e lang : UInt16) (m : Map) (hs : BMap.Sorted m) (bs : Bytes)
    (hb : encSubtable (sub4 p e lang m) = .ok bs) (hfit : bs.length ≤ 65535) (pre post : Bytes) (ptr base : Nat)
    (stk : List Nat) (off : UInt32) (ho : base + off.toNat = pre.length) :
    ∃ r, readSubtable ⟨p, e, off⟩ ⟨pre ++ bs ++ post, ptr, base :: stk⟩ = .ok (sub4 p e lang m, r) := by
  have hb' : (fromMapping4 lang m >>= fun t => Res.ok (encCmap4 t)) = .ok bs := hb
  obtain ⟨t, ht, h2⟩ := Res.bind_inv hb'
  cases h2
  obtain ⟨segs, ds, os, b⟩ := built_of_ok hs ht
  rw [read4 (b.reads hfit) b.format p e pre post ptr base stk off ho, b.toMapping hs hfit, b.language]
  exact ⟨_, rfl⟩

theorem fromMapping4_total (lang : UInt16) (m : Map) (hs : BMap.Sorted m) (hne : m ≠ []) (hlen : m.length ≤ 16383)
    (hk : ∀ x ∈ m, x.1.toNat < 65535)
    (hg : ∀ x ∈ m, ∀ y ∈ m, y.1.toNat = x.1.toNat + 1 → x.2 ≠ 65535) : ∃ t, fromMapping4 lang m = .ok t := by
  cases hm : m.map (fun x => x.1.toNat) with
  | nil => simp at hm; exact absurd hm hne
  | cons c0 cs =>
    have hk' : ∀ c ∈ m.map (fun x => x.1.toNat), c ≤ 65534 := by
      intro c hc
      obtain ⟨x, hx, rfl⟩ := List.mem_map.mp hc
      have := hk x hx
      omega
    obtain ⟨e, l, e1, e2, e3⟩ := segs_of hs hm hk'
    have hc0 : c0 ≤ 65534 := hk' c0 (by rw [hm]; simp)
    have hz : (c0 :: l.map Prod.fst).zip (e :: l.map Prod.snd) = (c0, e) :: l := zip_fst_snd ((c0, e) :: l)
    have hlen2 := length_le_codes ((c0, e) :: l) (fun x hx => (e3 x hx).1)
    have hsum : (((c0, e) :: l).flatMap codes).length = m.length := by rw [e2, List.length_map]
    have hlen3 : ((c0, e) :: l).length = (e :: l.map Prod.snd).length := by simp
    have hmemc : ∀ c, c ∈ ((c0, e) :: l).flatMap codes → ∃ x ∈ m, x.1.toNat = c := by
      intro c hc
      rw [e2] at hc
      obtain ⟨x, hx, h⟩ := List.mem_map.mp hc
      exact ⟨x, hx, h⟩
    obtain ⟨⟨ds, os, gs⟩, hd⟩ := deltaLoop_total m ((e :: l.map Prod.snd).length + 1) ((c0, e) :: l) 0 [] (by
      intro x hx
      refine ⟨(e3 x hx).1, (e3 x hx).2, ?_⟩
      intro c hc1 hc2 h65
      obtain ⟨y, hy, hy2⟩ := hmemc c (List.mem_flatMap.mpr ⟨x, hx, codes_mem.mpr ⟨hc1, by omega⟩⟩)
      obtain ⟨z, hz, hz2⟩ := hmemc (c + 1) (List.mem_flatMap.mpr ⟨x, hx, codes_mem.mpr ⟨by omega, by omega⟩⟩)
      refine hg y hy z hz (by omega) ?_
      rw [← hy2, glyphAt_of_mem hs hy] at h65
      exact UInt16.toNat_inj.mp (by rw [h65]; rfl)) (by rw [hsum, ← hlen3]; simp only [List.length_nil]; omega)
    obtain ⟨q, _, _, hq⟩ := getSearchRange2_ok ((e :: l.map Prod.snd).length + 1) (by omega) (by omega)
    have hn : (UInt16.ofNat ((e :: l.map Prod.snd).length + 1)).toNat = (e :: l.map Prod.snd).length + 1 := ofNat16_toNat (by omega)
    unfold fromMapping4
    rw [hm]
    simp only [toU16]
    rw [if_neg (by omega)]
    simp only [Res.ok_bind, e1, hz, hd, hq]
    rw [if_neg (by omega)]
    exact ⟨_, rfl⟩

/-- **C34** (a guard on the map alone). A nonempty map of at most 6551 characters below 0xFFFF, in which no character
with glyph 65535 is directly followed by another mapped character, can be saved in format 4, in at most 65535
bytes, and is read back unchanged. -/
theorem C34_small (p e lang : UInt16) (m : Map) (hs : BMap.Sorted m) (hne : m ≠ []) (hlen : m.length ≤ 6551)
    (hk : ∀ x ∈ m, x.1.toNat < 65535)
    (hg : ∀ x ∈ m, ∀ y ∈ m, y.1.toNat = x.1.toNat + 1 → x.2 ≠ 65535) :
    SavedAs (sub4 p e lang m) (sub4 p e lang m) ∧
    ∃ bs, encSubtable (sub4 p e lang m) = .ok bs ∧ bs.length ≤ 65535 := by
  suffices h : ∃ bs, encSubtable (sub4 p e lang m) = .ok bs ∧ bs.length ≤ 65535 by
    refine ⟨?_, h⟩
    obtain ⟨bs, h1, h2⟩ := h
    refine ⟨bs, h1, ?_⟩
    have := C34_roundtrip p e lang m hs bs h1 h2 [] [] 0 0 [] 0 rfl
    simpa [Rd.new] using this
  suffices h : ∃ t, fromMapping4 lang m = .ok t by
    obtain ⟨t, ht⟩ := h
    obtain ⟨segs, ds, os, b⟩ := built_of_ok hs ht
    refine ⟨encCmap4 t, by simp [encSubtable, ht], ?_⟩
    rw [encCmap4_length b b.sizes]
    have h1 := deltaLoop_length m _ _ _ _ _ _ _ b.loop
    have h2 := length_le_codes segs (fun x hx => (b.bounds x hx).1)
    rw [b.codesEq, List.length_map] at h1 h2
    simp only [List.length_nil] at h1
    omega
  exact fromMapping4_total lang m hs hne (by omega) hk hg

example : BMap.Sorted ([(0x41, 5), (0x42, 6), (0x43, 9), (0x61, 65535)] : Map) ∧
    (∀ x ∈ ([(0x41, 5), (0x42, 6), (0x43, 9), (0x61, 65535)] : Map), x.1.toNat < 65535) ∧
    ∀ x ∈ ([(0x41, 5), (0x42, 6), (0x43, 9), (0x61, 65535)] : Map),
      ∀ y ∈ ([(0x41, 5), (0x42, 6), (0x43, 9), (0x61, 65535)] : Map), y.1.toNat = x.1.toNat + 1 → x.2 ≠ 65535 :=
  ⟨by simp [BMap.Sorted, Key.lt], by decide, by decide⟩

/-- **C34** (what cannot be saved). An empty map and a map with a character of 0xFFFF or above make the writer panic. -/
theorem C34_panics (p e lang : UInt16) (m : Map) (hs : BMap.Sorted m) (h : m = [] ∨ ∃ x ∈ m, 65535 ≤ x.1.toNat) :
    encSubtable (sub4 p e lang m) = .panic := by
  have : fromMapping4 lang m = .panic := by
    rcases h with h | h
    · subst h; rfl
    · exact fromMapping4_high lang m hs h
  simp [encSubtable, this]

example : BMap.Sorted ([(0x41, 1), (0xFFFF, 2)] : Map) := by simp [BMap.Sorted, Key.lt]

/-- A character directly after one with glyph 65535 in a contiguous segment makes the writer panic. -/
theorem C34_glyph_65535_panics (p e lang : UInt16) :
    encSubtable (sub4 p e lang [(0x41, 65535), (0x42, 7)]) = .panic := by
  have : fromMapping4 lang [(0x41, 65535), (0x42, 7)] = .panic := rfl
  simp [encSubtable, this]

/-! ### What the bytes mean -/

theorem field_u16s (l : List UInt16) (post : Bytes) {i : Nat} {x : UInt16} (h : l[i]? = some x) :
    field (encVec encU16 l ++ post) (2 * i) 2 = x.toNat := by
  obtain ⟨hi, e⟩ := List.getElem?_eq_some_iff.mp h
  rw [field_prefix (by rw [encVec_length (k := 2) (fun _ => rfl)]; omega), show 2 * i = 2 * i + 0 by omega,
    field_vec (w := 2) (fun _ => rfl) (by omega) l hi, e, field_u16']

theorem field_i16s (l : List Int16) (post : Bytes) {i : Nat} {x : Int16} (h : l[i]? = some x) :
    (field (encVec encI16 l ++ post) (2 * i) 2 : Int) = x.toInt % 65536 := by
  obtain ⟨hi, e⟩ := List.getElem?_eq_some_iff.mp h
  rw [field_prefix (by rw [encVec_length (k := 2) (fun _ => rfl)]; omega), show 2 * i = 2 * i + 0 by omega,
    field_vec (w := 2) (fun _ => rfl) (by omega) l hi, e]
  have := field_i16 x []
  rwa [List.append_nil] at this

/-- Where the arrays of a subtable with `n` segments are. -/
theorem fields4 (t : Cmap4) (n : Nat) (h2 : t.endCode.length = n) (h3 : t.startCode.length = n)
    (h4 : t.idDelta.length = n) (h5 : t.idRangeOffsets.length = n) :
    field (encCmap4 t) 2 2 = t.length.toNat ∧ field (encCmap4 t) 6 2 = t.segCountX2.toNat ∧
    field (encCmap4 t) 8 2 = t.searchRange.toNat ∧ field (encCmap4 t) 10 2 = t.entrySelector.toNat ∧
    field (encCmap4 t) 12 2 = t.rangeShift.toNat ∧
    (∀ i x, t.endCode[i]? = some x → field (encCmap4 t) (14 + 2 * i) 2 = x.toNat) ∧
    (∀ i x, t.startCode[i]? = some x → field (encCmap4 t) (16 + 2 * n + 2 * i) 2 = x.toNat) ∧
    (∀ i x, t.idDelta[i]? = some x → (field (encCmap4 t) (16 + 4 * n + 2 * i) 2 : Int) = x.toInt % 65536) ∧
    (∀ i x, t.idRangeOffsets[i]? = some x → field (encCmap4 t) (16 + 6 * n + 2 * i) 2 = x.toNat) ∧
    (∀ i x, t.glyphIdArray[i]? = some x → field (encCmap4 t) (16 + 8 * n + 2 * i) 2 = x.toNat) := by
  have l2 : (encVec encU16 t.endCode).length = 2 * n := by rw [encVec_length (k := 2) (fun _ => rfl), h2]
  have l3 : (encVec encU16 t.startCode).length = 2 * n := by rw [encVec_length (k := 2) (fun _ => rfl), h3]
  have l4 : (encVec encI16 t.idDelta).length = 2 * n := by rw [encVec_length (k := 2) (fun _ => rfl), h4]
  have l5 : (encVec encU16 t.idRangeOffsets).length = 2 * n := by rw [encVec_length (k := 2) (fun _ => rfl), h5]
  have hhead : ∀ j w, field (encCmap4 t) (14 + j) w = field (encVec encU16 t.endCode ++ (encU16 t.reservedPad ++
      (encVec encU16 t.startCode ++ (encVec encI16 t.idDelta ++ (encVec encU16 t.idRangeOffsets ++
      encVec encU16 t.glyphIdArray))))) j w := by
    intro j w
    unfold encCmap4
    rw [field_skip' (j := 12 + j) (by simp; omega), field_skip' (j := 10 + j) (by simp; omega),
      field_skip' (j := 8 + j) (by simp; omega), field_skip' (j := 6 + j) (by simp; omega),
      field_skip' (j := 4 + j) (by simp; omega), field_skip' (j := 2 + j) (by simp; omega),
      field_skip' (j := j) (by simp)]
  have hafter : ∀ j w, field (encCmap4 t) (16 + 2 * n + j) w = field (encVec encU16 t.startCode ++
      (encVec encI16 t.idDelta ++ (encVec encU16 t.idRangeOffsets ++ encVec encU16 t.glyphIdArray))) j w := by
    intro j w
    rw [show 16 + 2 * n + j = 14 + (2 * n + (2 + j)) by omega, hhead, field_skip l2, field_skip (encU16_length _)]
  refine ⟨?_, ?_, ?_, ?_, ?_, ?_, ?_, ?_, ?_, ?_⟩
  · unfold encCmap4; rw [field_skip' (j := 0) (by simp), field_u16]
  · unfold encCmap4; rw [field_skip' (j := 4) (by simp), field_skip' (j := 2) (by simp), field_skip' (j := 0) (by simp), field_u16]
  · unfold encCmap4; rw [field_skip' (j := 6) (by simp), field_skip' (j := 4) (by simp), field_skip' (j := 2) (by simp),
      field_skip' (j := 0) (by simp), field_u16]
  · unfold encCmap4; rw [field_skip' (j := 8) (by simp), field_skip' (j := 6) (by simp), field_skip' (j := 4) (by simp),
      field_skip' (j := 2) (by simp), field_skip' (j := 0) (by simp), field_u16]
  · unfold encCmap4; rw [field_skip' (j := 10) (by simp), field_skip' (j := 8) (by simp), field_skip' (j := 6) (by simp),
      field_skip' (j := 4) (by simp), field_skip' (j := 2) (by simp), field_skip' (j := 0) (by simp), field_u16]
  all_goals
    intro i x hx
  · rw [hhead, field_u16s _ _ hx]
  · rw [hafter, field_u16s _ _ hx]
  · rw [show 16 + 4 * n + 2 * i = 16 + 2 * n + (2 * n + 2 * i) by omega, hafter, field_skip' (j := 2 * i) (by rw [l3]),
      field_i16s _ _ hx]
  · rw [show 16 + 6 * n + 2 * i = 16 + 2 * n + (4 * n + 2 * i) by omega, hafter,
      field_skip' (j := 2 * n + 2 * i) (by rw [l3]; omega), field_skip' (j := 2 * i) (by rw [l4]), field_u16s _ _ hx]
  · rw [show 16 + 8 * n + 2 * i = 16 + 2 * n + (6 * n + 2 * i) by omega, hafter,
      field_skip' (j := 4 * n + 2 * i) (by rw [l3]; omega), field_skip' (j := 2 * n + 2 * i) (by rw [l4]; omega),
      field_skip' (j := 2 * i) (by rw [l5])]
    have := field_u16s t.glyphIdArray [] hx
    rwa [List.append_nil] at this

/-- The first index with a property that some index has. -/
theorem first_index (P : Nat → Prop) [DecidablePred P] : ∀ n, P n → ∃ i ≤ n, P i ∧ ∀ j < i, ¬ P j := by
  intro n hn
  by_cases h : ∃ i < n, P i
  · obtain ⟨i, hi, hp⟩ := h
    obtain ⟨j, h1, h2⟩ := first_index P i hp
    exact ⟨j, by omega, h2⟩
  · exact ⟨n, Nat.le_refl _, hn, fun j hj hp => h ⟨j, hj, hp⟩⟩

theorem glyphOf_glyphAt {m : Map} (hs : BMap.Sorted m) (c : Nat) (hc : c ≤ 65535) : GlyphOf m c (glyphAt m c).toNat := by
  cases h : BMap.get? m (UInt32.ofNat c) with
  | some g =>
    left
    refine ⟨_, (BMap.get?_eq_some hs).mp h, ofNat32_toNat (by omega), ?_⟩
    simp [glyphAt, h]
  | none =>
    right
    refine ⟨by simp [glyphAt, h], ?_⟩
    rintro g' ⟨x, hx, h1, _⟩
    have := (BMap.get?_eq_none hs).mp h x hx
    apply this
    rw [← h1]; simp

/-- **C34** (what is written). Looking any 16-bit character up in a saved subtable of at most 65535 bytes, the way OpenType
prescribes, finds the glyph the map has for it, and glyph 0 if it has none. -/
theorem C34_meaning (p e lang : UInt16) (m : Map) (hs : BMap.Sorted m) (bs : Bytes)
    (hb : encSubtable (sub4 p e lang m) = .ok bs) (hfit : bs.length ≤ 65535) (c : Nat) (hc : c ≤ 65535) :
    ∃ g, Lookup4 bs c g ∧ GlyphOf m c g := by
  have hb' : (fromMapping4 lang m >>= fun t => Res.ok (encCmap4 t)) = .ok bs := hb
  obtain ⟨t, ht, h2⟩ := Res.bind_inv hb'
  cases h2
  obtain ⟨segs, ds, os, b⟩ := built_of_ok hs ht
  refine ⟨_, ?_, glyphOf_glyphAt hs c hc⟩
  obtain ⟨z1, z2⟩ := b.sizes
  have hsz := encCmap4_length b b.sizes
  have hn : (UInt16.ofNat (segs.length + 1)).toNat = segs.length + 1 := ofNat16_toNat (by omega)
  obtain ⟨_, f2, _, _, _, f6, f7, f8, f9, f10⟩ := fields4 t (segs.length + 1) (by rw [b.ends]; simp) (by rw [b.starts]; simp)
    (by rw [b.delta]; simp [z1]) (by rw [b.offs]; simp [z2])
  have f2' : field (encCmap4 t) 6 2 / 2 = segs.length + 1 := by
    rw [f2, b.seg, hn, ofNat16_toNat (by omega)]; omega
  -- the codes are in increasing order
  have hasc : segs.Pairwise (fun x y => ∀ a ∈ codes x, ∀ b ∈ codes y, a < b) := by
    have := keys_asc hs
    rw [← b.codesEq] at this
    exact (List.pairwise_flatMap.mp this).2
  -- field values
  have hend : ∀ i (hi : i < segs.length), field (encCmap4 t) (14 + 2 * i) 2 = segs[i].2 := by
    intro i hi
    have := f6 i (UInt16.ofNat segs[i].2) (by
      rw [b.ends, List.getElem?_map, List.getElem?_append_left (by simpa using hi)]; simp [hi])
    rw [this, ofNat16_toNat (by have := b.bounds _ (List.getElem_mem hi); omega)]
  have hstart : ∀ i (hi : i < segs.length), field (encCmap4 t) (16 + 2 * (segs.length + 1) + 2 * i) 2 = segs[i].1 := by
    intro i hi
    have := f7 i (UInt16.ofNat segs[i].1) (by
      rw [b.starts, List.getElem?_map, List.getElem?_append_left (by simpa using hi)]; simp [hi])
    rw [this, ofNat16_toNat (by have := b.bounds _ (List.getElem_mem hi); omega)]
  have hlastE : field (encCmap4 t) (14 + 2 * segs.length) 2 = 65535 := by
    have := f6 segs.length 65535 (by
      rw [b.ends, List.getElem?_map, List.getElem?_append_right (by simp)]; simp)
    rw [this]; rfl
  have hlastS : field (encCmap4 t) (16 + 2 * (segs.length + 1) + 2 * segs.length) 2 = 65535 := by
    have := f7 segs.length 65535 (by
      rw [b.starts, List.getElem?_map, List.getElem?_append_right (by simp)]; simp)
    rw [this]; rfl
  have hlastD : (field (encCmap4 t) (16 + 4 * (segs.length + 1) + 2 * segs.length) 2 : Int) = 1 := by
    have := f8 segs.length 1 (by rw [b.delta, List.getElem?_append_right (by omega)]; simp [z1])
    rw [this]; rfl
  have hlastO : field (encCmap4 t) (16 + 6 * (segs.length + 1) + 2 * segs.length) 2 = 0 := by
    have := f9 segs.length 0 (by rw [b.offs, List.getElem?_append_right (by omega)]; simp [z2])
    rw [this]; rfl
  obtain ⟨i, hi, hp, hmin⟩ := first_index (fun i => c ≤ field (encCmap4 t) (14 + 2 * i) 2) segs.length (by rw [hlastE]; exact hc)
  unfold Lookup4
  simp only [f2']
  refine ⟨i, by omega, fun j hj => by have := hmin j hj; omega, hp, ?_⟩
  -- a character outside its segment is not in the map
  have hout : ∀ (hc' : ∀ j (hj : j < segs.length), c ∉ codes segs[j]), glyphAt m c = 0 := by
    intro h
    cases hgc : BMap.get? m (UInt32.ofNat c) with
    | none => simp [glyphAt, hgc]
    | some g =>
      exfalso
      have hm := (BMap.get?_eq_some hs).mp hgc
      have : c ∈ segs.flatMap codes := by
        rw [b.codesEq]
        exact List.mem_map.mpr ⟨_, hm, ofNat32_toNat (by omega)⟩
      obtain ⟨x, hx, hxc⟩ := List.mem_flatMap.mp this
      obtain ⟨j, hj, rfl⟩ := List.mem_iff_getElem.mp hx
      exact h j hj hxc
  rcases Nat.lt_or_ge i segs.length with hil | hil
  · rw [hend i hil] at hp
    rw [hstart i hil]
    have hbd := b.bounds _ (List.getElem_mem hil)
    by_cases hcs : c < segs[i].1
    · rw [if_pos hcs, hout]
      · rfl
      intro j hj hcj
      rw [codes_mem] at hcj
      rcases Nat.lt_trichotomy j i with h | h | h
      · have := hmin j h
        rw [hend j hj] at this
        omega
      · subst h; omega
      · have := List.pairwise_iff_getElem.mp hasc i j hil hj h segs[i].2 (codes_mem.mpr ⟨hbd.1, Nat.le_refl _⟩)
          segs[j].1 (codes_mem.mpr ⟨Nat.le_refl _, by omega⟩)
        omega
    rw [if_neg hcs]
    have hcm : c ∈ codes segs[i] := codes_mem.mpr ⟨by omega, hp⟩
    obtain ⟨_, _, hat⟩ := (b.means hfit).at
    obtain ⟨d, o, q1, q2, q3⟩ := hat i hil
    have hd := f8 i d (by rw [b.delta, List.getElem?_append_left (by omega)]; exact q1)
    have hof := f9 i o (by rw [b.offs, List.getElem?_append_left (by omega)]; exact q2)
    rw [hof]
    have hg := (glyphAt m c).toNat_lt
    rcases q3 with ⟨h1, h2⟩ | ⟨h1, base, h2, h3, h4, h5⟩
    · subst h1
      rw [if_pos (by rfl)]
      have := h2 c hcm
      omega
    · subst h1
      rw [Nat.zero_add] at h3 h4
      rw [if_neg (by omega)]
      have z : (0 : Int16).toInt = 0 := rfl
      rw [z] at hd
      have hd : field (encCmap4 t) (16 + 4 * (segs.length + 1) + 2 * i) 2 = 0 := by omega
      have := f10 _ _ (h5 c hcm)
      rw [show 16 + 6 * (segs.length + 1) + 2 * i + o.toNat + 2 * (c - segs[i].1) =
        16 + 8 * (segs.length + 1) + 2 * (base + (c - segs[i].1)) by omega, this, hd]
      split
      · omega
      · omega
  · have hil : i = segs.length := by omega
    subst hil
    have hg0 : glyphAt m c = 0 := by
      apply hout
      intro j hj hcj
      rw [codes_mem] at hcj
      have := hmin j hj
      rw [hend j hj] at this
      omega
    rw [hg0, hlastS, hlastO]
    split
    · rfl
    · rw [if_pos rfl]
      have : c = 65535 := by omega
      have z : (0 : UInt16).toNat = 0 := rfl
      omega

/-- **C34** (the header). The length field is the number of bytes written; the search fields are those OpenType defines
from the number of segments, which is half the third number of the header. -/
theorem C34_header (p e lang : UInt16) (m : Map) (hs : BMap.Sorted m) (bs : Bytes)
    (hb : encSubtable (sub4 p e lang m) = .ok bs) (hfit : bs.length ≤ 65535) :
    field bs 2 2 = bs.length ∧ ∃ n q, field bs 6 2 = 2 * n ∧ 2 ^ q ≤ n ∧ n < 2 ^ (q + 1) ∧ field bs 8 2 = 2 * 2 ^ q ∧
      field bs 10 2 = q ∧ field bs 12 2 = 2 * n - 2 * 2 ^ q := by
  have hb' : (fromMapping4 lang m >>= fun t => Res.ok (encCmap4 t)) = .ok bs := hb
  obtain ⟨t, ht, h2⟩ := Res.bind_inv hb'
  cases h2
  obtain ⟨segs, ds, os, b⟩ := built_of_ok hs ht
  obtain ⟨z1, z2⟩ := b.sizes
  have hsz := encCmap4_length b b.sizes
  have hn : (UInt16.ofNat (segs.length + 1)).toNat = segs.length + 1 := ofNat16_toNat (by omega)
  obtain ⟨f1, f2, f3, f4, f5, _⟩ := fields4 t (segs.length + 1) (by rw [b.ends]; simp) (by rw [b.starts]; simp)
    (by rw [b.delta]; simp [z1]) (by rw [b.offs]; simp [z2])
  obtain ⟨q, q1, q2, q3⟩ := getSearchRange2_ok (segs.length + 1) (by omega) (by omega)
  rw [b.search] at q3
  simp only [Res.ok.injEq, Prod.mk.injEq] at q3
  have hq : q < 2 ^ q := Nat.lt_two_pow_self
  refine ⟨?_, segs.length + 1, q, ?_, q1, q2, ?_, ?_, ?_⟩
  · rw [f1, b.length, hn, ofNat16_toNat (by omega), hsz]; omega
  · rw [f2, b.seg, hn, ofNat16_toNat (by omega)]; omega
  · rw [f3, q3.1, ofNat16_toNat (by omega)]
  · rw [f4, q3.2.1, ofNat16_toNat (by omega)]
  · rw [f5, q3.2.2, ofNat16_toNat (by omega)]

end FT.Props
