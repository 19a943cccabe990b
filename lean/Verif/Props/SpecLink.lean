import Verif.Props.SpecLayoutTables
import Verif.Props.Coverage
import Verif.Props.ClassDef
import Verif.Props.Device
import Verif.Model.GsubTable
import Verif.Model.GposTable

/-!
# C82: the bytes of coverage, class and device tables

The parts that layout tables point to, compared with the OpenType specification.
-/

namespace FT.Props
open FT FT.Off FT.Lay

/-! ### Specification -/

/-- The rows begin at `start`, which is what their offsets count from. -/
def At (rows : List Cell) : Bytes → Nat → Prop := fun B start => Shows B start start rows

/-- A 16-bit offset that may be null. -/
def linked {α : Type} (P : α → Bytes → Nat → Prop) : Option α → Cell
  | none => .null 2
  | some a => .ref 2 (P a)

/-- A 16-bit count and that many 16-bit numbers. -/
def wordRows (l : List UInt16) : List Cell := .num 2 l.length :: l.map u16

/-- Range records of a coverage table, `i` glyphs being covered by those before. -/
def rangeRows : Nat → List (Nat × Nat) → List Cell
  | _, [] => []
  | i, r :: l => .num 2 r.1 :: .num 2 r.2 :: .num 2 i :: rangeRows (i + (r.2 + 1 - r.1)) l

/-- A coverage table of the glyphs `gs`: the glyphs (format 1), or ranges that list them (format 2). -/
def CoverageAt (gs : List UInt16) : Bytes → Nat → Prop := fun B start =>
  At (.num 2 1 :: wordRows gs) B start ∨
  ∃ rs : List (Nat × Nat), (∀ r ∈ rs, r.1 ≤ r.2 ∧ r.2 ≤ 65535) ∧
    gs.map UInt16.toNat = rs.flatMap (fun r => List.range' r.1 (r.2 + 1 - r.1)) ∧
    At ([.num 2 2, .num 2 rs.length] ++ rangeRows 0 rs) B start

/-- A class definition table of the map `m`: an array of classes from some glyph on (format 1), glyphs outside having
class 0, or ranges with their class (format 2). -/
def ClassAt (m : List (UInt16 × UInt16)) : Bytes → Nat → Prop := fun B start =>
  AscendingKeys m →
  (∃ (first : UInt16) (cs : List UInt16), At ([.num 2 1, u16 first] ++ wordRows cs) B start ∧
    ∀ g : UInt16, classOf m g = if first.toNat ≤ g.toNat then (cs[g.toNat - first.toNat]?).getD 0 else 0) ∨
  ∃ rs : List (Nat × Nat × UInt16), (∀ r ∈ rs, r.1 ≤ r.2.1 ∧ r.2.1 ≤ 65535) ∧
    m.map (fun x => (x.1.toNat, x.2)) =
      rs.flatMap (fun r => (List.range' r.1 (r.2.1 + 1 - r.1)).map (fun g => (g, r.2.2))) ∧
    At ([.num 2 2, .num 2 rs.length] ++ rs.flatMap (fun r => [.num 2 r.1, .num 2 r.2.1, u16 r.2.2])) B start

/-- A device table: sizes, format, and the deltas in `2 ^ format` bits each, from the top of each 16-bit word down. -/
def DeviceAt (d : Device.Device) : Bytes → Nat → Prop := fun B start =>
  ∃ f : Nat, f ≤ 3 ∧ (∀ x ∈ d.deltaFormat, x.toNat = f) ∧
    At [u16 d.startSize, u16 d.endSize, .num 2 f] B start ∧
    ∀ (i : Nat) (v : Int8), d.deltaValues[i]? = some v →
      start + 6 + 2 * (i * 2 ^ f / 16) + 2 ≤ B.length ∧
      ((field B (start + 6 + 2 * (i * 2 ^ f / 16)) 2 / 2 ^ (16 - 2 ^ f - i * 2 ^ f % 16) % 2 ^ 2 ^ f : Nat) : ℤ) =
        v.toInt % 2 ^ 2 ^ f

/-! ### Tables with offsets -/

/-- Wherever the fields of `t` are held, they show the rows. -/
def Pics (t : Tab) (rows : List Cell) : Prop :=
  size t = widths rows ∧ ∀ (B : Bytes) (base pos : Nat) (ext : List (Nat × Nat)), Holds B t base pos ext →
    Shows B base pos rows

/-- Wherever the table `t` is held, `P` is true. -/
def PicsAt (t : Tab) (P : Bytes → Nat → Prop) : Prop :=
  ∀ (B : Bytes) (start : Nat) (ext : List (Nat × Nat)), start + size t ≤ B.length → Holds B t start start ext → P B start

theorem Pics.at {t : Tab} {rows : List Cell} (h : Pics t rows) : PicsAt t (At rows) :=
  fun B start ext _ hh => h.2 B start start ext hh

theorem pics_nil : Pics .nil [] := ⟨rfl, fun _ _ _ _ _ => trivial⟩

theorem Pics.append {t u : Tab} {r s : List Cell} (h : Pics t r) (h' : Pics u s) : Pics (t.append u) (r ++ s) := by
  refine ⟨by rw [size_append, h.1, h'.1, widths_append], fun B base pos ext hh => ?_⟩
  obtain ⟨e1, e2, h1, h2⟩ := holds_append B t u base pos ext hh
  rw [shows_append]
  refine ⟨h.2 B base pos e1 h1, ?_⟩
  rw [← h.1]
  exact h'.2 B base _ e2 h2

theorem Pics.cons {t u : Tab} {c : Cell} {s : List Cell} (h : Pics t [c]) (h' : Pics u s) :
    Pics (t.append u) (c :: s) := h.append h'

theorem Lays.pics {bs : Bytes} {r : List Cell} (h : Lays bs r) : Pics (.bytes bs) r :=
  ⟨by simp only [size]; rw [h.1]; rfl, fun B base pos _ hh => h.2 B base pos hh.1⟩

theorem width_enc {w : Width} {n : Nat} (h : n ≤ w.max) : (w.enc n).length = w.size ∧ field (w.enc n) 0 w.size = n := by
  cases w with
  | w16 =>
    refine ⟨rfl, ?_⟩
    show field (encU16 (UInt16.ofNat n)) 0 2 = n
    rw [field_u16', ofNat16_toNat h]
  | w32 =>
    refine ⟨rfl, ?_⟩
    show field (encU32 (UInt32.ofNat n)) 0 4 = n
    rw [field_u32', ofNat32_toNat h]

theorem enc_field {w : Width} {n : Nat} (h : n ≤ w.max) {B : Bytes} {pos : Nat} (hp : w.enc n <+: B.drop pos) :
    pos + w.size ≤ B.length ∧ field B pos w.size = n := by
  obtain ⟨e1, e2⟩ := width_enc h
  have h0 : 0 < w.size := by cases w <;> decide
  constructor
  · rw [← e1]; exact prefix_len hp (by omega)
  · have := field_of_prefix (k := 0) (w := w.size) hp (by omega)
    rw [Nat.add_zero] at this
    rw [this, e2]

theorem pics_null (w : Width) : Pics (.nullOff w) [.null w.size] := by
  refine ⟨by simp [size, widths, Cell.width], fun B base pos ext hh => ⟨?_, trivial⟩⟩
  exact enc_field (Nat.zero_le _) hh.1

theorem pics_ref {w : Width} {v o : Bool} {f : Option Nat} {t : Tab} {P : Bytes → Nat → Prop} (h : PicsAt t P) :
    Pics (.link w v o f t .nil) [.ref w.size P] := by
  refine ⟨by simp [size, widths, Cell.width], fun B base pos ext hh => ⟨?_, trivial⟩⟩
  obtain ⟨off, e1, e2, h1, h2, h3, h4, h5, _⟩ := hh
  obtain ⟨g1, g2⟩ := enc_field h2 h3
  refine ⟨g1, by omega, ?_⟩
  rw [g2]
  exact h B _ e1 h4 h5

theorem pics_opt {α : Type} {P : α → Bytes → Nat → Prop} {vec : Bool} {f : α → Res Tab} {x : Option α} {t : Tab}
    (h : optOff vec f x = .ok t) (hf : ∀ a ∈ x, ∀ t, f a = .ok t → PicsAt t (P a)) : Pics t [linked P x] := by
  cases x with
  | none => cases h; exact pics_null .w16
  | some a =>
    simp only [optOff] at h
    cases e : f a with
    | err => rw [e] at h; cases h
    | panic => rw [e] at h; cases h
    | ok u => rw [e] at h; cases h; exact pics_ref (hf a rfl u e)

theorem pics_list {α : Type} {f : α → Res Tab} {rows : α → List Cell} : ∀ {l : List α} {ts : List Tab},
    Res.mapL f l = .ok ts → (∀ a ∈ l, ∀ t, f a = .ok t → Pics t (rows a)) → Pics (Tab.concat ts) (l.flatMap rows)
  | [], ts, h, _ => by cases h; exact pics_nil
  | a :: l, ts, h, hf => by
    rw [Res.mapL] at h
    cases ha : f a with
    | err => rw [ha] at h; cases h
    | panic => rw [ha] at h; cases h
    | ok t =>
      rw [ha] at h
      cases hl : Res.mapL f l with
      | err => rw [hl] at h; cases h
      | panic => rw [hl] at h; cases h
      | ok ts' =>
        rw [hl] at h
        cases h
        exact (hf a (by simp) t ha).append (pics_list hl fun b hb => hf b (by simp [hb]))

theorem pics_list1 {α : Type} {f : α → Res Tab} {row : α → Cell} {l : List α} {ts : List Tab}
    (h : Res.mapL f l = .ok ts) (hf : ∀ a ∈ l, ∀ t, f a = .ok t → Pics t [row a]) : Pics (Tab.concat ts) (l.map row) := by
  have := pics_list (rows := fun a => [row a]) h hf
  rwa [← List.map_eq_flatMap] at this

/-- A count, modulo 2^16. -/
theorem lays_len (n : Nat) : Lays (encU16 (UInt16.ofNat n)) [.num 2 n] := by
  refine lays_num rfl (by omega) ?_
  rw [field_u16', UInt16.toNat_ofNat']
  norm_num

theorem lays_words (l : List UInt16) : Lays (u16s l) (wordRows l) := by
  unfold u16s encCounted wordRows
  exact (lays_len _).cons (lays_vec1 fun x _ => lays_u16 x)

theorem pics_offVec {α : Type} {P : α → Bytes → Nat → Prop} {f : α → Res Tab} {l : List (Option α)} {t : Tab}
    (h : offVec f l = .ok t) (hf : ∀ x ∈ l, ∀ a ∈ x, ∀ t, f a = .ok t → PicsAt t (P a)) :
    Pics t (.num 2 l.length :: l.map (linked P)) := by
  unfold offVec at h
  cases e : Res.mapL (optOff true f) l with
  | err => rw [e] at h; cases h
  | panic => rw [e] at h; cases h
  | ok ts =>
    rw [e] at h; cases h
    exact (lays_len _).pics.cons (pics_list1 e fun x hx t ht => pics_opt ht (hf x hx))

/-- What is written is shown from the first byte on. -/
theorem pics_bytes {t : Tab} {rows : List Cell} {bs : Bytes} (h : Pics t rows) (hb : toBytes t = .ok bs) :
    At rows bs 0 := by
  obtain ⟨ext, h1, _⟩ := C05_offsets_right t bs hb [] []
  simp only [List.nil_append, List.append_nil, List.length_nil] at h1
  exact h.2 bs 0 0 ext h1

/-! ### Coverage tables -/

theorem lays_ranges : ∀ (sl : List (List UInt16)) (ix : UInt16) (i : Nat) (recs : List Coverage.RangeRecord),
    (∀ s ∈ sl, Coverage.Run s) → Coverage.records ix sl = .ok recs → (i : ℤ) % 65536 = ix.toNat →
    ∃ rs : List (Nat × Nat), rs.length = sl.length ∧ (∀ r ∈ rs, r.1 ≤ r.2 ∧ r.2 ≤ 65535) ∧
      sl.flatten.map UInt16.toNat = rs.flatMap (fun r => List.range' r.1 (r.2 + 1 - r.1)) ∧
      Lays (encVec Coverage.RangeRecord.enc recs) (rangeRows i rs)
  | [], ix, i, recs, _, h, _ => by
    cases h
    exact ⟨[], rfl, by simp, rfl, lays_nil⟩
  | s :: sl, ix, i, recs, hr, h, hi => by
    obtain ⟨f, n, hn, hf, rfl⟩ := hr s (by simp)
    rw [Coverage.records, iota_head f n hn, iota_last f n hn] at h
    simp only [Res.unwrap_some, Res.ok_bind] at h
    split at h
    · cases h
    next hle =>
    obtain ⟨more, hm, h⟩ := Res.bind_inv h
    cases h
    have hlen : (iota f n).length = n := by simp
    rw [hlen] at hm hle
    obtain ⟨rs, q1, q2, q3, q4⟩ := lays_ranges sl _ (i + n) more (fun s hs => hr s (by simp [hs])) hm (by
      simp only [UInt16.toNat_ofNat'] at hle ⊢
      push_cast
      omega)
    refine ⟨(f, f + (n - 1)) :: rs, by simp [q1], ?_, ?_, ?_⟩
    · intro r hr
      rcases List.mem_cons.mp hr with rfl | hr
      · exact ⟨by simp, by simp only; omega⟩
      · exact q2 r hr
    · rw [List.flatten_cons, List.map_append, q3, List.flatMap_cons]
      congr 1
      simp only [iota, List.map_map]
      rw [show f + (n - 1) + 1 - f = n from by omega, List.range'_eq_map_range]
      refine List.map_congr_left fun j hj => ?_
      have := List.mem_range.mp hj
      simp only [Function.comp]
      rw [ofNat16_toNat (by omega)]
    · rw [encVec_cons, rangeRows]
      simp only
      rw [show i + (f + (n - 1) + 1 - f) = i + n from by omega]
      refine (Lays.append (l := [.num 2 f, .num 2 (f + (n - 1) : Nat), .num 2 i]) ?_ q4)
      unfold Coverage.RangeRecord.enc
      rw [List.append_assoc]
      have hix : Lays (encU16 ix) [.num 2 i] := by
        refine lays_num rfl (by omega) ?_
        rw [field_u16', ← hi]; norm_num
      exact (lays_len f).cons ((lays_len (f + (n - 1))).cons hix)

theorem cov_at {gs : List UInt16} {bs : Bytes} (h : Coverage.toBytes gs = .ok bs) : PicsAt (.bytes bs) (CoverageAt gs) := by
  have hmax : MaxOnlyLast gs := by
    by_contra hc
    rw [C07_max_inside_panics gs hc] at h
    cases h
  obtain ⟨sl, h1, h2, h3, _⟩ := slices_spec gs hmax
  unfold Coverage.toBytes at h
  simp only [h1, Res.ok_bind] at h
  intro B start ext _ hh
  have hp := hh.1
  split at h
  · cases h
    exact .inl (((lays_len 1).append (lays_words gs)).2 B start start hp)
  · obtain ⟨recs, hrec, h⟩ := Res.bind_inv h
    cases h
    obtain ⟨rs, q1, q2, q3, q4⟩ := lays_ranges sl 0 0 recs h3 hrec rfl
    refine .inr ⟨rs, q2, by rw [← h2]; exact q3, ?_⟩
    rw [q1]
    rw [List.append_assoc] at hp
    exact (((lays_len 2).cons ((lays_len _).cons q4)).2 B start start hp)

theorem covTab_at {gs : List UInt16} {t : Tab} (h : covTab gs = .ok t) : PicsAt t (CoverageAt gs) := by
  unfold covTab at h
  cases e : Coverage.toBytes gs with
  | err => rw [e] at h; cases h
  | panic => rw [e] at h; cases h
  | ok bs => rw [e] at h; cases h; exact cov_at e

/-! ### Class definition tables -/

theorem lays_classRanges : ∀ (sl : List (List (UInt16 × UInt16))) (recs : List ClassDef.RangeRecord),
    (∀ s ∈ sl, ClassDef.Run s) → Res.mapL ClassDef.record sl = .ok recs →
    ∃ rs : List (Nat × Nat × UInt16), rs.length = sl.length ∧ (∀ r ∈ rs, r.1 ≤ r.2.1 ∧ r.2.1 ≤ 65535) ∧
      sl.flatten.map (fun x => (x.1.toNat, x.2)) =
        rs.flatMap (fun r => (List.range' r.1 (r.2.1 + 1 - r.1)).map (fun g => (g, r.2.2))) ∧
      Lays (encVec ClassDef.RangeRecord.enc recs) (rs.flatMap (fun r => [.num 2 r.1, .num 2 r.2.1, u16 r.2.2]))
  | [], recs, _, h => by
    cases h
    exact ⟨[], rfl, by simp, rfl, lays_nil⟩
  | s :: sl, recs, hr, h => by
    obtain ⟨f, n, c, hn, hf, rfl⟩ := hr s (by simp)
    rw [Res.mapL] at h
    have hrec : ClassDef.record ((iota f n).map (fun g => (g, c))) = .ok ⟨UInt16.ofNat f, UInt16.ofNat (f + (n - 1)), c⟩ := by
      unfold ClassDef.record
      rw [List.head?_map, List.getLast?_map, iota_head f n hn, iota_last f n hn]
      rfl
    rw [hrec] at h
    simp only at h
    cases hl : Res.mapL ClassDef.record sl with
    | err => rw [hl] at h; cases h
    | panic => rw [hl] at h; cases h
    | ok more =>
      rw [hl] at h
      cases h
      obtain ⟨rs, q1, q2, q3, q4⟩ := lays_classRanges sl more (fun s hs => hr s (by simp [hs])) hl
      refine ⟨(f, f + (n - 1), c) :: rs, by simp [q1], ?_, ?_, ?_⟩
      · intro r hr
        rcases List.mem_cons.mp hr with rfl | hr
        · exact ⟨by simp, by simp only; omega⟩
        · exact q2 r hr
      · rw [List.flatten_cons, List.map_append, q3, List.flatMap_cons]
        congr 1
        simp only [iota, List.map_map]
        rw [show f + (n - 1) + 1 - f = n from by omega, List.range'_eq_map_range, List.map_map]
        refine List.map_congr_left fun j hj => ?_
        have := List.mem_range.mp hj
        simp only [Function.comp]
        rw [ofNat16_toNat (by omega)]
      · rw [encVec_cons, List.flatMap_cons]
        refine Lays.append ?_ q4
        unfold ClassDef.RangeRecord.enc
        rw [List.append_assoc]
        exact (lays_len f).cons ((lays_len (f + (n - 1))).cons (lays_u16 c))

theorem class_at {m : List (UInt16 × UInt16)} {bs : Bytes} (h : ClassDef.toBytes m = .ok bs) :
    PicsAt (.bytes bs) (ClassAt m) := by
  intro B start ext _ hh hasc
  have hp := hh.1
  clear hh
  unfold ClassDef.toBytes at h
  obtain ⟨sl, hsl, h⟩ := Res.bind_inv h
  cases m with
  | nil =>
    cases h
    refine .inr ⟨[], by simp, rfl, ?_⟩
    exact ((lays_len 2).cons (lays_len 0)).2 B start start hp
  | cons a m =>
    obtain ⟨last, hlast⟩ : ∃ last, (a :: m).getLast? = some last := by
      cases e : (a :: m).getLast? with
      | none => simp at e
      | some x => exact ⟨x, rfl⟩
    rw [hlast] at h
    simp only [List.head?_cons] at h
    split at h
    · cases h
    split at h
    · cases h
    next hbig =>
    obtain ⟨_, hb2⟩ := classRuns_bound m a last hasc hlast
    have hs := sorted_of_asc hasc
    split at h
    · -- format 1
      cases e : addOne last.1 with
      | err => rw [e] at h; cases h
      | panic => rw [e] at h; cases h
      | ok z =>
        rw [e] at h
        cases h
        refine .inl ⟨a.1, (rangeIncl a.1 last.1).map (fun g => (BMap.get? (a :: m) g).getD 0), ?_, ?_⟩
        · rw [List.append_assoc] at hp
          exact ((lays_len 1).cons ((lays_u16 a.1).cons (lays_words _))).2 B start start hp
        · intro g
          rw [classOf_eq hs]
          have hout : ¬ (a.1.toNat ≤ g.toNat ∧ g.toNat ≤ last.1.toNat) → BMap.get? (a :: m) g = none := by
            intro hg
            rw [BMap.get?_eq_none hs]
            rintro x hx rfl
            exact hg (hb2 x hx)
          by_cases h1 : a.1.toNat ≤ g.toNat
          · rw [if_pos h1]
            by_cases h2 : g.toNat ≤ last.1.toNat
            · rw [List.getElem?_map]
              have : (rangeIncl a.1 last.1)[g.toNat - a.1.toNat]? = some g := by
                unfold rangeIncl
                rw [List.getElem?_map, List.getElem?_range (by omega)]
                simp only [Option.map_some, Option.some.injEq]
                rw [Nat.add_sub_cancel' h1]
                exact UInt16.toNat_inj.mp (ofNat16_toNat (by omega))
              rw [this]
              rfl
            · have hl : ((rangeIncl a.1 last.1).map (fun g => (BMap.get? (a :: m) g).getD 0)).length ≤ g.toNat - a.1.toNat := by
                simp only [rangeIncl, List.length_map, List.length_range]; omega
              rw [hout (by omega), List.getElem?_eq_none hl]
          · rw [if_neg h1, hout (by omega)]
            rfl
    · -- format 2
      obtain ⟨g1, g2, _⟩ := slicesGo_spec (P := ClassDef.Run) ClassDef.run_single (fun c a b => ClassDef.run_snoc c a b) m [] a sl
        (ClassDef.run_single a) hsl
      obtain ⟨recs, hrec, h⟩ := Res.bind_inv h
      cases h
      obtain ⟨rs, q1, q2, q3, q4⟩ := lays_classRanges sl recs (fun s hs => (g2 s hs).1) hrec
      have hflat : sl.flatten = a :: m := by simpa using g1
      refine .inr ⟨rs, q2, by rw [← hflat]; exact q3, ?_⟩
      rw [q1]
      rw [List.append_assoc] at hp
      exact ((lays_len 2).cons ((lays_len _).cons q4)).2 B start start hp

theorem classTab_at {m : List (UInt16 × UInt16)} {t : Tab} (h : classTab m = .ok t) : PicsAt t (ClassAt m) := by
  unfold classTab at h
  cases e : ClassDef.toBytes m with
  | err => rw [e] at h; cases h
  | panic => rw [e] at h; cases h
  | ok bs => rw [e] at h; cases h; exact class_at e

/-! ### Device tables -/

/-- Word `k` of the deltas is what the values assigned to it make. `tmp` is the word begun and `s` its free bits. -/
theorem encLoop_words (f : Nat) (hf : f ≤ 3) : ∀ (vs : List Int8) (tmp s : Nat), 0 < s → s ≤ 16 → (2 ^ f) ∣ s →
    tmp % 2 ^ s = 0 → tmp < 65536 →
    (s < 16 ∨ vs ≠ [] → 2 ≤ (Device.encLoop (2 ^ f) tmp s vs).length ∧
      field (Device.encLoop (2 ^ f) tmp s vs) 0 2 / 2 ^ s = tmp / 2 ^ s) ∧
    ∀ (i : Nat) (v : Int8), vs[i]? = some v →
      2 * ((16 - s + i * 2 ^ f) / 16) + 2 ≤ (Device.encLoop (2 ^ f) tmp s vs).length ∧
      ((field (Device.encLoop (2 ^ f) tmp s vs) (2 * ((16 - s + i * 2 ^ f) / 16)) 2 /
        2 ^ (16 - 2 ^ f - (16 - s + i * 2 ^ f) % 16) % 2 ^ 2 ^ f : Nat) : ℤ) = v.toInt % 2 ^ 2 ^ f := by
  intro vs
  induction vs with
  | nil =>
    intro tmp s h0 h16 hd ht hlt
    refine ⟨fun hs => ?_, by simp⟩
    rcases hs with hs | hs
    · simp only [Device.encLoop]
      rw [if_pos (by omega)]
      refine ⟨Nat.le_refl _, ?_⟩
      rw [field_u16', ofNat16_toNat (by omega)]
    · exact absurd rfl hs
  | cons v vs ih =>
    intro tmp s h0 h16 hd ht hlt
    have hpos : (0 : Int) < 2 ^ (2 ^ f) := Int.pow_pos (by decide)
    have hb0 := Int.emod_nonneg v.toInt (Int.ne_of_gt hpos)
    have hb1 := Int.emod_lt_of_pos v.toInt hpos
    have hcast : (((2 ^ (2 ^ f) : Nat)) : Int) = 2 ^ (2 ^ f) := by simp
    have hb : (v.toInt % 2 ^ (2 ^ f)).toNat < 2 ^ (2 ^ f) := by omega
    have hvb : ((v.toInt % 2 ^ (2 ^ f)).toNat : ℤ) = v.toInt % 2 ^ (2 ^ f) := Int.toNat_of_nonneg hb0
    have hnb : 0 < 2 ^ f := Nat.two_pow_pos f
    have hle : 2 ^ f ≤ s := Nat.le_of_dvd h0 hd
    have hd16 : 2 ^ f ∣ 16 := by
      have : f = 0 ∨ f = 1 ∨ f = 2 ∨ f = 3 := by omega
      rcases this with rfl | rfl | rfl | rfl <;> decide
    generalize hbe : (v.toInt % 2 ^ (2 ^ f)).toNat = b at hb hvb
    generalize hnbe : 2 ^ f = nb at *
    obtain ⟨s', hss⟩ : ∃ s', s = s' + nb := ⟨s - nb, by omega⟩
    have hs' : s - nb = s' := by omega
    have hor : tmp ||| (b <<< s') = tmp + b * 2 ^ s' := or_shift tmp b s' nb hb (by rw [← hss]; exact ht)
    have hp : (2 : Nat) ^ s = 2 ^ s' * 2 ^ nb := by rw [hss, Nat.pow_add]
    have hps : 0 < 2 ^ s' := Nat.two_pow_pos s'
    generalize htmpe : tmp + b * 2 ^ s' = tmp' at hor
    have hd1 := Nat.div_add_mod tmp (2 ^ s)
    rw [ht, Nat.add_zero] at hd1
    have htmp' : tmp' / 2 ^ s' % 2 ^ nb = b := by
      rw [← htmpe, Nat.add_mul_div_right _ _ hps, ← hd1, hp, Nat.mul_assoc, Nat.mul_div_cancel_left _ hps, Nat.mul_add_mod]
      exact Nat.mod_eq_of_lt hb
    have hdiv' : tmp' / 2 ^ s = tmp / 2 ^ s := by
      have hlt2 : b * 2 ^ s' < 2 ^ s := by
        rw [hp, Nat.mul_comm]; exact Nat.mul_lt_mul_of_pos_left hb hps
      rw [← htmpe]
      conv => lhs; rw [← hd1]
      rw [Nat.mul_add_div (Nat.two_pow_pos s), Nat.div_eq_of_lt hlt2, Nat.add_zero]
    have hlt' : tmp' < 65536 := by
      have h1 : tmp' / 2 ^ s < 2 ^ (16 - s) := by
        rw [hdiv', Nat.div_lt_iff_lt_mul (Nat.two_pow_pos s), ← Nat.pow_add]
        rw [Nat.sub_add_cancel h16]; exact hlt
      rw [Nat.div_lt_iff_lt_mul (Nat.two_pow_pos s), ← Nat.pow_add, Nat.sub_add_cancel h16] at h1
      exact h1
    have hmod' : tmp' % 2 ^ s' = 0 := by
      rw [← htmpe, Nat.add_mul_mod_self_right]
      have := Nat.mod_mod_of_dvd tmp (Nat.pow_dvd_pow 2 (by omega : s' ≤ s))
      rw [ht] at this; simpa using this.symm
    have hencstep : Device.encLoop nb tmp s (v :: vs) =
        if s' = 0 then encU16 (UInt16.ofNat tmp') ++ Device.encLoop nb 0 16 vs else Device.encLoop nb tmp' s' vs := by
      rw [Device.encLoop]
      simp only [hbe, hs', hor]
    -- the word of this value
    have hword : 2 ≤ (Device.encLoop nb tmp s (v :: vs)).length ∧
        field (Device.encLoop nb tmp s (v :: vs)) 0 2 / 2 ^ s' = tmp' / 2 ^ s' := by
      rw [hencstep]
      split
      · refine ⟨by simp, ?_⟩
        rw [field_prefix (by simp), field_u16', ofNat16_toNat (by omega)]
      · next hz =>
        have hds : nb ∣ s' := by rw [← hs']; exact Nat.dvd_sub hd (Nat.dvd_refl nb)
        exact (ih tmp' s' (by omega) (by omega) hds hmod' hlt').1 (.inl (by omega))
    refine ⟨fun _ => ⟨hword.1, ?_⟩, ?_⟩
    · rw [hp, ← Nat.div_div_eq_div_mul, hword.2, Nat.div_div_eq_div_mul, ← hp, hdiv']
    · intro i w hi
      cases i with
      | zero =>
        obtain rfl : v = w := by simpa using hi
        have e1 : (16 - s + 0 * nb) / 16 = 0 := by rw [Nat.zero_mul]; omega
        have e2 : (16 - s + 0 * nb) % 16 = 16 - s := by rw [Nat.zero_mul]; omega
        rw [e1, e2]
        refine ⟨hword.1, ?_⟩
        rw [show 16 - nb - (16 - s) = s' from by omega, Nat.mul_zero, hword.2, htmp', hvb]
      | succ i =>
        have hi' : vs[i]? = some w := by simpa using hi
        rw [hencstep]
        split
        · next hz =>
          obtain ⟨q1, q2⟩ := (ih 0 16 (by omega) (by omega) hd16 (by simp) (by omega)).2 i w hi'
          have e : 16 - s + (i + 1) * nb = 16 + i * nb := by rw [Nat.succ_mul]; omega
          rw [e, Nat.add_div_left _ (by omega), Nat.add_mod_left]
          rw [Nat.sub_self, Nat.zero_add] at q1 q2
          constructor
          · rw [List.length_append, encU16_length]; omega
          · rw [field_skip' (pre := encU16 (UInt16.ofNat tmp')) (j := 2 * (i * nb / 16)) (by rw [encU16_length]; omega)]
            exact q2
        · next hz =>
          have hds : nb ∣ s' := by rw [← hs']; exact Nat.dvd_sub hd (Nat.dvd_refl nb)
          obtain ⟨q1, q2⟩ := (ih tmp' s' (by omega) (by omega) hds hmod' hlt').2 i w hi'
          have e : 16 - s' + i * nb = 16 - s + (i + 1) * nb := by rw [Nat.succ_mul]; omega
          rw [e] at q1 q2
          exact ⟨q1, q2⟩

theorem device_at {d : Device.Device} {bs : Bytes} (h : Device.toBytes d = .ok bs) : PicsAt (.bytes bs) (DeviceAt d) := by
  intro B start ext _ hh
  have hp := hh.1
  clear hh
  unfold Device.toBytes at h
  simp only at h
  generalize hf : d.deltaFormat.getD (Device.suggestFormat d.deltaValues) = f at h
  split at h
  · cases h
  next h3 =>
  cases h
  have hd16 : 2 ^ f.toNat ∣ 16 := by
    have : f.toNat = 0 ∨ f.toNat = 1 ∨ f.toNat = 2 ∨ f.toNat = 3 := by omega
    rcases this with e | e | e | e <;> rw [e] <;> decide
  refine ⟨f.toNat, by omega, ?_, ?_, ?_⟩
  · intro x hx
    rw [Option.mem_def.mp hx] at hf
    rw [← hf]; rfl
  · have := (List.prefix_append _ _).trans hp
    rw [List.append_assoc] at this
    exact ((lays_u16 _).cons ((lays_u16 _).cons (lays_u16 f))).2 B start start this
  · intro i v hv
    obtain ⟨q1, q2⟩ := (encLoop_words f.toNat (by omega) d.deltaValues 0 16 (by omega) (by omega) hd16 (by simp) (by omega)).2 i v hv
    rw [Nat.sub_self, Nat.zero_add] at q1 q2
    have hp2 := prefix_right hp
    have hl := hp2.length_le
    rw [List.length_drop] at hl
    have h6 : (encU16 d.startSize ++ encU16 d.endSize ++ encU16 f).length = 6 := by simp
    rw [h6] at hp2 hl
    refine ⟨by omega, ?_⟩
    rw [field_of_prefix hp2 q1]
    exact q2

end FT.Props
