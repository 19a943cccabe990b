import Verif.Lemmas.Finds

/-!
# C88: coverage and class tables written by any program

Bytes that follow the OpenType specification, in either format and wherever they are placed, are read as the glyphs and
classes they list.
-/

namespace FT.Props
open FT Reader FT.Off FT.Lay

/-! ### Specification -/

/-- A class definition table that lists the entries `m`: consecutive glyphs with their classes (format 1), or ranges
with their class (format 2). -/
def ClassListAt (m : List (UInt16 × UInt16)) : Bytes → Nat → Prop := fun B start =>
  (∃ first : Nat, m.map (fun x => x.1.toNat) = List.range' first m.length ∧ first ≤ 65535 ∧
    At ([.num 2 1, .num 2 first] ++ wordRows (m.map Prod.snd)) B start) ∨
  ∃ rs : List (Nat × Nat × UInt16), (∀ r ∈ rs, r.1 ≤ r.2.1 ∧ r.2.1 ≤ 65535) ∧
    m.map (fun x => (x.1.toNat, x.2)) =
      rs.flatMap (fun r => (List.range' r.1 (r.2.1 + 1 - r.1)).map (fun g => (g, r.2.2))) ∧
    At ([.num 2 2, .num 2 rs.length] ++ rs.flatMap (fun r => [.num 2 r.1, .num 2 r.2.1, u16 r.2.2])) B start

/-- Glyphs a coverage or class table may list: at most 65535 of them, and not number 65535, which no font has. -/
def GlyphsOk (gs : List UInt16) : Prop := gs.length ≤ 65535 ∧ ∀ g ∈ gs, g.toNat < 65535

/-! ### Proofs -/

theorem rangeIncl_toNat (s e : UInt16) : (rangeIncl s e).map UInt16.toNat = List.range' s.toNat (e.toNat + 1 - s.toNat) := by
  have := e.toNat_lt
  unfold rangeIncl
  rw [List.map_map, List.range'_eq_map_range]
  refine List.map_congr_left fun i hi => ?_
  rw [List.mem_range] at hi
  simp only [Function.comp]
  rw [ofNat16_toNat (by omega)]
  

theorem map_toNat_inj {a b : List UInt16} (h : a.map UInt16.toNat = b.map UInt16.toNat) : a = b :=
  List.map_injective_iff.mpr (fun _ _ h => UInt16.toNat_inj.mp h) h

theorem plain_ranges : ∀ (rs : List (Nat × Nat)) (i : Nat), (∀ r ∈ rs, r.1 ≤ r.2 ∧ r.2 < 65535) →
    ∃ recs : List Coverage.RangeRecord, recs.length = rs.length ∧
      Plain (deCounted Coverage.RangeRecord.read rs.length) recs (rangeRows i rs) ∧
      ∃ gs, Res.mapL Coverage.expand recs = .ok gs ∧
        gs.flatten.map UInt16.toNat = rs.flatMap (fun r => List.range' r.1 (r.2 + 1 - r.1))
  | [], i, _ => ⟨[], rfl, plain_pure [], [], rfl, rfl⟩
  | r :: rs, i, h => by
    obtain ⟨recs, hl, hp, gs, h1, h2⟩ := plain_ranges rs (i + (r.2 + 1 - r.1)) fun x hx => h x (by simp [hx])
    obtain ⟨hr1, hr2⟩ := h r (by simp)
    let rec0 : Coverage.RangeRecord := ⟨UInt16.ofNat r.1, UInt16.ofNat r.2, UInt16.ofNat i⟩
    have hr : Plain Coverage.RangeRecord.read rec0 [.num 2 r.1, .num 2 r.2, .num 2 i] := by
      unfold Coverage.RangeRecord.read
      refine (plain_count (by omega)).cons ((plain_count (by omega)).cons ((plain_num16 (UInt16.ofNat i) ?_).last rfl))
      rw [UInt16.toNat_ofNat']; norm_num
    refine ⟨rec0 :: recs, by simp [hl], ?_, rangeIncl rec0.startG rec0.endG :: gs, ?_, ?_⟩
    · rw [List.length_cons, deCounted]
      exact hr.bind (hp.last rfl)
    · rw [Res.mapL]
      have : Coverage.expand rec0 = .ok (rangeIncl rec0.startG rec0.endG) := by
        unfold Coverage.expand addOne
        rw [if_neg (by simp only [rec0]; rw [ofNat16_toNat (by omega)]; omega)]
      rw [this, h1]
    · rw [List.flatten_cons, List.map_append, h2, List.flatMap_cons, rangeIncl_toNat]
      simp only [rec0]
      rw [ofNat16_toNat (by omega), ofNat16_toNat (by omega)]

theorem ranges_fit {rs : List (Nat × Nat)} (h : ∀ r ∈ rs, r.1 ≤ r.2 ∧ r.2 ≤ 65535) {gs : List UInt16}
    (e : gs.map UInt16.toNat = rs.flatMap (fun r => List.range' r.1 (r.2 + 1 - r.1))) (hg : GlyphsOk gs) :
    rs.length ≤ 65535 ∧ ∀ r ∈ rs, r.1 ≤ r.2 ∧ r.2 < 65535 := by
  constructor
  · have h1 := congrArg List.length e
    rw [List.length_map, List.length_flatMap] at h1
    have h2 : rs.length ≤ (rs.map (fun r => (List.range' r.1 (r.2 + 1 - r.1)).length)).sum := by
      have : ∀ (l : List (Nat × Nat)), (∀ r ∈ l, r.1 ≤ r.2 ∧ r.2 ≤ 65535) →
          l.length ≤ (l.map (fun r => (List.range' r.1 (r.2 + 1 - r.1)).length)).sum := by
        intro l hl
        induction l with
        | nil => simp
        | cons a l ih =>
          have h1 := hl a (by simp)
          have h2 := ih fun x hx => hl x (by simp [hx])
          simp only [List.map_cons, List.sum_cons, List.length_cons, List.length_range'] at h2 ⊢
          omega
      exact this rs h
    have := hg.1
    omega
  · intro r hr
    obtain ⟨h1, h2⟩ := h r hr
    refine ⟨h1, ?_⟩
    have hm : r.2 ∈ gs.map UInt16.toNat := by
      rw [e, List.mem_flatMap]
      exact ⟨r, hr, by rw [List.mem_range'_1]; omega⟩
    obtain ⟨g, hg1, hg2⟩ := List.mem_map.mp hm
    have := hg.2 g hg1
    omega

/-- A coverage table is read as the glyphs it lists. -/
theorem finds_coverage {gs : List UInt16} (hg : GlyphsOk gs) : FindsAt Coverage.read gs (CoverageAt gs) := by
  intro B start stk h
  rcases h with h | ⟨rs, h1, h2, h3⟩
  · have hp : Plain Coverage.read gs (.num 2 1 :: wordRows gs) := by
      unfold Coverage.read
      refine (plain_num16 1 (by decide)).cons ?_
      simp only [if_true]
      exact plain_words hg.1
    exact hp.table (by simp [widths_cons, wordRows, Cell.width]) B start stk h
  · obtain ⟨f1, f2⟩ := ranges_fit h1 h2 hg
    obtain ⟨recs, hl, hp, es, e1, e2⟩ := plain_ranges rs 0 f2
    have hgs : es.flatten = gs := map_toNat_inj (by rw [e2, h2])
    have hp : Plain Coverage.read gs ([.num 2 2, .num 2 rs.length] ++ rangeRows 0 rs) := by
      unfold Coverage.read
      refine (plain_num16 2 (by decide)).cons ?_
      simp only [show ¬ ((2 : UInt16) = 1) by decide, if_false]
      refine Plain.last (a := recs) (r := .num 2 rs.length :: rangeRows 0 rs) ?_ ?_
      · unfold readCounted
        refine (plain_count f1).cons ?_
        rw [ofNat16_toNat f1]
        exact hp
      · rw [e1]
        simp only [← hgs]
        rfl
    exact hp.table (by simp [widths_cons, Cell.width]) B start stk h3

/-! ### Class tables -/

theorem insertArray_list (s : UInt16) : ∀ (ix : Nat) (l acc : List (UInt16 × UInt16)),
    l.map (fun x => x.1.toNat) = List.range' (s.toNat + ix) l.length →
    ClassDef.insertArray s ix (l.map Prod.snd) acc = .ok (l.foldl (fun m x => BMap.insert m x.1 x.2) acc)
  | _, [], _, _ => rfl
  | ix, x :: l, acc, h => by
    rw [List.map_cons, List.length_cons, List.range'_succ] at h
    obtain ⟨h1, h2⟩ := List.cons.inj h
    have := x.1.toNat_lt
    rw [List.map_cons, ClassDef.insertArray, if_neg (by omega), insertArray_list s (ix + 1) l _ (by rw [h2, Nat.add_assoc]),
      List.foldl_cons]
    have : UInt16.ofNat (s.toNat + ix) = x.1 := by rw [← h1]; exact UInt16.ofNat_toNat
    rw [this]

theorem insertRanges_list : ∀ (rs : List (Nat × Nat × UInt16)) (l acc : List (UInt16 × UInt16)),
    (∀ r ∈ rs, r.1 ≤ r.2.1 ∧ r.2.1 < 65535) →
    l.map (fun x => (x.1.toNat, x.2)) =
      rs.flatMap (fun r => (List.range' r.1 (r.2.1 + 1 - r.1)).map (fun g => (g, r.2.2))) →
    ClassDef.insertRanges (rs.map (fun r => ⟨UInt16.ofNat r.1, UInt16.ofNat r.2.1, r.2.2⟩)) acc =
      .ok (l.foldl (fun m x => BMap.insert m x.1 x.2) acc)
  | [], l, acc, _, h => by
    cases l with
    | nil => rfl
    | cons a l => cases h
  | r :: rs, l, acc, hr, h => by
    obtain ⟨hr1, hr2⟩ := hr r (by simp)
    rw [List.flatMap_cons] at h
    obtain ⟨l1, l2, rfl, h1, h2⟩ := List.map_eq_append_iff.mp h
    rw [List.map_cons, ClassDef.insertRanges]
    have : addOne (UInt16.ofNat r.2.1) = .ok (UInt16.ofNat ((UInt16.ofNat r.2.1).toNat + 1)) := by
      unfold addOne
      rw [if_neg (by rw [ofNat16_toNat (by omega)]; omega)]
    rw [this]
    simp only
    rw [insertRanges_list rs l2 _ (fun x hx => hr x (by simp [hx])) h2, List.foldl_append]
    congr 2
    have e : l1 = (rangeIncl (UInt16.ofNat r.1) (UInt16.ofNat r.2.1)).map (fun g => (g, r.2.2)) := by
      have hinj : Function.Injective (fun x : UInt16 × UInt16 => (x.1.toNat, x.2)) := by
        rintro ⟨a, b⟩ ⟨c, d⟩ h
        simp only [Prod.mk.injEq] at h
        rw [UInt16.toNat_inj.mp h.1, h.2]
      apply List.map_injective_iff.mpr hinj
      rw [h1, List.map_map]
      have := rangeIncl_toNat (UInt16.ofNat r.1) (UInt16.ofNat r.2.1)
      rw [ofNat16_toNat (by omega), ofNat16_toNat (by omega)] at this
      rw [← this, List.map_map]
      rfl
    rw [e, List.foldl_map]

theorem ranges3_fit {rs : List (Nat × Nat × UInt16)} (h : ∀ r ∈ rs, r.1 ≤ r.2.1 ∧ r.2.1 ≤ 65535)
    {m : List (UInt16 × UInt16)} (e : m.map (fun x => (x.1.toNat, x.2)) =
      rs.flatMap (fun r => (List.range' r.1 (r.2.1 + 1 - r.1)).map (fun g => (g, r.2.2)))) (hg : GlyphsOk (m.map Prod.fst)) :
    rs.length ≤ 65535 ∧ ∀ r ∈ rs, r.1 ≤ r.2.1 ∧ r.2.1 < 65535 := by
  have := ranges_fit (rs := rs.map (fun r => (r.1, r.2.1))) (gs := m.map Prod.fst) ?_ ?_ hg
  · rw [List.length_map] at this
    exact ⟨this.1, fun r hr => this.2 _ (List.mem_map_of_mem hr)⟩
  · intro r hr
    obtain ⟨x, hx, rfl⟩ := List.mem_map.mp hr
    exact h x hx
  · have h2 := congrArg (List.map Prod.fst) e
    rw [List.map_map, List.map_flatMap] at h2
    rw [List.map_map, List.flatMap_map]
    refine Eq.trans h2 ?_
    congr 1
    funext r
    rw [List.map_map]
    exact List.map_id _

/-- A class table is read as the entries it lists. -/
theorem finds_classes {m : List (UInt16 × UInt16)} (ha : AscendingKeys m) (hg : GlyphsOk (m.map Prod.fst)) :
    FindsAt ClassDef.read m (ClassListAt m) := by
  have hfold : m.foldl (fun m x => BMap.insert m x.1 x.2) [] = m := by
    have := BMap.foldl_insert_append (m := ([] : List (UInt16 × UInt16))) (l := m) (by simpa using sorted_of_asc ha)
    simpa using this
  intro B start stk h
  rcases h with ⟨first, h1, h2, h3⟩ | ⟨rs, h1, h2, h3⟩
  · have hp : Plain ClassDef.read m ([.num 2 1, .num 2 first] ++ wordRows (m.map Prod.snd)) := by
      unfold ClassDef.read
      refine (plain_num16 1 (by decide)).cons ?_
      simp only [if_true]
      refine (plain_count h2).cons ((plain_words (by simpa using hg.1)).last ?_)
      rw [insertArray_list _ 0 m [] (by rw [ofNat16_toNat h2, Nat.add_zero]; exact h1), hfold]
      rfl
    exact hp.table (by simp [widths_cons, wordRows, Cell.width]) B start stk h3
  · obtain ⟨f1, f2⟩ := ranges3_fit h1 h2 hg
    have hp : Plain ClassDef.read m
        ([.num 2 2, .num 2 rs.length] ++ rs.flatMap (fun r => [.num 2 r.1, .num 2 r.2.1, u16 r.2.2])) := by
      unfold ClassDef.read
      refine (plain_num16 2 (by decide)).cons ?_
      simp only [show ¬ ((2 : UInt16) = 1) by decide, if_false]
      refine Plain.last (a := rs.map (fun r => (⟨UInt16.ofNat r.1, UInt16.ofNat r.2.1, r.2.2⟩ : ClassDef.RangeRecord)))
        (r := .num 2 rs.length :: rs.flatMap (fun r => [.num 2 r.1, .num 2 r.2.1, u16 r.2.2])) ?_ ?_
      · unfold readCounted
        refine (plain_count f1).cons ?_
        rw [ofNat16_toNat f1]
        have key : ∀ (rs : List (Nat × Nat × UInt16)), (∀ r ∈ rs, r.1 ≤ r.2.1 ∧ r.2.1 < 65535) →
            Plain (deCounted ClassDef.RangeRecord.read rs.length)
              (rs.map (fun r => (⟨UInt16.ofNat r.1, UInt16.ofNat r.2.1, r.2.2⟩ : ClassDef.RangeRecord)))
              (rs.flatMap (fun r => [.num 2 r.1, .num 2 r.2.1, u16 r.2.2])) := by
          intro rs hr
          induction rs with
          | nil => exact plain_pure []
          | cons r rs ih =>
            have := hr r (by simp)
            rw [List.flatMap_cons, List.length_cons, deCounted]
            refine Plain.bind (a := ⟨UInt16.ofNat r.1, UInt16.ofNat r.2.1, r.2.2⟩) ?_
              ((ih fun x hx => hr x (by simp [hx])).last rfl)
            unfold ClassDef.RangeRecord.read
            exact (plain_count (by omega)).cons ((plain_count (by omega)).cons ((plain_u16 _).last rfl))
        exact key rs f2
      · rw [insertRanges_list rs m [] f2 h2, hfold]
        rfl
    exact hp.table (by simp [widths_cons, Cell.width]) B start stk h3

end FT.Props
