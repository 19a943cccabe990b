import Verif.Lemmas.Coverage

/-!
# C08: class definition tables
-/

namespace FT.Props
open FT FT.ClassDef

/-- Specification: the class of a glyph under a class definition; glyphs without an entry have class 0. -/
def classOf (m : List (UInt16 × UInt16)) (g : UInt16) : UInt16 :=
  match m.find? (fun x => x.1 == g) with
  | some x => x.2
  | none => 0

/-- Specification: the glyph has an entry. -/
def HasEntry (m : List (UInt16 × UInt16)) (g : UInt16) : Prop := ∃ c, (g, c) ∈ m

/-- Specification: entries in ascending glyph order, one per glyph (what a `BTreeMap` iterates over). -/
def AscendingKeys (m : List (UInt16 × UInt16)) : Prop := m.Pairwise (fun x y => x.1.toNat < y.1.toNat)

/-- Specification: number of maximal runs of consecutive glyphs with one class. -/
def classRuns : List (UInt16 × UInt16) → Nat
  | [] => 0
  | [_] => 1
  | a :: b :: l => (if b.1.toNat = a.1.toNat + 1 ∧ a.2 = b.2 then 0 else 1) + classRuns (b :: l)

theorem sorted_of_asc {m : List (UInt16 × UInt16)} (h : AscendingKeys m) : BMap.Sorted m := by
  refine h.imp ?_
  intro a b h
  show decide _ = true
  simpa using h

theorem asc_of_sorted {m : List (UInt16 × UInt16)} (h : BMap.Sorted m) : AscendingKeys m := by
  refine List.Pairwise.imp ?_ h
  intro a b h
  have h : decide (a.1.toNat < b.1.toNat) = true := h
  simpa using h

theorem classOf_eq {m : List (UInt16 × UInt16)} (h : BMap.Sorted m) (g : UInt16) :
    classOf m g = (BMap.get? m g).getD 0 := by
  unfold classOf
  cases e : m.find? (fun x => x.1 == g) with
  | none =>
    have : BMap.get? m g = none := by
      rw [BMap.get?_eq_none h]
      intro x hx hg
      have := List.find?_eq_none.mp e x hx
      simp [hg] at this
    rw [this]; rfl
  | some x =>
    have h1 := List.find?_some e
    have h2 := List.mem_of_find?_eq_some e
    simp only [beq_iff_eq] at h1
    have : BMap.get? m g = some x.2 := by
      rw [BMap.get?_eq_some h, ← h1]; exact h2
    rw [this]; rfl

theorem classRuns_eq : ∀ (m : List (UInt16 × UInt16)) (a : UInt16 × UInt16),
    (∀ x ∈ a :: m, x.1.toNat < 65535) →
    classRuns (a :: m) =
      1 + ((adj (a :: m)).filter (fun p => decide (brk p.1 p.2 = .ok true))).length := by
  intro m
  induction m with
  | nil => intro a _; rfl
  | cons b m ih =>
    intro a h
    have h0 := h a (by simp)
    rw [classRuns, ih b (fun x hx => h x (by simp [hx])), adj_cons_cons, List.filter_cons]
    by_cases e : b.1.toNat = a.1.toNat + 1 ∧ a.2 = b.2
    · rw [if_pos e, if_neg]
      · omega
      · simp only [decide_eq_true_eq]; rw [brk_true h0]; exact fun h => h e
    · rw [if_neg e, if_pos]
      · simp only [List.length_cons]; omega
      · simp only [decide_eq_true_eq]; rw [brk_true h0]; exact e

theorem classRuns_bound : ∀ (m : List (UInt16 × UInt16)) (a z : UInt16 × UInt16), AscendingKeys (a :: m) →
    (a :: m).getLast? = some z → a.1.toNat + classRuns (a :: m) ≤ z.1.toNat + 1 ∧
      ∀ x ∈ a :: m, a.1.toNat ≤ x.1.toNat ∧ x.1.toNat ≤ z.1.toNat := by
  intro m
  induction m with
  | nil =>
    intro a z _ hz
    simp only [List.getLast?_singleton, Option.some.injEq] at hz
    subst hz
    simp [classRuns]
  | cons b m ih =>
    intro a z h hz
    have h1 := (List.pairwise_cons.mp h).1 b (by simp)
    obtain ⟨h2, h3⟩ := ih b z (List.pairwise_cons.mp h).2 (by simpa using hz)
    refine ⟨?_, ?_⟩
    · rw [classRuns]
      split <;> omega
    · intro x hx
      rcases List.mem_cons.mp hx with rfl | hx
      · have := h3 b (by simp); omega
      · have := h3 x hx; omega

/-- A class definition whose last glyph id is at most 65533 and that has at most 21845 runs is written, in the
smaller of its two encodings, and what is read back gives the same class to every glyph: entries are kept,
glyphs outside the range of the table stay without an entry, and glyphs inside it that had none have none or
class 0. If the range encoding is the smaller one, exactly the same entries are read back. -/
theorem C08_roundtrip (m : List (UInt16 × UInt16)) (first last : UInt16 × UInt16) (h : AscendingKeys m)
    (hfirst : m.head? = some first) (hlast : m.getLast? = some last)
    (hbig : last.1.toNat ≤ 65533) (hruns : classRuns m ≤ 21845) :
    ∃ bs m', toBytes m = .ok bs ∧ Reads ClassDef.read bs m' ∧
      bs.length = min (8 + 2 * (last.1.toNat - first.1.toNat)) (4 + 6 * classRuns m) ∧ AscendingKeys m' ∧
      (∀ g, classOf m' g = classOf m g) ∧ (∀ g, HasEntry m g → HasEntry m' g) ∧
      (∀ g, HasEntry m' g → first.1.toNat ≤ g.toNat ∧ g.toNat ≤ last.1.toNat) ∧
      (4 + 6 * classRuns m ≤ 8 + 2 * (last.1.toNat - first.1.toNat) → m' = m) := by
  cases m with
  | nil => simp at hfirst
  | cons a m =>
    simp only [List.head?_cons, Option.some.injEq] at hfirst
    subst hfirst
    obtain ⟨hb1, hb2⟩ := classRuns_bound m a last h hlast
    have hab := hb2 last (List.mem_of_getLast? hlast)
    have hall : ∀ x ∈ a :: m, x.1.toNat < 65535 := fun x hx => by have := (hb2 x hx).2; omega
    have hs := sorted_of_asc h
    have hadj : ∀ p ∈ adj (a :: m), ∃ t, brk p.1 p.2 = .ok t := by
      intro p hp
      exact brk_ok (hall _ (List.of_mem_zip hp).1)
    obtain ⟨sl, hsl⟩ := slicesGo_ok m [a] a hadj
    obtain ⟨g1, g2, g3⟩ := slicesGo_spec (P := Run) run_single (fun c a b => run_snoc c a b) m [] a sl
      (run_single a) hsl
    have hslices : slices brk (a :: m) = .ok sl := hsl
    have hk : sl.length = classRuns (a :: m) := by rw [g3, classRuns_eq m a hall]
    have hn : (UInt16.ofNat sl.length).toNat = sl.length := ofNat16_toNat (by omega)
    have hflat : sl.flatten = a :: m := by simpa using g1
    by_cases hfmt : sl.length * 3 > 2 + last.1.toNat - a.1.toNat
    · -- format 1
      let arr := (rangeIncl a.1 last.1).map (fun g => (BMap.get? (a :: m) g).getD 0)
      have hiota : rangeIncl a.1 last.1 = iota a.1.toNat (last.1.toNat + 1 - a.1.toNat) := rfl
      have hle : a.1.toNat ≤ last.1.toNat := hab.1
      have hlenarr : arr.length = last.1.toNat + 1 - a.1.toNat := by simp [arr, hiota]
      have hbytes : toBytes (a :: m) = .ok (encU16 1 ++ encU16 a.1 ++ encCounted encU16 arr) := by
        unfold toBytes
        rw [hslices, hlast]
        simp only [Res.ok_bind, List.head?_cons, hn]
        rw [if_neg (by omega), if_neg (by omega), if_pos hfmt, addOne_ok (by omega)]
        rfl
      let m' := (iota a.1.toNat (last.1.toNat + 1 - a.1.toNat)).map (fun g => (g, (BMap.get? (a :: m) g).getD 0))
      have hs' : BMap.Sorted m' := iota_sorted _ _ (by omega) _
      have hread : Reads ClassDef.read (encU16 1 ++ encU16 a.1 ++ encCounted encU16 arr) m' := by
        refine Reads.bind' (reads_u16 1) (bs' := encU16 a.1 ++ encCounted encU16 arr) ?_ (by simp)
        rw [if_pos rfl]
        refine Reads.bind (reads_u16 _) ?_
        refine Reads.bind' (reads_counted arr (by omega) (fun x _ => reads_u16 x)) (bs' := []) (Reads.lift ?_)
          (by simp)
        rw [insertArray_spec _ _ _ _ (by omega)]
        congr 1
        have : (iota (a.1.toNat + 0) arr.length).zip arr = m' := by
          rw [hlenarr, Nat.add_zero]
          exact zip_map_self _ _
        rw [this]
        exact BMap.collect_of_sorted hs'
      have hmem : ∀ g c, (g, c) ∈ m' ↔ (a.1.toNat ≤ g.toNat ∧ g.toNat ≤ last.1.toNat) ∧
          c = (BMap.get? (a :: m) g).getD 0 := by
        intro g c
        simp only [m', List.mem_map]
        constructor
        · rintro ⟨x, hx, e⟩
          injection e with e1 e2
          subst e1
          rw [mem_iota (by omega)] at hx
          exact ⟨by omega, e2.symm⟩
        · rintro ⟨hx, rfl⟩
          exact ⟨g, (mem_iota (by omega)).mpr (by omega), rfl⟩
      refine ⟨_, m', hbytes, hread, ?_, asc_of_sorted hs', ?_, ?_, ?_, ?_⟩
      · simp only [List.length_append, encU16_length, encCounted]
        rw [encVec_length (k := 2) (fun r => by simp), hlenarr]
        omega
      · intro g
        rw [classOf_eq hs', classOf_eq hs]
        cases e : BMap.get? m' g with
        | some c =>
          rw [BMap.get?_eq_some hs'] at e
          exact ((hmem g c).mp e).2
        | none =>
          cases e2 : BMap.get? (a :: m) g with
          | none => rfl
          | some c =>
            exfalso
            rw [BMap.get?_eq_none hs'] at e
            rw [BMap.get?_eq_some hs] at e2
            exact e (g, _) ((hmem g _).mpr ⟨hb2 _ e2, rfl⟩) rfl
      · rintro g ⟨c, hc⟩
        exact ⟨_, (hmem g _).mpr ⟨hb2 _ hc, rfl⟩⟩
      · rintro g ⟨c, hc⟩
        exact ((hmem g c).mp hc).1
      · intro hle; omega
    · -- format 2
      obtain ⟨recs, q1, q2, q3⟩ := mapL_record sl (fun s hs => (g2 s hs).1) (fun s hs x hx =>
        hall x (by rw [← hflat]; exact List.mem_flatten_of_mem hs hx))
      have hbytes : toBytes (a :: m) = .ok (encU16 2 ++ encCounted RangeRecord.enc recs) := by
        unfold toBytes
        rw [hslices, hlast]
        simp only [Res.ok_bind, List.head?_cons, hn]
        rw [if_neg (by omega), if_neg (by omega), if_neg hfmt, q1]
        simp only [Res.ok_bind, Res.pure_eq, encCounted, q2, List.append_assoc]
      have hread : Reads ClassDef.read (encU16 2 ++ encCounted RangeRecord.enc recs) (a :: m) := by
        refine Reads.bind (reads_u16 2) ?_
        rw [if_neg (by decide)]
        refine Reads.bind' (reads_counted recs (by omega) (fun x _ => x.reads)) (bs' := []) (Reads.lift ?_)
          (by simp)
        rw [q3, hflat]
        congr 1
        exact BMap.collect_of_sorted hs
      refine ⟨_, a :: m, hbytes, hread, ?_, h, fun _ => rfl, fun _ h => h, ?_, fun _ => rfl⟩
      · simp only [List.length_append, encU16_length, encCounted]
        rw [encVec_length (k := 6) (fun r => by simp [RangeRecord.enc]), q2, hk]
        omega
      · rintro g ⟨c, hc⟩
        exact hb2 _ hc

theorem C08_empty : ∃ bs, toBytes [] = .ok bs ∧ Reads ClassDef.read bs [] := by
  refine ⟨_, rfl, Reads.bind (reads_u16 2) ?_⟩
  rw [if_neg (by decide)]
  exact Reads.bind' (reads_counted (enc := RangeRecord.enc) [] (by simp) (by simp)) (Reads.lift rfl)
    (List.append_nil _).symm

/-- Outside these limits the writer panics (in release builds the comparison wraps instead). -/
theorem C08_too_big_panics (m : List (UInt16 × UInt16)) (last : UInt16 × UInt16) (h : AscendingKeys m)
    (hlast : m.getLast? = some last) (hbig : 65533 < last.1.toNat ∨ 21845 < classRuns m) :
    toBytes m = .panic := by
  cases m with
  | nil => simp at hlast
  | cons a m =>
    obtain ⟨hb1, hb2⟩ := classRuns_bound m a last h hlast
    have hadj : ∀ p ∈ adj (a :: m), p.1.1.toNat < 65535 := by
      intro p hp
      have : ∀ (l : List (UInt16 × UInt16)), AscendingKeys l → ∀ p ∈ adj l, p.1.1.toNat < p.2.1.toNat := by
        intro l
        induction l with
        | nil => intro _ p hp; simp [adj] at hp
        | cons x l ih =>
          cases l with
          | nil => intro _ p hp; simp [adj] at hp
          | cons y l =>
            intro h p hp
            rw [adj_cons_cons] at hp
            rcases List.mem_cons.mp hp with rfl | hp
            · exact (List.pairwise_cons.mp h).1 y (by simp)
            · exact ih (List.pairwise_cons.mp h).2 p hp
      have := this _ h p hp
      have := p.2.1.toNat_lt
      omega
    obtain ⟨sl, hsl⟩ := slicesGo_ok m [a] a (fun p hp => brk_ok (hadj p hp))
    have hslices : slices brk (a :: m) = .ok sl := hsl
    unfold toBytes
    rw [hslices, hlast]
    simp only [Res.ok_bind, List.head?_cons]
    split
    · rfl
    · rename_i hn
      rw [if_pos]
      rcases hbig with hbig | hbig
      · omega
      · -- many runs: the last glyph must then be large, or the count overflows
        apply Classical.byContradiction
        intro hl
        have hall : ∀ x ∈ a :: m, x.1.toNat < 65535 := fun x hx => by have := (hb2 x hx).2; omega
        obtain ⟨_, _, g3⟩ := slicesGo_spec (P := Run) run_single (fun c a b => run_snoc c a b) m [] a sl
          (run_single a) hsl
        have hk : sl.length = classRuns (a :: m) := by rw [g3, classRuns_eq m a hall]
        rw [ofNat16_toNat (by omega)] at hn
        omega

/-- The glyph set of every class but 0 survives. -/
theorem C08_get_glyphs (m m' : List (UInt16 × UInt16)) (h : AscendingKeys m) (h' : AscendingKeys m')
    (hc : ∀ g, classOf m' g = classOf m g) (c max : UInt16) (hc0 : c ≠ 0) :
    getGlyphs m' c max = getGlyphs m c max := by
  have key : ∀ (m : List (UInt16 × UInt16)), AscendingKeys m → ∀ g, g ∈ getGlyphs m c max ↔ classOf m g = c := by
    intro m h g
    unfold getGlyphs
    rw [if_neg hc0, classOf_eq (sorted_of_asc h)]
    simp only [List.mem_map, List.mem_filter, beq_iff_eq]
    constructor
    · rintro ⟨x, ⟨hx, e⟩, rfl⟩
      rw [(BMap.get?_eq_some (sorted_of_asc h) (k := x.1) (v := x.2)).mpr hx]
      exact e
    · intro e
      cases e2 : BMap.get? m g with
      | none => rw [e2] at e; exact absurd e.symm hc0
      | some v =>
        rw [e2] at e
        exact ⟨(g, v), ⟨(BMap.get?_eq_some (sorted_of_asc h)).mp e2, e⟩, rfl⟩
  have asc : ∀ (m : List (UInt16 × UInt16)), AscendingKeys m →
      (getGlyphs m c max).Pairwise (fun a b => a.toNat < b.toNat) := by
    intro m h
    unfold getGlyphs
    rw [if_neg hc0, List.pairwise_map]
    exact List.Pairwise.filter _ h
  have hmem : ∀ g, g ∈ getGlyphs m' c max ↔ g ∈ getGlyphs m c max := by
    intro g; rw [key m' h', key m h, hc]
  exact List.Perm.eq_of_pairwise (le := fun a b : UInt16 => a.toNat < b.toNat)
    (fun a b _ _ h1 h2 => by omega) (asc m' h') (asc m h)
    ((List.perm_ext_iff_of_nodup ((asc m' h').imp (fun h e => by subst e; omega))
      ((asc m h).imp (fun h e => by subst e; omega))).mpr hmem)

/-- The glyph set of class 0 need not survive: glyph 2 is in class 0 before writing and in no class of the
table read back. -/
theorem C08_class_zero_glyphs_change : ∃ m bs m', AscendingKeys m ∧ toBytes m = .ok bs ∧
    ClassDef.read (Rd.new bs) = .ok (m', ⟨bs, bs.length, [0]⟩) ∧
    getGlyphs m 0 4 = [0, 2, 4] ∧ getGlyphs m' 0 4 = [0, 4] :=
  ⟨[(1, 1), (3, 2)], [0, 1, 0, 1, 0, 3, 0, 1, 0, 0, 0, 2], [(1, 1), (2, 0), (3, 2)],
    by simp [AscendingKeys], by decide, by decide, by decide, by decide⟩

example : AscendingKeys [(1, 1), (3, 2)] ∧ classRuns [(1, 1), (3, 2)] ≤ 21845 := by
  refine ⟨by simp [AscendingKeys], by decide⟩
example : toBytes [(10, 1), (11, 1), (12, 1), (30, 2)] =
    .ok [0, 2, 0, 2, 0, 10, 0, 12, 0, 1, 0, 30, 0, 30, 0, 2] := by decide
example : AscendingKeys [(5, 1), (65534, 1)] ∧ 65533 < (65534 : UInt16).toNat := by
  refine ⟨by simp [AscendingKeys], by decide⟩

end FT.Props
