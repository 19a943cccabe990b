import Verif.Lemmas.Hmtx
import Verif.Props.Primitives

/-!
# C27: horizontal metrics
-/

namespace FT.Props
open FT FT.Hmtx

/-- Specification: storing `m` full metrics suffices, i.e. metric `m` (counting from 1) and all later ones have
the same advance width. -/
def TailShared (l : List Metric) (m : Nat) : Prop :=
  ∀ (i j : Nat) (hi : i < l.length) (hj : j < l.length), m ≤ i + 1 → m ≤ j + 1 →
    l[i].advanceWidth = l[j].advanceWidth

theorem hmtx_shape (l : List Metric) (hne : l ≠ []) :
    ∃ full m rest, l = full ++ rest ∧ full.length = endIndex l (l.length - 1) + 1 ∧ full.getLast? = some m ∧
      rest = (rest.map Metric.lsb).map (fun x => ⟨m.advanceWidth, x⟩) := by
  have hpos : 0 < l.length := List.length_pos_iff.mpr hne
  let e := endIndex l (l.length - 1)
  have he : e ≤ l.length - 1 := endIndex_le l _
  have hlen : (l.take (e + 1)).length = e + 1 := by simp; omega
  refine ⟨l.take (e + 1), l[e]'(by omega), l.drop (e + 1), (List.take_append_drop _ _).symm, hlen, ?_, ?_⟩
  · rw [List.getLast?_eq_getElem?, hlen]
    simp only [Nat.add_sub_cancel]
    rw [List.getElem?_take_of_lt (by omega), List.getElem?_eq_getElem]
  · rw [List.map_map]
    symm
    conv => rhs; rw [← List.map_id (l.drop (e + 1))]
    apply List.map_congr_left
    intro x hx
    obtain ⟨i, hi, rfl⟩ := List.mem_iff_getElem.mp hx
    simp only [List.length_drop] at hi
    rw [List.getElem_drop]
    have h1 := endIndex_same l (l.length - 1) (e + 1 + i) (by omega) (by omega)
    have h2 := endIndex_same l (l.length - 1) e (by omega) (by omega)
    have h3 : advAt l (e + 1 + i) = advAt l e := h1.trans h2.symm
    unfold advAt at h3
    rw [List.getElem?_eq_getElem (by omega), List.getElem?_eq_getElem (by omega)] at h3
    simp only [Option.map_some, Option.some.injEq] at h3
    simp only [Function.comp_apply, ← h3, id]

theorem toBytes_count (l : List Metric) (hne : l ≠ []) :
    (toBytes l).2 = UInt16.ofNat (endIndex l (l.length - 1) + 1) := by
  unfold toBytes
  rw [if_neg (by simpa using hne)]

/-- Every non-empty list of at most 65535 metrics reads back equal, with the number of full metrics that the
writer reported. -/
theorem C27_roundtrip (l : List Metric) (hne : l ≠ []) (h : l.length ≤ 65535) :
    ∃ r', fromBytes (toBytes l).2 (Rd.new (toBytes l).1) = .ok (l, r') := by
  obtain ⟨full, m, rest, hl, hfull, hlast, hrest⟩ := hmtx_shape l hne
  have hpos : 0 < l.length := List.length_pos_iff.mpr hne
  have he := endIndex_le l (l.length - 1)
  have hc := toBytes_count l hne
  have hb : (toBytes l).1 = encVec encMetric full ++ encVec encI16 (rest.map Metric.lsb) := by
    unfold toBytes
    rw [if_neg (by simpa using hne)]
    simp only
    generalize endIndex l (l.length - 1) = e at *
    rw [hl]
    exact encMetrics_split _ full rest 0 (by omega)
  have := (readsEnd_fromBytes (n := (toBytes l).2) (full := full) (m := m) (others := rest.map Metric.lsb)
    (by rw [hc, ofNat16_toNat (by omega), hfull]) hlast).run
  rw [← hrest, ← hl, ← hb] at this
  exact ⟨_, this⟩

/-- The number reported by the writer is the one computed for the hhea table, and it is the smallest number of
full metrics that keeps every advance width. -/
theorem C27_count_minimal (l : List Metric) (hne : l ≠ []) (h : l.length ≤ 65535) :
    numberOfHMetrics l = .ok (toBytes l).2 ∧ 1 ≤ (toBytes l).2.toNat ∧
    ∀ m, 1 ≤ m → (TailShared l m ↔ (toBytes l).2.toNat ≤ m ∨ l.length ≤ m) := by
  have hpos : 0 < l.length := List.length_pos_iff.mpr hne
  have he := endIndex_le l (l.length - 1)
  have hc : (toBytes l).2.toNat = endIndex l (l.length - 1) + 1 := by
    rw [toBytes_count l hne, ofNat16_toNat (by omega)]
  have hadv : ∀ i (hi : i < l.length), advAt l i = some l[i].advanceWidth := by
    intro i hi; unfold advAt; rw [List.getElem?_eq_getElem hi]; rfl
  refine ⟨?_, by omega, ?_⟩
  · unfold numberOfHMetrics
    cases hr : l.reverse with
    | nil => simp at hr; exact absurd hr hne
    | cons m rest =>
      simp only
      rw [takeWhile_dupes l m rest hr, if_neg (by omega), toBytes_count l hne]
      congr 2
      omega
  · intro m hm
    constructor
    · intro ht
      apply Classical.byContradiction
      intro hcon
      have hcon' : m < endIndex l (l.length - 1) + 1 ∧ m < l.length := by omega
      have hmin := endIndex_min l (l.length - 1) (by omega)
      apply hmin
      rw [hadv _ (by omega), hadv _ (by omega)]
      congr 1
      exact ht _ _ _ _ (by omega) (by omega)
    · intro hor i j hi hj h1 h2
      cases hor with
      | inl hle =>
        have h3 := endIndex_same l (l.length - 1) i (by omega) (by omega)
        have h4 := endIndex_same l (l.length - 1) j (by omega) (by omega)
        rw [hadv i hi] at h3
        rw [hadv j hj] at h4
        rw [← h4] at h3
        exact Option.some.inj h3
      | inr hle =>
        have : i = j := by omega
        subst this; rfl

/-- Outside the range: reading with zero full metrics panics on every input, in particular on the bytes written
for an empty list. -/
theorem C27_empty_panics (bs : Bytes) :
    toBytes [] = ([], 0) ∧ fromBytes 0 (Rd.new bs) = .panic := by
  refine ⟨rfl, ?_⟩
  unfold fromBytes
  have hz : deCounted readMetric (0 : UInt16).toNat = pure [] := rfl
  rw [hz, Reader.bind_run, Reader.pure_run]
  simp only
  rw [Reader.bind_run]
  have : ∀ (k : Nat) (r : Rd), ∃ l r', readVecFuel readI16 k r = .ok (l, r') := by
    intro k
    induction k with
    | zero => intro r; exact ⟨_, _, rfl⟩
    | succ k ih =>
      intro r
      rw [readVecFuel]
      have hnp : readI16 r ≠ .panic := by
        rcases Nat.lt_or_ge r.inp.length (r.ptr + 2) with hlt | hge
        · rw [(C03_i16 r).2 hlt]; simp
        · obtain ⟨a, e⟩ := (C03_i16 r).1 hge
          rw [e]; simp
      cases hr : readI16 r with
      | ok x =>
        obtain ⟨a, r1⟩ := x
        obtain ⟨l, r2, e⟩ := ih r1
        exact ⟨a :: l, r2, by simp only [hr, e]⟩
      | err => exact ⟨[], r, by simp only [hr]⟩
      | panic => exact absurd hr hnp
  obtain ⟨l, r', e⟩ := this (bs.length + 1) (Rd.new bs)
  unfold readVec
  rw [show (Rd.new bs).inp = bs from rfl, e]
  rfl

/-- With 65536 glyphs whose last two advances differ, the count wraps to zero in the writer (so that reading
back panics) and computing it for hhea panics. -/
theorem C27_65536_lost (l : List Metric) (h : l.length = 65536)
    (hd : (l[65534]?).map Metric.advanceWidth ≠ (l[65535]?).map Metric.advanceWidth) :
    (toBytes l).2 = 0 ∧ numberOfHMetrics l = .panic := by
  have hne : l ≠ [] := by intro e; rw [e] at h; cases h
  have he : endIndex l (l.length - 1) = 65535 := by
    rw [h]
    show endIndex l (65534 + 1) = 65535
    rw [endIndex, if_neg hd]
  constructor
  · rw [toBytes_count l hne, he]; rfl
  · unfold numberOfHMetrics
    cases hr : l.reverse with
    | nil => simp at hr; exact absurd hr hne
    | cons m rest =>
      simp only
      rw [takeWhile_dupes l m rest hr, he, h]
      rfl

example : toBytes [⟨500, 5⟩, ⟨600, -1⟩, ⟨600, 7⟩, ⟨600, 3⟩] =
    ([1, 244, 0, 5, 2, 88, 255, 255, 0, 7, 0, 3], 2) := by decide
example : ∃ r', fromBytes (toBytes [⟨500, 5⟩, ⟨600, -1⟩, ⟨600, 7⟩]).2
    (Rd.new (toBytes [⟨500, 5⟩, ⟨600, -1⟩, ⟨600, 7⟩]).1) = .ok ([⟨500, 5⟩, ⟨600, -1⟩, ⟨600, 7⟩], r') :=
  C27_roundtrip _ (by simp) (by simp)
example : ∃ l : List Metric, l.length = 65536 ∧
    (l[65534]?).map Metric.advanceWidth ≠ (l[65535]?).map Metric.advanceWidth :=
by
  obtain ⟨n, hn⟩ : ∃ n, n = 65534 := ⟨_, rfl⟩
  refine ⟨List.replicate (n + 1) ⟨1, 0⟩ ++ [⟨2, 0⟩], ?_, ?_⟩
  · rw [List.length_append, List.length_replicate, hn]; rfl
  · rw [show (65535 : Nat) = n + 1 by omega, show (65534 : Nat) = n by omega,
      List.getElem?_append_left (by rw [List.length_replicate]; omega),
      List.getElem?_append_right (by rw [List.length_replicate]; omega),
      List.getElem?_replicate, List.length_replicate, Nat.sub_self, if_pos (by omega)]
    simp

end FT.Props
