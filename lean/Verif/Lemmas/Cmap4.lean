import Verif.Lemmas.Cmap12
import Verif.Lemmas.Font

/-! Format 4 character maps: segmentation. -/

namespace FT.Cmap
open FT Reader

/-- Codes of a segment. -/
def codes (x : Nat × Nat) : List Nat := List.range' x.1 (x.2 + 1 - x.1)

/-- Ranges within `lo..hi`, in order, not overlapping. -/
def Sparse : Nat → List (Nat × Nat) → Nat → Prop
  | _, [], _ => True
  | lo, (b, e) :: l, hi => lo ≤ b ∧ b ≤ e ∧ e ≤ hi ∧ Sparse (e + 1) l hi

/-- Ranges that cover `lo..hi` without gap. -/
def Tiles : Nat → List (Nat × Nat) → Nat → Prop
  | lo, [], hi => lo = hi + 1
  | lo, (b, e) :: l, hi => b = lo ∧ b ≤ e ∧ e ≤ hi ∧ Tiles (e + 1) l hi

theorem Sparse.mono : ∀ {l : List (Nat × Nat)} {lo lo' hi : Nat}, lo' ≤ lo → Sparse lo l hi → Sparse lo' l hi
  | [], _, _, _, _, _ => trivial
  | (_, _) :: _, _, _, _, h, ⟨h1, h2, h3, h4⟩ => ⟨by omega, h2, h3, h4⟩

theorem codes_split {lo e hi : Nat} (h1 : lo ≤ e + 1) (h2 : e ≤ hi) :
    codes (lo, e) ++ codes (e + 1, hi) = codes (lo, hi) := by
  unfold codes
  simp only
  obtain ⟨k, hk⟩ : ∃ k, e + 1 = lo + k := ⟨e + 1 - lo, by omega⟩
  rw [hk, Nat.add_sub_cancel_left, List.range'_append_1]
  congr 1
  omega

theorem Tiles.flatMap : ∀ {l : List (Nat × Nat)} {lo hi : Nat}, Tiles lo l hi → l.flatMap codes = codes (lo, hi)
  | [], lo, hi, h => by
    have h : lo = hi + 1 := h
    unfold codes
    simp [h]
  | (b, e) :: l, lo, hi, ⟨h1, h2, h3, h4⟩ => by
    subst h1
    rw [List.flatMap_cons, Tiles.flatMap h4, codes_split (by omega) h3]

theorem Tiles.bounds : ∀ {l : List (Nat × Nat)} {lo hi : Nat}, Tiles lo l hi → ∀ x ∈ l, lo ≤ x.1 ∧ x.1 ≤ x.2 ∧ x.2 ≤ hi
  | (b, e) :: l, lo, hi, ⟨h1, h2, h3, h4⟩, x, hx => by
    rcases List.mem_cons.mp hx with e' | e'
    · subst e'; exact ⟨by simp only; omega, h2, h3⟩
    · have := h4.bounds x e'; omega

/-- The scan over the codes after `lastCode`: the ranges lie after `lo`. -/
theorem scan_sparse (m : Map) : ∀ (k : Nat) (lastId : UInt16) (lastCode lo : Nat) (o b : Option Nat),
    (o = none ∨ o = some 0 ∨ o = some 1) →
    (o = some 1 → ∃ b', b = some b' ∧ lo ≤ b' ∧ b' < lastCode) → lo ≤ lastCode →
    (scan m (List.range' (lastCode + 1) k) lastId lastCode o b).2 = lastCode + k ∧
    ∃ rs, (scan m (List.range' (lastCode + 1) k) lastId lastCode o b).1 = rs.map (fun x => (some x.1, x.2)) ∧
      Sparse lo rs (lastCode + k)
  | 0, lastId, lastCode, lo, o, b, ho, hb, hlo => by
    refine ⟨rfl, ?_⟩
    simp only [List.range'_zero, scan]
    by_cases h : o = some 1
    · obtain ⟨b', h1, h2, h3⟩ := hb h
      rw [if_pos h]
      exact ⟨[(b', lastCode)], by simp [h1], h2, by omega, Nat.le_refl _, trivial⟩
    · rw [if_neg h]
      exact ⟨[], rfl, trivial⟩
  | k + 1, lastId, lastCode, lo, o, b, ho, hb, hlo => by
    rw [List.range'_succ]
    simp only [scan]
    have hk : lastCode + (k + 1) = (lastCode + 1) + k := by omega
    rw [hk]
    split
    · split
      · exact scan_sparse m k _ (lastCode + 1) lo (some 1) (some lastCode) (by simp)
          (fun _ => ⟨lastCode, rfl, hlo, by omega⟩) (by omega)
      · rename_i h
        have h : o = some 1 := by
          rcases ho with h' | h' | h'
          · exact absurd (.inl h') h
          · exact absurd (.inr h') h
          · exact h'
        obtain ⟨b', h1, h2, h3⟩ := hb h
        exact scan_sparse m k _ (lastCode + 1) lo o b ho (fun _ => ⟨b', h1, h2, by omega⟩) (by omega)
    · split
      · rename_i h
        obtain ⟨b', h1, h2, h3⟩ := hb h
        obtain ⟨e1, rs, e2, e3⟩ := scan_sparse m k (glyphAt m (lastCode + 1)) (lastCode + 1) (lastCode + 1) (some 0) none
          (by simp) (by simp) (by omega)
        refine ⟨e1, (b', lastCode) :: rs, ?_, h2, by omega, by omega, e3⟩
        simp only [List.map_cons, e2, h1]
      · rename_i h
        exact scan_sparse m k _ (lastCode + 1) lo o b ho (fun h' => absurd h' h) (by omega)

theorem longRanges_sparse (start end_ : Nat) (hend : end_ ≤ 65534) : ∀ (l : List (Nat × Nat)) (lo : Nat), Sparse lo l end_ →
    ∃ rs, longRanges start end_ (l.map (fun x => (some x.1, x.2))) = .ok rs ∧ Sparse lo rs end_
  | [], _, _ => ⟨[], rfl, trivial⟩
  | (b, e) :: l, lo, ⟨h1, h2, h3, h4⟩ => by
    simp only [List.map_cons, longRanges]
    split
    · exact ⟨[], rfl, trivial⟩
    rw [if_neg (by omega)]
    obtain ⟨rs, e1, e2⟩ := longRanges_sparse start end_ hend l (e + 1) h4
    rw [e1]
    refine ⟨_, rfl, ?_⟩
    generalize (if b = start ∨ e = end_ then 4 else 8) = th
    split
    · exact ⟨h1, h2, h3, e2⟩
    · exact e2.mono (by omega)

theorem fillFirst_ok {start hi : Nat} {l : List (Nat × Nat)} (h : Sparse start l hi) (hne : l ≠ []) :
    ∃ e l', fillFirst start l = .ok ((start, e) :: l') ∧ Sparse start ((start, e) :: l') hi := by
  cases l with
  | nil => exact absurd rfl hne
  | cons x l =>
    obtain ⟨b, e⟩ := x
    obtain ⟨h1, h2, h3, h4⟩ := h
    simp only [fillFirst]
    split
    · rename_i hb
      simp only [subR]
      rw [if_neg (by omega)]
      refine ⟨b - 1, (b, e) :: l, rfl, Nat.le_refl _, by omega, by omega, ?_, h2, h3, h4⟩
      omega
    · rename_i hb
      have hb : b = start := by simpa using hb
      subst hb
      exact ⟨e, l, rfl, Nat.le_refl _, h2, h3, h4⟩

theorem sparse_concat : ∀ {l : List (Nat × Nat)} {lo hi : Nat} {x : Nat × Nat} (_ : Sparse lo l hi),
    l.getLast? = some x → x.2 < hi → Sparse lo (l ++ [(x.2 + 1, hi)]) hi
  | [], _, _, _, _, h, _ => by cases h
  | [(b, e)], lo, hi, x, ⟨h1, h2, h3, h4⟩, h, hx => by
    simp only [List.getLast?_singleton, Option.some.injEq] at h
    subst h
    simp only at hx
    exact ⟨h1, h2, h3, Nat.le_refl _, by omega, Nat.le_refl _, trivial⟩
  | (b, e) :: (c, d) :: l, lo, hi, x, ⟨h1, h2, h3, h4⟩, h, hx => by
    rw [List.getLast?_cons_cons] at h
    exact ⟨h1, h2, h3, sparse_concat h4 h hx⟩

theorem sparse_last_le : ∀ {l : List (Nat × Nat)} {lo hi : Nat}, Sparse lo l hi → ∀ x ∈ l, x.2 ≤ hi
  | (b, e) :: l, lo, hi, ⟨h1, h2, h3, h4⟩, x, hx => by
    rcases List.mem_cons.mp hx with e' | e'
    · subst e'; exact h3
    · exact sparse_last_le h4 x e'

theorem fillLast_ok {start e hi : Nat} {l : List (Nat × Nat)} (h : Sparse start ((start, e) :: l) hi) :
    ∃ l', fillLast hi ((start, e) :: l) = .ok ((start, e) :: l') ∧ Sparse start ((start, e) :: l') hi ∧
      ∃ b, ((start, e) :: l').getLast? = some (b, hi) := by
  cases hl : ((start, e) :: l).getLast? with
  | none => simp at hl
  | some x =>
    obtain ⟨b, z⟩ := x
    have hz : z ≤ hi := sparse_last_le h (b, z) (List.mem_of_getLast? hl)
    simp only [fillLast, hl]
    by_cases hzz : z = hi
    · rw [if_neg (by simpa using hzz)]
      subst hzz
      exact ⟨l, rfl, h, b, hl⟩
    · rw [if_pos hzz]
      refine ⟨l ++ [(z + 1, hi)], rfl, ?_, z + 1, ?_⟩
      · exact sparse_concat h hl (by simp only; omega)
      · rw [← List.cons_append, List.getLast?_append]; rfl

theorem fillGaps_ok : ∀ {l : List (Nat × Nat)} {a b hi : Nat}, a ≤ b → b ≤ hi → Sparse (b + 1) l hi →
    (∃ z, ((a, b) :: l).getLast? = some (z, hi)) →
    ∃ l', fillGaps ((a, b) :: l) = .ok ((a, b) :: l') ∧ Tiles (b + 1) l' hi
  | [], a, b, hi, h1, h2, _, ⟨z, hz⟩ => by
    simp only [List.getLast?_singleton, Option.some.injEq, Prod.mk.injEq] at hz
    exact ⟨[], rfl, by simp only [Tiles]; omega⟩
  | (c, d) :: l, a, b, hi, h1, h2, ⟨h3, h4, h5, h6⟩, ⟨z, hz⟩ => by
    rw [List.getLast?_cons_cons] at hz
    obtain ⟨l', e1, e2⟩ := fillGaps_ok h4 h5 h6 ⟨z, hz⟩
    simp only [fillGaps, e1, Res.ok_bind]
    split
    · simp only [subR]
      rw [if_neg (by omega)]
      exact ⟨_, rfl, rfl, by omega, by omega, by omega, h4, h5, e2⟩
    · rename_i hbc
      have hbc : b + 1 = c := by simpa using hbc
      exact ⟨_, rfl, hbc.symm, h4, h5, e2⟩

/-- `split_range` cuts the range into consecutive ranges. -/
theorem splitRange_ok (m : Map) {start end_ : Nat} (h1 : start ≤ end_) (h2 : start = end_ ∨ end_ ≤ 65534)
    {g : UInt16} (hg : BMap.get? m (UInt32.ofNat start) = some g) :
    ∃ e l, splitRange m start end_ = .ok (l.map Prod.fst, e :: l.map Prod.snd) ∧ Tiles start ((start, e) :: l) end_ := by
  unfold splitRange
  by_cases hse : start = end_
  · subst hse
    rw [if_pos rfl]
    exact ⟨start, [], rfl, rfl, Nat.le_refl _, Nat.le_refl _, rfl⟩
  rw [if_neg hse, hg]
  simp only
  rw [if_neg (by omega)]
  obtain ⟨e1, rs, e2, e3⟩ := scan_sparse m (end_ - start) g start start none none (by simp) (by simp) (Nat.le_refl _)
  rw [show start + (end_ - start) = end_ by omega] at e1 e3
  rw [if_neg (by simpa using e1), e2]
  obtain ⟨l1, f1, f2⟩ := longRanges_sparse start end_ (by omega) rs start e3
  rw [f1]
  simp only [Res.ok_bind]
  by_cases hl : l1 = []
  · rw [if_pos hl]
    exact ⟨end_, [], rfl, rfl, h1, Nat.le_refl _, rfl⟩
  rw [if_neg hl]
  obtain ⟨e, l2, k1, k2⟩ := fillFirst_ok f2 hl
  obtain ⟨l3, k3, k4, k5⟩ := fillLast_ok k2
  obtain ⟨k6, k7, k8, k9⟩ := k4
  obtain ⟨l4, k10, k11⟩ := fillGaps_ok k7 k8 k9 k5
  rw [k1]
  simp only [Res.ok_bind]
  rw [k3]
  simp only [Res.ok_bind]
  rw [k10]
  exact ⟨e, l4, rfl, rfl, k7, k8, k11⟩

/-- Adjacent in a strictly increasing list of numbers. -/
theorem get_some_of_mem {m : Map} (hs : BMap.Sorted m) {c : Nat} (h : c ∈ m.map (fun x => x.1.toNat)) :
    ∃ g, BMap.get? m (UInt32.ofNat c) = some g := by
  obtain ⟨x, hx, e⟩ := List.mem_map.mp h
  refine ⟨x.2, (BMap.get?_eq_some hs).mpr ?_⟩
  subst e
  simpa using hx

/-- The segments: in order, nonempty, below 0xFFFF, and together exactly the codes. -/
theorem segLoop_ok (m : Map) (hs : BMap.Sorted m) : ∀ (cs : List Nat) (start last : Nat),
    start ≤ last → last ≤ 65534 → (∃ g, BMap.get? m (UInt32.ofNat start) = some g) →
    (last :: cs).Pairwise (· < ·) → (∀ c ∈ cs, c ≤ 65534 ∧ ∃ g, BMap.get? m (UInt32.ofNat c) = some g) →
    ∃ e l, segLoop m start last cs = .ok (l.map Prod.fst, e :: l.map Prod.snd) ∧
      ((start, e) :: l).flatMap codes = codes (start, last) ++ cs ∧
      ∀ x ∈ (start, e) :: l, x.1 ≤ x.2 ∧ x.2 ≤ 65534
  | [], start, last, h1, h2, ⟨g, hg⟩, _, _ => by
    obtain ⟨e, l, e1, e2⟩ := splitRange_ok m h1 (.inr h2) hg
    simp only [segLoop, toU16]
    rw [if_neg (by omega)]
    refine ⟨e, l, e1, ?_, ?_⟩
    · rw [e2.flatMap]; simp
    · intro x hx
      have := e2.bounds x hx
      omega
  | c :: cs, start, last, h1, h2, ⟨g, hg⟩, hp, hc => by
    have hlt : last < c := (List.pairwise_cons.mp hp).1 c (by simp)
    obtain ⟨hc1, hc2⟩ := hc c (by simp)
    have hrest := fun x hx => hc x (List.mem_cons_of_mem c hx)
    simp only [segLoop]
    by_cases hcl : c = last + 1
    · rw [if_pos hcl]
      obtain ⟨e, l, e1, e2, e3⟩ := segLoop_ok m hs cs start c (by omega) hc1 ⟨g, hg⟩ (List.pairwise_cons.mp hp).2 hrest
      refine ⟨e, l, e1, ?_, e3⟩
      rw [e2, hcl, ← codes_split (lo := start) (e := last) (by omega) (by omega)]
      simp only [codes, List.append_assoc]
      rw [show last + 1 + 1 - (last + 1) = 1 by omega]
      rfl
    · rw [if_neg hcl]
      simp only [toU16]
      rw [if_neg (by omega)]
      simp only [Res.ok_bind]
      obtain ⟨e, l, e1, e2⟩ := splitRange_ok m h1 (.inr h2) hg
      rw [e1]
      simp only [Res.ok_bind]
      rw [if_neg (by omega)]
      simp only [Res.ok_bind]
      obtain ⟨e', l', e3, e4, e5⟩ := segLoop_ok m hs cs c c (Nat.le_refl _) hc1 hc2 (List.pairwise_cons.mp hp).2 hrest
      rw [e3]
      refine ⟨e, l ++ (c, e') :: l', by simp [pure], ?_, ?_⟩
      · rw [← List.cons_append, List.flatMap_append, e2.flatMap, e4]
        simp only [codes]
        rw [show c + 1 - c = 1 by omega]
        rfl
      · intro x hx
        rw [← List.cons_append] at hx
        rcases List.mem_append.mp hx with hx | hx
        · have := e2.bounds x hx
          omega
        · exact e5 x hx

end FT.Cmap
