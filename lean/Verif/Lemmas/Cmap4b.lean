import Verif.Lemmas.Cmap4

/-! Format 4 character maps: segments and back. -/

namespace FT.Cmap
open FT Reader

theorem getSearchRange2_ok (n : Nat) (h1 : 1 ≤ n) (h2 : n < 32768) :
    ∃ q, 2 ^ q ≤ n ∧ n < 2 ^ (q + 1) ∧ Font.getSearchRange (UInt16.ofNat n) 2 =
      .ok (UInt16.ofNat (2 * 2 ^ q), UInt16.ofNat q, UInt16.ofNat (2 * n - 2 * 2 ^ q)) := by
  obtain ⟨q, e1, e2, e3, e4⟩ := Font.log2Loop_ok n (by omega) 17 0 (by omega) (by omega) (by simpa using h1)
  refine ⟨q, e2, e3, ?_⟩
  have hm : (UInt16.ofNat n).toNat = n := by simp; omega
  have h16 : (2 : UInt16).toNat = 2 := rfl
  unfold Font.getSearchRange
  rw [hm, h16]
  simp only [e1, Res.ok_bind, Font.mulU16]
  rw [if_neg (by omega), if_neg (by omega)]
  simp only [Res.ok_bind, Res.pure_eq]
  rw [Nat.max_eq_right (by omega), Nat.mul_comm (2 ^ q) 2, Nat.mul_comm n 2]

/-! ### contiguous lists -/

theorem isContiguous_true : ∀ (l : List UInt16) (a : UInt16), isContiguous (a :: l) = .ok true →
    ∀ k (hk : k < (a :: l).length), ((a :: l)[k]).toNat = a.toNat + k
  | _, a, _, 0, _ => by simp
  | [], _, _, k + 1, hk => by simp at hk
  | b :: l, a, h, k + 1, hk => by
    simp only [isContiguous] at h
    split at h
    · cases h
    split at h
    · cases h
    rename_i h1 h2
    have := isContiguous_true l b h k (by simpa using hk)
    rw [List.getElem_cons_succ, this]
    omega

theorem isContiguous_total : ∀ (l : List UInt16), (∀ x ∈ l.dropLast, x.toNat ≠ 65535) → ∃ b, isContiguous l = .ok b
  | [], _ => ⟨_, rfl⟩
  | [_], _ => ⟨_, rfl⟩
  | a :: b :: l, h => by
    simp only [isContiguous]
    rw [if_neg (h a (by simp))]
    split
    · exact ⟨_, rfl⟩
    · exact isContiguous_total (b :: l) (fun x hx => h x (by
        rw [List.dropLast_cons_of_ne_nil (by simp)]; simp [hx]))

theorem isContiguous_not_err : ∀ (l : List UInt16), isContiguous l ≠ .err
  | [] => by simp [isContiguous]
  | [_] => by simp [isContiguous]
  | a :: b :: l => by
    simp only [isContiguous]
    split
    · simp
    split
    · simp
    · exact isContiguous_not_err (b :: l)

/-! ### segments -/

/-- What the delta and range offset of segment number `i` must say: either glyph = code + delta, or the glyphs are in
the array at the place the offset points to. -/
def SegMeans (m : Map) (gs : List UInt16) (n i : Nat) (x : Nat × Nat) (d : Int16) (o : UInt16) : Prop :=
  (o = 0 ∧ ∀ c ∈ codes x, ((c : Int) + d.toInt) % 65536 = (glyphAt m c).toNat) ∨
  (d = 0 ∧ ∃ base, base + (x.2 + 1 - x.1) ≤ gs.length ∧ o.toNat = 2 * (n + base - i) ∧ i < n ∧
    ∀ c ∈ codes x, gs[base + (c - x.1)]? = some (glyphAt m c))

def SegsMean (m : Map) (gs : List UInt16) (n : Nat) : Nat → List (Nat × Nat) → List Int16 → List UInt16 → Prop
  | _, [], [], [] => True
  | i, x :: l, d :: ds, o :: os => SegMeans m gs n i x d o ∧ SegsMean m gs n (i + 1) l ds os
  | _, _, _, _ => False

theorem codes_mem {x : Nat × Nat} {c : Nat} : c ∈ codes x ↔ x.1 ≤ c ∧ c ≤ x.2 := by
  unfold codes
  rw [List.mem_range'_1]
  omega

theorem ofInt_mod (z : Int) : (Int16.ofInt z).toInt % 65536 = z % 65536 := by
  rw [Int16.toInt_ofInt]
  have : Int16.size = 65536 := rfl
  simp only [Int.bmod, this]
  split <;> omega

theorem deltaLoop_means (m : Map) (n : Nat) : ∀ (l : List (Nat × Nat)) (i : Nat) (gia : List UInt16) (ds : List Int16)
    (os gs : List UInt16), deltaLoop m n i l gia = .ok (ds, os, gs) → (∀ x ∈ l, x.1 ≤ x.2) → i + l.length < n →
    n + gs.length ≤ 65535 → (∃ tl, gs = gia ++ tl) ∧ SegsMean m gs n i l ds os
  | [], i, gia, ds, os, gs, h, _, _, _ => by
    simp only [deltaLoop] at h
    cases h
    exact ⟨⟨[], by simp⟩, trivial⟩
  | (s, e) :: l, i, gia, ds, os, gs, h, hl, hi, hn => by
    have hse : s ≤ e := hl (s, e) (by simp)
    have hl' := fun x hx => hl x (List.mem_cons_of_mem (s, e) hx)
    simp only [deltaLoop] at h
    split at h
    · cases h
    obtain ⟨b, hb, h⟩ := Res.bind_inv h
    obtain ⟨k, hk⟩ : ∃ k, e + 1 - s = k + 1 := ⟨e - s, by omega⟩
    have hcons : (List.range' s (e + 1 - s)).map (glyphAt m) =
        glyphAt m s :: (List.range' (s + 1) k).map (glyphAt m) := by
      rw [hk, List.range'_succ, List.map_cons]
    cases b with
    | true =>
      rw [if_pos rfl, hcons] at h
      simp only at h
      obtain ⟨⟨ds', os', gs'⟩, h1, h2⟩ := Res.bind_inv h
      simp only [pure, Res.ok.injEq, Prod.mk.injEq] at h2
      obtain ⟨rfl, rfl, rfl⟩ := h2
      obtain ⟨h3, h4⟩ := deltaLoop_means m n l (i + 1) gia ds' os' _ h1 hl' (by simp at hi; omega) hn
      refine ⟨h3, .inl ⟨rfl, ?_⟩, h4⟩
      intro c hc
      rw [codes_mem] at hc
      simp only at hc
      rw [hcons] at hb
      have hcc := isContiguous_true _ _ hb (c - s) (by simp; omega)
      have hget : ((glyphAt m s :: (List.range' (s + 1) k).map (glyphAt m))[c - s]'(by simp; omega)) = glyphAt m c := by
        have e1 : (glyphAt m s :: (List.range' (s + 1) k).map (glyphAt m)) =
          (List.range' s (k + 1)).map (glyphAt m) := by rw [List.range'_succ, List.map_cons]
        simp only [e1, List.getElem_map, List.getElem_range']
        congr 1
        omega
      rw [hget] at hcc
      have h5 := ofInt_mod (((glyphAt m s).toNat : Int) - s)
      have h6 := (glyphAt m c).toNat_lt
      omega
    | false =>
      rw [if_neg (by simp)] at h
      split at h
      · cases h
      rename_i hx
      obtain ⟨⟨ds', os', gs'⟩, h1, h2⟩ := Res.bind_inv h
      simp only [pure, Res.ok.injEq, Prod.mk.injEq] at h2
      obtain ⟨rfl, rfl, rfl⟩ := h2
      obtain ⟨⟨tl, h3⟩, h4⟩ := deltaLoop_means m n l (i + 1) _ ds' os' _ h1 hl' (by simp at hi; omega) hn
      have hlen : gs'.length = gia.length + (e + 1 - s) + tl.length := by
        rw [h3]; simp; omega
      rw [Nat.mod_eq_of_lt (by omega)] at hx ⊢
      refine ⟨⟨_, by rw [h3, List.append_assoc]⟩, .inr ⟨rfl, gia.length, ?_, ?_, ?_, ?_⟩, h4⟩
      · simp only; omega
      · rw [ofNat16_toNat (by omega)]
      · simp at hi; omega
      · intro c hc
        rw [codes_mem] at hc
        simp only at hc ⊢
        rw [h3, List.append_assoc, List.getElem?_append_right (by omega), Nat.add_sub_cancel_left,
          List.getElem?_append_left (by simp; omega), List.getElem?_map, List.getElem?_range' (by omega)]
        simp only [Option.map_some, Option.some.injEq]
        congr 1
        omega

theorem SegsMean.at {m : Map} {gs : List UInt16} {n : Nat} : ∀ {l : List (Nat × Nat)} {i : Nat} {ds : List Int16}
    {os : List UInt16}, SegsMean m gs n i l ds os → ds.length = l.length ∧ os.length = l.length ∧
    ∀ k (hk : k < l.length), ∃ d o, ds[k]? = some d ∧ os[k]? = some o ∧ SegMeans m gs n (i + k) l[k] d o
  | [], i, [], [], _ => ⟨rfl, rfl, fun k hk => by simp at hk⟩
  | x :: l, i, d :: ds, o :: os, ⟨h1, h2⟩ => by
    obtain ⟨e1, e2, e3⟩ := h2.at
    refine ⟨by simp [e1], by simp [e2], ?_⟩
    intro k hk
    cases k with
    | zero => exact ⟨d, o, rfl, rfl, h1⟩
    | succ k =>
      obtain ⟨d', o', f1, f2, f3⟩ := e3 k (by simpa using hk)
      refine ⟨d', o', f1, f2, ?_⟩
      rw [List.getElem_cons_succ, show i + (k + 1) = i + 1 + k by omega]
      exact f3
  | [], _, _ :: _, _, h => h.elim
  | [], _, [], _ :: _, h => h.elim
  | _ :: _, _, [], _, h => h.elim
  | _ :: _, _, _ :: _, [], h => h.elim

/-! ### expanding -/

/-- Inserting the glyphs of codes. -/
def insertAll (m : Map) (cs : List Nat) (acc : Map) : Map :=
  (cs.map fun c => (UInt32.ofNat c, glyphAt m c)).foldl (fun m x => BMap.insert m x.1 x.2) acc

theorem expandSeg_delta (m : Map) (gia : List UInt16) (d : Int16) (part : Int) : ∀ (cs : List Nat) (acc : Map),
    (∀ c ∈ cs, ((c : Int) + d.toInt) % 65536 = (glyphAt m c).toNat) →
    expandSeg gia d 0 part cs acc = .ok (insertAll m cs acc)
  | [], _, _ => rfl
  | c :: cs, acc, h => by
    have hc := h c (by simp)
    simp only [expandSeg]
    rw [if_pos trivial, expandSeg_delta m gia d part cs _ (fun x hx => h x (by simp [hx])), hc]
    simp [insertAll]

theorem toInt16_toInt (g : UInt16) : (g.toInt16.toInt) % 65536 = g.toNat ∧ -32768 ≤ g.toInt16.toInt ∧
    g.toInt16.toInt ≤ 32767 := by
  refine ⟨?_, Int16.le_toInt _, by have := Int16.toInt_lt g.toInt16; omega⟩
  have h := g.toNat_lt
  show (g.toBitVec.toInt) % 65536 = _
  rw [BitVec.toInt_eq_toNat_bmod]
  have : g.toBitVec.toNat = g.toNat := rfl
  rw [this]
  simp only [Int.bmod]
  split <;> omega

theorem expandSeg_array (m : Map) (gia : List UInt16) (o : UInt16) (ho : o ≠ 0) (base s : Nat) (part : Int)
    (hp : part = (base : Int) - s) : ∀ (cs : List Nat) (acc : Map),
    (∀ c ∈ cs, s ≤ c ∧ gia[base + (c - s)]? = some (glyphAt m c)) →
    expandSeg gia 0 o part cs acc = .ok (insertAll m cs acc)
  | [], _, _ => rfl
  | c :: cs, acc, h => by
    obtain ⟨hc1, hc2⟩ := h c (by simp)
    have ih := fun acc => expandSeg_array m gia o ho base s part hp cs acc (fun x hx => h x (by simp [hx]))
    have hlt : base + (c - s) < gia.length := (List.getElem?_eq_some_iff.mp hc2).1
    simp only [expandSeg]
    rw [if_neg ho, if_neg (by omega)]
    have hidx : ((c : Int) + part).toNat = base + (c - s) := by omega
    rw [hidx, hc2]
    simp only
    obtain ⟨g1, g2, g3⟩ := toInt16_toInt (glyphAt m c)
    have z : (0 : Int16).toInt = 0 := rfl
    split
    · rw [z, if_neg (by omega), ih]
      simp only [insertAll, List.map_cons, List.foldl_cons, Int.add_zero]
      rw [g1]
      simp
    · rename_i hz
      have hz : glyphAt m c = 0 := UInt16.toNat_inj.mp (by simpa using hz)
      rw [ih]
      simp [insertAll, hz]

theorem insertAll_append (m : Map) (cs cs' : List Nat) (acc : Map) :
    insertAll m (cs ++ cs') acc = insertAll m cs' (insertAll m cs acc) := by
  simp [insertAll]

/-- Expanding segments that mean what they should. -/
theorem expandLoop_ok (m : Map) (t : Cmap4) (segs : List (Nat × Nat)) (n : Nat) (hn : n = segs.length + 1)
    (hs : t.startCode = (segs.map Prod.fst ++ [65535]).map UInt16.ofNat)
    (he : t.endCode = (segs.map Prod.snd ++ [65535]).map UInt16.ofNat)
    (ds : List Int16) (os : List UInt16) (hd : t.idDelta = ds ++ [1]) (ho : t.idRangeOffsets = os ++ [0])
    (hm : SegsMean m t.glyphIdArray n 0 segs ds os) (hb : ∀ x ∈ segs, x.1 ≤ x.2 ∧ x.2 ≤ 65534) :
    ∀ (k i : Nat) (acc : Map), i + k = segs.length →
      expandLoop t (List.range' i k) acc = .ok (insertAll m ((segs.drop i).flatMap codes) acc)
  | 0, i, acc, hi => by
    rw [List.drop_eq_nil_of_le (by omega)]; rfl
  | k + 1, i, acc, hi => by
    obtain ⟨m1, m2, m3⟩ := hm.at
    obtain ⟨d, o, q1, q2, q3⟩ := m3 i (by omega)
    have hlt : i < segs.length := by omega
    obtain ⟨b1, b2⟩ := hb segs[i] (List.getElem_mem hlt)
    rw [List.range'_succ]
    have r1 : t.startCode[i]? = some (UInt16.ofNat segs[i].1) := by
      rw [hs, List.getElem?_map, List.getElem?_append_left (by simpa using hlt)]; simp [hlt]
    have r2 : t.endCode[i]? = some (UInt16.ofNat segs[i].2) := by
      rw [he, List.getElem?_map, List.getElem?_append_left (by simpa using hlt)]; simp [hlt]
    have r3 : t.idDelta[i]? = some d := by
      rw [hd, List.getElem?_append_left (by omega)]; exact q1
    have r4 : t.idRangeOffsets[i]? = some o := by
      rw [ho, List.getElem?_append_left (by omega)]; exact q2
    have r5 : t.idRangeOffsets.length = n := by rw [ho, hn]; simp [m2]
    simp only [expandLoop, r1, r2, r3, r4]
    rw [ofNat16_toNat (by omega), ofNat16_toNat (by omega), if_neg (by omega), r5]
    have hcodes : List.range' segs[i].1 (segs[i].2 + 1 - segs[i].1) = codes segs[i] := rfl
    rw [hcodes]
    have hexp : expandSeg t.glyphIdArray d o (((o.toNat / 2 : Nat) : Int) - segs[i].1 + i - n) (codes segs[i]) acc =
        .ok (insertAll m (codes segs[i]) acc) := by
      rcases q3 with ⟨h1, h2⟩ | ⟨h1, base, h2, h3, h4, h5⟩
      · subst h1
        exact expandSeg_delta m _ d _ _ acc h2
      · subst h1
        rw [Nat.zero_add] at h3 h4
        refine expandSeg_array m _ o ?_ base segs[i].1 _ ?_ _ acc ?_
        · intro e
          subst e
          have : (0 : UInt16).toNat = 0 := rfl
          omega
        · omega
        · intro c hc
          exact ⟨(codes_mem.mp hc).1, h5 c hc⟩
    rw [hexp]
    simp only
    rw [expandLoop_ok m t segs n hn hs he ds os hd ho hm hb k (i + 1) _ (by omega), ← insertAll_append]
    congr 2
    rw [List.drop_eq_getElem_cons hlt, List.flatMap_cons]

/-! ### failure -/

/-- If a code of 0xFFFF or above is in the map, the segmentation fails or has a segment that ends at 0xFFFF. -/
theorem segLoop_high (m : Map) : ∀ (cs : List Nat) (start last : Nat),
    start ≤ last → (∃ g, BMap.get? m (UInt32.ofNat start) = some g) →
    (last :: cs).Pairwise (· < ·) → (∀ c ∈ cs, ∃ g, BMap.get? m (UInt32.ofNat c) = some g) →
    (∃ c ∈ last :: cs, 65535 ≤ c) →
    segLoop m start last cs = .panic ∨
    ∃ e l, segLoop m start last cs = .ok (l.map Prod.fst, e :: l.map Prod.snd) ∧
      ∃ x ∈ (start, e) :: l, x.2 = 65535
  | [], start, last, h1, ⟨g, hg⟩, _, _, hbig => by
    simp only [List.mem_singleton, exists_eq_left] at hbig
    simp only [segLoop, toU16]
    by_cases hl : 65535 < last
    · rw [if_pos hl]; exact .inl rfl
    · rw [if_neg hl]
      have hl : last = 65535 := by omega
      subst hl
      simp only [Res.ok_bind, splitRange]
      by_cases hs : start = 65535
      · rw [if_pos hs]
        exact .inr ⟨65535, [], rfl, _, List.mem_cons_self, rfl⟩
      · rw [if_neg hs, hg]
        exact .inl rfl
  | c :: cs, start, last, h1, ⟨g, hg⟩, hp, hc, hbig => by
    have hlt : last < c := (List.pairwise_cons.mp hp).1 c (by simp)
    have hbig' : ∃ x ∈ c :: cs, 65535 ≤ x := by
      obtain ⟨x, hx, h⟩ := hbig
      rcases List.mem_cons.mp hx with e | e
      · exact ⟨c, by simp, by omega⟩
      · exact ⟨x, e, h⟩
    have hrest := fun x hx => hc x (List.mem_cons_of_mem c hx)
    simp only [segLoop]
    by_cases hcl : c = last + 1
    · rw [if_pos hcl]
      exact segLoop_high m cs start c (by omega) ⟨g, hg⟩ (List.pairwise_cons.mp hp).2 hrest hbig'
    · rw [if_neg hcl]
      simp only [toU16]
      by_cases hl : 65535 < last
      · rw [if_pos hl]; exact .inl rfl
      rw [if_neg hl]
      simp only [Res.ok_bind]
      by_cases hl2 : last = 65535 ∧ start ≠ last
      · left
        simp only [splitRange]
        rw [if_neg hl2.2, hg]
        simp only
        rw [if_pos hl2.1]
        rfl
      obtain ⟨e, l, e1, e2⟩ := splitRange_ok m h1 (by omega) hg
      rw [e1]
      simp only [Res.ok_bind]
      by_cases hc2 : 65535 < c
      · rw [if_pos hc2]; exact .inl rfl
      rw [if_neg hc2]
      simp only [Res.ok_bind]
      rcases segLoop_high m cs c c (Nat.le_refl _) (hc c (by simp)) (List.pairwise_cons.mp hp).2 hrest hbig' with h | ⟨e', l', h, x, hx, hx2⟩
      · rw [h]; exact .inl rfl
      · rw [h]
        refine .inr ⟨e, l ++ (c, e') :: l', by simp [pure], x, ?_, hx2⟩
        rw [← List.cons_append]
        exact List.mem_append_right _ hx

theorem deltaLoop_high (m : Map) (n : Nat) : ∀ (l : List (Nat × Nat)) (i : Nat) (gia : List UInt16),
    (∃ x ∈ l, x.2 = 65535) → deltaLoop m n i l gia = .panic
  | [], _, _, h => by simp at h
  | (s, e) :: l, i, gia, h => by
    simp only [deltaLoop]
    by_cases he : e = 65535
    · rw [if_pos he]
    rw [if_neg he]
    have h' : ∃ x ∈ l, x.2 = 65535 := by
      obtain ⟨x, hx, hx2⟩ := h
      rcases List.mem_cons.mp hx with q | q
      · subst q; exact absurd hx2 he
      · exact ⟨x, q, hx2⟩
    cases hc : isContiguous ((List.range' s (e + 1 - s)).map (glyphAt m)) with
    | err => exact absurd hc (isContiguous_not_err _)
    | panic => rfl
    | ok b =>
      simp only [Res.ok_bind]
      cases b with
      | true =>
        rw [if_pos rfl]
        split
        · rfl
        · rw [deltaLoop_high m n l (i + 1) gia h']; rfl
      | false =>
        rw [if_neg (by simp)]
        split
        · rfl
        · rw [deltaLoop_high m n l (i + 1) _ h']; rfl

/-! ### progress and size -/

theorem deltaLoop_length (m : Map) (n : Nat) : ∀ (l : List (Nat × Nat)) (i : Nat) (gia : List UInt16) (ds : List Int16)
    (os gs : List UInt16), deltaLoop m n i l gia = .ok (ds, os, gs) →
    gs.length ≤ gia.length + (l.flatMap codes).length
  | [], i, gia, ds, os, gs, h => by
    simp only [deltaLoop] at h
    cases h; simp
  | (s, e) :: l, i, gia, ds, os, gs, h => by
    have hcl : (codes (s, e)).length = e + 1 - s := by simp [codes]
    simp only [deltaLoop] at h
    split at h
    · cases h
    obtain ⟨b, hb, h⟩ := Res.bind_inv h
    rw [List.flatMap_cons, List.length_append, hcl]
    cases b with
    | true =>
      rw [if_pos rfl] at h
      split at h
      · cases h
      obtain ⟨⟨ds', os', gs'⟩, h1, h2⟩ := Res.bind_inv h
      simp only [pure, Res.ok.injEq, Prod.mk.injEq] at h2
      obtain ⟨rfl, rfl, rfl⟩ := h2
      have := deltaLoop_length m n l (i + 1) gia ds' os' _ h1
      omega
    | false =>
      rw [if_neg (by simp)] at h
      split at h
      · cases h
      obtain ⟨⟨ds', os', gs'⟩, h1, h2⟩ := Res.bind_inv h
      simp only [pure, Res.ok.injEq, Prod.mk.injEq] at h2
      obtain ⟨rfl, rfl, rfl⟩ := h2
      have := deltaLoop_length m n l (i + 1) _ ds' os' _ h1
      rw [List.length_append, List.length_map, List.length_range'] at this
      omega

theorem deltaLoop_total (m : Map) (n : Nat) : ∀ (l : List (Nat × Nat)) (i : Nat) (gia : List UInt16),
    (∀ x ∈ l, x.1 ≤ x.2 ∧ x.2 ≤ 65534 ∧ ∀ c, x.1 ≤ c → c < x.2 → (glyphAt m c).toNat ≠ 65535) →
    n + gia.length + (l.flatMap codes).length ≤ 32767 →
    ∃ r, deltaLoop m n i l gia = .ok r
  | [], _, _, _, _ => ⟨_, rfl⟩
  | (s, e) :: l, i, gia, h, hn => by
    have hcl : (codes (s, e)).length = e + 1 - s := by simp [codes]
    obtain ⟨h1, h2, h3⟩ := h (s, e) (by simp)
    have h' := fun x hx => h x (List.mem_cons_of_mem (s, e) hx)
    rw [List.flatMap_cons, List.length_append, hcl] at hn
    simp only at h1 h2 h3
    have hb : ∃ b, isContiguous ((List.range' s (e + 1 - s)).map (glyphAt m)) = .ok b := by
      apply isContiguous_total
      intro x hx
      rw [← List.map_dropLast] at hx
      obtain ⟨c, hc, rfl⟩ := List.mem_map.mp hx
      have e1 : e + 1 - s = (e - s) + 1 := by omega
      rw [e1, List.range'_concat, List.dropLast_concat, List.mem_range'_1] at hc
      exact h3 c (by omega) (by omega)
    obtain ⟨b, hb⟩ := hb
    simp only [deltaLoop]
    rw [if_neg (by omega), hb]
    simp only [Res.ok_bind]
    cases b with
    | true =>
      rw [if_pos rfl]
      obtain ⟨k, hk⟩ : ∃ k, e + 1 - s = k + 1 := ⟨e - s, by omega⟩
      rw [hk, List.range'_succ, List.map_cons]
      simp only
      obtain ⟨⟨a, b, c⟩, hr⟩ := deltaLoop_total m n l (i + 1) gia h' (by omega)
      rw [hr]
      exact ⟨_, rfl⟩
    | false =>
      rw [if_neg (by simp), if_neg (by rw [Nat.mod_eq_of_lt (by omega)]; omega)]
      obtain ⟨⟨a, b, c⟩, hr⟩ := deltaLoop_total m n l (i + 1) (gia ++ (List.range' s (e + 1 - s)).map (glyphAt m)) h' (by
        rw [List.length_append, List.length_map, List.length_range']; omega)
      rw [hr]
      exact ⟨_, rfl⟩

theorem length_le_codes : ∀ (l : List (Nat × Nat)), (∀ x ∈ l, x.1 ≤ x.2) → l.length ≤ (l.flatMap codes).length
  | [], _ => by simp
  | x :: l, h => by
    have h1 := h x (by simp)
    have := length_le_codes l (fun y hy => h y (by simp [hy]))
    rw [List.flatMap_cons, List.length_append, List.length_cons]
    have hcl : (codes x).length = x.2 + 1 - x.1 := by simp [codes]
    omega

end FT.Cmap
