import Verif.Props.Cmap4

/-!
C34 beyond the size limit: a format 4 subtable of more than 65535 bytes is written without complaint and does not give
the map back.
-/

namespace FT.Props
open FT Reader FT.Cmap

theorem Reader.bind_inv {α β : Type} {p : Reader α} {f : α → Reader β} {r : Rd} {b : β} {r' : Rd}
    (h : (p >>= f) r = .ok (b, r')) : ∃ a r1, p r = .ok (a, r1) ∧ f a r1 = .ok (b, r') := by
  rw [Reader.bind_run] at h
  cases hp : p r with
  | ok x => rw [hp] at h; exact ⟨x.1, x.2, rfl, h⟩
  | err => rw [hp] at h; cases h
  | panic => rw [hp] at h; cases h

theorem codes_asc_length (n : Nat) : ∀ (l : List Nat) (a : Nat), l.Pairwise (· < ·) → (∀ c ∈ l, a ≤ c ∧ c < n) → a ≤ n →
    a + l.length ≤ n
  | [], a, _, _, h => by simpa using h
  | x :: l, a, hp, hb, h => by
    have hp' := List.pairwise_cons.mp hp
    have hx := hb x (by simp)
    have := codes_asc_length n l (x + 1) hp'.2 (fun c hc => ⟨hp'.1 c hc, (hb c (by simp [hc])).2⟩) (by omega)
    simp only [List.length_cons]
    omega

/-- Characters that are not in the segment are not touched. -/
theorem expandSeg_other (gia : List UInt16) (d : Int16) (o : UInt16) (part : Int) (k : UInt32) :
    ∀ (cs : List Nat) (acc acc' : Map), expandSeg gia d o part cs acc = .ok acc' → (∀ c ∈ cs, UInt32.ofNat c ≠ k) →
    BMap.get? acc' k = BMap.get? acc k
  | [], acc, acc', h, _ => by simp only [expandSeg] at h; cases h; rfl
  | c :: cs, acc, acc', h, hk => by
    have h1 : k ≠ UInt32.ofNat c := fun e => hk c (by simp) e.symm
    have h2 := fun x hx => hk x (List.mem_cons_of_mem c hx)
    simp only [expandSeg] at h
    split at h
    · rw [expandSeg_other gia d o part k cs _ _ h h2, BMap.get?_insert_ne _ h1]
    · split at h
      · cases h; rfl
      · split at h
        · cases h
        · split at h
          · split at h
            · cases h
            · rw [expandSeg_other gia d o part k cs _ _ h h2, BMap.get?_insert_ne _ h1]
          · rw [expandSeg_other gia d o part k cs _ _ h h2, BMap.get?_insert_ne _ h1]

/-- A character whose place is outside the glyph array is not inserted. -/
theorem expandSeg_outside (gia : List UInt16) (d : Int16) (o : UInt16) (ho : o ≠ 0) (part : Int) (c : Nat) (hc : c < 4294967296)
    (hout : (c : Int) + part < 0 ∨ (gia.length : Int) ≤ (c : Int) + part) :
    ∀ (cs : List Nat) (acc acc' : Map), expandSeg gia d o part cs acc = .ok acc' → (∀ x ∈ cs, x < 4294967296) →
    BMap.get? acc' (UInt32.ofNat c) = BMap.get? acc (UInt32.ofNat c)
  | [], acc, acc', h, _ => by simp only [expandSeg] at h; cases h; rfl
  | x :: cs, acc, acc', h, hx => by
    have h2 := fun y hy => hx y (List.mem_cons_of_mem x hy)
    simp only [expandSeg] at h
    rw [if_neg ho] at h
    split at h
    · cases h; rfl
    · rename_i hin
      have h1 : UInt32.ofNat c ≠ UInt32.ofNat x := by
        intro e
        have := congrArg UInt32.toNat e
        have hx' := hx x (by simp)
        rw [ofNat32_toNat (by omega), ofNat32_toNat (by omega)] at this
        subst this
        exact hin hout
      split at h
      · cases h
      · split at h
        · split at h
          · cases h
          · rw [expandSeg_outside gia d o ho part c hc hout cs _ _ h h2, BMap.get?_insert_ne _ h1]
        · rw [expandSeg_outside gia d o ho part c hc hout cs _ _ h h2, BMap.get?_insert_ne _ h1]

/-- Without range offset and delta a character becomes the glyph of the same number. -/
theorem expandSeg_identity (gia : List UInt16) (part : Int) (c : Nat) (hc : c ≤ 65535) :
    ∀ (cs : List Nat) (acc acc' : Map), expandSeg gia 0 0 part cs acc = .ok acc' → (∀ x ∈ cs, x ≤ 65535) → c ∈ cs →
    BMap.get? acc' (UInt32.ofNat c) = some (UInt16.ofNat c)
  | [], _, _, _, _, h => by simp at h
  | x :: cs, acc, acc', h, hx, hcs => by
    have h2 := fun y hy => hx y (List.mem_cons_of_mem x hy)
    simp only [expandSeg] at h
    rw [if_pos trivial] at h
    by_cases hin : c ∈ cs
    · exact expandSeg_identity gia part c hc cs _ _ h h2 hin
    · have hxc : c = x := by simpa [hin] using hcs
      subst hxc
      rw [expandSeg_other gia 0 0 part (UInt32.ofNat c) cs _ _ h (by
        intro y hy e
        have := congrArg UInt32.toNat e
        have hy' := h2 y hy
        rw [ofNat32_toNat (by omega), ofNat32_toNat (by omega)] at this
        subst this
        exact hin hy), BMap.get?_insert_self]
      have z : (0 : Int16).toInt = 0 := rfl
      rw [z]
      congr 2
      omega

theorem expandLoop_cons_inv {t : Cmap4} {i : Nat} {is : List Nat} {acc acc' : Map} {s e : Nat} {d : Int16} {o : UInt16}
    (hs : t.startCode[i]? = some (UInt16.ofNat s)) (he : t.endCode[i]? = some (UInt16.ofNat e))
    (hd : t.idDelta[i]? = some d) (ho : t.idRangeOffsets[i]? = some o) (hb : s ≤ e ∧ e ≤ 65534)
    (h : expandLoop t (i :: is) acc = .ok acc') :
    ∃ acc1, expandSeg t.glyphIdArray d o (((o.toNat / 2 : Nat) : Int) - s + i - t.idRangeOffsets.length) (codes (s, e)) acc
      = .ok acc1 ∧ expandLoop t is acc1 = .ok acc' := by
  simp only [expandLoop, hs, he, hd, ho] at h
  rw [ofNat16_toNat (by omega), ofNat16_toNat (by omega), if_neg (by omega)] at h
  have hc : List.range' s (e + 1 - s) = codes (s, e) := rfl
  rw [hc] at h
  split at h
  · rename_i m2 h2; exact ⟨m2, h2, h⟩
  · cases h
  · cases h

/-- What an arbitrary subtable with these segments does to a character of one segment is decided by that segment. -/
theorem expandLoop_at (t : Cmap4) (segs : List (Nat × Nat)) (ds : List Int16) (os : List UInt16)
    (hs : t.startCode = (segs.map Prod.fst ++ [65535]).map UInt16.ofNat)
    (he : t.endCode = (segs.map Prod.snd ++ [65535]).map UInt16.ofNat)
    (hd : t.idDelta = ds ++ [1]) (ho : t.idRangeOffsets = os ++ [0]) (hl : ds.length = segs.length ∧ os.length = segs.length)
    (hb : ∀ x ∈ segs, x.1 ≤ x.2 ∧ x.2 ≤ 65534) (c i : Nat) (hi : i < segs.length) (d : Int16) (o : UInt16)
    (hdi : ds[i]? = some d) (hoi : os[i]? = some o) (hc : c ≤ 65534)
    (hdis : ∀ j (hj : j < segs.length), j ≠ i → c ∉ codes segs[j]) :
    ∀ (k s : Nat) (acc acc' : Map), s + k = segs.length → expandLoop t (List.range' s k) acc = .ok acc' →
    BMap.get? acc (UInt32.ofNat c) = none →
    (i < s → BMap.get? acc' (UInt32.ofNat c) = none) ∧
    (s ≤ i → ∃ a1 a2, BMap.get? a1 (UInt32.ofNat c) = none ∧
      expandSeg t.glyphIdArray d o (((o.toNat / 2 : Nat) : Int) - segs[i].1 + i - t.idRangeOffsets.length) (codes segs[i]) a1
        = .ok a2 ∧ BMap.get? acc' (UInt32.ofNat c) = BMap.get? a2 (UInt32.ofNat c))
  | 0, s, acc, acc', hk, h, hn => by
    simp only [List.range'_zero, expandLoop] at h
    cases h
    exact ⟨fun _ => hn, fun h => by omega⟩
  | k + 1, s, acc, acc', hk, h, hn => by
    rw [List.range'_succ] at h
    have hlt : s < segs.length := by omega
    have r1 : t.startCode[s]? = some (UInt16.ofNat segs[s].1) := by
      rw [hs, List.getElem?_map, List.getElem?_append_left (by simpa using hlt)]; simp [hlt]
    have r2 : t.endCode[s]? = some (UInt16.ofNat segs[s].2) := by
      rw [he, List.getElem?_map, List.getElem?_append_left (by simpa using hlt)]; simp [hlt]
    obtain ⟨d', hd'⟩ : ∃ d', ds[s]? = some d' := ⟨_, List.getElem?_eq_getElem (by omega)⟩
    obtain ⟨o', ho'⟩ : ∃ o', os[s]? = some o' := ⟨_, List.getElem?_eq_getElem (by omega)⟩
    have r3 : t.idDelta[s]? = some d' := by
      rw [hd, List.getElem?_append_left (by omega)]; exact hd'
    have r4 : t.idRangeOffsets[s]? = some o' := by
      rw [ho, List.getElem?_append_left (by omega)]; exact ho'
    have hbs := hb _ (List.getElem_mem hlt)
    obtain ⟨a1, h1, h2⟩ := expandLoop_cons_inv r1 r2 r3 r4 hbs h
    have hother : s ≠ i → ∀ x ∈ codes segs[s], UInt32.ofNat x ≠ UInt32.ofNat c := by
      intro hsi x hx e
      have := congrArg UInt32.toNat e
      rw [codes_mem] at hx
      rw [ofNat32_toNat (by omega), ofNat32_toNat (by omega)] at this
      subst this
      exact hdis s hlt hsi (codes_mem.mpr hx)
    by_cases hsi : s = i
    · subst hsi
      rw [hdi] at hd'
      cases hd'
      rw [hoi] at ho'
      cases ho'
      refine ⟨fun h => by omega, fun _ => ⟨acc, a1, hn, h1, ?_⟩⟩
      -- the remaining segments do not touch it
      have hrest : ∀ (k s' : Nat) (acc acc' : Map), s < s' → s' + k = segs.length →
          expandLoop t (List.range' s' k) acc = .ok acc' → BMap.get? acc' (UInt32.ofNat c) = BMap.get? acc (UInt32.ofNat c) := by
        intro k
        induction k with
        | zero => intro s' acc acc' _ _ h; simp only [List.range'_zero, expandLoop] at h; cases h; rfl
        | succ k ih =>
          intro s' acc acc' hss hk h
          rw [List.range'_succ] at h
          have hlt' : s' < segs.length := by omega
          have r1 : t.startCode[s']? = some (UInt16.ofNat segs[s'].1) := by
            rw [hs, List.getElem?_map, List.getElem?_append_left (by simpa using hlt')]; simp [hlt']
          have r2 : t.endCode[s']? = some (UInt16.ofNat segs[s'].2) := by
            rw [he, List.getElem?_map, List.getElem?_append_left (by simpa using hlt')]; simp [hlt']
          obtain ⟨d', hd'⟩ : ∃ d', ds[s']? = some d' := ⟨_, List.getElem?_eq_getElem (by omega)⟩
          obtain ⟨o', ho'⟩ : ∃ o', os[s']? = some o' := ⟨_, List.getElem?_eq_getElem (by omega)⟩
          have r3 : t.idDelta[s']? = some d' := by
            rw [hd, List.getElem?_append_left (by omega)]; exact hd'
          have r4 : t.idRangeOffsets[s']? = some o' := by
            rw [ho, List.getElem?_append_left (by omega)]; exact ho'
          have hbs := hb _ (List.getElem_mem hlt')
          obtain ⟨a1, h1, h2⟩ := expandLoop_cons_inv r1 r2 r3 r4 hbs h
          rw [ih (s' + 1) a1 acc' (by omega) (by omega) h2]
          refine expandSeg_other _ _ _ _ _ _ _ _ h1 ?_
          intro x hx e
          have := congrArg UInt32.toNat e
          rw [codes_mem] at hx
          simp only at hx
          rw [ofNat32_toNat (by omega), ofNat32_toNat (by omega)] at this
          subst this
          exact hdis s' hlt' (by omega) (codes_mem.mpr hx)
      exact hrest k (s + 1) a1 acc' (by omega) (by omega) h2
    · have hn1 : BMap.get? a1 (UInt32.ofNat c) = none := by
        rw [expandSeg_other _ _ _ _ _ _ _ _ h1 (hother hsi)]; exact hn
      obtain ⟨g1, g2⟩ := expandLoop_at t segs ds os hs he hd ho hl hb c i hi d o hdi hoi hc hdis k (s + 1) a1 acc' (by omega) h2 hn1
      exact ⟨fun h => g1 (by omega), fun h => g2 (by omega)⟩

/-- If the glyph array is not empty, some segment is the last one with entries in it. -/
theorem deltaLoop_last (m : Map) (n : Nat) : ∀ (l : List (Nat × Nat)) (i : Nat) (gia : List UInt16) (ds : List Int16)
    (os gs : List UInt16), deltaLoop m n i l gia = .ok (ds, os, gs) → gia.length < gs.length → (∀ x ∈ l, x.1 ≤ x.2) →
    ∃ k, ∃ hk : k < l.length, ∃ base, base + (l[k].2 + 1 - l[k].1) = gs.length ∧ ds[k]? = some 0 ∧
      os[k]? = some (UInt16.ofNat (2 * ((n + base - (i + k)) % 65536))) ∧ 2 * ((n + base - (i + k)) % 65536) ≤ 65535 ∧
      isContiguous ((codes l[k]).map (glyphAt m)) = .ok false
  | [], i, gia, ds, os, gs, h, hg, _ => by
    simp only [deltaLoop] at h
    simp only [Res.ok.injEq, Prod.mk.injEq] at h
    rw [h.2.2] at hg
    omega
  | (s, e) :: l, i, gia, ds, os, gs, h, hg, hl => by
    have hse : s ≤ e := hl (s, e) (by simp)
    have hl' := fun x hx => hl x (List.mem_cons_of_mem (s, e) hx)
    simp only [deltaLoop] at h
    split at h
    · cases h
    obtain ⟨b, hb, h⟩ := Res.bind_inv h
    have hshift : ∀ ds' os', (∃ k, ∃ hk : k < l.length, ∃ base, base + (l[k].2 + 1 - l[k].1) = gs.length ∧ ds'[k]? = some 0 ∧
        os'[k]? = some (UInt16.ofNat (2 * ((n + base - (i + 1 + k)) % 65536))) ∧ 2 * ((n + base - (i + 1 + k)) % 65536) ≤ 65535 ∧
        isContiguous ((codes l[k]).map (glyphAt m)) = .ok false) → ∀ d0 o0, ds = d0 :: ds' → os = o0 :: os' →
        ∃ k, ∃ hk : k < ((s, e) :: l).length, ∃ base, base + (((s, e) :: l)[k].2 + 1 - ((s, e) :: l)[k].1) = gs.length ∧
          ds[k]? = some 0 ∧ os[k]? = some (UInt16.ofNat (2 * ((n + base - (i + k)) % 65536))) ∧
          2 * ((n + base - (i + k)) % 65536) ≤ 65535 ∧ isContiguous ((codes ((s, e) :: l)[k]).map (glyphAt m)) = .ok false := by
      rintro ds' os' ⟨k, hk, base, g1, g2, g3, g4, g5⟩ d0 o0 rfl rfl
      rw [show i + 1 + k = i + (k + 1) by omega] at g3 g4
      exact ⟨k + 1, by simpa using hk, base, g1, g2, g3, g4, g5⟩
    cases b with
    | true =>
      rw [if_pos rfl] at h
      split at h
      · cases h
      obtain ⟨⟨ds', os', gs'⟩, h1, h2⟩ := Res.bind_inv h
      simp only [pure, Res.ok.injEq, Prod.mk.injEq] at h2
      obtain ⟨rfl, rfl, rfl⟩ := h2
      exact hshift ds' os' (deltaLoop_last m n l (i + 1) gia ds' os' gs' h1 hg hl') _ _ rfl rfl
    | false =>
      rw [if_neg (by simp)] at h
      split at h
      · cases h
      rename_i hx
      obtain ⟨⟨ds', os', gs'⟩, h1, h2⟩ := Res.bind_inv h
      simp only [pure, Res.ok.injEq, Prod.mk.injEq] at h2
      obtain ⟨rfl, rfl, rfl⟩ := h2
      by_cases hlen : (gia ++ (List.range' s (e + 1 - s)).map (glyphAt m)).length < gs'.length
      · exact hshift ds' os' (deltaLoop_last m n l (i + 1) _ ds' os' gs' h1 hlen hl') _ _ rfl rfl
      · refine ⟨0, by simp, gia.length, ?_, rfl, rfl, by simpa using hx, hb⟩
        have hmono : gia.length + (e + 1 - s) ≤ gs'.length := by
          have : ∀ (l : List (Nat × Nat)) (i : Nat) (gia : List UInt16) (ds : List Int16) (os gs : List UInt16),
              deltaLoop m n i l gia = .ok (ds, os, gs) → gia.length ≤ gs.length := by
            intro l
            induction l with
            | nil =>
              intro i gia ds os gs h
              simp only [deltaLoop, Res.ok.injEq, Prod.mk.injEq] at h
              rw [h.2.2]; exact Nat.le_refl _
            | cons x l ih =>
              intro i gia ds os gs h
              obtain ⟨s, e⟩ := x
              simp only [deltaLoop] at h
              split at h
              · cases h
              obtain ⟨b, hb, h⟩ := Res.bind_inv h
              cases b with
              | true =>
                rw [if_pos rfl] at h
                split at h
                · cases h
                obtain ⟨⟨ds', os', gs'⟩, h1, h2⟩ := Res.bind_inv h
                simp only [pure, Res.ok.injEq, Prod.mk.injEq] at h2
                obtain ⟨rfl, rfl, rfl⟩ := h2
                exact ih _ _ _ _ _ h1
              | false =>
                rw [if_neg (by simp)] at h
                split at h
                · cases h
                obtain ⟨⟨ds', os', gs'⟩, h1, h2⟩ := Res.bind_inv h
                simp only [pure, Res.ok.injEq, Prod.mk.injEq] at h2
                obtain ⟨rfl, rfl, rfl⟩ := h2
                have := ih _ _ _ _ _ h1
                rw [List.length_append] at this
                omega
          have := this l (i + 1) _ ds' os' gs' h1
          rw [List.length_append, List.length_map, List.length_range'] at this
          exact this
        rw [List.length_append, List.length_map, List.length_range'] at hlen
        show gia.length + (e + 1 - s) = gs'.length
        omega

theorem toMapping4_inv {t : Cmap4} {m : Map} {n : Nat} (hn : t.startCode.length = n + 1) (h : toMapping4 t = .ok m) :
    expandLoop t (List.range' 0 n) [] = .ok m := by
  unfold toMapping4 at h
  rw [if_neg (by omega), hn, Nat.add_sub_cancel, List.range_eq_range'] at h
  exact h

/-- The identity on consecutive codes is contiguous. -/
theorem isContiguous_identity : ∀ (k s : Nat), s + k ≤ 65535 →
    isContiguous ((List.range' s k).map UInt16.ofNat) = .ok true
  | 0, _, _ => rfl
  | 1, _, _ => rfl
  | k + 2, s, h => by
    rw [List.range'_succ, List.range'_succ, List.map_cons, List.map_cons]
    simp only [isContiguous]
    rw [ofNat16_toNat (by omega), if_neg (by omega), ofNat16_toNat (by omega), if_neg (by omega)]
    have := isContiguous_identity (k + 1) (s + 1) (by omega)
    rwa [List.range'_succ, List.map_cons] at this

/-- **C34** (beyond the limit). A map whose format 4 subtable takes more than 65535 bytes is saved without an error, but
reading the subtable does not give the map back. -/
theorem C34_too_big (p e lang : UInt16) (m : Map) (hs : BMap.Sorted m) (bs : Bytes)
    (hb : encSubtable (sub4 p e lang m) = .ok bs) (hbig : 65535 < bs.length) :
    ¬ ∃ r, readSubtable ⟨p, e, 0⟩ (Rd.new bs) = .ok (sub4 p e lang m, r) := by
  have hb' : (fromMapping4 lang m >>= fun t => Res.ok (encCmap4 t)) = .ok bs := hb
  obtain ⟨t, ht, h2⟩ := Res.bind_inv hb'
  cases h2
  obtain ⟨segs, ds, os, b⟩ := built_of_ok hs ht
  have hsz := encCmap4_length b b.sizes
  obtain ⟨z1, z2⟩ := b.sizes
  rintro ⟨r, hr⟩
  -- number of codes and sizes
  have hcodes : (segs.flatMap codes).length ≤ 65535 := by
    have hp := keys_asc hs
    rw [← b.codesEq] at hp
    have hle : ∀ c ∈ segs.flatMap codes, c < 65535 := by
      intro c hc
      obtain ⟨x, hx, hxc⟩ := List.mem_flatMap.mp hc
      have := b.bounds x hx
      rw [codes_mem] at hxc
      omega
    have := codes_asc_length 65535 _ 0 hp (fun c hc => ⟨Nat.zero_le _, hle c hc⟩) (by omega)
    omega
  have hsegs := length_le_codes segs (fun x hx => (b.bounds x hx).1)
  have hglen := deltaLoop_length m _ _ _ _ _ _ _ b.loop
  simp only [List.length_nil, Nat.zero_add] at hglen
  by_cases hn : segs.length + 1 = 65536
  · -- the segment count is written as 0
    have h0 : (UInt16.ofNat (segs.length + 1)).toNat = 0 := by rw [hn]; rfl
    have hseg : t.segCountX2.toNat = 0 := by rw [b.seg, h0]; rfl
    have hpk : peek 2 ⟨encCmap4 t, 0, [0]⟩ = .ok ([0, 4], ⟨encCmap4 t, 0, [0]⟩) := by
      unfold peek
      rw [if_neg (by simp [encCmap4])]
      simp only [encCmap4, b.format]
      rfl
    unfold readSubtable Rd.new at hr
    rw [Reader.bind_run] at hr
    simp only [topOfTable] at hr
    rw [Reader.bind_run] at hr
    simp only [setPtr] at hr
    rw [show 0 + (0 : UInt32).toNat = 0 from rfl, Reader.bind_run, hpk] at hr
    simp only at hr
    rw [if_neg (by decide), if_pos trivial] at hr
    obtain ⟨x, r1, hx, hr⟩ := Reader.bind_inv hr
    have hst : x.startCode = [] := by
      unfold readCmap4 at hx
      have e0 : (⟨encCmap4 t, 0, [0]⟩ : Rd) = ⟨[] ++ encCmap4 t ++ [], ([] : Bytes).length, [0]⟩ := by simp
      have q1 := Reads.bind (f := fun a => (Pure.pure a : Reader UInt16)) (reads_u16 t.format) (Reads.pure _)
      -- read the first four numbers
      have hread : ∀ (f : UInt16 → UInt16 → UInt16 → UInt16 → Reader Cmap4),
          (do let a ← readU16; let b ← readU16; let c ← readU16; let d ← readU16; f a b c d) ⟨encCmap4 t, 0, [0]⟩ =
          f t.format t.length t.language t.segCountX2 ⟨encCmap4 t, 8, [0]⟩ := by
        intro f
        have k1 := reads_u16 t.format [] (encCmap4 t |>.drop 2) [0]
        have k2 := reads_u16 t.length (encU16 t.format) (encCmap4 t |>.drop 4) [0]
        have k3 := reads_u16 t.language (encU16 t.format ++ encU16 t.length) (encCmap4 t |>.drop 6) [0]
        have k4 := reads_u16 t.segCountX2 (encU16 t.format ++ encU16 t.length ++ encU16 t.language) (encCmap4 t |>.drop 8) [0]
        have j1 : [] ++ encU16 t.format ++ (encCmap4 t |>.drop 2) = encCmap4 t := rfl
        have j2 : encU16 t.format ++ encU16 t.length ++ (encCmap4 t |>.drop 4) = encCmap4 t := rfl
        have j3 : encU16 t.format ++ encU16 t.length ++ encU16 t.language ++ (encCmap4 t |>.drop 6) = encCmap4 t := rfl
        have j4 : encU16 t.format ++ encU16 t.length ++ encU16 t.language ++ encU16 t.segCountX2 ++ (encCmap4 t |>.drop 8) = encCmap4 t := rfl
        rw [j1] at k1
        rw [j2] at k2
        rw [j3] at k3
        rw [j4] at k4
        simp only [List.length_append, encU16_length, List.length_nil] at k1 k2 k3 k4
        rw [Reader.bind_run, k1]
        simp only
        rw [Reader.bind_run, k2]
        simp only
        rw [Reader.bind_run, k3]
        simp only
        rw [Reader.bind_run, k4]
      rw [hread] at hx
      simp only [hseg, Nat.zero_div] at hx
      obtain ⟨_, _, _, hx⟩ := Reader.bind_inv hx
      obtain ⟨_, _, _, hx⟩ := Reader.bind_inv hx
      obtain ⟨_, _, _, hx⟩ := Reader.bind_inv hx
      obtain ⟨sc, _, hsc, hx⟩ := Reader.bind_inv hx
      obtain ⟨_, _, _, hx⟩ := Reader.bind_inv hx
      obtain ⟨_, _, _, hx⟩ := Reader.bind_inv hx
      split at hx
      · cases hx
      obtain ⟨_, _, _, hx⟩ := Reader.bind_inv hx
      cases hx
      simp only [deCounted] at hsc
      cases hsc
      rfl
    obtain ⟨_, _, hm, _⟩ := Reader.bind_inv hr
    unfold toMapping4 at hm
    rw [hst] at hm
    cases hm
  -- now the count is right
  have hsmall := b.small
  have hnn : (UInt16.ofNat (segs.length + 1)).toNat = segs.length + 1 := ofNat16_toNat (by omega)
  rw [hnn] at hsmall
  have hL : t.length.toNat = (t.glyphIdArray.length * 2 + 16 + 8 * (segs.length + 1)) % 65536 := by
    rw [b.length, hnn]; simp
  have hlens : t.endCode.length = segs.length + 1 ∧ t.startCode.length = segs.length + 1 ∧ t.idDelta.length = segs.length + 1 ∧
      t.idRangeOffsets.length = segs.length + 1 := by
    rw [b.ends, b.starts, b.delta, b.offs]; simp [z1, z2]
  have hsegc : t.segCountX2.toNat = (segs.length + 1) * 2 := by rw [b.seg, hnn, ofNat16_toNat (by omega)]
  by_cases hrem : t.length.toNat < 16 + 8 * (segs.length + 1)
  · -- the remainder underflows
    have hpan : ∀ r', readSubtable ⟨p, e, 0⟩ (Rd.new (encCmap4 t)) ≠ .ok r' := by
      intro r' hr'
      -- reading with a length that is too small panics
      have hpk : peek 2 ⟨encCmap4 t, 0, [0]⟩ = .ok ([0, 4], ⟨encCmap4 t, 0, [0]⟩) := by
        unfold peek
        rw [if_neg (by simp [encCmap4])]
        simp only [encCmap4, b.format]
        rfl
      unfold readSubtable Rd.new at hr'
      rw [Reader.bind_run] at hr'
      simp only [topOfTable] at hr'
      rw [Reader.bind_run] at hr'
      simp only [setPtr] at hr'
      rw [show 0 + (0 : UInt32).toNat = 0 from rfl, Reader.bind_run, hpk] at hr'
      simp only at hr'
      rw [if_neg (by decide), if_pos trivial] at hr'
      obtain ⟨x, r1, hx, _⟩ := Reader.bind_inv hr'
      unfold readCmap4 at hx
      have hread : ∀ (f : UInt16 → UInt16 → UInt16 → UInt16 → Reader Cmap4),
          (do let a ← readU16; let b ← readU16; let c ← readU16; let d ← readU16; f a b c d) ⟨encCmap4 t, 0, [0]⟩ =
          f t.format t.length t.language t.segCountX2 ⟨encCmap4 t, 8, [0]⟩ := by
        intro f
        have k1 := reads_u16 t.format [] (encCmap4 t |>.drop 2) [0]
        have k2 := reads_u16 t.length (encU16 t.format) (encCmap4 t |>.drop 4) [0]
        have k3 := reads_u16 t.language (encU16 t.format ++ encU16 t.length) (encCmap4 t |>.drop 6) [0]
        have k4 := reads_u16 t.segCountX2 (encU16 t.format ++ encU16 t.length ++ encU16 t.language) (encCmap4 t |>.drop 8) [0]
        have j1 : [] ++ encU16 t.format ++ (encCmap4 t |>.drop 2) = encCmap4 t := rfl
        have j2 : encU16 t.format ++ encU16 t.length ++ (encCmap4 t |>.drop 4) = encCmap4 t := rfl
        have j3 : encU16 t.format ++ encU16 t.length ++ encU16 t.language ++ (encCmap4 t |>.drop 6) = encCmap4 t := rfl
        have j4 : encU16 t.format ++ encU16 t.length ++ encU16 t.language ++ encU16 t.segCountX2 ++ (encCmap4 t |>.drop 8) = encCmap4 t := rfl
        rw [j1] at k1
        rw [j2] at k2
        rw [j3] at k3
        rw [j4] at k4
        simp only [List.length_append, encU16_length, List.length_nil] at k1 k2 k3 k4
        rw [Reader.bind_run, k1]
        simp only
        rw [Reader.bind_run, k2]
        simp only
        rw [Reader.bind_run, k3]
        simp only
        rw [Reader.bind_run, k4]
      rw [hread] at hx
      have hdiv : t.segCountX2.toNat / 2 = segs.length + 1 := by omega
      simp only [hdiv] at hx
      obtain ⟨_, _, _, hx⟩ := Reader.bind_inv hx
      obtain ⟨_, _, _, hx⟩ := Reader.bind_inv hx
      obtain ⟨_, _, _, hx⟩ := Reader.bind_inv hx
      obtain ⟨_, _, _, hx⟩ := Reader.bind_inv hx
      obtain ⟨_, _, _, hx⟩ := Reader.bind_inv hx
      obtain ⟨_, _, _, hx⟩ := Reader.bind_inv hx
      rw [if_pos (by omega)] at hx
      cases hx
    exact hpan _ hr
  -- fewer glyphs are read than were written
  obtain ⟨g', hg'⟩ : ∃ g', t.length.toNat = g' * 2 + 16 + 8 * (segs.length + 1) :=
    ⟨(t.length.toNat - (16 + 8 * (segs.length + 1))) / 2, by omega⟩
  have hlt : g' < t.glyphIdArray.length := by omega
  have hread := reads_cmap4 { t with glyphIdArray := t.glyphIdArray.take g' } (segs.length + 1) hsegc hlens.1 hlens.2.1
    hlens.2.2.1 hlens.2.2.2 (by simp only [List.length_take]; omega)
  have hsplit : encCmap4 t = [] ++ encCmap4 { t with glyphIdArray := t.glyphIdArray.take g' } ++
      encVec encU16 (t.glyphIdArray.drop g') := by
    simp only [encCmap4, List.nil_append, List.append_assoc]
    rw [← encVec_append (l := t.glyphIdArray.take g'), List.take_append_drop]
  unfold Rd.new at hr
  rw [hsplit, read4 hread b.format p e [] _ 0 0 [] 0 rfl] at hr
  -- the mapping that was read
  cases hm : toMapping4 (asRead { t with glyphIdArray := t.glyphIdArray.take g' }) with
  | err => rw [hm] at hr; cases hr
  | panic => rw [hm] at hr; cases hr
  | ok m' =>
    rw [hm] at hr
    simp only [Res.ok.injEq, Prod.mk.injEq, Subtable.mk.injEq] at hr
    obtain ⟨⟨_, _, _, _, hmm, _⟩, _⟩ := hr
    subst hmm
    have hm := toMapping4_inv (n := segs.length) (t := asRead { t with glyphIdArray := t.glyphIdArray.take g' }) hlens.2.1 hm
    simp only [asRead] at hm
    obtain ⟨i, hi, base, g1, g2, g3, g4, g5⟩ := deltaLoop_last m' _ segs 0 [] ds os _ b.loop (by simp only [List.length_nil]; omega)
      (fun x hx => (b.bounds x hx).1)
    rw [Nat.zero_add] at g3 g4
    have hbd := b.bounds _ (List.getElem_mem hi)
    -- codes of different segments differ
    have hdis : ∀ c, c ∈ codes segs[i] → ∀ j (hj : j < segs.length), j ≠ i → c ∉ codes segs[j] := by
      intro c hc j hj hji hcj
      have hp := keys_asc hs
      rw [← b.codesEq] at hp
      have hp := (List.pairwise_flatMap.mp hp).2
      rcases Nat.lt_or_gt_of_ne hji with h | h
      · have := List.pairwise_iff_getElem.mp hp j i hj hi h c hcj c hc
        omega
      · have := List.pairwise_iff_getElem.mp hp i j hi hj h c hc c hcj
        omega
    have hat : ∀ c (hc : c ∈ codes segs[i]), ∃ a1 a2, BMap.get? a1 (UInt32.ofNat c) = none ∧
        expandSeg (t.glyphIdArray.take g') 0 (UInt16.ofNat (2 * ((segs.length + 1 + base - i) % 65536)))
          ((((UInt16.ofNat (2 * ((segs.length + 1 + base - i) % 65536))).toNat / 2 : Nat) : Int) - segs[i].1 + i - (segs.length + 1 : Nat))
          (codes segs[i]) a1 = .ok a2 ∧ BMap.get? m' (UInt32.ofNat c) = BMap.get? a2 (UInt32.ofNat c) := by
      intro c hc
      have hcb := codes_mem.mp hc
      obtain ⟨_, h2⟩ := expandLoop_at
        { asRead t with glyphIdArray := t.glyphIdArray.take g' } segs ds os b.starts b.ends b.delta b.offs ⟨z1, z2⟩ b.bounds c i hi 0 _ g2 g3 (by omega)
        (hdis c hc) segs.length 0 [] m' (by omega) hm rfl
      obtain ⟨a1, a2, k1, k2, k3⟩ := h2 (by omega)
      refine ⟨a1, a2, k1, ?_, k3⟩
      simp only [asRead, hlens.2.2.2] at k2
      exact k2
    have hmem : ∀ c, c ∈ codes segs[i] → BMap.get? m' (UInt32.ofNat c) = some (glyphAt m' c) := by
      intro c hc
      have : c ∈ segs.flatMap codes := List.mem_flatMap.mpr ⟨_, List.getElem_mem hi, hc⟩
      rw [b.codesEq] at this
      obtain ⟨g, hg⟩ := get_some_of_mem hs this
      simp [glyphAt, hg]
    by_cases ho : (segs.length + 1 + base - i) % 65536 = 0
    · -- the segment is read as the identity, which would have been contiguous
      rw [ho] at hat
      have hid : (codes segs[i]).map (glyphAt m') = (codes segs[i]).map UInt16.ofNat := by
        apply List.map_congr_left
        intro c hc
        obtain ⟨a1, a2, _, k2, k3⟩ := hat c hc
        have hcb := codes_mem.mp hc
        have := expandSeg_identity _ _ c (by omega) _ _ _ k2 (fun x hx => by have := codes_mem.mp hx; omega) hc
        rw [hmem c hc, this] at k3
        simpa using k3
      rw [hid] at g5
      unfold codes at g5
      rw [isContiguous_identity _ _ (by omega)] at g5
      cases g5
    · -- the last code of the segment is outside the array
      have hlast : segs[i].2 ∈ codes segs[i] := codes_mem.mpr ⟨hbd.1, Nat.le_refl _⟩
      obtain ⟨a1, a2, k1, k2, k3⟩ := hat _ hlast
      have hto : (UInt16.ofNat (2 * ((segs.length + 1 + base - i) % 65536))).toNat =
          2 * ((segs.length + 1 + base - i) % 65536) := ofNat16_toNat g4
      rw [expandSeg_outside _ _ _ (by
        intro hz
        rw [hz] at hto
        have z : (0 : UInt16).toNat = 0 := rfl
        omega) _ segs[i].2 (by omega) (by
          rw [hto, List.length_take]
          omega) _ _ _ k2 (fun x hx => by have := codes_mem.mp hx; omega), k1, hmem _ hlast] at k3
      cases k3

/-- The 9000 even characters from 0 on, all with glyph 1: such a map is too big. -/
def evens : Map := (List.range 9000).map (fun i => (UInt32.ofNat (2 * i), 1))

theorem evens_mem {x : UInt32 × UInt16} (h : x ∈ evens) : ∃ i, i < 9000 ∧ x.1.toNat = 2 * i ∧ x.2 = 1 := by
  obtain ⟨i, hi, rfl⟩ := List.mem_map.mp h
  have := List.mem_range.mp hi
  exact ⟨i, this, ofNat32_toNat (by omega), rfl⟩

theorem evens_sorted : BMap.Sorted evens := by
  unfold BMap.Sorted evens
  rw [List.pairwise_map]
  refine List.Pairwise.imp_of_mem ?_ List.pairwise_lt_range
  intro a b ha hb hab
  have h1 := List.mem_range.mp ha
  have h2 := List.mem_range.mp hb
  simp only [Key.lt, decide_eq_true_eq]
  rw [ofNat32_toNat (by omega), ofNat32_toNat (by omega)]
  omega

theorem flatMap_ones : ∀ (l : List (Nat × Nat)), (∀ x ∈ l, (codes x).length = 1) → (l.flatMap codes).length = l.length
  | [], _ => rfl
  | x :: l, h => by
    rw [List.flatMap_cons, List.length_append, h x (by simp), flatMap_ones l (fun y hy => h y (by simp [hy])), List.length_cons]
    omega

theorem evens_too_big (p e lang : UInt16) : ∃ bs, encSubtable (sub4 p e lang evens) = .ok bs ∧ 65535 < bs.length := by
  have hl : evens.length = 9000 := by simp [evens]
  obtain ⟨t, ht⟩ := fromMapping4_total lang evens evens_sorted (by intro h; rw [h] at hl; cases hl) (by omega) (by
    intro x hx
    obtain ⟨i, h1, h2, _⟩ := evens_mem hx
    omega) (by
    intro x hx y hy h
    obtain ⟨_, _, _, h3⟩ := evens_mem hx
    rw [h3]; decide)
  refine ⟨encCmap4 t, by simp [encSubtable, ht], ?_⟩
  obtain ⟨segs, ds, os, b⟩ := built_of_ok evens_sorted ht
  rw [encCmap4_length b b.sizes]
  -- every segment is one character
  have hone : ∀ x ∈ segs, (codes x).length = 1 := by
    intro x hx
    have hb := b.bounds x hx
    have hin : ∀ c, c ∈ codes x → ∃ i, c = 2 * i := by
      intro c hc
      have : c ∈ segs.flatMap codes := List.mem_flatMap.mpr ⟨x, hx, hc⟩
      rw [b.codesEq] at this
      obtain ⟨y, hy, rfl⟩ := List.mem_map.mp this
      obtain ⟨i, _, h, _⟩ := evens_mem hy
      exact ⟨i, h⟩
    have h1 : x.1 = x.2 := by
      apply Decidable.byContradiction
      intro hne
      obtain ⟨i, hi⟩ := hin x.1 (codes_mem.mpr ⟨by omega, by omega⟩)
      obtain ⟨j, hj⟩ := hin (x.1 + 1) (codes_mem.mpr ⟨by omega, by omega⟩)
      omega
    simp only [codes, List.length_range']
    omega
  have hlen : (segs.flatMap codes).length = segs.length := by
    exact flatMap_ones segs hone
  rw [b.codesEq, List.length_map, hl] at hlen
  omega

example : ∃ bs, encSubtable (sub4 3 1 0 evens) = .ok bs ∧ 65535 < bs.length := evens_too_big 3 1 0

/-- **C34** refuted as first stated. -/
theorem C34_refuted : ¬ SavedAs (sub4 3 1 0 evens) (sub4 3 1 0 evens) := by
  rintro ⟨bs, h1, h2⟩
  obtain ⟨bs', h3, h4⟩ := evens_too_big 3 1 0
  rw [h1] at h3
  cases h3
  exact C34_too_big 3 1 0 evens evens_sorted bs h1 h4 h2

end FT.Props
