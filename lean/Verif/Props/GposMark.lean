import Verif.Props.GposPair

/-!
C16: mark-to-base and mark-to-mark attachment. C67: mark-to-ligature attachment.
-/

namespace FT.Props
open FT FT.Gpos FT.Lay FT.Off FT.VR Reader

/-- Specification: some mark has this class or a larger one. -/
def reached (marks : Marks) (c : UInt16) : Bool := marks.any (fun x => c.toNat ≤ x.2.1.toNat)

/-- Specification: the anchors of classes up to the largest mark class. -/
def keptAnchors (marks : Marks) (b : AnchorMap) : AnchorMap := b.filter (fun a => reached marks a.1)

theorem classCount_ok : ∀ (ms : Marks) (n : Nat), (∀ x ∈ ms, x.2.1.toNat ≠ 65535) → ∃ k, classCount ms n = .ok k ∧
    (∀ c, c < k ↔ c < n ∨ ∃ x ∈ ms, c ≤ x.2.1.toNat) ∧ (n ≤ 65535 → k ≤ 65535)
  | [], n, _ => ⟨n, rfl, by simp, id⟩
  | x :: l, n, h => by
    have hx := h x (by simp)
    have hlt := x.2.1.toNat_lt
    obtain ⟨k, h1, h2, h3⟩ := classCount_ok l (max n (x.2.1.toNat + 1)) (fun y hy => h y (by simp [hy]))
    refine ⟨k, ?_, ?_, ?_⟩
    · simp only [classCount]; rw [if_neg (by omega), h1]
    · intro c
      rw [h2, List.exists_mem_cons_iff]
      constructor
      · rintro (h | h)
        · by_cases hc : c < n
          · exact .inl hc
          · exact .inr (.inl (by omega))
        · exact .inr (.inr h)
      · rintro (h | h | h)
        · exact .inl (by omega)
        · exact .inl (by omega)
        · exact .inr h
    · intro hn
      exact h3 (by omega)

theorem classCount_panics : ∀ (ms : Marks) (n : Nat), (∃ x ∈ ms, x.2.1.toNat = 65535) → classCount ms n = .panic
  | [], n, h => by obtain ⟨_, h, _⟩ := h; cases h
  | x :: l, n, h => by
    simp only [classCount]
    by_cases hx : x.2.1.toNat + 1 > 65535
    · rw [if_pos hx]
    · rw [if_neg hx]
      obtain ⟨y, hy, e⟩ := h
      rcases List.mem_cons.mp hy with rfl | hy
      · omega
      · exact classCount_panics l _ ⟨y, hy, e⟩

theorem rowEntries_mem : ∀ (r : AnchorRow) (i : Nat), i + r.length ≤ 65536 → ∀ (k : UInt16) (a : Anchor),
    (k, a) ∈ rowEntries i r ↔ i ≤ k.toNat ∧ r[k.toNat - i]? = some (some a)
  | [], i, _, k, a => by simp [rowEntries]
  | x :: r, i, h, k, a => by
    rw [List.length_cons] at h
    have ih := rowEntries_mem r (i + 1) (by omega) k a
    have hto : (UInt16.ofNat i).toNat = i := by
      rw [UInt16.toNat_ofNat']; omega
    have step : i + 1 ≤ k.toNat ∧ r[k.toNat - (i + 1)]? = some (some a) ↔
        i ≤ k.toNat ∧ k.toNat ≠ i ∧ (x :: r)[k.toNat - i]? = some (some a) := by
      constructor
      · rintro ⟨h1, h2⟩
        refine ⟨by omega, by omega, ?_⟩
        rw [show k.toNat - i = (k.toNat - (i + 1)) + 1 by omega, List.getElem?_cons_succ]
        exact h2
      · rintro ⟨h1, h2, h3⟩
        refine ⟨by omega, ?_⟩
        rw [show k.toNat - i = (k.toNat - (i + 1)) + 1 by omega, List.getElem?_cons_succ] at h3
        exact h3
    have self : k.toNat = i → ((x :: r)[k.toNat - i]? = some (some a) ↔ x = some a) := by
      intro e; rw [e, Nat.sub_self]; simp
    cases x with
    | none =>
      simp only [rowEntries]
      rw [ih, step]
      constructor
      · rintro ⟨h1, _, h3⟩; exact ⟨h1, h3⟩
      · rintro ⟨h1, h3⟩
        refine ⟨h1, fun e => ?_, h3⟩
        have := (self e).mp h3; cases this
    | some b =>
      simp only [rowEntries, List.mem_cons, Prod.mk.injEq]
      rw [ih, step]
      constructor
      · rintro (⟨h1, h2⟩ | ⟨h1, _, h3⟩)
        · have e : k.toNat = i := by rw [h1, hto]
          exact ⟨by omega, (self e).mpr (by rw [h2])⟩
        · exact ⟨h1, h3⟩
      · rintro ⟨h1, h3⟩
        by_cases e : k.toNat = i
        · left
          have := (self e).mp h3
          refine ⟨UInt16.toNat_inj.mp (by rw [e, hto]), by cases this; rfl⟩
        · exact .inr ⟨h1, e, h3⟩

theorem rowEntries_sorted : ∀ (r : AnchorRow) (i : Nat), i + r.length ≤ 65536 → BMap.Sorted (rowEntries i r)
  | [], i, _ => by simp [rowEntries, BMap.Sorted]
  | none :: r, i, h => by
    rw [List.length_cons] at h
    exact rowEntries_sorted r (i + 1) (by omega)
  | some a :: r, i, h => by
    rw [List.length_cons] at h
    have hto : (UInt16.ofNat i).toNat = i := by
      rw [UInt16.toNat_ofNat']; omega
    refine List.Pairwise.cons ?_ (rowEntries_sorted r (i + 1) (by omega))
    intro y hy
    have := ((rowEntries_mem r (i + 1) (by omega) y.1 y.2).mp hy).1
    simp only [Key.lt, decide_eq_true_eq, hto]
    omega

/-- A row of anchors up to class `n` reads back as the anchors of classes below `n`. -/
theorem rowFrom_anchorRow {b : AnchorMap} (hb : BMap.Sorted b) {n : Nat} (hn : n ≤ 65536) :
    rowFrom (anchorRow n b) = b.filter (fun a => decide (a.1.toNat < n)) := by
  have hl : (anchorRow n b).length = n := by simp [anchorRow]
  have hs := rowEntries_sorted (anchorRow n b) 0 (by omega)
  unfold rowFrom
  rw [BMap.collect_of_sorted hs]
  refine BMap.ext hs (hb.sublist List.filter_sublist) ?_
  intro k
  have hh : ∀ v, BMap.get? (rowEntries 0 (anchorRow n b)) k = some v ↔
      BMap.get? (b.filter (fun a => decide (a.1.toNat < n))) k = some v := by
    intro v
    rw [BMap.get?_eq_some hs, BMap.get?_eq_some (hb.sublist List.filter_sublist), rowEntries_mem _ _ (by omega),
      List.mem_filter, ← BMap.get?_eq_some hb]
    simp only [Nat.zero_le, true_and, Nat.sub_zero, decide_eq_true_eq, anchorRow, List.getElem?_map]
    by_cases hk : k.toNat < n
    · rw [List.getElem?_range hk]
      simp [hk]
    · rw [List.getElem?_eq_none (by simpa using hk)]
      simp [hk]
  cases e : BMap.get? (b.filter (fun a => decide (a.1.toNat < n))) k with
  | some v => exact (hh v).mpr e
  | none =>
    cases e' : BMap.get? (rowEntries 0 (anchorRow n b)) k with
    | none => rfl
    | some v => rw [(hh v).mp e'] at e; cases e

theorem kept_eq {ms : Marks} {n : Nat} (h : ∀ c, c < n ↔ c < 0 ∨ ∃ x ∈ ms, c ≤ x.2.1.toNat) (b : AnchorMap) :
    b.filter (fun a => decide (a.1.toNat < n)) = keptAnchors ms b := by
  unfold keptAnchors
  congr 1
  funext a
  rw [Bool.eq_iff_iff]
  simp only [decide_eq_true_eq, reached, List.any_eq_true]
  rw [h]; simp

theorem marksFrom_recs {ms : Marks} (hs : BMap.Sorted ms) :
    marksFrom (some (ms.map Prod.fst)) (some (markRecs ms)) = ms := by
  unfold marksFrom markRecs
  simp only [covGlyphs, Option.getD_some, List.map_map]
  have : (fun r : MarkRec => (r.1, r.2.getD Anchor.zero)) ∘ (fun x : UInt16 × (UInt16 × Anchor) =>
      ((x.2.1, some x.2.2) : MarkRec)) = Prod.snd := by
    funext x; rfl
  rw [this, BMap.map_fst_snd, BMap.collect_of_sorted hs]

theorem zip_map_snd {α β : Type} (f : α → β) : ∀ (l : List (UInt16 × α)),
    (l.map Prod.fst).zip (l.map (fun x => f x.2)) = l.map (fun x => (x.1, f x.2))
  | [] => rfl
  | x :: l => by simp only [List.map_cons, List.zip_cons_cons, zip_map_snd f l]

theorem map_snd_sorted {α β : Type} {l : List (UInt16 × α)} (f : α → β) (h : BMap.Sorted l) :
    BMap.Sorted (l.map (fun x => (x.1, f x.2))) := by
  unfold BMap.Sorted at *
  rw [List.pairwise_map]
  exact h

/-- Conditions on marks and bases: maps in key order, coverable glyph sets, no mark of class 65535. -/
structure MarksOk (ms : Marks) : Prop where
  sorted : BMap.Sorted ms
  cover : Coverable (ms.map Prod.fst)
  classes : ∀ x ∈ ms, x.2.1.toNat ≠ 65535

structure BasesOk (bs : List (UInt16 × AnchorMap)) : Prop where
  sorted : BMap.Sorted bs
  cover : Coverable (bs.map Prod.fst)
  inner : ∀ x ∈ bs, BMap.Sorted x.2

/-- Specification: what is left of the rule. -/
def keptMarkPos (p : MarkPos) : MarkPos := ⟨p.bases.map (fun x => (x.1, keptAnchors p.marks x.2)), p.marks⟩

theorem mark_build {p : MarkPos} (hm : MarksOk p.marks) (hb : BasesOk p.bases) {n : Nat} (hn : n ≤ 65535)
    (hc : ∀ c, c < n ↔ c < 0 ∨ ∃ x ∈ p.marks, c ≤ x.2.1.toNat) :
    MarkPos.build (some (p.marks.map Prod.fst)) (some (p.bases.map Prod.fst)) (some (markRecs p.marks))
      (some (p.bases.map (fun x => anchorRow n x.2))) = keptMarkPos p := by
  unfold MarkPos.build keptMarkPos
  rw [marksFrom_recs hm.sorted]
  congr 1
  simp only [covGlyphs, Option.getD_some, List.map_map]
  have : p.bases.map (rowFrom ∘ fun x => anchorRow n x.2) = p.bases.map (fun x => keptAnchors p.marks x.2) := by
    apply List.map_congr_left
    intro x hx
    rw [Function.comp_apply, rowFrom_anchorRow (hb.inner x hx) (by omega), kept_eq hc]
  rw [this, zip_map_snd, BMap.collect_of_sorted (map_snd_sorted _ hb.sorted)]

theorem mark_low (p : MarkPos) (hm : MarksOk p.marks) (hb : BasesOk p.bases) :
    (∃ low, p.toLow .p4_1 = .ok low ∧ PosOk low ∧ posType low = 4 ∧ posBack low = low ∧
      MarkPos.fromLow4 low = .ok (keptMarkPos p)) ∧
    (∃ low, p.toLow .p6_1 = .ok low ∧ PosOk low ∧ posType low = 6 ∧ posBack low = low ∧
      MarkPos.fromLow6 low = .ok (keptMarkPos p)) := by
  obtain ⟨n, h1, h2, h3⟩ := classCount_ok p.marks 0 hm.classes
  have hn := h3 (by omega)
  have hbuild := mark_build hm hb hn h2
  have hok : CovLinkOk (some (p.marks.map Prod.fst)) ∧ CovLinkOk (some (p.bases.map Prod.fst)) ∧
      (∀ l, some (markRecs p.marks) = some l → l.length ≤ 65535) ∧
      ∃ rows, some (p.bases.map (fun x => anchorRow n x.2)) = some rows ∧ rows.length ≤ 65535 ∧
        ∀ r ∈ rows, r.length = (UInt16.ofNat n).toNat := by
    refine ⟨covLinkOk_keys hm.sorted hm.cover, covLinkOk_keys hb.sorted hb.cover, ?_, _, rfl, ?_, ?_⟩
    · intro l e; cases e
      simpa [markRecs] using keys_length hm.sorted hm.cover
    · simpa using keys_length hb.sorted hb.cover
    · intro r hr
      obtain ⟨x, _, rfl⟩ := List.mem_map.mp hr
      rw [ofNat16_toNat hn]
      simp [anchorRow]
  constructor
  · refine ⟨.p4_1 1 (some (p.marks.map Prod.fst)) (some (p.bases.map Prod.fst)) (UInt16.ofNat n) (some (markRecs p.marks))
      (some (p.bases.map (fun x : UInt16 × AnchorMap => anchorRow n x.2))), by simp only [MarkPos.toLow, h1, bind, Res.bind]; rfl, hok, rfl,
      rfl, ?_⟩
    simp only [MarkPos.fromLow4, hbuild]
  · refine ⟨.p6_1 1 (some (p.marks.map Prod.fst)) (some (p.bases.map Prod.fst)) (UInt16.ofNat n) (some (markRecs p.marks))
      (some (p.bases.map (fun x : UInt16 × AnchorMap => anchorRow n x.2))), by simp only [MarkPos.toLow, h1, bind, Res.bind]; rfl, hok, rfl,
      rfl, ?_⟩
    simp only [MarkPos.fromLow6, hbuild]

/-- **C16.** Mark-to-base attachment: every mark keeps class and anchor, and every base exactly the anchors of the
classes up to the largest class of any mark. -/
theorem C16_mark_to_base (p : MarkPos) (hm : MarksOk p.marks) (hb : BasesOk p.bases) :
    ∃ low, p.toLow .p4_1 = .ok low ∧ PosSurvives low 4 MarkPos.fromLow4 (keptMarkPos p) := by
  obtain ⟨low, h1, h2, h3, h4, h5⟩ := (mark_low p hm hb).1
  exact ⟨low, h1, h3 ▸ posSurvives_of h2 (h4.symm ▸ h5)⟩

/-- **C16.** Mark-to-mark attachment is the same as a subtable. -/
theorem C16_mark_to_mark (p : MarkPos) (hm : MarksOk p.marks) (hb : BasesOk p.bases) :
    ∃ low, p.toLow .p6_1 = .ok low ∧ PosSurvives low 6 MarkPos.fromLow6 (keptMarkPos p) := by
  obtain ⟨low, h1, h2, h3, h4, h5⟩ := (mark_low p hm hb).2
  exact ⟨low, h1, h3 ▸ posSurvives_of h2 (h4.symm ▸ h5)⟩

/-- **C16.** In particular the anchor of a base for the class of any mark is kept, and an anchor is lost exactly if
its class is above that of every mark. -/
theorem C16_anchors (p : MarkPos) (g : UInt16) (b : AnchorMap) (hb : BasesOk p.bases) (hg : (g, b) ∈ p.bases) :
    ∃ b', (g, b') ∈ (keptMarkPos p).bases ∧
      (∀ c, (∃ x ∈ p.marks, x.2.1 = c) → BMap.get? b' c = BMap.get? b c) ∧
      ∀ c a, BMap.get? b c = some a → (BMap.get? b' c = none ↔ ∀ x ∈ p.marks, x.2.1.toNat < c.toNat) := by
  have hs : BMap.Sorted b := hb.inner _ hg
  have hf : BMap.Sorted (keptAnchors p.marks b) := hs.sublist List.filter_sublist
  refine ⟨keptAnchors p.marks b, List.mem_map.mpr ⟨_, hg, rfl⟩, ?_, ?_⟩
  · rintro c ⟨x, hx, rfl⟩
    cases e : BMap.get? b x.2.1 with
    | none =>
      rw [BMap.get?_eq_none hf]
      intro y hy
      exact (BMap.get?_eq_none hs).mp e y (List.mem_filter.mp hy).1
    | some a =>
      rw [BMap.get?_eq_some hf]
      refine List.mem_filter.mpr ⟨(BMap.get?_eq_some hs).mp e, ?_⟩
      simp only [reached, List.any_eq_true, decide_eq_true_eq]
      exact ⟨x, hx, le_refl _⟩
  · intro c a ha
    have hmem := (BMap.get?_eq_some hs).mp ha
    rw [BMap.get?_eq_none hf]
    constructor
    · intro h x hx
      by_contra hc
      exact h (c, a) (List.mem_filter.mpr ⟨hmem, by
        simp only [reached, List.any_eq_true, decide_eq_true_eq]; exact ⟨x, hx, by omega⟩⟩) rfl
    · intro h y hy e
      obtain ⟨_, hr⟩ := List.mem_filter.mp hy
      simp only [reached, List.any_eq_true, decide_eq_true_eq] at hr
      obtain ⟨x, hx, hle⟩ := hr
      have := h x hx
      rw [e] at hle
      omega

/-- **C16.** A mark of class 65535 makes the conversion panic. -/
theorem C16_last_class_panics (p : MarkPos) (h : ∃ x ∈ p.marks, x.2.1.toNat = 65535)
    (mk : UInt16 → Cov → Cov → UInt16 → Option (List MarkRec) → Option (List AnchorRow) → Sub) :
    p.toLow mk = .panic := by
  simp only [MarkPos.toLow, classCount_panics _ _ h, bind, Res.bind]

/-- A rule with a class without marks between two used ones (kept) and one above (lost). -/
example : throughBytes (.p4_1 1 (some [50]) (some [10]) 2 (some [(1, some ⟨5, 6, none⟩)])
      (some [[some ⟨1, 2, none⟩, some ⟨3, 4, some 7⟩]])) 4 MarkPos.fromLow4 =
      .ok ⟨[(10, [(0, ⟨1, 2, none⟩), (1, ⟨3, 4, some 7⟩)])], [(50, (1, ⟨5, 6, none⟩))]⟩ ∧
    keptMarkPos ⟨[(10, [(0, ⟨1, 2, none⟩), (1, ⟨3, 4, some 7⟩), (2, ⟨8, 9, none⟩)])], [(50, (1, ⟨5, 6, none⟩))]⟩ =
      ⟨[(10, [(0, ⟨1, 2, none⟩), (1, ⟨3, 4, some 7⟩)])], [(50, (1, ⟨5, 6, none⟩))]⟩ := by decide +kernel
example : MarksOk [(50, (1, ⟨5, 6, none⟩))] ∧
    BasesOk [(10, [(0, ⟨1, 2, none⟩), (1, ⟨3, 4, some 7⟩), (2, ⟨8, 9, none⟩)]), (11, [])] :=
  ⟨⟨by simp [BMap.Sorted], .inl (by decide), by simp⟩, by simp [BMap.Sorted, Key.lt], .inl (by decide), by
    intro x hx
    simp only [List.mem_cons, List.not_mem_nil, or_false] at hx
    rcases hx with rfl | rfl <;> simp [BMap.Sorted, Key.lt]⟩

/-! ### C67 -/

/-- Specification: what is left of a mark-to-ligature rule. -/
def keptMarkLig (p : MarkLigPos) : MarkLigPos :=
  ⟨p.ligatures.map (fun x => (x.1, x.2.map (keptAnchors p.marks))), p.marks⟩

theorem markLig_low (p : MarkLigPos) (hm : MarksOk p.marks) (hl : p.ligatures.length ≤ 1)
    (hc : Coverable (p.ligatures.map Prod.fst))
    (hi : ∀ x ∈ p.ligatures, x.2.length ≤ 65535 ∧ ∀ b ∈ x.2, BMap.Sorted b) :
    ∃ low, p.toLow = .ok low ∧ PosOk low ∧ posType low = 5 ∧ posBack low = low ∧
      MarkLigPos.fromLow low = .ok (keptMarkLig p) := by
  obtain ⟨n, h1, h2, h3⟩ := classCount_ok p.marks 0 hm.classes
  have hn := h3 (by omega)
  have hsort : BMap.Sorted p.ligatures := by
    unfold BMap.Sorted
    match p.ligatures, hl with
    | [], _ => exact .nil
    | [x], _ => simp
  refine ⟨.p5_1 1 (some (p.marks.map Prod.fst)) (some (p.ligatures.map Prod.fst)) (UInt16.ofNat n)
    (some (markRecs p.marks)) (some (p.ligatures.map (fun x => some (x.2.map (anchorRow n))))),
    by simp only [MarkLigPos.toLow, h1, bind, Res.bind]; rfl, ⟨covLinkOk_keys hm.sorted hm.cover,
    covLinkOk_keys hsort hc, ?_, ?_⟩, rfl, rfl, ?_⟩
  · intro l e; cases e
    simpa [markRecs] using keys_length hm.sorted hm.cover
  · match hp : p.ligatures, hl with
    | [], _ => exact .inl rfl
    | [x], _ =>
      refine .inr ⟨_, rfl, ?_, ?_⟩
      · rw [List.length_map]; exact (hi x (by rw [hp]; simp)).1
      · intro r hr
        obtain ⟨b, _, rfl⟩ := List.mem_map.mp hr
        rw [ofNat16_toNat hn]
        simp [anchorRow]
  · simp only [MarkLigPos.fromLow, keptMarkLig, covGlyphs, Option.getD_some, List.map_map, marksFrom_recs hm.sorted]
    have : p.ligatures.map ((fun x : Option (List AnchorRow) => (x.getD []).map rowFrom) ∘
        fun x => some (x.2.map (anchorRow n))) = p.ligatures.map (fun x => x.2.map (keptAnchors p.marks)) := by
      apply List.map_congr_left
      intro x hx
      simp only [Function.comp_apply, Option.getD_some, List.map_map]
      apply List.map_congr_left
      intro b hb
      rw [Function.comp_apply, rowFrom_anchorRow ((hi x hx).2 b hb) (by omega), kept_eq h2]
    rw [this, zip_map_snd, BMap.collect_of_sorted (map_snd_sorted _ hsort)]

/-- **C67.** A mark-to-ligature rule for at most one ligature keeps, for every component, the anchors of the classes up
to the largest class of any mark. -/
theorem C67_one_ligature (p : MarkLigPos) (hm : MarksOk p.marks) (hl : p.ligatures.length ≤ 1)
    (hc : Coverable (p.ligatures.map Prod.fst))
    (hi : ∀ x ∈ p.ligatures, x.2.length ≤ 65535 ∧ ∀ b ∈ x.2, BMap.Sorted b) :
    ∃ low, p.toLow = .ok low ∧ PosSurvives low 5 MarkLigPos.fromLow (keptMarkLig p) := by
  obtain ⟨low, h1, h2, h3, h4, h5⟩ := markLig_low p hm hl hc hi
  exact ⟨low, h1, h3 ▸ posSurvives_of h2 (h4.symm ▸ h5)⟩

/-- The whole way of a rule: conversion, bytes, reading, conversion back. -/
def MarkLigPos.through (p : MarkLigPos) : Res MarkLigPos := do
  let low ← p.toLow
  throughBytes low 5 MarkLigPos.fromLow

/-- **C67.** Two ligatures do not survive: after the first attachment table the reader goes on behind it instead of
returning to the list of offsets. A rule for two ligatures cannot be read; with an empty one before it, the second
gets components it never had. -/
theorem C67_two_ligatures_fail :
    MarkLigPos.through ⟨[(10, [[(0, ⟨1, 2, none⟩)], [(0, ⟨3, 4, none⟩)]]), (11, [[(0, ⟨7, 8, none⟩)]])],
      [(50, (0, ⟨5, 6, none⟩))]⟩ = .err ∧
    MarkLigPos.through ⟨[(10, []), (11, [])], []⟩ = .ok ⟨[(10, []), (11, [[], []])], []⟩ := by decide +kernel

example : MarkLigPos.through ⟨[(10, [[(0, ⟨1, 2, none⟩), (3, ⟨9, 9, none⟩)], [(0, ⟨3, 4, none⟩)]])],
    [(50, (0, ⟨5, 6, none⟩))]⟩ =
    .ok ⟨[(10, [[(0, ⟨1, 2, none⟩)], [(0, ⟨3, 4, none⟩)]])], [(50, (0, ⟨5, 6, none⟩))]⟩ := by decide +kernel
example : MarksOk [(50, (0, ⟨5, 6, none⟩))] ∧ Coverable [10] :=
  ⟨⟨by simp [BMap.Sorted], .inl (by decide), by simp⟩, .inl (by decide)⟩

end FT.Props
