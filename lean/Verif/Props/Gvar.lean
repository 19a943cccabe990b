import Verif.Props.GvarDeltas
import Verif.Props.TupleVar
import Verif.Props.Support
import Verif.Props.Gdef

/-!
C53: gvar tables.
-/

namespace FT.Props
open FT FT.F32 FT.Glyf FT.Iup FT.TupleVar FT.Gvar Reader

/-! ### Specification -/

/-- Some point of the glyph moves. -/
def Moves (d : DeltaSet) : Prop := ∃ p ∈ d.deltas, p ≠ (0, 0)

instance (d : DeltaSet) : Decidable (Moves d) := by unfold Moves; infer_instance

/-- How a deltaset comes back: start and end are lost if both are the peak itself; the region then reaches from nought to the
end of the axis on the side of the peak. -/
def comesBack (d : DeltaSet) : DeltaSet :=
  if d.start = d.peak ∧ d.stop = d.peak then
    { d with start := d.peak.map (fun x => if 0 < x then 0 else -1), stop := d.peak.map (fun x => if 0 < x then 1 else 0) }
  else d

/-- How the data of a glyph come back: without the deltasets which move nothing. -/
def glyphBack (ds : List DeltaSet) : List DeltaSet := (ds.filter Moves).map comesBack

/-- A tuple of 2.14 numbers, one for each axis. -/
def GridTuple (axes : Nat) (t : List ℚ) : Prop := t.length = axes ∧ ∀ x ∈ t, OnGrid x

/-- At most 127 deltas are given, at points with steps of at most 255. -/
def FewPoints (l : List (Option Delta)) : Prop :=
  (givenFrom 0 l).length ≤ 127 ∧ List.IsChain (fun a b => b ≤ a + 255) (0 :: (givenFrom 0 l).map Prod.fst)

/-- A deltaset for a glyph of `n` points: coordinates are 2.14 numbers, there is one delta for each point, nowhere 256 zeros in
a row; if the outline is known, the deltas which cannot be inferred are few. -/
def SetFits (axes n : Nat) (glyph : Option Glyph) (d : DeltaSet) : Prop :=
  GridTuple axes d.peak ∧ GridTuple axes d.start ∧ GridTuple axes d.stop ∧ d.deltas.length = n ∧
  ¬ List.replicate 256 (0 : Int16) <:+: d.deltas.map Prod.fst ∧ ¬ List.replicate 256 (0 : Int16) <:+: d.deltas.map Prod.snd ∧
  ∀ gl, glyph = some gl → ∀ out, optimizeDeltas (fullDeltas d) gl = .ok out → none ∈ out → FewPoints out

/-- The deltasets of a glyph with the given coordinates and ends of contours. -/
def GlyphFits (axes : Nat) (glyph : Option Glyph) (ce : List Pt × List Nat) (ds : List DeltaSet) : Prop :=
  ce.1.length ≤ 65535 ∧ (∀ gl, glyph = some gl → gvarCoordsAndEnds gl = .ok ce) ∧
  ds.length < 4096 ∧ ds.length * (4 + 4 * axes) ≤ 65531 ∧ ∀ d ∈ ds, SetFits axes ce.1.length glyph d

/-- The outline of glyph `i`. -/
def outlineOf (glyf : Option (List Glyph)) (i : Nat) : Option Glyph := glyf.bind (fun l => l[i]?)

/-- A table which can be written and read. -/
def GvarFits (axes : Nat) (glyf : Option (List Glyph)) (ce : List (List Pt × List Nat)) (g : Gvar) : Prop :=
  ∀ i ds, g[i]? = some (some ds) → ∃ c, ce[i]? = some c ∧ GlyphFits axes (outlineOf glyf i) c ds

/-- The different peaks of a table. -/
def peaksOf (g : Gvar) : List (List ℚ) := ((allSets g).map DeltaSet.peak).dedup

/-! ### Tuples -/

theorem gridTuple_fixed {axes : Nat} {t : List ℚ} (h : GridTuple axes t) : ∃ ps : List Int16, ps.length = axes ∧ t = ps.map fixed14 := by
  obtain ⟨h1, h2⟩ := h
  subst h1
  induction t with
  | nil => exact ⟨[], rfl, rfl⟩
  | cons x t ih =>
    obtain ⟨ps, e1, e2⟩ := ih (fun y hy => h2 y (by simp [hy]))
    obtain ⟨a, l1, l2, e⟩ := h2 x (by simp)
    refine ⟨Int16.ofInt a :: ps, by simp [e1], ?_⟩
    rw [List.map_cons, ← e2, e]
    unfold fixed14
    rw [Int16.toInt_ofInt_of_le (by simpa using l1) (by omega)]

theorem peakBytes_fixed {d : DeltaSet} {ps : List Int16} (h : d.peak = ps.map fixed14) : peakBytes d = .ok (encVec encI16 ps) := by
  unfold peakBytes
  rw [h, encVecR_fixed14]
  rfl

/-! ### One deltaset -/

theorem fullDeltas_eq (d : DeltaSet) : fullDeltas d = d.deltas.map (fun p => some (twoD p)) := rfl

theorem fullDeltas_asDeltas (d : DeltaSet) : fullDeltas d = asDeltas (d.deltas.map some) := by
  rw [fullDeltas_eq, asDeltas, List.map_map]; rfl

theorem hasEffect_asDeltas (h : Header) (gs : List (Option Pt)) : hasEffect ⟨h, asDeltas gs⟩ = true ↔ ∃ p, some p ∈ gs ∧ p ≠ (0, 0) := by
  unfold hasEffect
  rw [List.any_eq_true]
  constructor
  · rintro ⟨o, ho, he⟩
    simp only [asDeltas, List.mem_map] at ho
    obtain ⟨q, hq, rfl⟩ := ho
    cases q with
    | none => simp at he
    | some p =>
      refine ⟨p, hq, ?_⟩
      rintro rfl
      simp [twoD] at he
  · rintro ⟨p, hp, hne⟩
    refine ⟨some (twoD p), by simp only [asDeltas, List.mem_map]; exact ⟨some p, hp, rfl⟩, ?_⟩
    simp only [twoD, Bool.or_eq_true, bne_iff_ne]
    by_contra hc
    push Not at hc
    exact hne (Prod.ext hc.1 hc.2)

theorem hasEffect_full (h : Header) (d : DeltaSet) : hasEffect ⟨h, fullDeltas d⟩ = true ↔ Moves d := by
  rw [fullDeltas_asDeltas, hasEffect_asDeltas]
  unfold Moves
  simp

/-- The deltas written for a deltaset stand for all its deltas. -/
def StandsFor (ce : List Pt × List Nat) (d : DeltaSet) (l : List (Option Delta)) : Prop :=
  l.length = d.deltas.length ∧ AllPairs l ∧ iupDelta l ce.1 ce.2 = .ok d.deltas ∧ (∀ h, hasEffect ⟨h, l⟩ = true ↔ Moves d) ∧
  (l = fullDeltas d ∨ none ∈ l ∧ FewPoints l ∧ ∃ x, some x ∈ l)

theorem standsFor_full (ce : List Pt × List Nat) (d : DeltaSet) : StandsFor ce d (fullDeltas d) := by
  refine ⟨by simp [fullDeltas], ?_, iupDelta_full _ _ _, fun h => hasEffect_full h d, .inl rfl⟩
  intro o ho x e
  rw [fullDeltas_eq, List.mem_map] at ho
  obtain ⟨p, _, rfl⟩ := ho
  injection e with e
  exact ⟨p, e.symm⟩

theorem all_given_full {l : List (Option Delta)} (hp : AllPairs l) (hn : none ∉ l) : ∃ ps : List Pt, l = ps.map (fun p => some (twoD p)) := by
  induction l with
  | nil => exact ⟨[], rfl⟩
  | cons o l ih =>
    obtain ⟨ps, rfl⟩ := ih (fun o ho => hp o (by simp [ho])) (fun h => hn (by simp [h]))
    cases o with
    | none => simp at hn
    | some x =>
      obtain ⟨p, rfl⟩ := hp (some x) (by simp) x rfl
      exact ⟨p :: ps, rfl⟩

theorem chooseDeltas_inv {h : Header} {d : DeltaSet} {gl : Glyph} {ce : List Pt × List Nat} {l : List (Option Delta)}
    (hce : gvarCoordsAndEnds gl = .ok ce) (hlen : d.deltas.length = ce.1.length)
    (hfew : ∀ out, optimizeDeltas (fullDeltas d) gl = .ok out → none ∈ out → FewPoints out)
    (hc : chooseDeltas h (fullDeltas d) gl = .ok l) : StandsFor ce d l := by
  unfold chooseDeltas at hc
  obtain ⟨opt, ho, hc⟩ := Res.bind_inv hc
  split at hc
  · injection hc with hc
    subst hc
    exact standsFor_full ce d
  rename_i hany
  obtain ⟨b1, e1, hc⟩ := Res.bind_inv hc
  obtain ⟨b2, e2, hc⟩ := Res.bind_inv hc
  injection hc with hc
  split at hc
  swap
  · subst hc
    exact standsFor_full ce d
  subst hc
  have hp := optimizeDeltas_pairs ho
  have ho' := ho
  rw [fullDeltas_asDeltas] at ho'
  obtain ⟨c1, full, c2, c3⟩ := C42_glyph (d.deltas.map some) gl ce.1 ce.2 hce (by simpa using hlen) opt ho'
  rw [← fullDeltas_asDeltas, fullDeltas_eq, iupDelta_full] at c2
  injection c2 with c2
  subst c2
  rw [List.length_map] at c1
  by_cases hn : none ∈ opt
  swap
  · obtain ⟨ps, rfl⟩ := all_given_full hp hn
    rw [iupDelta_full] at c3
    injection c3 with c3
    subst c3
    exact standsFor_full ce d
  refine ⟨c1, hp, c3, ?_, .inr ⟨hn, hfew opt ho hn, ?_⟩⟩
  · intro h
    obtain ⟨gs, rfl⟩ := allPairs_asDeltas hp
    rw [hasEffect_asDeltas]
    constructor
    · intro he
      by_contra hm
      -- nothing moves: the optimiser keeps nothing
      apply hany
      rw [List.all_eq_true]
      unfold optimizeDeltas at ho
      rw [hce] at ho
      simp only [Res.ok_bind, fullDeltas_eq, iupDelta_full] at ho
      intro o hoo
      have := optimizeContours_zero (fun p hp => by
        by_contra hne
        exact hm ⟨p, hp, hne⟩) _ _ _ ho o hoo
      rw [this]; rfl
    · rintro ⟨p, hp1, hp2⟩
      by_contra hm
      push Not at hm
      exact hp2 (iupDelta_zero (by rw [← hlen, ← c1]; simp) (fun q hq => hm q hq) c3 p hp1)
  · rw [List.all_eq_true] at hany
    push Not at hany
    obtain ⟨o, ho1, ho2⟩ := hany
    cases o with
    | none => simp at ho2
    | some x => exact ⟨x, ho1⟩

theorem toTuple_inv {axes : Nat} {shared : List Bytes} {glyph : Option Glyph} {d : DeltaSet} {v : Variation} {ce : List Pt × List Nat}
    (hf : SetFits axes ce.1.length glyph d) (hce : ∀ gl, glyph = some gl → gvarCoordsAndEnds gl = .ok ce)
    (hmem : ∀ b, peakBytes d = .ok b → b ∈ shared) (h : toTupleVariation shared glyph d = .ok v) :
    ∃ i pb, peakBytes d = .ok pb ∧ shared[i]? = some pb ∧ v.header = tupleHeader d (some i) ∧ StandsFor ce d v.deltas := by
  unfold toTupleVariation at h
  obtain ⟨pb, e1, h⟩ := Res.bind_inv h
  have hm := hmem pb e1
  obtain ⟨i, hi⟩ : ∃ i, shared.findIdx? (· == pb) = some i := by
    cases hfi : shared.findIdx? (· == pb) with
    | some i => exact ⟨i, rfl⟩
    | none =>
      rw [List.findIdx?_eq_none_iff] at hfi
      have := hfi pb hm
      simp at this
  have hsi : shared[i]? = some pb := by
    rw [List.findIdx?_eq_some_iff_getElem] at hi
    obtain ⟨hlt, he, _⟩ := hi
    rw [List.getElem?_eq_getElem hlt, beq_iff_eq.mp he]
  rw [hi] at h
  cases glyph with
  | none =>
    simp only at h
    injection h with h
    subst h
    exact ⟨i, pb, e1, hsi, rfl, standsFor_full ce d⟩
  | some gl =>
    simp only at h
    obtain ⟨l, e2, h⟩ := Res.bind_inv h
    injection h with h
    subst h
    exact ⟨i, pb, e1, hsi, rfl, chooseDeltas_inv (hce gl rfl) hf.2.2.2.1 (hf.2.2.2.2.2.2 gl rfl) e2⟩

theorem gridTuple_present {axes : Nat} {t : List ℚ} (h : GridTuple axes t) {b : Prop} (hb : b) : ∃ bs, OptTuple axes b (some t) bs := by
  obtain ⟨ps, e1, rfl⟩ := gridTuple_fixed h
  exact ⟨_, .present ps hb e1⟩

theorem tupleHeader_plain {d : DeltaSet} {i : Nat} (h : d.start = d.peak ∧ d.stop = d.peak) :
    tupleHeader d (some i) = ⟨0, 0, UInt16.ofNat i, none, none, none⟩ := by
  unfold tupleHeader
  rw [h.1, h.2]
  simp

theorem tupleHeader_inter {d : DeltaSet} {i : Nat} (h : ¬ (d.start = d.peak ∧ d.stop = d.peak)) :
    tupleHeader d (some i) = ⟨0, INTERMEDIATE_REGION, UInt16.ofNat i, none, some d.start, some d.stop⟩ := by
  have hi : d.peak ≠ d.start ∨ d.peak ≠ d.stop := by
    by_contra hc
    push Not at hc
    exact h ⟨hc.1.symm, hc.2.symm⟩
  unfold tupleHeader
  simp only [hi, if_true, Option.isNone_some, Bool.false_eq_true, if_false]
  simp

theorem tupleHeader_fits {axes n : Nat} {glyph : Option Glyph} {d : DeltaSet} (hf : SetFits axes n glyph d) {i : Nat} (hi : i < 4096) :
    HeaderFits axes (tupleHeader d (some i)) := by
  obtain ⟨_, f2, f3, _⟩ := hf
  have e : (UInt16.ofNat i).toNat = i := ofNat16_toNat (by omega)
  by_cases h : d.start = d.peak ∧ d.stop = d.peak
  · rw [tupleHeader_plain h]
    refine ⟨⟨[], .absent (show ¬ WordBit 0 15 by decide)⟩, ⟨[], .absent (show ¬ WordBit 0 14 by decide)⟩,
      ⟨[], .absent (show ¬ WordBit 0 14 by decide)⟩, by simp only; omega, ?_⟩
    simp
  · rw [tupleHeader_inter h]
    refine ⟨⟨[], .absent (show ¬ WordBit INTERMEDIATE_REGION 15 by decide)⟩,
      gridTuple_present f2 (show WordBit INTERMEDIATE_REGION 14 by decide),
      gridTuple_present f3 (show WordBit INTERMEDIATE_REGION 14 by decide), by simp only; omega, ?_⟩
    simp only
    rw [show INTERMEDIATE_REGION &&& 0xF000 = INTERMEDIATE_REGION by decide]

theorem tupleHeader_size (axes : Nat) (d : DeltaSet) (i : Nat) : headerSize axes (tupleHeader d (some i)) ≤ 4 + 4 * axes := by
  unfold headerSize
  by_cases h : d.start = d.peak ∧ d.stop = d.peak
  · rw [tupleHeader_plain h]
    rw [if_neg (show ¬ WordBit 0 15 by decide), if_neg (show ¬ WordBit 0 14 by decide)]
    omega
  · rw [tupleHeader_inter h]
    rw [if_neg (show ¬ WordBit INTERMEDIATE_REGION 15 by decide)]
    split <;> omega

theorem tupleHeader_bit13 (d : DeltaSet) (i : Nat) : ¬ WordBit (tupleHeader d (some i)).flags 13 := by
  by_cases h : d.start = d.peak ∧ d.stop = d.peak
  · rw [tupleHeader_plain h]; show ¬ WordBit 0 13; decide
  · rw [tupleHeader_inter h]; show ¬ WordBit INTERMEDIATE_REGION 13; decide

theorem givenFrom_full (l : List Pt) (i : Nat) : (givenFrom i (l.map (fun p => some (twoD p)))).map Prod.snd = l.map twoD := by
  induction l generalizing i with
  | nil => rfl
  | cons p l ih => simp only [List.map_cons, givenFrom, ih]

theorem givenFrom_mem : ∀ (l : List (Option Delta)) (i : Nat), ∀ p ∈ givenFrom i l, some p.2 ∈ l
  | [], _, p, h => by simp [givenFrom] at h
  | none :: l, i, p, h => by
    have := givenFrom_mem l (i + 1) p h
    simp [this]
  | some d :: l, i, p, h => by
    rcases List.mem_cons.mp h with rfl | h
    · simp
    · have := givenFrom_mem l (i + 1) p h
      simp [this]

theorem givenFrom_pos {l : List (Option Delta)} (h : ∃ x, some x ∈ l) (i : Nat) : 1 ≤ (givenFrom i l).length := by
  induction l generalizing i with
  | nil => simp at h
  | cons o l ih =>
    cases o with
    | some d => simp [givenFrom]
    | none =>
      simp only [givenFrom]
      apply ih
      simpa using h

theorem givenFrom_sorted : ∀ (l : List (Option Delta)) (i : Nat), List.Pairwise (· < ·) ((givenFrom i l).map Prod.fst)
  | [], _ => by simp [givenFrom]
  | none :: l, i => givenFrom_sorted l (i + 1)
  | some d :: l, i => by
    simp only [givenFrom, List.map_cons, List.pairwise_cons]
    refine ⟨?_, givenFrom_sorted l (i + 1)⟩
    intro a ha
    rw [List.mem_map] at ha
    obtain ⟨p, hp, rfl⟩ := ha
    have := givenFrom_ge l (i + 1) p hp
    omega

theorem replicate_infix_short {l : List Int16} (h : l.length ≤ 255) : ¬ List.replicate 256 (0 : Int16) <:+: l := by
  intro hc
  have := hc.length_le
  rw [List.length_replicate] at this
  omega

theorem isChain_both {α : Type} {R S T : α → α → Prop} (h : ∀ a b, R a b → S a b → T a b) : ∀ {l : List α},
    List.IsChain R l → List.IsChain S l → List.IsChain T l
  | [], _, _ => .nil
  | [a], _, _ => .singleton a
  | a :: b :: l, h1, h2 => by
    rw [List.isChain_cons_cons] at h1 h2 ⊢
    exact ⟨h a b h1.1 h2.1, isChain_both h h1.2 h2.2⟩

theorem smallSteps_of {l : List (Option Delta)} (hl : l.length ≤ 65536) (h : FewPoints l) : SmallSteps (givenPoints 0 l) := by
  have e := givenPoints_eq l 0 (by omega)
  unfold SmallSteps
  obtain ⟨_, hc⟩ := h
  have hs := givenFrom_sorted l 0
  rw [← e] at hc hs
  have hs0 : List.IsChain (· ≤ ·) (0 :: (givenPoints 0 l).map UInt16.toNat) := by
    cases hm : (givenPoints 0 l).map UInt16.toNat with
    | nil => simp
    | cons a r =>
      rw [List.isChain_cons_cons]
      refine ⟨Nat.zero_le _, ?_⟩
      rw [hm] at hs
      exact (hs.imp (fun h => Nat.le_of_lt h)).isChain
  have e0 : (0 :: (givenPoints 0 l).map UInt16.toNat) = (0 :: givenPoints 0 l).map UInt16.toNat := rfl
  rw [e0, List.isChain_map] at hc hs0
  exact isChain_both (fun a b h1 h2 => ⟨h2, by omega⟩) hc hs0

theorem variation_fits {axes : Nat} {glyph : Option Glyph} {ce : List Pt × List Nat} {d : DeltaSet} {v : Variation}
    (hf : SetFits axes ce.1.length glyph d) (hpc : ce.1.length ≤ 65535) {i : Nat} (hi : i < 4096)
    (hh : v.header = tupleHeader d (some i)) (hs : StandsFor ce d v.deltas) :
    VariationFits axes true ce.1.length v := by
  obtain ⟨s1, s2, s3, s4, s5⟩ := hs
  have hl : v.deltas.length = ce.1.length := by rw [s1]; exact hf.2.2.2.1
  have hk : ∀ p ∈ givenFrom 0 v.deltas, DeltaKind true p.2 := by
    intro p hp
    obtain ⟨q, e⟩ := s2 (some p.2) (givenFrom_mem _ _ p hp) p.2 rfl
    rw [e]
    rfl
  refine ⟨hh ▸ tupleHeader_fits hf hi, hl, hk, ?_⟩
  rcases s5 with e | ⟨hn, hfew, hx⟩
  · have e2 := givenFrom_full d.deltas 0
    rw [← fullDeltas_eq, ← e] at e2
    have ex : (givenFrom 0 v.deltas).map (fun p => firstOf p.2) = d.deltas.map Prod.fst := by
      have := congrArg (List.map firstOf) e2
      rw [List.map_map, List.map_map] at this
      exact this
    have ey : (givenFrom 0 v.deltas).filterMap (fun p => secondOf p.2) = d.deltas.map Prod.snd := by
      have := congrArg (List.filterMap secondOf) e2
      rw [List.filterMap_map, List.filterMap_map] at this
      refine this.trans ?_
      rw [← List.filterMap_eq_map]
      rfl
    rw [ex, ey]
    refine ⟨hf.2.2.2.2.1, hf.2.2.2.2.2.1, .inr ⟨?_, ?_⟩⟩
    · rw [e, fullDeltas_eq]
      simp
    · rw [hh]
      exact tupleHeader_bit13 d i
  · have hle := hfew.1
    refine ⟨replicate_infix_short (by rw [List.length_map]; omega),
      replicate_infix_short (Nat.le_trans (List.length_filterMap_le _ _) (by omega)), .inl ⟨hn, givenPoints 0 v.deltas, ?_, ?_, ?_, ?_⟩⟩
    · exact givenPoints_eq _ _ (by omega)
    · exact smallSteps_of (by omega) hfew
    all_goals
      have := congrArg List.length (givenPoints_eq v.deltas 0 (by omega))
      rw [List.length_map, List.length_map] at this
    · rw [this]; exact givenFrom_pos hx 0
    · omega

/-! ### One glyph -/

/-- The shared tuples, as read, hold the tuples of the written bytes. -/
def SharedRead (shared : List Bytes) (tuples : List (List ℚ)) : Prop :=
  shared.length ≤ tuples.length ∧ ∀ (i : Nat) (ps : List Int16), shared[i]? = some (encVec encI16 ps) → tuples[i]? = some (ps.map fixed14)

theorem toDeltaSet_back {axes : Nat} {glyph : Option Glyph} {ce : List Pt × List Nat} {d : DeltaSet} {v : Variation}
    (hf : SetFits axes ce.1.length glyph d) {shared : List Bytes} {tuples : List (List ℚ)} (hr : SharedRead shared tuples)
    {i : Nat} (hi : i < 4096) {pb : Bytes} (hpb : peakBytes d = .ok pb) (hsi : shared[i]? = some pb)
    (hv : variationContent v = variationContent ⟨tupleHeader d (some i), v.deltas⟩) (hs : StandsFor ce d v.deltas) :
    toDeltaSet tuples ce.1 ce.2 v = .ok (comesBack d) := by
  obtain ⟨ps, _, e⟩ := gridTuple_fixed hf.1
  rw [peakBytes_fixed e] at hpb
  injection hpb with hpb
  subst hpb
  have ht := hr.2 i ps hsi
  rw [← e] at ht
  simp only [variationContent, Prod.mk.injEq, true_and] at hv
  obtain ⟨v1, v2, v3, v4⟩ := hv
  have hx : (tupleHeader d (some i)).sharedTupleIndex.toNat = i := by
    show (UInt16.ofNat i).toNat = i
    exact ofNat16_toNat (by omega)
  have hp : (tupleHeader d (some i)).peakTuple = none := rfl
  unfold toDeltaSet
  rw [hs.2.2.1, v1, v2, v3, v4, hx, hp]
  simp only [Res.ok_bind]
  have hlt : i < shared.length := by
    by_contra hc
    rw [List.getElem?_eq_none (by omega)] at hsi
    simp at hsi
  rw [if_neg (by have := hr.1; omega), ht]
  simp only [Res.unwrap, Res.ok_bind, Res.pure_eq]
  unfold comesBack
  by_cases h : d.start = d.peak ∧ d.stop = d.peak
  · rw [if_pos h, tupleHeader_plain h]
    rfl
  · rw [if_neg h, tupleHeader_inter h]
    rfl

theorem glyphData_reads {axes : UInt16} {glyph : Option Glyph} {ce : List Pt × List Nat} {ds : List DeltaSet}
    (hf : GlyphFits axes.toNat glyph ce ds) {shared : List Bytes} (hsh : shared.length ≤ 4096)
    (hmem : ∀ d ∈ ds, ∀ b, peakBytes d = .ok b → b ∈ shared) {b : Bytes} (h : glyphData shared glyph ds = .ok b) :
    5 ≤ b.length ∧ ∀ tuples, SharedRead shared tuples →
      ∃ vs, Reads (readStore axes true (UInt16.ofNat ce.1.length)) b vs ∧
        Res.mapL (toDeltaSet tuples ce.1 ce.2) vs = .ok (glyphBack ds) := by
  obtain ⟨f1, f2, f3, f4, f5⟩ := hf
  unfold glyphData at h
  obtain ⟨vs, hvs, h'⟩ := Res.bind_inv h
  clear h
  rename' h' => h
  have F := mapL_forall₂ hvs
  -- every variation with its deltaset
  have G : List.Forall₂ (fun d v => SetFits axes.toNat ce.1.length glyph d ∧ ∃ i pb, i < 4096 ∧ peakBytes d = .ok pb ∧
      shared[i]? = some pb ∧ v.header = tupleHeader d (some i) ∧ StandsFor ce d v.deltas) ds vs := by
    clear hvs h f3 f4
    induction F with
    | nil => exact .nil
    | @cons d v ds vs h1 _ ih =>
      refine .cons ?_ (ih (fun d hd => hmem d (by simp [hd])) (fun d hd => f5 d (by simp [hd])))
      have hfd := f5 d (by simp)
      obtain ⟨i, pb, a1, a2, a3, a4⟩ := toTuple_inv hfd f2 (hmem d (by simp)) h1
      have hlt : i < shared.length := by
        by_contra hc
        rw [List.getElem?_eq_none (by omega)] at a2
        simp at a2
      exact ⟨hfd, i, pb, by omega, a1, a2, a3, a4⟩
  have K : List.Forall₂ (fun d v => SetFits axes.toNat ce.1.length glyph d ∧ ∃ i pb, i < 4096 ∧ peakBytes d = .ok pb ∧
      shared[i]? = some pb ∧ v.header = tupleHeader d (some i) ∧ StandsFor ce d v.deltas) (ds.filter Moves) (vs.filter hasEffect) := by
    clear hvs h f3 f4 F f5 hmem
    induction G with
    | nil => exact .nil
    | @cons d v ds vs h1 _ ih =>
      obtain ⟨a0, i, pb, a1, a2, a3, a4, a5⟩ := h1
      have hme := a5.2.2.2.1 v.header
      by_cases hm : Moves d
      · rw [List.filter_cons_of_pos (by simpa using hm), List.filter_cons_of_pos (hme.mpr hm)]
        exact .cons ⟨a0, i, pb, a1, a2, a3, a4, a5⟩ ih
      · rw [List.filter_cons_of_neg (by simpa using hm), List.filter_cons_of_neg (fun hc => hm (hme.mp hc))]
        exact ih
  have hpc : (UInt16.ofNat ce.1.length).toNat = ce.1.length := ofNat16_toNat (by omega)
  have hlen : (vs.filter hasEffect).length ≤ ds.length := by
    rw [← K.length_eq]; exact List.length_filter_le _ _
  unfold glyphBack
  clear hvs F G
  generalize vs.filter hasEffect = ws at *
  generalize ds.filter Moves = es at *
  obtain ⟨bs, vs', c1, c2, c3⟩ := C40_roundtrip axes true (UInt16.ofNat ce.1.length) ws (by omega) (by
      rw [hpc]
      clear hlen h
      induction K with
      | nil => simp
      | @cons d v l r h1 _ ih =>
        obtain ⟨a0, i, pb, a1, a2, a3, a4, a5⟩ := h1
        intro w hw
        rcases List.mem_cons.1 hw with rfl | hw
        · exact variation_fits a0 f1 a1 a4 a5
        · exact ih w hw) (by
      have : (ws.map (fun v => headerSize axes.toNat v.header)).sum ≤ ws.length * (4 + 4 * axes.toNat) := by
        clear hlen h
        induction K with
        | nil => simp
        | @cons d v l r h1 _ ih =>
          obtain ⟨a0, i, pb, a1, a2, a3, a4, a5⟩ := h1
          simp only [List.map_cons, List.sum_cons, List.length_cons]
          have := tupleHeader_size axes.toNat d i
          rw [← a4] at this
          rw [Nat.succ_mul]
          omega
      have h2 := Nat.mul_le_mul_right (4 + 4 * axes.toNat) hlen
      omega)
  rw [c1] at h
  simp only [unwrapR] at h
  injection h with h
  subst h
  constructor
  · unfold encStore at c1
    obtain ⟨parts, _, c1⟩ := Res.bind_inv c1
    simp only at c1
    split at c1
    · simp at c1
    · injection c1 with c1
      rw [← c1]
      simp [encU16]
      omega
  · intro tuples ht
    refine ⟨vs', c2, ?_⟩
    have : ∀ (l : List DeltaSet) (r w : List Variation), List.Forall₂ (fun d v => SetFits axes.toNat ce.1.length glyph d ∧ ∃ i pb, i < 4096 ∧ peakBytes d = .ok pb ∧
        shared[i]? = some pb ∧ v.header = tupleHeader d (some i) ∧ StandsFor ce d v.deltas) l r → w.map variationContent = r.map variationContent →
        Res.mapL (toDeltaSet tuples ce.1 ce.2) w = .ok (l.map comesBack) := by
      intro l r w hk
      induction hk generalizing w with
      | nil => intro e; rw [List.map_nil, List.map_eq_nil_iff] at e; rw [e]; rfl
      | @cons d v l r h1 _ ih =>
        intro e
        cases w with
        | nil => simp at e
        | cons v' w =>
          rw [List.map_cons, List.map_cons] at e
          injection e with e1 e2
          obtain ⟨a0, i, pb, a1, a2, a3, a4, a5⟩ := h1
          have ed : v'.deltas = v.deltas := congrArg Prod.fst e1
          have := toDeltaSet_back (v := v') a0 ht a1 a2 a3 (by
            rw [e1, ed, ← a4]) (by rw [ed]; exact a5)
          rw [mapL_cons', this, ih w e2]
          rfl
    exact this _ _ _ K c3

/-! ### All glyphs -/

/-- Where the data of the glyphs begin, counted from `n`, and at last where they end. -/
def offsetsOf : Nat → List Bytes → List Nat
  | n, [] => [n]
  | n, c :: cs => n :: offsetsOf (n + c.length) cs

/-- The data of the glyphs from glyph `i` on: nothing for a glyph without variations, otherwise a tuple variation store, made
even. -/
inductive GlyphChunks (shared : List Bytes) (glyf : Option (List Glyph)) : Nat → Gvar → List Bytes → Prop
  | nil (i : Nat) : GlyphChunks shared glyf i [] []
  | none {i : Nat} {l : Gvar} {cs : List Bytes} : GlyphChunks shared glyf (i + 1) l cs → GlyphChunks shared glyf i (none :: l) ([] :: cs)
  | some {i : Nat} {l : Gvar} {cs : List Bytes} {glyph : Option Glyph} {ds : List DeltaSet} {b : Bytes} :
      outlineAt glyf i = .ok glyph → glyphData shared glyph ds = .ok b → GlyphChunks shared glyf (i + 1) l cs →
      GlyphChunks shared glyf i (some ds :: l) (padEven b :: cs)

theorem padEven_append {a b : Bytes} (h : a.length % 2 = 0) : padEven (a ++ b) = a ++ padEven b := by
  unfold padEven
  rw [List.length_append]
  by_cases hb : b.length % 2 = 0
  · rw [if_neg (by omega), if_neg (by omega)]
  · rw [if_pos (by omega), if_pos (by omega), List.append_assoc]

theorem padEven_even (b : Bytes) : (padEven b).length % 2 = 0 := by
  unfold padEven
  split
  · rw [List.length_append, List.length_singleton]; omega
  · omega

theorem padEven_prefix (b : Bytes) : b <+: padEven b := by
  unfold padEven
  split
  · exact List.prefix_append _ _
  · exact List.prefix_refl _

theorem glyphLoop_inv {shared : List Bytes} {glyf : Option (List Glyph)} : ∀ (l : Gvar) (ix : Nat) (offs : List Nat) (tvs : Bytes)
    (r : List Nat × Bytes), glyphLoop shared glyf ix l offs tvs = .ok r → tvs.length % 2 = 0 →
    ∃ cs, GlyphChunks shared glyf ix l cs ∧ r.1 ++ [r.2.length] = offs ++ offsetsOf tvs.length cs ∧ r.2 = tvs ++ cs.flatten
  | [], ix, offs, tvs, r, h, _ => by
    injection h with h
    subst h
    exact ⟨[], .nil ix, by simp [offsetsOf], by simp⟩
  | none :: l, ix, offs, tvs, r, h, he => by
    rw [glyphLoop] at h
    obtain ⟨cs, h1, h2, h3⟩ := glyphLoop_inv l (ix + 1) _ tvs r h he
    refine ⟨[] :: cs, .none h1, ?_, by simpa using h3⟩
    rw [h2]
    simp [offsetsOf]
  | some ds :: l, ix, offs, tvs, r, h, he => by
    rw [glyphLoop] at h
    obtain ⟨glyph, e1, h⟩ := Res.bind_inv h
    obtain ⟨b, e2, h⟩ := Res.bind_inv h
    rw [padEven_append he] at h
    obtain ⟨cs, h1, h2, h3⟩ := glyphLoop_inv l (ix + 1) _ _ r h (by
      have := padEven_even b
      rw [List.length_append]; omega)
    refine ⟨padEven b :: cs, .some e1 e2 h1, ?_, by rw [h3]; simp⟩
    rw [h2]
    simp [offsetsOf]

theorem glyphAt_outline {glyf : Option (List Glyph)} {i : Nat} {glyph : Option Glyph} (h : outlineAt glyf i = .ok glyph) :
    glyph = outlineOf glyf i := by
  unfold outlineAt at h
  unfold outlineOf
  split at h
  · injection h with h
    rw [← h]; rfl
  · split at h
    · injection h with h
      rename_i e
      rw [← h]
      simp [e]
    · simp at h

theorem readGlyphs_ok {axes : UInt16} {shared : List Bytes} (hsh : shared.length ≤ 4096) {tuples : List (List ℚ)}
    (hr : SharedRead shared tuples) {glyf : Option (List Glyph)} {ce : List (List Pt × List Nat)} {B : Bytes} {base : Nat}
    (hB : B.length ≤ 4294967295) (offs : List Nat) (stk : List Nat) :
    ∀ {l : Gvar} {ix : Nat} {cs : List Bytes}, GlyphChunks shared glyf ix l cs →
    (∀ i ds, l[i]? = some (some ds) → ∃ c, ce[ix + i]? = some c ∧ GlyphFits axes.toNat (outlineOf glyf (ix + i)) c ds) →
    (∀ ds, some ds ∈ l → ∀ d ∈ ds, ∀ b, peakBytes d = .ok b → b ∈ shared) →
    ∀ (m p : Nat), offs.drop ix = offsetsOf m cs → base + m ≤ B.length → B.drop (base + m) = cs.flatten →
    ∃ ptr, readGlyphs axes tuples base offs ce l.length ix ⟨B, p, 0 :: stk⟩ =
      .ok (l.map (Option.map glyphBack), ⟨B, ptr, 0 :: stk⟩) := by
  intro l ix cs hc
  induction hc with
  | nil i => intro _ _ m p _ _ _; exact ⟨p, rfl⟩
  | @none i l cs hc ih =>
    intro hf hm m p ho hle hd
    have o1 : offs[i]? = some m := by
      rw [← Nat.add_zero i, ← List.getElem?_drop, ho]; rfl
    have o2 : offs[i + 1]? = some m := by
      rw [← List.getElem?_drop, ho]
      cases cs <;> simp [offsetsOf]
    obtain ⟨ptr, e⟩ := ih (fun j ds hj => by
        have := hf (j + 1) ds (by simpa using hj)
        rw [show i + 1 + j = i + (j + 1) by omega]
        exact this) (fun ds hds => hm ds (by simp [hds])) m p (by
        rw [Nat.add_comm i 1, ← List.drop_drop]
        have := congrArg (List.drop 1) ho
        rw [List.drop_drop, Nat.add_comm] at this
        simpa [offsetsOf, List.drop_drop, Nat.add_comm] using this) hle (by simpa using hd)
    refine ⟨ptr, ?_⟩
    rw [List.length_cons, readGlyphs, o1, o2]
    have ea : addU32 m base = .ok (m + base) := by unfold addU32; rw [if_pos (by omega)]
    simp only [Res.unwrap, bind_run, Reader.lift, ea, lt_irrefl, if_false, if_true, e, pure_run, List.map_cons, Option.map_none]
  | @some i l cs glyph ds b h1 h2 hc ih =>
    intro hf hm m p ho hle hd
    have o1 : offs[i]? = some m := by
      rw [← Nat.add_zero i, ← List.getElem?_drop, ho]; rfl
    have o2 : offs[i + 1]? = some (m + (padEven b).length) := by
      rw [← List.getElem?_drop, ho]
      cases cs <;> simp [offsetsOf]
    have hlen : base + m + (padEven b).length ≤ B.length := by
      have := congrArg List.length hd
      rw [List.length_drop, List.flatten_cons, List.length_append] at this
      omega
    obtain ⟨c, hce, hg⟩ := hf 0 ds rfl
    rw [Nat.add_zero] at hce hg
    rw [← glyphAt_outline h1] at hg
    obtain ⟨h5, hrd⟩ := glyphData_reads hg hsh (hm ds (by simp)) h2
    obtain ⟨vs, r1, r2⟩ := hrd tuples hr
    have hpre : b <+: B.drop (m + base) := by
      rw [Nat.add_comm m base, hd, List.flatten_cons]
      exact (padEven_prefix b).trans (List.prefix_append _ _)
    have hbl : b.length ≤ (padEven b).length := (padEven_prefix b).length_le
    obtain ⟨ptr, e⟩ := ih (fun j ds hj => by
        have := hf (j + 1) ds (by simpa using hj)
        rw [show i + 1 + j = i + (j + 1) by omega]
        exact this) (fun ds hds => hm ds (by simp [hds])) (m + (padEven b).length) (m + base + b.length) (by
        have := congrArg (List.drop 1) ho
        rw [List.drop_drop] at this
        simpa [offsetsOf] using this) (by omega) (by
        rw [← Nat.add_assoc, ← List.drop_drop, hd, List.flatten_cons, List.drop_left])
    refine ⟨ptr, ?_⟩
    rw [List.length_cons, readGlyphs, o1, o2, hce]
    have ea : addU32 m base = .ok (m + base) := by unfold addU32; rw [if_pos (by omega)]
    have eb : addU32 (m + (padEven b).length) base = .ok (m + (padEven b).length + base) := by unfold addU32; rw [if_pos (by omega)]
    have eg : readGlyphSets axes tuples c.1 c.2 (m + base) ⟨B, p, 0 :: stk⟩ =
        .ok (glyphBack ds, ⟨B, m + base + b.length, 0 :: stk⟩) := by
      unfold readGlyphSets
      have es := reads_of_prefix r1 hpre (by omega) (0 :: stk)
      simp only [bind_run, topOfTable, setPtr, Nat.zero_add, es, Reader.lift, r2]
    simp only [Res.unwrap, bind_run, Reader.lift, ea, eb]
    rw [if_neg (by omega), if_neg (by omega)]
    simp only [bind_run, Reader.lift, eg, e, pure_run, List.map_cons, Option.map_some]

/-! ### The whole table -/

theorem reads_core (c : GvarCore) : Reads readGvarCore (encGvarCore c) c := by
  unfold readGvarCore encGvarCore
  refine Reads.bind (reads_u16 _) ?_
  refine Reads.bind (reads_u16 _) ?_
  refine Reads.bind (reads_u16 _) ?_
  refine Reads.bind (reads_u16 _) ?_
  refine Reads.bind (reads_u32 _) ?_
  refine Reads.bind (reads_u16 _) ?_
  refine Reads.bind (reads_u16 _) ?_
  refine Reads.bind' (bs' := []) (reads_u32 c.dataOffset) ?_ (by simp)
  exact Reads.pure _

theorem encGvarCore_length (c : GvarCore) : (encGvarCore c).length = 20 := rfl

theorem offsetsOf_length : ∀ (n : Nat) (cs : List Bytes), (offsetsOf n cs).length = cs.length + 1
  | _, [] => rfl
  | n, c :: cs => by simp [offsetsOf, offsetsOf_length _ cs]

theorem offsetsOf_le : ∀ (n : Nat) (cs : List Bytes), ∀ o ∈ offsetsOf n cs, o ≤ n + cs.flatten.length
  | n, [], o, h => by simp [offsetsOf] at h; omega
  | n, c :: cs, o, h => by
    simp only [offsetsOf, List.mem_cons] at h
    rw [List.flatten_cons, List.length_append]
    rcases h with h | h
    · omega
    · have := offsetsOf_le _ cs o h
      omega

theorem reads_offsets32 {l : List Nat} (h : ∀ o ∈ l, o ≤ 4294967295) :
    Reads (deCounted readU32Nat l.length) (encVec (fun n => encU32 (UInt32.ofNat n)) l) l := by
  refine reads_deCounted' rfl ?_
  intro a ha
  have := (reads_u32 (UInt32.ofNat a)).map UInt32.toNat
  rw [ofNat32_toNat (h a ha)] at this
  exact this

theorem encVec_const_length {α : Type} {enc : α → Bytes} {k : Nat} (h : ∀ a, (enc a).length = k) (l : List α) :
    (encVec enc l).length = l.length * k := by
  induction l with
  | nil => simp [encVec_nil]
  | cons a l ih => rw [encVec_cons, List.length_append, ih, h, List.length_cons, Nat.succ_mul]; omega

/-- A tuple of 2.14 numbers and its bytes. -/
def TupleBytes (axes : Nat) (t : List ℚ) (b : Bytes) : Prop := ∃ ps : List Int16, ps.length = axes ∧ t = ps.map fixed14 ∧ b = encVec encI16 ps

theorem reads_tuple {axes : Nat} {t : List ℚ} {b : Bytes} (h : TupleBytes axes t b) : Reads (deCounted readF2dot14 axes) b t := by
  obtain ⟨ps, rfl, rfl, rfl⟩ := h
  induction ps with
  | nil => exact Reads.deCounted_nil _
  | cons p ps ih =>
    rw [encVec_cons, List.map_cons]
    refine Reads.deCounted_cons ?_ ih
    have := reads_f2dot14 p
    rw [C04_f2dot14_value] at this
    exact this

theorem any_tuple {axes : Nat} {b : Bytes} (h : b.length = 2 * axes) : ∃ t, TupleBytes axes t b := by
  suffices ∃ ps : List Int16, ps.length = axes ∧ b = encVec encI16 ps by
    obtain ⟨ps, h1, h2⟩ := this
    exact ⟨_, ps, h1, rfl, h2⟩
  induction axes generalizing b with
  | zero => exact ⟨[], rfl, List.length_eq_zero_iff.1 (by omega)⟩
  | succ n ih =>
    match b, h with
    | x :: y :: b, h =>
      obtain ⟨ps, h1, h2⟩ := ih (b := b) (by simp at h; omega)
      refine ⟨(UInt16.ofNat (x.toNat * 256 + y.toNat)).toInt16 :: ps, by simp [h1], ?_⟩
      rw [encVec_cons, ← h2]
      unfold encI16 encU16
      have hx := x.toNat_lt
      have hy := y.toNat_lt
      have e : (UInt16.ofNat (x.toNat * 256 + y.toNat)).toInt16.toUInt16.toNat = x.toNat * 256 + y.toNat := by
        rw [UInt16.toUInt16_toInt16]
        exact ofNat16_toNat (by omega)
      rw [e]
      have e1 : (x.toNat * 256 + y.toNat) / 256 = x.toNat := by omega
      have e2 : (x.toNat * 256 + y.toNat) % 256 = y.toNat := by omega
      rw [e1, e2]
      simp
    | [], h => simp at h
    | [x], h => simp at h; omega

theorem mem_allSets {g : Gvar} {d : DeltaSet} : d ∈ allSets g ↔ ∃ ds, some ds ∈ g ∧ d ∈ ds := by
  unfold allSets
  rw [List.mem_flatten]
  constructor
  · rintro ⟨ds, h1, h2⟩
    rw [List.mem_filterMap] at h1
    obtain ⟨o, h3, h4⟩ := h1
    exact ⟨ds, by rw [← show o = some ds from h4]; exact h3, h2⟩
  · rintro ⟨ds, h1, h2⟩
    exact ⟨ds, List.mem_filterMap.2 ⟨some ds, h1, rfl⟩, h2⟩

theorem setFits_of_mem {axes : Nat} {glyf : Option (List Glyph)} {ce : List (List Pt × List Nat)} {g : Gvar}
    (hf : GvarFits axes glyf ce g) {d : DeltaSet} (h : d ∈ allSets g) : GridTuple axes d.peak := by
  obtain ⟨ds, h1, h2⟩ := mem_allSets.1 h
  obtain ⟨i, hi⟩ := List.mem_iff_getElem?.1 h1
  obtain ⟨c, _, hc⟩ := hf i ds hi
  exact (hc.2.2.2.2 d h2).1

/-- **C53** (layout). The table begins with a header of 20 bytes and the offsets; then the different peaks; then, one after the
other, the data of the glyphs, each in its place between its offset and the next one. -/
theorem C53_layout (glyf : Option (List Glyph)) (g : Gvar) (bs : Bytes) (h : MayWrite glyf g bs) :
    ∃ (core : GvarCore) (keys shared chunks : List Bytes), Res.mapL peakBytes (allSets g) = .ok keys ∧ MostCommon keys shared ∧
      GlyphChunks shared glyf 0 g chunks ∧ shared ≠ [] ∧
      bs = encGvarCore core ++ (encVec (fun n => encU32 (UInt32.ofNat n)) (offsetsOf 0 chunks) ++ (shared.flatten ++ chunks.flatten)) ∧
      core.majorVersion = 1 ∧ core.minorVersion = 0 ∧ core.flags = 1 ∧ core.glyphCount = UInt16.ofNat g.length ∧
      core.axisCount = UInt16.ofNat ((allSets g).getLast?.elim 0 (fun d => d.peak.length)) ∧
      core.sharedTupleCount = UInt16.ofNat shared.length ∧
      core.sharedTuplesOffset = UInt32.ofNat (20 + 4 * (chunks.length + 1) % 4294967296) ∧
      core.dataOffset = UInt32.ofNat (20 + 4 * (chunks.length + 1) % 4294967296 + shared.flatten.length % 4294967296) := by
  obtain ⟨keys, shared, h1, h2, h⟩ := h
  unfold encGvar at h
  rw [h1] at h
  simp only [Res.ok_bind] at h
  split at h
  · simp at h
  rename_i hne
  obtain ⟨r, hr, h⟩ := Res.bind_inv h
  obtain ⟨cs, c1, c2, c3⟩ := glyphLoop_inv g 0 [] [] r hr rfl
  simp only [List.nil_append, List.length_nil] at c2 c3
  rw [c2] at h
  have el : (encVec (fun n => encU32 (UInt32.ofNat n)) (offsetsOf 0 cs)).length = 4 * (cs.length + 1) := by
    rw [encVec_const_length (k := 4) (fun _ => rfl), offsetsOf_length]; omega
  rw [el, c3] at h
  split at h
  · simp at h
  injection h with h
  subst h
  exact ⟨_, keys, shared, cs, h1, h2, c1, by simpa using hne, rfl, rfl, rfl, rfl, rfl, rfl, rfl, rfl, rfl⟩

theorem chunks_length {shared : List Bytes} {glyf : Option (List Glyph)} {i : Nat} {g : Gvar} {cs : List Bytes}
    (h : GlyphChunks shared glyf i g cs) : cs.length = g.length := by
  induction h with
  | nil => rfl
  | none _ ih => simp [ih]
  | some _ _ _ ih => simp [ih]

theorem peak_keys {l : List DeltaSet} {keys : List Bytes} (h : Res.mapL peakBytes l = .ok keys) :
    (∀ b ∈ keys, ∃ d ∈ l, peakBytes d = .ok b) ∧ ∀ d ∈ l, ∀ b, peakBytes d = .ok b → b ∈ keys := by
  refine ⟨fun b hb => mapL_mem h b hb, ?_⟩
  have F := mapL_forall₂ h
  clear h
  induction F with
  | nil => simp
  | @cons d b l bs h1 _ ih =>
    intro d' hd' b' hb'
    rcases List.mem_cons.1 hd' with rfl | hd'
    · rw [h1] at hb'
      injection hb' with hb'
      simp [hb']
    · simp [ih d' hd' b' hb']

/-- The shared tuples are the different peaks. -/
theorem shared_tuples {axes : Nat} {g : Gvar} (hf : ∀ d ∈ allSets g, GridTuple axes d.peak) {keys shared : List Bytes}
    (hk : Res.mapL peakBytes (allSets g) = .ok keys) (hm : MostCommon keys shared) :
    (∀ b ∈ shared, ∃ t, TupleBytes axes t b) ∧ shared.length ≤ (peaksOf g).length := by
  obtain ⟨m1, m2, _⟩ := hm
  obtain ⟨k1, _⟩ := peak_keys hk
  constructor
  · intro b hb
    obtain ⟨d, hd, he⟩ := k1 b ((m2 b).1 hb)
    obtain ⟨ps, p1, p2⟩ := gridTuple_fixed (hf d hd)
    rw [peakBytes_fixed p2] at he
    injection he with he
    exact ⟨_, ps, p1, rfl, he.symm⟩
  · have hsub : shared ⊆ (peaksOf g).map (fun t => match encVecR encF2dot14 t with
        | .ok b => b
        | _ => []) := by
      intro b hb
      obtain ⟨d, hd, he⟩ := k1 b ((m2 b).1 hb)
      rw [List.mem_map]
      refine ⟨d.peak, ?_, ?_⟩
      · unfold peaksOf
        rw [List.mem_dedup]
        exact List.mem_map_of_mem hd
      · unfold peakBytes unwrapR at he
        cases hv : encVecR encF2dot14 d.peak with
        | ok b' => rw [hv] at he; injection he
        | err => rw [hv] at he; simp at he
        | panic => rw [hv] at he; simp at he
    have := (m1.subperm hsub).length_le
    rwa [List.length_map] at this

theorem concat_shared {axes : Nat} : ∀ {shared : List Bytes}, (∀ b ∈ shared, ∃ t, TupleBytes axes t b) →
    ∃ ts, ts.length = shared.length ∧ Concat (TupleBytes axes) ts shared.flatten ∧
      shared.flatten.length = 2 * axes * shared.length ∧
      ∀ (i : Nat) (ps : List Int16), shared[i]? = some (encVec encI16 ps) → ts[i]? = some (ps.map fixed14)
  | [], _ => ⟨[], rfl, .nil, by simp, by simp⟩
  | b :: shared, h => by
    obtain ⟨ts, h1, h2, h4, h3⟩ := concat_shared (shared := shared) (fun b hb => h b (by simp [hb]))
    obtain ⟨t, ht⟩ := h b (by simp)
    have hl : b.length = 2 * axes := by
      obtain ⟨ps, e1, _, e3⟩ := ht
      rw [e3, encVec_const_length (k := 2) (fun _ => rfl), e1]; omega
    refine ⟨t :: ts, by simp [h1], by rw [List.flatten_cons]; exact .cons _ _ _ _ ht h2, ?_, ?_⟩
    · rw [List.flatten_cons, List.length_append, h4, hl, List.length_cons, Nat.mul_succ]; omega
    · intro i ps hi
      cases i with
      | succ i => exact h3 i ps (by simpa using hi)
      | zero =>
        simp only [List.getElem?_cons_zero, Option.some.injEq] at hi ⊢
        have r1 := reads_tuple ht
        rw [hi] at r1
        have r2 := reads_tuple (axes := axes) (t := ps.map fixed14) (b := encVec encI16 ps) ⟨ps, ?_, rfl, rfl⟩
        · have a1 := r1 [] [] []
          have a2 := r2 [] [] []
          rw [a1] at a2
          injection a2 with a2
          exact (Prod.mk.inj a2).1
        · have := congrArg List.length hi
          rw [hl, encVec_const_length (k := 2) (fun _ => rfl)] at this
          omega

theorem concat_append {α : Type} {R : α → Bytes → Prop} {l r : List α} {a b : Bytes} (h1 : Concat R l a) (h2 : Concat R r b) :
    Concat R (l ++ r) (a ++ b) := by
  induction h1 with
  | nil => exact h2
  | cons x l c cs h _ ih => rw [List.cons_append, List.append_assoc]; exact .cons _ _ _ _ h ih

theorem last_axes {axes : Nat} {l : List DeltaSet} (h : ∀ d ∈ l, GridTuple axes d.peak) (hne : l ≠ []) :
    l.getLast?.elim 0 (fun d => d.peak.length) = axes := by
  rw [List.getLast?_eq_some_getLast hne]
  exact (h _ (List.getLast_mem hne)).1

/-- **C53** (round trip). A gvar table which fits reads back as it was: each glyph gets its own deltasets, those which move
nothing left out, with the same peak, start and end and the same delta for every point, also for points whose delta the writer
left out; only the region of a deltaset whose start and end are its peak is widened. -/
theorem C53_roundtrip (axes : Nat) (ha : axes ≤ 65535) (glyf : Option (List Glyph)) (ce : List (List Pt × List Nat)) (g : Gvar)
    (bs : Bytes) (hw : MayWrite glyf g bs) (hf : GvarFits axes glyf ce g) (hn : g.length ≤ 65534)
    (hp : (peaksOf g).length ≤ 4096) (hB : bs.length ≤ 4294967295)
    (hroom : 20 + 4 * (g.length + 1) + 2 * axes * ((peaksOf g).length + 1) ≤ bs.length) :
    ∃ r, readGvar ce (Rd.new bs) = .ok (g.map (Option.map glyphBack), r) := by
  obtain ⟨core, keys, shared, cs, k1, k2, k3, k4, k5, c1, c2, c3, c4, c5, c6, c7, c8⟩ := C53_layout glyf g bs hw
  have hgrid : ∀ d ∈ allSets g, GridTuple axes d.peak := fun d hd => setFits_of_mem hf hd
  obtain ⟨s1, s2⟩ := shared_tuples hgrid k1 k2
  obtain ⟨ts, t1, t2, t4, t3⟩ := concat_shared s1
  have hcl := chunks_length k3
  have hne : allSets g ≠ [] := by
    intro h0
    obtain ⟨b, hb⟩ := List.exists_mem_of_ne_nil _ k4
    have := (k2.2.1 b).1 hb
    rw [h0] at k1
    injection k1 with k1
    rw [← k1] at this
    simp at this
  rw [last_axes hgrid hne] at c5
  -- sizes
  obtain ⟨O, hO⟩ : ∃ O, O = encVec (fun n => encU32 (UInt32.ofNat n)) (offsetsOf 0 cs) := ⟨_, rfl⟩
  have hOl : O.length = 4 * (g.length + 1) := by
    rw [hO, encVec_const_length (k := 4) (fun _ => rfl), offsetsOf_length, hcl]; omega
  rw [← hO] at k5
  have hS : shared.flatten.length ≤ 2 * axes * (peaksOf g).length := by
    rw [t4]; exact Nat.mul_le_mul_left _ s2
  have hbl : bs.length = 20 + 4 * (g.length + 1) + shared.flatten.length + cs.flatten.length := by
    rw [k5]
    simp only [List.length_append, encGvarCore_length, hOl]
    omega
  have hroom' : 2 * axes ≤ cs.flatten.length := by
    have : 2 * axes * ((peaksOf g).length + 1) = 2 * axes * (peaksOf g).length + 2 * axes := by rw [Nat.mul_add, Nat.mul_one]
    omega
  have hglyphs : core.glyphCount.toNat = g.length := by rw [c4]; exact ofNat16_toNat (by omega)
  have haxes : core.axisCount.toNat = axes := by rw [c5]; exact ofNat16_toNat ha
  have hcount : core.sharedTupleCount.toNat = shared.length := by rw [c6]; exact ofNat16_toNat (by omega)
  have ho1 : core.sharedTuplesOffset.toNat = 20 + 4 * (g.length + 1) := by
    rw [c7, hcl, Nat.mod_eq_of_lt (by omega)]; exact ofNat32_toNat (by omega)
  have ho2 : core.dataOffset.toNat = 20 + 4 * (g.length + 1) + shared.flatten.length := by
    rw [c8, hcl, Nat.mod_eq_of_lt (by omega), Nat.mod_eq_of_lt (by omega)]; exact ofNat32_toNat (by omega)
  -- reading
  obtain ⟨extra, hex⟩ := any_tuple (axes := axes) (b := cs.flatten.take (2 * axes)) (by rw [List.length_take]; omega)
  have htup : Reads (deCounted (deCounted readF2dot14 axes) (shared.length + 1)) (shared.flatten ++ cs.flatten.take (2 * axes)) (ts ++ [extra]) := by
    have := reads_concat (p := deCounted readF2dot14 axes) (fun a b h => reads_tuple h)
      (concat_append t2 (.cons extra [] _ [] hex .nil))
    rw [List.append_nil, List.length_append, t1] at this
    exact this
  have hsr : SharedRead shared (ts ++ [extra]) := by
    refine ⟨by rw [List.length_append]; omega, ?_⟩
    intro i ps hi
    have := t3 i ps hi
    rw [List.getElem?_append_left]
    · exact this
    · by_contra hc
      rw [List.getElem?_eq_none (by omega)] at this
      simp at this
  have hoff : Reads (readOffsets core.flags (core.glyphCount.toNat + 1)) O (offsetsOf 0 cs) := by
    unfold readOffsets
    rw [c3, if_neg (by decide), hglyphs, ← hcl, ← offsetsOf_length 0 cs, hO]
    apply reads_offsets32
    intro o ho
    have := offsetsOf_le 0 cs o ho
    omega
  have d1 : bs.drop 20 = O ++ (shared.flatten ++ cs.flatten) := by
    rw [k5]; exact List.drop_left' (encGvarCore_length core)
  have d2 : bs.drop (20 + 4 * (g.length + 1)) = shared.flatten ++ cs.flatten := by
    rw [← List.drop_drop, d1]; exact List.drop_left' hOl
  have d3 : bs.drop (20 + 4 * (g.length + 1) + shared.flatten.length) = cs.flatten := by
    rw [← List.drop_drop, d2]; exact List.drop_left' rfl
  have e1 := reads_of_prefix (reads_core core) (B := bs) (pos := 0) (by rw [k5]; exact List.prefix_append _ _) (by omega) [0, 0]
  have e2 := reads_of_prefix hoff (B := bs) (pos := 20) (by rw [d1]; exact List.prefix_append _ _) (by omega) [0, 0]
  have e3 := reads_of_prefix htup (B := bs) (pos := 20 + 4 * (g.length + 1)) (by
    rw [d2]
    exact (List.prefix_append_right_inj _).2 (List.take_prefix _ _)) (by omega) [0, 0]
  obtain ⟨ptr, e4⟩ := readGlyphs_ok (axes := core.axisCount) (B := bs) (ce := ce) (base := 20 + 4 * (g.length + 1) + shared.flatten.length)
    (by omega : shared.length ≤ 4096) hsr hB (offsetsOf 0 cs) [0] k3 (by
      intro i ds hi
      rw [Nat.zero_add, haxes]
      exact hf i ds hi) (by
      intro ds hds d hd b hb
      exact (k2.2.1 b).2 ((peak_keys k1).2 d (mem_allSets.2 ⟨ds, hds, hd⟩) b hb)) 0
    (20 + 4 * (g.length + 1) + (shared.flatten ++ cs.flatten.take (2 * axes)).length) rfl (by omega) d3
  refine ⟨⟨bs, ptr, [0, 0]⟩, ?_⟩
  unfold readGvar Rd.new
  rw [encGvarCore_length, Nat.zero_add] at e1
  simp only [bind_run, pushTop, e1]
  rw [if_neg (by omega)]
  simp only [bind_run, e2, topOfTable, setPtr, Nat.zero_add, ho1]
  rw [if_neg (by omega)]
  simp only [bind_run, haxes, hcount, e3, ho2, hglyphs, e4]

end FT.Props
