import Verif.Props.GvarBounds

/-!
C53: a table written with the outlines, so that deltas can be left out, is never longer than one with all deltas.
-/

namespace FT.Props
open FT FT.F32 FT.Glyf FT.Iup FT.TupleVar FT.Gvar

/-- Headers of the same shape. -/
def SameShape (h h' : Header) : Prop :=
  has h.flags EMBEDDED_PEAK_TUPLE = has h'.flags EMBEDDED_PEAK_TUPLE ∧ has h.flags INTERMEDIATE_REGION = has h'.flags INTERMEDIATE_REGION ∧
  h.peakTuple = h'.peakTuple ∧ h.startTuple = h'.startTuple ∧ h.endTuple = h'.endTuple

theorem SameShape.trans {a b c : Header} (h : SameShape a b) (h' : SameShape b c) : SameShape a c :=
  ⟨h.1.trans h'.1, h.2.1.trans h'.2.1, h.2.2.1.trans h'.2.2.1, h.2.2.2.1.trans h'.2.2.2.1, h.2.2.2.2.trans h'.2.2.2.2⟩

theorem SameShape.symm {a b : Header} (h : SameShape a b) : SameShape b a :=
  ⟨h.1.symm, h.2.1.symm, h.2.2.1.symm, h.2.2.2.1.symm, h.2.2.2.2.symm⟩

theorem sameShape_length {h h' : Header} (hs : SameShape h h') {b b' : Bytes} (e : encHeader h = .ok b) (e' : encHeader h' = .ok b') :
    b.length = b'.length := by
  obtain ⟨h1, h2, h3, h4, h5⟩ := hs
  unfold encHeader at e e'
  rw [← h1, ← h2, ← h3, ← h4, ← h5] at e'
  obtain ⟨p, e1, e⟩ := Res.bind_inv e
  obtain ⟨s, e2, e⟩ := Res.bind_inv e
  obtain ⟨t, e3, e⟩ := Res.bind_inv e
  rw [e1, Res.ok_bind, e2, Res.ok_bind, e3, Res.ok_bind] at e'
  cases e
  cases e'
  simp

theorem has_private (f m : UInt16) (hm : m = EMBEDDED_PEAK_TUPLE ∨ m = INTERMEDIATE_REGION) :
    TupleVar.has (f ||| PRIVATE_POINT_NUMBERS) m = TupleVar.has f m := by
  unfold TupleVar.has
  have key : ∀ x : BitVec 16, (m = 0x8000 → (x ||| 0x2000) &&& 0x8000 = x &&& 0x8000) ∧
      (m = 0x4000 → (x ||| 0x2000) &&& 0x4000 = x &&& 0x4000) := by
    intro x
    refine ⟨fun _ => ?_, fun _ => ?_⟩
    · ext i hi
      simp only [BitVec.getElem_and, BitVec.getElem_or]
      cases x[i] <;> revert i <;> decide
    · ext i hi
      simp only [BitVec.getElem_and, BitVec.getElem_or]
      cases x[i] <;> revert i <;> decide
  congr 1
  rw [← UInt16.toBitVec_inj]
  rcases hm with rfl | rfl
  · exact (key f.toBitVec).1 rfl
  · exact (key f.toBitVec).2 rfl

theorem finalHeader_shape (v : Variation) (n : Nat) : SameShape (finalHeader v n) v.header := by
  refine ⟨?_, ?_, rfl, rfl, rfl⟩
  · simp only [finalHeader]
    split
    · exact has_private _ _ (.inl rfl)
    · rfl
  · simp only [finalHeader]
    split
    · exact has_private _ _ (.inr rfl)
    · rfl

theorem unwrapR_ok {α : Type} {r : Res α} {a : α} (h : unwrapR r = .ok a) : r = .ok a := by
  cases r with
  | ok x => exact h
  | err => cases h
  | panic => cases h

theorem encVariation_inv {v : Variation} {p : Bytes × Bytes} (h : encVariation v = .ok p) :
    encData v = .ok p.2 ∧ encHeader (finalHeader v p.2.length) = .ok p.1 := by
  unfold encVariation at h
  obtain ⟨d, e1, h⟩ := Res.bind_inv h
  obtain ⟨b, e2, h⟩ := Res.bind_inv h
  cases h
  exact ⟨e1, unwrapR_ok e2⟩

theorem mapL_cons_split {α β : Type} {f : α → Res β} {a : α} {l : List α} {bs : List β} (h : Res.mapL f (a :: l) = .ok bs) :
    ∃ b bs', f a = .ok b ∧ Res.mapL f l = .ok bs' ∧ bs = b :: bs' := by
  unfold Res.mapL at h
  obtain ⟨b, e, h⟩ := Res.bind_inv h
  cases e2 : Res.mapL f l with
  | ok bs' => rw [e2] at h; exact ⟨b, bs', e, rfl, (Res.ok.inj h).symm⟩
  | err => rw [e2] at h; cases h
  | panic => rw [e2] at h; cases h

/-- The length of a variation. -/
def bothLength (p : Bytes × Bytes) : Nat := p.1.length + p.2.length

theorem total_shape {h h' : Header} (hs : SameShape h h') {l : List (Option Delta)} {p p' : Bytes × Bytes}
    (e : encVariation ⟨h, l⟩ = .ok p) (e' : encVariation ⟨h', l⟩ = .ok p') : bothLength p = bothLength p' := by
  obtain ⟨a1, a2⟩ := encVariation_inv e
  obtain ⟨b1, b2⟩ := encVariation_inv e'
  have : p.2 = p'.2 := by
    have : encData ⟨h, l⟩ = encData ⟨h', l⟩ := rfl
    rw [this, b1] at a1
    exact (Res.ok.inj a1).symm
  have := sameShape_length (((finalHeader_shape _ _).trans hs).trans (finalHeader_shape _ _).symm) a2 b2
  unfold bothLength
  rw [this]
  simp [*]

theorem encStore_inv {vs : List Variation} {b : Bytes} (h : encStore vs = .ok b) :
    ∃ ps, Res.mapL encVariation vs = .ok ps ∧ b.length = 5 + (ps.map bothLength).sum := by
  unfold encStore at h
  obtain ⟨ps, e, h⟩ := Res.bind_inv h
  refine ⟨ps, e, ?_⟩
  simp only at h
  split at h
  · cases h
  · cases h
    have key : ∀ ps : List (Bytes × Bytes), (ps.map Prod.fst).flatten.length + (ps.map Prod.snd).flatten.length = (ps.map bothLength).sum := by
      intro ps
      induction ps with
      | nil => rfl
      | cons p ps ih =>
        simp only [List.map_cons, List.flatten_cons, List.length_append, List.sum_cons, bothLength] at ih ⊢
        omega
    rw [← key]
    simp
    omega

/-- What is chosen for a deltaset moves only if the deltaset does. -/
theorem choose_effect {h : Header} {d : DeltaSet} {gl : Glyph} {l : List (Option Delta)}
    (hc : chooseDeltas h (fullDeltas d) gl = .ok l) (h' : Header) (he : hasEffect ⟨h', l⟩ = true) : Moves d := by
  unfold chooseDeltas at hc
  obtain ⟨opt, ho, hc⟩ := Res.bind_inv hc
  have hopt : hasEffect ⟨h', opt⟩ = true → Moves d := by
    intro he
    by_contra hm
    unfold optimizeDeltas at ho
    obtain ⟨ce, _, ho⟩ := Res.bind_inv ho
    rw [fullDeltas_eq, iupDelta_full] at ho
    have hz := optimizeContours_zero (fun p hp => by
      by_contra hne
      exact hm ⟨p, hp, hne⟩) _ _ _ ho
    unfold hasEffect at he
    rw [List.any_eq_true] at he
    obtain ⟨o, ho1, ho2⟩ := he
    rw [hz o ho1] at ho2
    cases ho2
  split at hc
  · cases hc
    exact (hasEffect_full h' d).mp he
  · obtain ⟨b1, _, hc⟩ := Res.bind_inv hc
    obtain ⟨b2, _, hc⟩ := Res.bind_inv hc
    cases hc
    split at he
    · exact hopt he
    · exact (hasEffect_full h' d).mp he

/-- What is chosen is not longer. -/
theorem choose_total {h h' : Header} (hs : SameShape h h') {full l : List (Option Delta)} {gl : Glyph}
    (hc : chooseDeltas h full gl = .ok l) {p p' : Bytes × Bytes} (e : encVariation ⟨h, l⟩ = .ok p)
    (e' : encVariation ⟨h', full⟩ = .ok p') : bothLength p ≤ bothLength p' := by
  unfold chooseDeltas at hc
  obtain ⟨opt, _, hc⟩ := Res.bind_inv hc
  split at hc
  · cases hc
    exact (total_shape hs e e').le
  · obtain ⟨b1, e1, hc⟩ := Res.bind_inv hc
    obtain ⟨b2, e2, hc⟩ := Res.bind_inv hc
    cases hc
    split at e
    · next hlt =>
      obtain ⟨ps1, f1, g1⟩ := encStore_inv (unwrapR_ok e1)
      obtain ⟨ps2, f2, g2⟩ := encStore_inv (unwrapR_ok e2)
      obtain ⟨q1, _, i1, j1, rfl⟩ := mapL_cons_split f1
      cases j1
      obtain ⟨q2, _, i2, j2, rfl⟩ := mapL_cons_split f2
      cases j2
      rw [e] at i2
      cases i2
      have := total_shape hs i1 e'
      simp at g1 g2
      omega
    · exact (total_shape hs e e').le

theorem tupleHeader_shape (d : DeltaSet) (i j : Nat) : SameShape (tupleHeader d (some i)) (tupleHeader d (some j)) :=
  ⟨rfl, rfl, rfl, rfl, rfl⟩

theorem toTuple_header {shared : List Bytes} {glyph : Option Glyph} {d : DeltaSet} {v : Variation} (hmem : ∀ b, peakBytes d = .ok b → b ∈ shared)
    (h : toTupleVariation shared glyph d = .ok v) : ∃ i, v.header = tupleHeader d (some i) ∧
      (glyph = none → v.deltas = fullDeltas d) ∧ ∀ gl, glyph = some gl → chooseDeltas v.header (fullDeltas d) gl = .ok v.deltas := by
  unfold toTupleVariation at h
  obtain ⟨pb, e1, h⟩ := Res.bind_inv h
  have hm := hmem pb e1
  obtain ⟨i, hi⟩ : ∃ i, shared.findIdx? (· == pb) = some i := by
    cases hfi : shared.findIdx? (· == pb) with
    | some i => exact ⟨i, rfl⟩
    | none =>
      rw [List.findIdx?_eq_none_iff] at hfi
      exact absurd (hfi pb hm) (by simp)
  rw [hi] at h
  refine ⟨i, ?_⟩
  cases glyph with
  | none =>
    cases h
    exact ⟨rfl, fun _ => rfl, fun gl e => by cases e⟩
  | some gl =>
    simp only at h
    obtain ⟨l, e2, h⟩ := Res.bind_inv h
    cases h
    exact ⟨rfl, fun e => by (cases e), fun gl' e => by cases e; exact e2⟩

/-- Variations with and without choice. -/
theorem data_total : ∀ {ds : List DeltaSet} {shared shared' : List Bytes} {glyph : Option Glyph} {vs vs' : List Variation},
    (∀ d ∈ ds, ∀ b, peakBytes d = .ok b → b ∈ shared ∧ b ∈ shared') →
    Res.mapL (toTupleVariation shared glyph) ds = .ok vs → Res.mapL (toTupleVariation shared' none) ds = .ok vs' →
    ∀ {ps ps' : List (Bytes × Bytes)}, Res.mapL encVariation (vs.filter hasEffect) = .ok ps →
      Res.mapL encVariation (vs'.filter hasEffect) = .ok ps' → (ps.map bothLength).sum ≤ (ps'.map bothLength).sum
  | [], _, _, _, _, _, _, h, h', ps, ps', e, e' => by
    cases h
    cases h'
    cases e
    cases e'
    exact Nat.le_refl _
  | d :: ds, shared, shared', glyph, vs, vs', hm, h, h', ps, ps', e, e' => by
    obtain ⟨v, ws, h1, h2, rfl⟩ := mapL_cons_split h
    obtain ⟨v', ws', h1', h2', rfl⟩ := mapL_cons_split h'
    obtain ⟨i, a1, a2, a3⟩ := toTuple_header (fun b hb => (hm d (by simp) b hb).1) h1
    obtain ⟨j, b1, b2, _⟩ := toTuple_header (fun b hb => (hm d (by simp) b hb).2) h1'
    have b2 := b2 rfl
    have ih : ∀ {ps ps' : List (Bytes × Bytes)}, Res.mapL encVariation (ws.filter hasEffect) = .ok ps →
        Res.mapL encVariation (ws'.filter hasEffect) = .ok ps' → (ps.map bothLength).sum ≤ (ps'.map bothLength).sum :=
      fun e e' => data_total (ds := ds) (fun d hd => hm d (by simp [hd])) h2 h2' e e'
    obtain ⟨hv, lv⟩ := v
    obtain ⟨hv', lv'⟩ := v'
    simp only at a1 a2 a3 b1 b2
    subst b2
    have shape : SameShape hv hv' := by rw [a1, b1]; exact tupleHeader_shape d i j
    have heff : hasEffect ⟨hv, lv⟩ = true → hasEffect ⟨hv', fullDeltas d⟩ = true := by
      intro he
      rw [hasEffect_full]
      cases glyph with
      | none => rw [a2 rfl] at he; exact (hasEffect_full _ _).mp he
      | some gl => exact choose_effect (a3 gl rfl) _ he
    by_cases hk : hasEffect ⟨hv, lv⟩ = true
    · rw [List.filter_cons_of_pos hk] at e
      rw [List.filter_cons_of_pos (heff hk)] at e'
      obtain ⟨p, qs, e1, e2, rfl⟩ := mapL_cons_split e
      obtain ⟨p', qs', e1', e2', rfl⟩ := mapL_cons_split e'
      have := ih e2 e2'
      have : bothLength p ≤ bothLength p' := by
        cases glyph with
        | none => rw [a2 rfl] at e1; exact (total_shape shape e1 e1').le
        | some gl => exact choose_total shape (a3 gl rfl) e1 e1'
      simp only [List.map_cons, List.sum_cons]
      omega
    · rw [List.filter_cons_of_neg hk] at e
      by_cases hk' : hasEffect ⟨hv', fullDeltas d⟩ = true
      · rw [List.filter_cons_of_pos hk'] at e'
        obtain ⟨p', qs', e1', e2', rfl⟩ := mapL_cons_split e'
        have := ih e e2'
        simp only [List.map_cons, List.sum_cons]
        omega
      · rw [List.filter_cons_of_neg hk'] at e'
        exact ih e e'

theorem glyphData_shorter {ds : List DeltaSet} {shared shared' : List Bytes} {glyph : Option Glyph} {b b' : Bytes}
    (hm : ∀ d ∈ ds, ∀ b, peakBytes d = .ok b → b ∈ shared ∧ b ∈ shared') (h : glyphData shared glyph ds = .ok b)
    (h' : glyphData shared' none ds = .ok b') : b.length ≤ b'.length := by
  unfold glyphData at h h'
  obtain ⟨vs, e1, h⟩ := Res.bind_inv h
  obtain ⟨vs', e1', h'⟩ := Res.bind_inv h'
  obtain ⟨ps, e2, e3⟩ := encStore_inv (unwrapR_ok h)
  obtain ⟨ps', e2', e3'⟩ := encStore_inv (unwrapR_ok h')
  have := data_total hm e1 e1' e2 e2'
  omega

theorem padEven_length (b : Bytes) : (padEven b).length = b.length + b.length % 2 := by
  unfold padEven
  split
  · simp; omega
  · omega

theorem glyphLoop_shorter {shared shared' : List Bytes} {glyf : Option (List Glyph)} : ∀ (g : Gvar) (ix : Nat) (offs offs' : List Nat)
    (tvs tvs' : Bytes) (r r' : List Nat × Bytes), (∀ d ∈ allSets g, ∀ b, peakBytes d = .ok b → b ∈ shared ∧ b ∈ shared') →
    offs.length = offs'.length → tvs.length ≤ tvs'.length →
    glyphLoop shared glyf ix g offs tvs = .ok r → glyphLoop shared' none ix g offs' tvs' = .ok r' →
    r.1.length = r'.1.length ∧ r.2.length ≤ r'.2.length
  | [], _, _, _, _, _, _, _, _, ho, ht, h, h' => by
    cases h
    cases h'
    exact ⟨ho, ht⟩
  | none :: g, ix, offs, offs', tvs, tvs', r, r', hm, ho, ht, h, h' =>
    glyphLoop_shorter g (ix + 1) _ _ _ _ r r' (by simpa [allSets] using hm) (by simp [ho]) ht h h'
  | some ds :: g, ix, offs, offs', tvs, tvs', r, r', hm, ho, ht, h, h' => by
    unfold glyphLoop at h h'
    obtain ⟨gl, e1, h⟩ := Res.bind_inv h
    obtain ⟨b, e2, h⟩ := Res.bind_inv h
    obtain ⟨gl', e1', h'⟩ := Res.bind_inv h'
    cases e1'
    obtain ⟨b', e2', h'⟩ := Res.bind_inv h'
    have hm1 : ∀ d ∈ ds, ∀ b, peakBytes d = .ok b → b ∈ shared ∧ b ∈ shared' := fun d hd => hm d (by simp [allSets, hd])
    have hm2 : ∀ d ∈ allSets g, ∀ b, peakBytes d = .ok b → b ∈ shared ∧ b ∈ shared' := fun d hd => hm d (by
      simp only [allSets, List.filterMap_cons_some (f := id) (a := some ds) rfl, List.flatten_cons, List.mem_append]
      exact .inr hd)
    have hb := glyphData_shorter hm1 e2 e2'
    refine glyphLoop_shorter g (ix + 1) _ _ _ _ r r' hm2 (by simp [ho]) ?_ h h'
    rw [padEven_length, padEven_length, List.length_append, List.length_append]
    omega

theorem flatten_perm_length {l l' : List Bytes} (h : l.Perm l') : l.flatten.length = l'.flatten.length := h.flatten.length_eq

/-- **C53** (never longer). A table written with the outlines, where deltas that can be inferred are left out, is at most as
long as the same table written with all deltas, whatever order the shared tuples have in each. -/
theorem C53_never_longer (glyf : Option (List Glyph)) (g : Gvar) (b b' : Bytes) (h : MayWrite glyf g b) (h' : MayWrite none g b') :
    b.length ≤ b'.length := by
  obtain ⟨keys, shared, k1, k2, h⟩ := h
  obtain ⟨keys', shared', k1', k2', h'⟩ := h'
  rw [k1] at k1'
  cases k1'
  have hperm : shared.Perm shared' := (List.perm_ext_iff_of_nodup k2.1 k2'.1).mpr fun x => by rw [k2.2.1, k2'.2.1]
  have hm : ∀ d ∈ allSets g, ∀ b, peakBytes d = .ok b → b ∈ shared ∧ b ∈ shared' := by
    intro d hd pb hpb
    have : pb ∈ keys := by
      have hf : ∀ (l : List DeltaSet) (ks : List Bytes), Res.mapL peakBytes l = .ok ks → d ∈ l → pb ∈ ks := by
        intro l
        induction l with
        | nil => intro ks _ hd; simp at hd
        | cons x l ih =>
          intro ks e hd
          obtain ⟨k, ks', e1, e2, rfl⟩ := mapL_cons_split e
          rcases List.mem_cons.mp hd with rfl | hd
          · rw [hpb] at e1
            cases e1
            simp
          · exact List.mem_cons_of_mem _ (ih _ e2 hd)
      exact hf _ _ k1 hd
    exact ⟨(k2.2.1 _).mpr this, (k2'.2.1 _).mpr this⟩
  unfold encGvar at h h'
  rw [k1, Res.ok_bind] at h h'
  split at h
  · cases h
  split at h'
  · cases h'
  obtain ⟨r, e1, h⟩ := Res.bind_inv h
  obtain ⟨r', e1', h'⟩ := Res.bind_inv h'
  simp only at h h'
  split at h
  · cases h
  split at h'
  · cases h'
  cases h
  cases h'
  obtain ⟨g1, g2⟩ := glyphLoop_shorter g 0 [] [] [] [] r r' hm rfl (Nat.le_refl _) e1 e1'
  simp only [List.length_append, encGvarCore_length, flatten_perm_length hperm,
    encVec_const_length (enc := fun n => encU32 (UInt32.ofNat n)) (k := 4) (fun _ => rfl), g1, List.length_cons, List.length_nil]
  omega

/-- The example can be written both ways. -/
example : (∃ b, MayWrite (some [exGlyph, exGlyph]) exGvar b) ∧ ∃ b, MayWrite none exGvar b := by
  have hp : (peaksOf exGvar).length ≤ 4096 := by decide
  constructor
  · obtain ⟨keys, k1, ⟨shared, k2⟩, k3⟩ := C53_writes 1 (by decide) (some [exGlyph, exGlyph]) [exCe, exCe] exGvar exFits
      exOutlines (by decide) hp (by decide)
    obtain ⟨bs, hb⟩ := k3 shared k2
    exact ⟨bs, keys, shared, k1, k2, hb⟩
  · have hf : GvarFits 1 none [exCe, exCe] exGvar := by
      intro i ds h
      obtain ⟨c, h1, h2, _, h4, h5, h6⟩ := exFits i ds h
      refine ⟨c, h1, h2, fun gl h => (by cases h), h4, h5, fun d hd => ?_⟩
      obtain ⟨a1, a2, a3, a4, a5, a6, _⟩ := h6 d hd
      exact ⟨a1, a2, a3, a4, a5, a6, fun gl h => (by cases h)⟩
    obtain ⟨keys, k1, ⟨shared, k2⟩, k3⟩ := C53_writes 1 (by decide) none [exCe, exCe] exGvar hf
      ⟨fun l h => (by cases h), fun i ds gl c _ h => (by cases h)⟩ (by decide) hp (by decide)
    obtain ⟨bs, hb⟩ := k3 shared k2
    exact ⟨bs, keys, shared, k1, k2, hb⟩

end FT.Props
