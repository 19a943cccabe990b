import Verif.Props.Gpos
import Mathlib.Data.List.Dedup

/-!
C15: pair positioning.
-/

namespace FT.Props
open FT FT.Gpos FT.Lay FT.Off FT.VR Reader

/-! ### Splitting by first glyph -/

/-- All entries of a two-layer map. -/
def joinPairs {α : Type} (s : List (UInt16 × List (UInt16 × α))) : List ((UInt16 × UInt16) × α) :=
  s.flatMap (fun x => x.2.map (fun y => ((x.1, y.1), y.2)))

/-- Looking up a pair. -/
def get2 {α : Type} (s : List (UInt16 × List (UInt16 × α))) (k : UInt16 × UInt16) : Option α :=
  (BMap.get? s k.1).bind (fun i => BMap.get? i k.2)

structure TwoLayer {α : Type} (s : List (UInt16 × List (UInt16 × α))) : Prop where
  outer : BMap.Sorted s
  inner : ∀ x ∈ s, BMap.Sorted x.2
  full : ∀ x ∈ s, x.2 ≠ []

theorem get?_mem_of_sorted {κ α : Type} [Key κ] {m : List (κ × α)} (hs : BMap.Sorted m) {k : κ} {v : α}
    (h : BMap.get? m k = some v) : (k, v) ∈ m := (BMap.get?_eq_some hs).mp h

theorem insert_ne_nil {κ α : Type} [Key κ] (m : List (κ × α)) (k : κ) (v : α) : BMap.insert m k v ≠ [] := by
  intro h
  have := BMap.get?_insert_self (m := m) k v
  rw [h] at this
  cases this

theorem splitStep {α : Type} {s : List (UInt16 × List (UInt16 × α))} (h : TwoLayer s) (x : (UInt16 × UInt16) × α) :
    TwoLayer (BMap.insert s x.1.1 (BMap.insert ((BMap.get? s x.1.1).getD []) x.1.2 x.2)) ∧
    ∀ k, get2 (BMap.insert s x.1.1 (BMap.insert ((BMap.get? s x.1.1).getD []) x.1.2 x.2)) k =
      if k = x.1 then some x.2 else get2 s k := by
  have hin : BMap.Sorted ((BMap.get? s x.1.1).getD []) := by
    cases e : BMap.get? s x.1.1 with
    | none => simp [BMap.Sorted]
    | some i => exact h.inner _ (get?_mem_of_sorted h.outer e)
  refine ⟨⟨BMap.insert_sorted h.outer _ _, ?_, ?_⟩, ?_⟩
  · intro y hy
    rcases BMap.mem_insert hy with rfl | hy
    · exact BMap.insert_sorted hin _ _
    · exact h.inner y hy
  · intro y hy
    rcases BMap.mem_insert hy with rfl | hy
    · exact insert_ne_nil _ _ _
    · exact h.full y hy
  · intro k
    unfold get2
    rw [BMap.get?_insert]
    by_cases h1 : k.1 = x.1.1
    · rw [if_pos h1, Option.bind_some, BMap.get?_insert]
      by_cases h2 : k.2 = x.1.2
      · rw [if_pos h2, if_pos (Prod.ext h1 h2)]
      · rw [if_neg h2, if_neg (fun e => h2 (by rw [e])), h1]
        cases BMap.get? s x.1.1 <;> rfl
    · rw [if_neg h1, if_neg (fun e => h1 (by rw [e]))]

theorem joinPairs_sorted {α : Type} {s : List (UInt16 × List (UInt16 × α))} (h : TwoLayer s) :
    BMap.Sorted (joinPairs s) := by
  unfold BMap.Sorted joinPairs
  rw [List.pairwise_flatMap]
  constructor
  · intro x hx
    rw [List.pairwise_map]
    refine (h.inner x hx).imp ?_
    intro a b hab
    have h1 : Key.lt x.1 x.1 = false := Key.irrefl _
    show (Key.lt x.1 x.1 || (!Key.lt x.1 x.1 && Key.lt a.1 b.1)) = true
    rw [h1, hab]; rfl
  · refine h.outer.imp ?_
    intro x y hxy a ha b hb
    obtain ⟨a', _, rfl⟩ := List.mem_map.mp ha
    obtain ⟨b', _, rfl⟩ := List.mem_map.mp hb
    show (Key.lt x.1 y.1 || (!Key.lt y.1 x.1 && Key.lt a'.1 b'.1)) = true
    rw [hxy]; rfl

theorem mem_joinPairs {α : Type} {s : List (UInt16 × List (UInt16 × α))} (h : TwoLayer s) (k : UInt16 × UInt16) (v : α) :
    (k, v) ∈ joinPairs s ↔ get2 s k = some v := by
  unfold joinPairs get2
  simp only [List.mem_flatMap, List.mem_map, Option.bind_eq_some_iff]
  constructor
  · rintro ⟨x, hx, y, hy, e⟩
    cases e
    exact ⟨x.2, (BMap.get?_eq_some h.outer).mpr hx, (BMap.get?_eq_some (h.inner x hx)).mpr hy⟩
  · rintro ⟨i, h1, h2⟩
    have hx := (BMap.get?_eq_some h.outer).mp h1
    exact ⟨_, hx, (k.2, v), (BMap.get?_eq_some (h.inner _ hx)).mp h2, rfl⟩

theorem split_fold {α : Type} : ∀ (m : List ((UInt16 × UInt16) × α)) (s : List (UInt16 × List (UInt16 × α))),
    TwoLayer s → TwoLayer (m.foldl (fun out x => BMap.insert out x.1.1
        (BMap.insert ((BMap.get? out x.1.1).getD []) x.1.2 x.2)) s) ∧
      (BMap.Sorted m → ∀ k v, get2 (m.foldl (fun out x => BMap.insert out x.1.1
        (BMap.insert ((BMap.get? out x.1.1).getD []) x.1.2 x.2)) s) k = some v ↔
        (k, v) ∈ m ∨ ((∀ x ∈ m, x.1 ≠ k) ∧ get2 s k = some v))
  | [], s, h => ⟨h, fun _ k v => by simp⟩
  | x :: m, s, h => by
    obtain ⟨h1, h2⟩ := splitStep h x
    obtain ⟨g1, g2⟩ := split_fold m _ h1
    refine ⟨g1, fun hs k v => ?_⟩
    rw [List.foldl_cons, g2 hs.tail, h2]
    have hlt := hs.head_lt
    constructor
    · rintro (h | ⟨h, h'⟩)
      · exact .inl (by simp [h])
      · split at h'
        · rename_i e
          cases h'
          exact .inl (by rw [e]; simp)
        · rename_i e
          refine .inr ⟨?_, h'⟩
          intro y hy
          rcases List.mem_cons.mp hy with rfl | hy
          · exact fun e' => e e'.symm
          · exact h y hy
    · rintro (h | ⟨h, h'⟩)
      · rcases List.mem_cons.mp h with e | h
        · subst e
          refine .inr ⟨fun y hy => (BMap.lt_ne (hlt y hy)).symm, by simp⟩
        · exact .inl h
      · refine .inr ⟨fun y hy => h y (by simp [hy]), ?_⟩
        rw [if_neg (fun e => h x (by simp) e.symm)]
        exact h'

/-- The two-layer form has the entries of the map. -/
theorem splitPairs_spec {m : PairPos} (hs : BMap.Sorted m) : TwoLayer (splitPairs m) ∧ joinPairs (splitPairs m) = m := by
  have h0 : TwoLayer ([] : SplitPairs) := ⟨by simp [BMap.Sorted], by simp, by simp⟩
  obtain ⟨h1, h2⟩ : TwoLayer (splitPairs m) ∧ (BMap.Sorted m → ∀ k v, get2 (splitPairs m) k = some v ↔
      (k, v) ∈ m ∨ ((∀ x ∈ m, x.1 ≠ k) ∧ get2 ([] : SplitPairs) k = some v)) := split_fold m [] h0
  refine ⟨h1, BMap.ext (joinPairs_sorted h1) hs ?_⟩
  intro k
  have hh : ∀ v, BMap.get? (joinPairs (splitPairs m)) k = some v ↔ BMap.get? m k = some v := by
    intro v
    rw [BMap.get?_eq_some (joinPairs_sorted h1), BMap.get?_eq_some hs, mem_joinPairs h1]
    rw [h2 hs k v]
    simp [get2, BMap.get?]
  cases e : BMap.get? m k with
  | some v => exact (hh v).mpr e
  | none =>
    cases e' : BMap.get? (joinPairs (splitPairs m)) k with
    | none => rfl
    | some v => rw [(hh v).mp e'] at e; cases e

/-! ### C15 -/

/-- Which of the four fields of a record are not zero. -/
def nonZero (v : ValueRecord) : Bool × Bool × Bool × Bool :=
  ((adjustment v).1 ≠ 0, (adjustment v).2.1 ≠ 0, (adjustment v).2.2.1 ≠ 0, (adjustment v).2.2.2 ≠ 0)

/-- All records of a list have non-zero values in the same fields. -/
def SameFields (l : List ValueRecord) : Prop := ∀ v ∈ l, ∀ w ∈ l, nonZero v = nonZero w

/-- What the user wants back: the same pairs with the same adjustments of both glyphs. -/
def SamePairs (m m' : PairPos) : Prop := m'.map Prod.fst = m.map Prod.fst ∧
  m'.map (fun x => (adjustment x.2.1, adjustment x.2.2)) = m.map (fun x => (adjustment x.2.1, adjustment x.2.2))

theorem flags_simplify {v w : ValueRecord} (hv : NoDevices v) (hw : NoDevices w) (h : nonZero v = nonZero w) :
    flags (simplify v) = flags (simplify w) := by
  have key : ∀ x : Option Int16, (dropZero x).isSome = decide ((x.getD 0).toInt ≠ 0) := by
    intro x
    cases x with
    | none => simp [dropZero]
    | some x =>
      have : x = 0 ↔ x.toInt = 0 := ⟨fun h => by rw [h]; rfl, fun h => Int16.toInt_inj.mp (by rw [h]; rfl)⟩
      by_cases h : x = 0
      · have h2 := this.mp h; simp [dropZero, h]
      · have h2 : ¬ x.toInt = 0 := fun e => h (this.mpr e)
        simp [dropZero, h, h2]
  simp only [nonZero, adjustment, Prod.mk.injEq] at h
  obtain ⟨h1, h2, h3, h4⟩ := h
  apply flags_congr
  · simp only [simplify, key]; exact h1
  · simp only [simplify, key]; exact h2
  · simp only [simplify, key]; exact h3
  · simp only [simplify, key]; exact h4
  · rw [(C10_simplify v).2.1, (C10_simplify w).2.1]
    obtain ⟨a, b, c, d⟩ := hv
    obtain ⟨a', b', c', d'⟩ := hw
    simp only [devices, a, b, c, d, a', b', c', d']

theorem highest_same : ∀ {l : List ValueRecord} {f : UInt16}, l ≠ [] → (∀ v ∈ l, flags v = f) → highestFormat l = f := by
  intro l f hne h
  cases l with
  | nil => exact absurd rfl hne
  | cons v l =>
    have key : ∀ (l : List ValueRecord), (∀ v ∈ l, flags v = f) → l.foldl (fun f w => f ||| flags w) f = f := by
      intro l
      induction l with
      | nil => intro _; rfl
      | cons w l ih =>
        intro hl
        rw [List.foldl_cons, hl w (by simp), UInt16.or_self]
        exact ih (fun v hv => hl v (by simp [hv]))
    simp only [highestFormat]
    rw [h v (by simp)]
    exact key l (fun w hw => h w (by simp [hw]))

theorem simplifyPairs_sorted {m : PairPos} (hs : BMap.Sorted m) : BMap.Sorted (simplifyPairs m) := by
  unfold BMap.Sorted simplifyPairs at *
  rw [List.pairwise_map]
  exact hs

/-- The first glyphs, in order and without repetition. -/
theorem split_keys {m : PairPos} (hs : BMap.Sorted m) :
    (splitPairs m).map Prod.fst = (m.map (fun x => x.1.1)).dedup := by
  obtain ⟨h1, h2⟩ := splitPairs_spec hs
  have hmem : ∀ g, g ∈ (splitPairs m).map Prod.fst ↔ g ∈ (m.map (fun x => x.1.1)).dedup := by
    intro g
    rw [List.mem_dedup]
    conv_rhs => rw [← h2]
    simp only [joinPairs, List.mem_map, List.mem_flatMap]
    constructor
    · rintro ⟨x, hx, rfl⟩
      obtain ⟨y, hy⟩ := List.exists_mem_of_ne_nil _ (h1.full x hx)
      exact ⟨_, ⟨x, hx, y, hy, rfl⟩, rfl⟩
    · rintro ⟨_, ⟨x, hx, y, hy, rfl⟩, rfl⟩
      exact ⟨x, hx, rfl⟩
  have hs1 : ((splitPairs m).map Prod.fst).Pairwise (fun a b => a.toNat < b.toNat) := by
    rw [List.pairwise_map]
    exact h1.outer.imp (fun h => by simpa [Key.lt] using h)
  have hle : (m.map (fun x => x.1.1)).Pairwise (fun a b => a.toNat ≤ b.toNat) := by
    rw [List.pairwise_map]
    refine List.Pairwise.imp ?_ hs
    intro a b h
    simp only [Key.lt, Bool.or_eq_true, Bool.and_eq_true, Bool.not_eq_true', decide_eq_true_eq,
      decide_eq_false_iff_not] at h
    omega
  have hs2 : ((m.map (fun x => x.1.1)).dedup).Pairwise (fun a b => a.toNat < b.toNat) := by
    have h3 := hle.sublist (List.dedup_sublist _)
    have h4 := List.nodup_dedup (m.map (fun x => x.1.1))
    refine List.Pairwise.imp₂ ?_ h3 h4
    intro a b hab hne
    have : a.toNat ≠ b.toNat := fun e => hne (UInt16.toNat_inj.mp e)
    omega
  have hp : (splitPairs m).map Prod.fst |>.Perm ((m.map (fun x => x.1.1)).dedup) := by
    refine (List.perm_ext_iff_of_nodup (hs1.imp fun h e => by rw [e] at h; omega) (List.nodup_dedup _)).mpr hmem
  exact hp.eq_of_pairwise (fun a b _ _ h1 h2 => by omega) hs1 hs2

theorem pairSet_length {m : PairPos} (hs : BMap.Sorted m) {x : UInt16 × List (UInt16 × (ValueRecord × ValueRecord))}
    (hx : x ∈ splitPairs m) : x.2.length ≤ (m.filter (fun y => y.1.1 = x.1)).length := by
  obtain ⟨h1, h2⟩ := splitPairs_spec hs
  have hsub : (x.2.map (fun y => ((x.1, y.1), y.2))).Sublist m := by
    conv_rhs => rw [← h2]
    unfold joinPairs
    rw [List.flatMap_def]
    exact List.sublist_flatten_of_mem (List.mem_map.mpr ⟨x, hx, rfl⟩)
  have := (hsub.filter (fun y => decide (y.1.1 = x.1))).length_le
  rwa [List.filter_eq_self.mpr (by
    intro y hy
    obtain ⟨z, _, rfl⟩ := List.mem_map.mp hy
    simp), List.length_map] at this

theorem pair_low (m : PairPos) (hs : BMap.Sorted m) (hc : Coverable ((m.map (fun x => x.1.1)).dedup))
    (hl : ∀ g, (m.filter (fun x => x.1.1 = g)).length ≤ 65535)
    (hd : ∀ x ∈ m, NoDevices x.2.1 ∧ NoDevices x.2.2)
    (h1 : SameFields (m.map (fun x => x.2.1))) (h2 : SameFields (m.map (fun x => x.2.2))) (max : UInt16) :
    PosOk m.toLow ∧ PairPos.fromLow max m.toLow = .ok (simplifyPairs m) := by
  have hs' := simplifyPairs_sorted hs
  obtain ⟨t1, t2⟩ := splitPairs_spec hs'
  have hkeys := split_keys hs'
  have hk : (simplifyPairs m).map (fun x => x.1.1) = m.map (fun x => x.1.1) := by
    simp only [simplifyPairs, List.map_map]; rfl
  rw [hk] at hkeys
  have hmem : ∀ x ∈ splitPairs (simplifyPairs m), ∀ y ∈ x.2, ∃ z ∈ m, y.2 = (simplify z.2.1, simplify z.2.2) := by
    intro x hx y hy
    have : ((x.1, y.1), y.2) ∈ joinPairs (splitPairs (simplifyPairs m)) :=
      List.mem_flatMap.mpr ⟨x, hx, List.mem_map.mpr ⟨y, hy, rfl⟩⟩
    rw [t2] at this
    obtain ⟨z, hz, e⟩ := List.mem_map.mp this
    refine ⟨z, hz, ?_⟩
    exact (congrArg Prod.snd e).symm
  have hcov : CovOk ((splitPairs (simplifyPairs m)).map Prod.fst) :=
    covOk_of_asc (sorted_keys_asc t1.outer) (by rw [hkeys]; exact hc)
  have hfmt : ∀ x ∈ splitPairs (simplifyPairs m), ∀ y ∈ x.2,
      flags y.2.1 = highestFormat (((splitPairs (simplifyPairs m)).flatMap (fun x => x.2.map Prod.snd)).map Prod.fst) ∧
      flags y.2.2 = highestFormat (((splitPairs (simplifyPairs m)).flatMap (fun x => x.2.map Prod.snd)).map Prod.snd) := by
    intro x hx y hy
    obtain ⟨z, hz, ez⟩ := hmem x hx y hy
    have hin : y.2 ∈ (splitPairs (simplifyPairs m)).flatMap (fun x => x.2.map Prod.snd) :=
      List.mem_flatMap.mpr ⟨x, hx, List.mem_map.mpr ⟨y, hy, rfl⟩⟩
    refine ⟨(highest_same ?_ ?_).symm, (highest_same ?_ ?_).symm⟩
    · exact List.ne_nil_of_mem (List.mem_map_of_mem hin)
    · intro v hv
      obtain ⟨p, hp, rfl⟩ := List.mem_map.mp hv
      obtain ⟨x', hx', hp⟩ := List.mem_flatMap.mp hp
      obtain ⟨y', hy', rfl⟩ := List.mem_map.mp hp
      obtain ⟨z', hz', ez'⟩ := hmem x' hx' y' hy'
      rw [ez', ez]
      exact flags_simplify (hd z' hz').1 (hd z hz).1
        (h1 _ (List.mem_map.mpr ⟨z', hz', rfl⟩) _ (List.mem_map.mpr ⟨z, hz, rfl⟩))
    · exact List.ne_nil_of_mem (List.mem_map_of_mem hin)
    · intro v hv
      obtain ⟨p, hp, rfl⟩ := List.mem_map.mp hv
      obtain ⟨x', hx', hp⟩ := List.mem_flatMap.mp hp
      obtain ⟨y', hy', rfl⟩ := List.mem_map.mp hp
      obtain ⟨z', hz', ez'⟩ := hmem x' hx' y' hy'
      rw [ez', ez]
      exact flags_simplify (hd z' hz').2 (hd z hz).2
        (h2 _ (List.mem_map.mpr ⟨z', hz', rfl⟩) _ (List.mem_map.mpr ⟨z, hz, rfl⟩))
  constructor
  · refine ⟨_, (splitPairs (simplifyPairs m)).map (fun x => x.2.map (fun y => (y.1, y.2.1, y.2.2))), rfl, hcov, ?_, ?_, ?_⟩
    · rw [List.map_map]; rfl
    · simp
    · intro l hl'
      obtain ⟨x, hx, rfl⟩ := List.mem_map.mp hl'
      constructor
      · rw [List.length_map]
        refine (pairSet_length hs' hx).trans (le_trans (le_of_eq ?_) (hl x.1))
        simp only [simplifyPairs, List.filter_map, List.length_map]
        rfl
      · intro r hr
        obtain ⟨y, hy, rfl⟩ := List.mem_map.mp hr
        obtain ⟨f1, f2⟩ := hfmt x hx y hy
        obtain ⟨z, hz, ez⟩ := hmem x hx y hy
        refine ⟨⟨?_, f1⟩, ⟨?_, f2⟩⟩
        · show NoDevices y.2.1
          rw [ez]; exact noDevices_of (C10_simplify z.2.1).2.1 (hd z hz).1
        · show NoDevices y.2.2
          rw [ez]; exact noDevices_of (C10_simplify z.2.2).2.1 (hd z hz).2
  · have : (((splitPairs (simplifyPairs m)).map Prod.fst).zip ((splitPairs (simplifyPairs m)).map
        (fun x => some (x.2.map (fun y => (y.1, y.2.1, y.2.2)))))).flatMap pairSetEntries =
        joinPairs (splitPairs (simplifyPairs m)) := by
      generalize splitPairs (simplifyPairs m) = s
      unfold joinPairs
      induction s with
      | nil => rfl
      | cons x s ih =>
        simp only [List.map_cons, List.zip_cons_cons, List.flatMap_cons]
        rw [ih]
        congr 1
        simp only [pairSetEntries, Option.getD_some, List.map_map]
        rfl
    simp only [PairPos.toLow, PairPos.fromLow, covGlyphs, Option.getD_some, this, t2, BMap.collect_of_sorted hs']

/-- **C15.** Pair adjustments without devices, all first records having non-zero values in the same fields and all
second records likewise, keep both adjustments of every pair across writing and reading. -/
theorem C15_roundtrip (m : PairPos) (hs : BMap.Sorted m) (hc : Coverable ((m.map (fun x => x.1.1)).dedup))
    (hl : ∀ g, (m.filter (fun x => x.1.1 = g)).length ≤ 65535)
    (hd : ∀ x ∈ m, NoDevices x.2.1 ∧ NoDevices x.2.2)
    (h1 : SameFields (m.map (fun x => x.2.1))) (h2 : SameFields (m.map (fun x => x.2.2))) (max : UInt16) :
    ∃ m', PosSurvives m.toLow 2 (PairPos.fromLow max) m' ∧ SamePairs m m' := by
  obtain ⟨a, b⟩ := pair_low m hs hc hl hd h1 h2 max
  refine ⟨simplifyPairs m, posSurvives_of (low := m.toLow) a b, ?_, ?_⟩
  · simp only [simplifyPairs, List.map_map]; rfl
  · simp only [simplifyPairs, List.map_map]
    apply List.map_congr_left
    intro x _
    simp only [Function.comp_apply, (C10_simplify _).1]

/-- The subtable as bytes, read back from them and converted. -/
def throughBytes {α : Type} (low : Sub) (ty : Nat) (back : Sub → Res α) : Res α := do
  let t ← Sub.tab low
  let bs ← toBytes t
  let x ← Sub.read ty ⟨bs, 0, []⟩
  back x.1

/-- Records of different formats get mixed up. Two records that add 5 to an advance and 7 to a placement cannot even be
read back if they come last; otherwise bytes of one record are taken for parts of the next: here the advance of the
first pair becomes a placement, and an adjustment appears for a pair (10, 7) that was never mentioned. -/
theorem C15_mixed_formats_corrupt :
    throughBytes (PairPos.toLow [((10, 20), ({ xAdvance := some 5 }, {})), ((10, 30), ({ xPlacement := some 7 }, {}))])
      2 (PairPos.fromLow 100) = .err ∧
    throughBytes (PairPos.toLow [((10, 20), ({ xAdvance := some 5 }, {})), ((10, 30), ({ xPlacement := some 7 }, {})),
        ((11, 30), ({ xPlacement := some 7, xAdvance := some 1 }, {}))]) 2 (PairPos.fromLow 100) =
      .ok [((10, 7), ({ xPlacement := some 1, xAdvance := some 30 }, {})),
        ((10, 20), ({ xPlacement := some 5, xAdvance := some 30 }, {})),
        ((11, 30), ({ xPlacement := some 7, xAdvance := some 1 }, {}))] := by
  decide +kernel

/-- Records of one format, in two pair sets. -/
example : throughBytes (PairPos.toLow [((10, 20), ({ xAdvance := some 5, yAdvance := some 0 }, {})),
      ((10, 30), ({ xAdvance := some (-7) }, { xPlacement := some 0 })), ((12, 20), ({ xAdvance := some 1 }, {}))])
      2 (PairPos.fromLow 100) = .ok [((10, 20), ({ xAdvance := some 5 }, {})), ((10, 30), ({ xAdvance := some (-7) }, {})),
      ((12, 20), ({ xAdvance := some 1 }, {}))] := by decide +kernel
example : BMap.Sorted ([((10, 20), ({ xAdvance := some 5, yAdvance := some 0 }, {})),
      ((10, 30), ({ xAdvance := some (-7) }, { xPlacement := some 0 })), ((12, 20), ({ xAdvance := some 1 }, {}))] : PairPos) ∧
    SameFields [{ xAdvance := some 5, yAdvance := some 0 }, { xAdvance := some (-7) }, { xAdvance := some 1 }] ∧
    SameFields [{}, { xPlacement := some 0 }, {}] ∧ Coverable (([10, 10, 12] : List UInt16).dedup) := by
  refine ⟨by simp [BMap.Sorted, Key.lt], by unfold SameFields; decide, by unfold SameFields; decide, .inl (by decide)⟩

end FT.Props
