import Verif.Lemmas.GposSub
import Verif.Props.Gsub
import Verif.Lemmas.ResBind

/-!
C65: single positioning. C66: cursive attachment.
-/

namespace FT.Props
open FT FT.Gpos FT.Lay FT.Off FT.VR Reader

/-- Writing a rule as a GPOS subtable of lookup type `ty` and reading the bytes back, at any place in a larger
table. -/
def PosSurvives {α : Type} (low : Sub) (ty : Nat) (back : Sub → Res α) (a : α) : Prop :=
  ∃ t, Sub.tab low = .ok t ∧ ∀ bs, toBytes t = .ok bs → ∀ (before after : Bytes) (stk : List Nat),
    ∃ low' r', Sub.read ty ⟨before ++ bs ++ after, before.length, stk⟩ = .ok (low', r') ∧ r'.stk = stk ∧
      back low' = .ok a

theorem posSurvives_of {α : Type} {low : Sub} {back : Sub → Res α} {a : α} (h : PosOk low)
    (hb : back (posBack low) = .ok a) : PosSurvives low (posType low) back a := by
  obtain ⟨t, h1, h2⟩ := writes_pos low h
  refine ⟨t, h1, fun bs hbs before after stk => ?_⟩
  obtain ⟨ptr, e⟩ := h2.run hbs before after stk
  exact ⟨posBack low, _, e, rfl, hb⟩

/-! ### C65 -/

/-- Two records with the same effect: equal adjustments (absent fields count as zero) and the same devices. -/
def SameEffect (v w : ValueRecord) : Prop := adjustment v = adjustment w ∧ devices v = devices w

instance (v w : ValueRecord) : Decidable (SameEffect v w) := inferInstanceAs (Decidable (_ ∧ _))

theorem dropZero_inj {x y : Option Int16} : dropZero x = dropZero y ↔ (x.getD 0).toInt = (y.getD 0).toInt := by
  rw [Int16.toInt_inj]
  constructor
  · intro h
    have k : ∀ x : Option Int16, x.getD 0 = (dropZero x).getD 0 := by
      intro x; unfold dropZero; split
      · next h => rw [h]; rfl
      · rfl
    rw [k x, k y, h]
  · intro h
    cases x <;> cases y <;> simp_all [dropZero, eq_comm]

theorem simplify_inj {v w : ValueRecord} : simplify v = simplify w ↔ SameEffect v w := by
  obtain ⟨a1, a2, a3, a4, a5, a6, a7, a8⟩ := v
  obtain ⟨b1, b2, b3, b4, b5, b6, b7, b8⟩ := w
  simp only [simplify, SameEffect, adjustment, devices, ValueRecord.mk.injEq, Prod.mk.injEq, dropZero_inj,
    List.cons.injEq, and_true, and_assoc]

theorem noDevices_iff {v : ValueRecord} : NoDevices v ↔ ∀ x ∈ devices v, x = none := by
  simp [NoDevices, devices]

theorem noDevices_of {v w : ValueRecord} (h : devices v = devices w) (hw : NoDevices w) : NoDevices v := by
  rw [noDevices_iff] at *; rw [h]; exact hw

theorem map_zip_snd {α β γ : Type} (f : β → γ) : ∀ (ks : List α) (vs : List β), ks.length = vs.length →
    (ks.zip vs).map (fun x => f x.2) = vs.map f
  | [], [], _ => rfl
  | [], _ :: _, h => by simp at h
  | _ :: _, [], h => by simp at h
  | k :: ks, v :: vs, h => by
    simp only [List.zip_cons_cons, List.map_cons, map_zip_snd f ks vs (by simpa using h)]

theorem sorted_of_keys16 {α β : Type} {m : List (UInt16 × α)} {n : List (UInt16 × β)} (hs : BMap.Sorted m)
    (h : n.map Prod.fst = m.map Prod.fst) : BMap.Sorted n :=
  asc_keys_sorted (h ▸ sorted_keys_asc hs)

/-- What the user wants back: the same glyphs, each with the same adjustment and the same devices. -/
def SameSingle (m m' : SinglePos) : Prop :=
  m'.map Prod.fst = m.map Prod.fst ∧ m'.map (fun x => adjustment x.2) = m.map (fun x => adjustment x.2) ∧
  m'.map (fun x => devices x.2) = m.map (fun x => devices x.2)

/-- All glyphs are moved in the same way. -/
def UniformSingle (m : SinglePos) : Prop := ∀ x ∈ m, ∀ y ∈ m, SameEffect x.2 y.2

theorem uniform_iff (m : SinglePos) : allSame (m.map (fun x => simplify x.2)) = true ↔ UniformSingle m := by
  rw [allSame_iff]
  constructor
  · intro h x hx y hy
    exact simplify_inj.mp (h _ (List.mem_map_of_mem hx) _ (List.mem_map_of_mem hy))
  · intro h a ha b hb
    obtain ⟨x, hx, rfl⟩ := List.mem_map.mp ha
    obtain ⟨y, hy, rfl⟩ := List.mem_map.mp hb
    exact simplify_inj.mpr (h x hx y hy)

/-- The subtable of a single positioning rule. -/
theorem single_low (m : SinglePos) (hs : BMap.Sorted m) (hc : Coverable (m.map Prod.fst)) (hne : m ≠ [])
    (hd : (∀ x ∈ m, NoDevices x.2) ∨ (UniformSingle m ∧ ∀ x ∈ m, x.2.xPlaDevice.isSome = x.2.yPlaDevice.isSome ∧
      ∀ d, some (some d) ∈ devices x.2 → DeviceOk d)) :
    ∃ low m', m.toLow = .ok low ∧ PosOk low ∧ posType low = 1 ∧ SinglePos.fromLow (posBack low) = .ok m' ∧
      SameSingle m m' := by
  by_cases hu : UniformSingle m
  · have ha := (uniform_iff m).mpr hu
    cases m with
    | nil => exact absurd rfl hne
    | cons x m =>
      have e : SinglePos.toLow (x :: m) = .ok (.p1_1 (some ((x :: m).map Prod.fst)) (flags (simplify x.2))
          (simplify x.2)) := by
        simp only [SinglePos.toLow, ha, if_true]; rfl
      have hx : x.2.xPlaDevice.isSome = x.2.yPlaDevice.isSome ∧ ∀ d, some (some d) ∈ devices x.2 → DeviceOk d := by
        rcases hd with hd | hd
        · obtain ⟨a, b, c, d⟩ := hd x (by simp)
          refine ⟨by rw [a, b], ?_⟩
          intro y hy
          simp [devices, a, b, c, d] at hy
        · exact hd.2 x (by simp)
      have hsort : BMap.Sorted (((x :: m).map Prod.fst).map (fun g => (g, simplify x.2))) :=
        sorted_of_keys16 hs (by rw [List.map_map]; exact List.map_id _)
      refine ⟨_, ((x :: m).map Prod.fst).map (fun g => (g, simplify x.2)), e, ⟨covLinkOk_keys hs hc, rfl, ?_, ?_⟩, rfl,
        ?_, ?_, ?_, ?_⟩
      · exact hx.1
      · exact hx.2
      · simp only [posBack, SinglePos.fromLow, covGlyphs, Option.getD_some, BMap.collect_of_sorted hsort]
      · rw [List.map_map]; exact List.map_id _
      · rw [List.map_map, List.map_map]
        apply List.map_congr_left
        intro y hy
        simp only [Function.comp_apply]
        rw [(C10_simplify x.2).1]; exact (hu x (by simp) y hy).1
      · rw [List.map_map, List.map_map]
        apply List.map_congr_left
        intro y hy
        simp only [Function.comp_apply]
        rw [(C10_simplify x.2).2.1]; exact (hu x (by simp) y hy).2
  · have hn : ∀ x ∈ m, NoDevices x.2 := by
      rcases hd with hd | hd
      · exact hd
      · exact absurd hd.1 hu
    have ha : allSame (m.map (fun x => simplify x.2)) = false := by
      rw [← Bool.not_eq_true, uniform_iff]; exact hu
    have hn' : ∀ v ∈ m.map (fun x => simplify x.2), ∀ x ∈ devices v, x = none := by
      intro v hv
      obtain ⟨x, hx, rfl⟩ := List.mem_map.mp hv
      rw [(C10_simplify x.2).2.1]
      exact noDevices_iff.mp (hn x hx)
    obtain ⟨c1, c2, c3⟩ := C10_coerce (m.map (fun x => simplify x.2))
    generalize hw : coerceToSame (m.map (fun x => simplify x.2)) = ws at c1 c2 c3
    have hlen : ws.length = m.length := by
      have := congrArg List.length c1
      simpa using this
    cases ws with
    | nil =>
      exfalso
      apply hne
      exact List.length_eq_zero_iff.mp (by simpa using hlen.symm)
    | cons w ws =>
      have e : m.toLow = .ok (.p1_2 2 (some (m.map Prod.fst)) (flags w) (w :: ws)) := by
        simp only [SinglePos.toLow, ha, hw]; rfl
      have hnd : ∀ v ∈ w :: ws, NoDevices v := by
        intro v hv
        have : devices v ∈ (w :: ws).map devices := List.mem_map_of_mem hv
        rw [c2] at this
        obtain ⟨u, hu', e'⟩ := List.mem_map.mp this
        rw [noDevices_iff, ← e']
        exact hn' u hu'
      have hfl : ∀ v ∈ w :: ws, flags v = flags w := by
        intro v hv
        have h1 := c3 hn' v hv
        have h2 := c3 hn' w (by simp)
        have h3 : ∀ k < 8, (flags v).toNat.testBit k = (flags w).toNat.testBit k := by
          intro k hk; rw [h1 k hk, h2 k hk]
        apply flags_congr
        · have := h3 0 (by omega); rw [← has_bit (b := 1) rfl, ← has_bit (b := 1) rfl] at this
          rwa [(has_flags v).1, (has_flags w).1] at this
        · have := h3 1 (by omega); rw [← has_bit (b := 2) rfl, ← has_bit (b := 2) rfl] at this
          rwa [(has_flags v).2.1, (has_flags w).2.1] at this
        · have := h3 2 (by omega); rw [← has_bit (b := 4) rfl, ← has_bit (b := 4) rfl] at this
          rwa [(has_flags v).2.2.1, (has_flags w).2.2.1] at this
        · have := h3 3 (by omega); rw [← has_bit (b := 8) rfl, ← has_bit (b := 8) rfl] at this
          rwa [(has_flags v).2.2.2.1, (has_flags w).2.2.2.1] at this
        · obtain ⟨a, b, c, d⟩ := hnd v hv
          obtain ⟨a', b', c', d'⟩ := hnd w (by simp)
          simp only [devices, a, b, c, d, a', b', c', d']
      have hkl : (m.map Prod.fst).length = (w :: ws).length := by rw [List.length_map, hlen]
      have hsort : BMap.Sorted ((m.map Prod.fst).zip (w :: ws)) :=
        sorted_of_keys16 hs (List.map_fst_zip (le_of_eq hkl))
      refine ⟨_, (m.map Prod.fst).zip (w :: ws), e, ⟨rfl, covLinkOk_keys hs hc, ?_, ?_⟩, rfl, ?_, ?_, ?_, ?_⟩
      · rw [hlen]; exact keys_length hs hc
      · intro v hv; exact ⟨hnd v hv, hfl v hv⟩
      · simp only [posBack, SinglePos.fromLow, covGlyphs, Option.getD_some, BMap.collect_of_sorted hsort]
      · exact List.map_fst_zip (le_of_eq hkl)
      · rw [map_zip_snd adjustment _ _ hkl, c1, List.map_map]
        apply List.map_congr_left
        intro y _
        exact (C10_simplify y.2).1
      · rw [map_zip_snd devices _ _ hkl, c2, List.map_map]
        apply List.map_congr_left
        intro y _
        exact (C10_simplify y.2).2.1

/-- **C65.** A single positioning rule for at least one glyph, without devices or moving all glyphs in the same way,
keeps every glyph's adjustment (and devices) across writing and reading, whichever format is chosen. -/
theorem C65_roundtrip (m : SinglePos) (hs : BMap.Sorted m) (hc : Coverable (m.map Prod.fst)) (hne : m ≠ [])
    (hd : (∀ x ∈ m, NoDevices x.2) ∨ (UniformSingle m ∧ ∀ x ∈ m, x.2.xPlaDevice.isSome = x.2.yPlaDevice.isSome ∧
      ∀ d, some (some d) ∈ devices x.2 → DeviceOk d)) :
    ∃ low m', m.toLow = .ok low ∧ PosSurvives low 1 SinglePos.fromLow m' ∧ SameSingle m m' := by
  obtain ⟨low, m', h1, h2, h3, h4, h5⟩ := single_low m hs hc hne hd
  exact ⟨low, m', h1, h3 ▸ posSurvives_of h2 h4, h5⟩

/-- **C65.** A rule for no glyph panics. -/
theorem C65_empty_panics : SinglePos.toLow [] = .panic := rfl

theorem looseRec_cases (v : ValueRecord) : (∃ bs, looseRec v = .ok bs) ∨ looseRec v = .err := by
  have h : ∀ x, (∃ bs, looseDev x = .ok bs) ∨ looseDev x = .err := by
    intro x
    match x with
    | none => exact .inl ⟨_, rfl⟩
    | some none => exact .inl ⟨_, rfl⟩
    | some (some d) => exact .inr rfl
  unfold looseRec
  rcases h v.xPlaDevice with ⟨_, e1⟩ | e1 <;> rcases h v.yPlaDevice with ⟨_, e2⟩ | e2 <;>
    rcases h v.xAdvDevice with ⟨_, e3⟩ | e3 <;> rcases h v.yAdvDevice with ⟨_, e4⟩ | e4 <;>
    simp [e1, e2, e3, e4, bind, Res.bind, pure]

theorem looseRec_device {v : ValueRecord} {d : Device.Device} (h : some (some d) ∈ devices v) : looseRec v = .err := by
  rcases looseRec_cases v with ⟨bs, e⟩ | e
  · exfalso
    simp only [devices, List.mem_cons, List.not_mem_nil, or_false] at h
    unfold looseRec at e
    obtain ⟨_, e1, e⟩ := Res.bind_inv e
    obtain ⟨_, e2, e⟩ := Res.bind_inv e
    obtain ⟨_, e3, e⟩ := Res.bind_inv e
    obtain ⟨_, e4, e⟩ := Res.bind_inv e
    rcases h with h | h | h | h
    · rw [← h] at e1; cases e1
    · rw [← h] at e2; cases e2
    · rw [← h] at e3; cases e3
    · rw [← h] at e4; cases e4
  · exact e

theorem mapL_looseRec_err : ∀ (l : List ValueRecord), (∃ v ∈ l, looseRec v = .err) → Res.mapL looseRec l = .err
  | [], h => by obtain ⟨_, h, _⟩ := h; cases h
  | v :: l, h => by
    rcases looseRec_cases v with ⟨bs, e⟩ | e
    · have := mapL_looseRec_err l (by
        obtain ⟨w, hw, ew⟩ := h
        rcases List.mem_cons.mp hw with rfl | hw
        · rw [e] at ew; cases ew
        · exact ⟨w, hw, ew⟩)
      simp only [Res.mapL, e, this]
    · simp only [Res.mapL, e]

/-- **C65.** A rule that moves glyphs in different ways and has a device table anywhere cannot be written. -/
theorem C65_devices_fail (m : SinglePos) (hs : BMap.Sorted m) (hc : Coverable (m.map Prod.fst))
    (hu : ¬ UniformSingle m) (hd : ∃ x ∈ m, ∃ d, some (some d) ∈ devices x.2) :
    ∃ low, m.toLow = .ok low ∧ Sub.tab low = .err := by
  have ha : allSame (m.map (fun x => simplify x.2)) = false := by
    rw [← Bool.not_eq_true, uniform_iff]; exact hu
  obtain ⟨x, hx, d, hxd⟩ := hd
  obtain ⟨c1, c2, c3⟩ := C10_coerce (m.map (fun x => simplify x.2))
  generalize hw : coerceToSame (m.map (fun x => simplify x.2)) = ws at c1 c2 c3
  have hmem : devices x.2 ∈ ws.map devices := by
    rw [c2, List.map_map]
    have : devices (simplify x.2) ∈ m.map (fun y => devices (simplify y.2)) :=
      List.mem_map.mpr ⟨x, hx, rfl⟩
    rwa [(C10_simplify x.2).2.1] at this
  obtain ⟨w', hw', e'⟩ := List.mem_map.mp hmem
  cases ws with
  | nil => cases hw'
  | cons w ws =>
    refine ⟨.p1_2 2 (some (m.map Prod.fst)) (flags w) (w :: ws), by simp only [SinglePos.toLow, ha, hw]; rfl, ?_⟩
    obtain ⟨c, a1, _⟩ := readsTab_posCov (covLinkOk_keys hs hc)
    have : Res.mapL looseRec (w :: ws) = .err := mapL_looseRec_err _ ⟨w', hw', looseRec_device (by rw [e']; exact hxd)⟩
    simp only [Sub.tab, a1, this, bind, Res.bind]

/-- The compact format, with a device, and the long format, with values brought to a common format. -/
example : SinglePos.toLow [(3, { xAdvance := some 5, yAdvance := some 0 }), (9, { xAdvance := some 5 })] =
      .ok (.p1_1 (some [3, 9]) 4 { xAdvance := some 5 }) ∧
    SinglePos.toLow [(3, { xAdvance := some 5, yAdvance := some 0 }), (9, { xPlacement := some 7 })] =
      .ok (.p1_2 2 (some [3, 9]) 5 [{ xPlacement := some 0, xAdvance := some 5 },
        { xPlacement := some 7, xAdvance := some 0 }]) := by decide
example : BMap.Sorted ([(3, { xAdvance := some 5, yAdvance := some 0 }), (9, { xPlacement := some 7 })] : SinglePos) ∧
    Coverable [3, 9] := ⟨by simp [BMap.Sorted, Key.lt], .inl (by decide)⟩
/-- A rule that cannot be written. -/
example : ¬ UniformSingle [(3, { xAdvDevice := some (some ⟨11, 12, some 2, [3, -4]⟩) }), (9, { xPlacement := some 7 })] := by
  intro h
  have := h _ List.mem_cons_self _ (List.mem_cons_of_mem _ List.mem_cons_self)
  revert this; decide

/-! ### C66 -/

/-- **C66.** Cursive attachment rules keep every glyph's entry and exit anchor, present or not. -/
theorem C66_roundtrip (m : CursivePos) (hs : BMap.Sorted m) (hc : Coverable (m.map Prod.fst)) :
    PosSurvives m.toLow 3 CursivePos.fromLow m := by
  have hb : CursivePos.fromLow (posBack m.toLow) = .ok m := by
    simp only [CursivePos.toLow, posBack, CursivePos.fromLow, covGlyphs, Option.getD_some, BMap.map_fst_snd,
      BMap.collect_of_sorted hs]
  exact posSurvives_of (low := m.toLow) ⟨covLinkOk_keys hs hc, by simpa using keys_length hs hc⟩ hb

example : BMap.Sorted ([(3, (some ⟨1, -2, none⟩, none)), (9, (none, some ⟨100, 0, some 4⟩))] : CursivePos) ∧
    Coverable [3, 9] := ⟨by simp [BMap.Sorted, Key.lt], .inl (by decide)⟩

end FT.Props
