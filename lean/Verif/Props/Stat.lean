import Verif.Model.Stat
import Verif.Lemmas.BTree
import Verif.Lemmas.ResBind
import Verif.Props.Fvar

/-!
# C71: the `STAT` table
-/

namespace FT.Props.Stat
open FT FT.Stat FT.F32 FT.Reader FT.Props

/-! ### Specification -/

/-- What is left of an axis value: a value with locations has nothing else; a linked value hides the range; a missing nominal
value becomes 0. -/
def kept (v : AxisValue) : AxisValue :=
  if v.locations.isSome then { v with axisIndex := none, nominal := none, range := none, linked := none }
  else { v with
    nominal := some (v.nominal.getD 0)
    range := if v.linked.isSome then none else v.range }

/-- The OpenType format an axis value fits: 1 to 3 with an axis and a nominal value, and at most one of range and linked value;
4 with locations only. -/
def Plain (v : AxisValue) : Prop := match v.locations with
  | some _ => v.axisIndex = none ∧ v.nominal = none ∧ v.range = none ∧ v.linked = none
  | none => v.axisIndex.isSome ∧ v.nominal.isSome ∧ (v.range = none ∨ v.linked = none)

/-- The length of an axis value in the file. -/
def size (v : AxisValue) : Nat := match v.locations with
  | some m => 8 + 6 * m.length
  | none => if v.linked.isSome then 16 else if v.range.isSome then 20 else 12

/-- The numbers of an axis value fit a `Fixed`, only defined flags are set, locations are a map, and there is an axis index
where one is needed. -/
structure ValueOk (v : AxisValue) : Prop where
  axis : v.locations = none → v.axisIndex.isSome
  flags : v.flags.toNat < 4
  nominal : ∀ x ∈ v.nominal, FixedVal x
  range : ∀ x ∈ v.range, FixedVal x.1 ∧ FixedVal x.2
  linked : ∀ x ∈ v.linked, FixedVal x
  locations : ∀ m ∈ v.locations, BMap.Sorted m ∧ ∀ x ∈ m, FixedVal x.2

/-- A table within the limits of the format: the offsets and values take at most 65535 bytes. -/
structure TableOk (t : Table) : Prop where
  axisCount : t.axes.length ≤ 65535
  tags : ∀ a ∈ t.axes, a.tag.Valid
  values : ∀ v ∈ t.values, ValueOk v
  fits : 2 * t.values.length + (t.values.map size).sum ≤ 65535

/-- What is left of a table: a missing fallback name becomes 17. -/
def keptTable (t : Table) : Table := { t with elided := some (t.elided.getD 17), values := t.values.map kept }

/-! ### Axis values -/

theorem reads_peek2 {α : Type} {f : Bytes → Reader α} {k : UInt16} {bs : Bytes} {a : α}
    (h : Reads (f (encU16 k)) (encU16 k ++ bs) a) : Reads (peek 2 >>= f) (encU16 k ++ bs) a := by
  intro pre rest stk
  rw [bind_run]
  have : peek 2 ⟨pre ++ (encU16 k ++ bs) ++ rest, pre.length, stk⟩ =
      .ok (encU16 k, ⟨pre ++ (encU16 k ++ bs) ++ rest, pre.length, stk⟩) := by
    unfold peek
    rw [if_neg (by simp)]
    simp [encU16]
  rw [this]
  exact h pre rest stk

theorem trunc_small {f : UInt16} (h : f.toNat < 4) : truncFlags f = f := by
  unfold truncFlags
  apply UInt16.toNat_inj.1
  rw [UInt16.toNat_and]
  have : (3 : UInt16).toNat = 2 ^ 2 - 1 := rfl
  rw [this, Nat.and_two_pow_sub_one_eq_mod]
  omega

theorem fixed_zero : FixedVal 0 := by simpa using fixedVal_int (n := 0) (by norm_num) (by norm_num)

theorem nominal_ok {v : AxisValue} (h : ValueOk v) : FixedVal (v.nominal.getD 0) := by
  cases e : v.nominal with
  | none => exact fixed_zero
  | some x => exact h.nominal x (by rw [e]; rfl)

theorem writes_value {v : AxisValue} (h : ValueOk v) (hs : size v ≤ 65535) :
    ∃ b, encAxisValue v = .ok b ∧ b.length = size v ∧ Reads readAxisValue b (kept v) := by
  obtain ⟨idx, flags, nameID, nominal, range, linked, locations⟩ := v
  have hf := trunc_small h.flags
  have hn := nominal_ok h
  simp only at hf hn
  cases locations with
  | some m =>
    obtain ⟨hso, hfx⟩ := h.locations m rfl
    simp only [size] at hs
    refine ⟨_, rfl, ?_, ?_⟩
    · simp only [List.length_append, encU16_length, size, encVec_length (enc := encPair) (k := 6) (fun _ => rfl)]
      omega
    · refine reads_peek2 (k := 4) (f := readByFormat) ?_
      show Reads readFormat4 _ _
      unfold readFormat4
      refine Reads.bind (reads_u16 _) (Reads.bind (reads_u16 _) (Reads.bind (reads_u16 _) (Reads.bind (reads_u16 _) ?_)))
      have hp : Reads (deCounted readPair (UInt16.ofNat m.length).toNat) (encVec encPair m) m := by
        refine reads_deCounted' (ofNat16_toNat (by omega)) fun a ha => ?_
        exact Reads.bind (reads_u16 _) (Reads.map (fun v => (a.1, v)) (C04_fixed_values (hfx a ha)))
      refine Reads.congr (Reads.map (fun l => AxisValue.mk none (truncFlags flags) nameID none none none
        (some (BMap.collect l))) hp) rfl ?_
      simp [kept, hf, BMap.collect_of_sorted hso]
  | none =>
    obtain ⟨i, rfl⟩ : ∃ i, idx = some i := Option.isSome_iff_exists.1 (h.axis rfl)
    cases linked with
    | some l =>
      refine ⟨_, rfl, rfl, ?_⟩
      simp only [List.append_assoc]
      refine reads_peek2 (k := 3) (f := readByFormat) ?_
      show Reads readFormat3 _ _
      unfold readFormat3
      refine Reads.bind (reads_u16 _) (Reads.bind (reads_u16 _) (Reads.bind (reads_u16 _) (Reads.bind (reads_u16 _)
        (Reads.bind (C04_fixed_values hn) ?_))))
      refine Reads.congr (Reads.map (fun x => AxisValue.mk (some i) (truncFlags flags) nameID (some (nominal.getD 0)) none (some x) none)
        (C04_fixed_values (h.linked l rfl))) rfl ?_
      simp [kept, hf]
    | none =>
      cases range with
      | some r =>
        obtain ⟨lo, hi⟩ := r
        obtain ⟨h1, h2⟩ := h.range _ rfl
        refine ⟨_, rfl, rfl, ?_⟩
        simp only [List.append_assoc]
        refine reads_peek2 (k := 2) (f := readByFormat) ?_
        show Reads readFormat2 _ _
        unfold readFormat2
        refine Reads.bind (reads_u16 _) (Reads.bind (reads_u16 _) (Reads.bind (reads_u16 _) (Reads.bind (reads_u16 _)
          (Reads.bind (C04_fixed_values hn) (Reads.bind (C04_fixed_values h1) ?_)))))
        refine Reads.congr (Reads.map (fun x => AxisValue.mk (some i) (truncFlags flags) nameID (some (nominal.getD 0)) (some (lo, x)) none none)
          (C04_fixed_values h2)) rfl ?_
        simp [kept, hf]
      | none =>
        refine ⟨_, rfl, rfl, ?_⟩
        simp only [List.append_assoc]
        refine reads_peek2 (k := 1) (f := readByFormat) ?_
        show Reads readFormat1 _ _
        unfold readFormat1
        refine Reads.bind (reads_u16 _) (Reads.bind (reads_u16 _) (Reads.bind (reads_u16 _) (Reads.bind (reads_u16 _) ?_)))
        refine Reads.congr (Reads.map (fun x => AxisValue.mk (some i) (truncFlags flags) nameID (some x) none none none)
          (C04_fixed_values hn)) rfl ?_
        simp [kept, hf]

/-- The loop over the values: offsets from `off` on, and the values one after another. -/
theorem writes_values : ∀ {vs : List AxisValue} {off : UInt16}, (∀ v ∈ vs, ValueOk v) →
    off.toNat + (vs.map size).sum ≤ 65535 →
    ∃ offs bs, encValues off vs = .ok (encVec encU16 offs, bs) ∧ offs.length = vs.length ∧
      bs.length = (vs.map size).sum ∧
      ∀ (pre rest : Bytes) (start ptr : Nat) (stk : List Nat), pre.length = start + off.toNat →
        ∃ ptr', readValues start offs ⟨pre ++ bs ++ rest, ptr, stk⟩ = .ok (vs.map kept, ⟨pre ++ bs ++ rest, ptr', stk⟩)
  | [], off, _, _ => ⟨[], [], rfl, rfl, rfl, fun _ _ _ ptr _ _ => ⟨ptr, rfl⟩⟩
  | v :: vs, off, h, hs => by
    simp only [List.map_cons, List.sum_cons] at hs
    obtain ⟨b, e, l, r⟩ := writes_value (h v (by simp)) (by omega)
    have hl : (UInt16.ofNat b.length).toNat = b.length := ofNat16_toNat (by omega)
    have ha : addLen off b = .ok (off + UInt16.ofNat b.length) := by
      unfold addLen
      rw [hl, if_pos (by omega)]
    have ho : (off + UInt16.ofNat b.length).toNat = off.toNat + size v := by
      rw [UInt16.toNat_add, hl, l]; omega
    obtain ⟨offs, bs, e', l', l'', r'⟩ := writes_values (vs := vs) (off := off + UInt16.ofNat b.length)
      (fun w hw => h w (by simp [hw])) (by rw [ho]; omega)
    refine ⟨off :: offs, b ++ bs, ?_, by simp [l'], by simp [l, l''], ?_⟩
    · simp only [encValues, e, ha, e', Res.ok_bind]
      rfl
    · intro pre rest start ptr stk hp
      have r1 := r pre (bs ++ rest) stk
      obtain ⟨ptr', r2⟩ := r' (pre ++ b) rest start (pre.length + b.length) stk (by
        rw [List.length_append, ho, l]; omega)
      simp only [List.append_assoc] at r1 r2 ⊢
      refine ⟨ptr', ?_⟩
      simp only [readValues, bind_run, setPtr]
      rw [← hp, r1]
      simp only
      rw [r2]
      rfl

/-! ### Tables -/

theorem encCore_length (t : Table) : (encCore t).length = 20 := rfl

theorem encAxes_length (l : List Axis) : (encVec encAxis l).length = 8 * l.length :=
  encVec_length (enc := encAxis) (k := 8) (fun _ => rfl) l

/-- Where the values of a table start. -/
def valuesAt (t : Table) : Nat := if t.values.isEmpty then 0 else 20 + 8 * t.axes.length

theorem reads_core {t : Table} (h : t.axes.length ≤ 65535) :
    Reads readCore (encCore t) ⟨UInt16.ofNat t.axes.length, if t.axes.isEmpty then 0 else 20, UInt16.ofNat t.values.length,
      UInt32.ofNat (valuesAt t), some (t.elided.getD 17)⟩ := by
  unfold readCore encCore
  refine Reads.bind (reads_u16 _) (Reads.bind (reads_u16 _) (Reads.bind (reads_u16 _) (Reads.bind (reads_u16 _)
    (Reads.bind (reads_u32 _) (Reads.bind (reads_u16 _) (Reads.bind (reads_u32 _) ?_))))))
  have he : ∀ m : UInt16, m = 1 ∨ m = 2 → Reads (readElided m) (encU16 (t.elided.getD 17)) (some (t.elided.getD 17)) := by
    intro m hm
    unfold readElided
    rw [if_pos (by rcases hm with rfl | rfl <;> decide)]
    exact Reads.map some (reads_u16 _)
  refine Reads.congr (Reads.map _ (he _ (by split <;> simp))) rfl ?_
  unfold valuesAt
  cases t.values.isEmpty <;> rfl

/-- Reading up to the offsets of the values. -/
theorem read_head {t : Table} (h : t.axes.length ≤ 65535) (ht : ∀ a ∈ t.axes, a.tag.Valid) (pre tail : Bytes) (stk : List Nat) :
    readStat ⟨pre ++ (encCore t ++ (encVec encAxis t.axes ++ tail)), pre.length, stk⟩ =
      (do
        let offsets ← deCounted readU16 (UInt16.ofNat t.values.length).toNat
        let values ← readValues (pre.length + valuesAt t) offsets
        return { elided := some (t.elided.getD 17), axes := t.axes, values } : Reader Table)
      ⟨pre ++ (encCore t ++ (encVec encAxis t.axes ++ tail)), pre.length + valuesAt t, pre.length :: stk⟩ := by
  have r1 := reads_core h pre (encVec encAxis t.axes ++ tail) (pre.length :: stk)
  have hv : (UInt32.ofNat (valuesAt t)).toNat = valuesAt t := by
    unfold valuesAt
    rw [UInt32.toNat_ofNat']
    split <;> omega
  have r2 : deCounted readAxis (UInt16.ofNat t.axes.length).toNat
      ⟨pre ++ (encCore t ++ (encVec encAxis t.axes ++ tail)), pre.length + (if t.axes.isEmpty then (0 : UInt32) else 20).toNat,
        pre.length :: stk⟩ = .ok (t.axes, ⟨pre ++ (encCore t ++ (encVec encAxis t.axes ++ tail)),
        pre.length + (if t.axes.isEmpty then (0 : UInt32) else 20).toNat + 8 * t.axes.length, pre.length :: stk⟩) := by
    rw [ofNat16_toNat h]
    cases e : t.axes with
    | nil => rfl
    | cons a l =>
      rw [← e]
      have hr : Reads (deCounted readAxis t.axes.length) (encVec encAxis t.axes) t.axes := by
        refine reads_deCounted _ fun a ha => ?_
        exact Reads.bind (reads_tag _ (ht a ha)) (Reads.bind (reads_u16 _)
          (Reads.map (fun o => Axis.mk a.tag a.nameID o) (reads_u16 a.ordering)))
      have := hr (pre ++ encCore t) tail (pre.length :: stk)
      simp only [List.append_assoc, List.length_append, encCore_length, encAxes_length] at this
      have e20 : (if t.axes.isEmpty then (0 : UInt32) else 20).toNat = 20 := by rw [e]; rfl
      rw [e20]
      exact this
  rw [List.append_assoc] at r1
  unfold readStat
  rw [bind_run]
  simp only [pushTop]
  rw [bind_run, r1]
  simp only
  rw [bind_run]
  simp only [topOfTable]
  rw [bind_run]
  simp only [setPtr]
  rw [bind_run, r2]
  simp only
  rw [bind_run]
  simp only [setPtr, hv]

/-- A table within the limits is written, with a length the fields determine, and reads back as `keptTable` says. -/
theorem C71_roundtrip {t : Table} (h : TableOk t) :
    ∃ bs, encStat t = .ok bs ∧ bs.length = 20 + 8 * t.axes.length + 2 * t.values.length + (t.values.map size).sum ∧
      ∀ pre rest stk, ∃ ptr, readStat ⟨pre ++ bs ++ rest, pre.length, stk⟩ =
        .ok (keptTable t, ⟨pre ++ bs ++ rest, ptr, pre.length :: stk⟩) := by
  have hf := h.fits
  have hn : (UInt16.ofNat t.values.length).toNat = t.values.length := ofNat16_toNat (by omega)
  have h1 : firstOffset t.values.length = .ok (2 * UInt16.ofNat t.values.length) := by
    unfold firstOffset
    rw [hn, if_pos (by omega)]
  have h2 : (2 * UInt16.ofNat t.values.length).toNat = 2 * t.values.length := by
    rw [UInt16.toNat_mul, hn]
    have : (2 : UInt16).toNat = 2 := rfl
    rw [this]; omega
  obtain ⟨offs, bs, e, l, l', r⟩ := writes_values h.values (off := 2 * UInt16.ofNat t.values.length) (by rw [h2]; omega)
  have lo : (encVec encU16 offs).length = 2 * t.values.length := by
    rw [encVec_length (k := 2) (fun _ => rfl), l]
  refine ⟨encCore t ++ (encVec encAxis t.axes ++ (encVec encU16 offs ++ bs)), ?_, ?_, ?_⟩
  · unfold encStat
    rw [h1, Res.ok_bind, e, Res.ok_bind]
    rfl
  · simp only [List.length_append, encCore_length, encAxes_length, lo, l']
    omega
  · intro pre rest stk
    have hh := read_head h.axisCount h.tags pre (encVec encU16 offs ++ bs ++ rest) stk
    simp only [List.append_assoc] at hh ⊢
    rw [hh, hn]
    cases ev : t.values with
    | nil =>
      rw [ev] at l
      obtain rfl : offs = [] := List.length_eq_zero_iff.1 (by simpa using l)
      refine ⟨pre.length + valuesAt t, ?_⟩
      simp [deCounted, bind_run, pure_run, readValues, keptTable, ev]
    | cons v vs =>
      have hva : valuesAt t = 20 + 8 * t.axes.length := by unfold valuesAt; rw [ev]; rfl
      have ro : Reads (deCounted readU16 t.values.length) (encVec encU16 offs) offs :=
        reads_deCounted' l.symm fun a _ => reads_u16 a
      have r1 := ro (pre ++ encCore t ++ encVec encAxis t.axes) (bs ++ rest) (pre.length :: stk)
      obtain ⟨ptr, r2⟩ := r (pre ++ encCore t ++ encVec encAxis t.axes ++ encVec encU16 offs) rest (pre.length + valuesAt t)
        (pre.length + valuesAt t + 2 * t.values.length) (pre.length :: stk) (by
          simp only [List.length_append, encCore_length, encAxes_length, lo, hva, h2]; omega)
      simp only [List.append_assoc, List.length_append, encCore_length, encAxes_length, lo] at r1 r2
      refine ⟨ptr, ?_⟩
      rw [← ev, hva, bind_run]
      rw [hva] at r2
      simp only [Nat.add_assoc] at r1 r2 ⊢
      rw [r1]
      simp only
      rw [bind_run, r2]
      simp only [pure_run, keptTable]

/-- Exactly the axis values which fit one of the formats are kept as they are. -/
theorem C71_plain {v : AxisValue} (h : v.locations = none → v.axisIndex.isSome) : kept v = v ↔ Plain v := by
  obtain ⟨idx, flags, nameID, nominal, range, linked, locations⟩ := v
  cases locations with
  | some m => simp [kept, Plain, eq_comm]
  | none =>
    have hi := h rfl
    cases nominal <;> cases range <;> cases linked <;> simp_all [kept, Plain]

/-- Every table read has axis values which fit one of the formats, with defined flags only. -/
theorem C71_read_plain {r r' : Rd} {t : Table} (h : readStat r = .ok (t, r')) :
    ∀ v ∈ t.values, Plain v ∧ v.flags.toNat < 4 ∧ ∀ m ∈ v.locations, BMap.Sorted m := by
  have htr : ∀ f : UInt16, (truncFlags f).toNat < 4 := by
    intro f
    unfold truncFlags
    rw [UInt16.toNat_and]
    have : (3 : UInt16).toNat = 2 ^ 2 - 1 := rfl
    rw [this, Nat.and_two_pow_sub_one_eq_mod]
    omega
  have one : ∀ {r r' : Rd} {v : AxisValue}, readAxisValue r = .ok (v, r') →
      Plain v ∧ v.flags.toNat < 4 ∧ ∀ m ∈ v.locations, BMap.Sorted m := by
    intro r r' v h
    unfold readAxisValue at h
    obtain ⟨b, _, _, h⟩ := Props.Reader.bind_inv h
    unfold readByFormat at h
    split at h
    · unfold readFormat1 at h
      obtain ⟨_, _, _, h⟩ := Props.Reader.bind_inv h
      obtain ⟨_, _, _, h⟩ := Props.Reader.bind_inv h
      obtain ⟨_, _, _, h⟩ := Props.Reader.bind_inv h
      obtain ⟨_, _, _, h⟩ := Props.Reader.bind_inv h
      obtain ⟨_, _, _, h⟩ := Props.Reader.bind_inv h
      cases h
      exact ⟨by simp [Plain], htr _, by simp⟩
    · unfold readFormat2 at h
      obtain ⟨_, _, _, h⟩ := Props.Reader.bind_inv h
      obtain ⟨_, _, _, h⟩ := Props.Reader.bind_inv h
      obtain ⟨_, _, _, h⟩ := Props.Reader.bind_inv h
      obtain ⟨_, _, _, h⟩ := Props.Reader.bind_inv h
      obtain ⟨_, _, _, h⟩ := Props.Reader.bind_inv h
      obtain ⟨_, _, _, h⟩ := Props.Reader.bind_inv h
      obtain ⟨_, _, _, h⟩ := Props.Reader.bind_inv h
      cases h
      exact ⟨by simp [Plain], htr _, by simp⟩
    · unfold readFormat3 at h
      obtain ⟨_, _, _, h⟩ := Props.Reader.bind_inv h
      obtain ⟨_, _, _, h⟩ := Props.Reader.bind_inv h
      obtain ⟨_, _, _, h⟩ := Props.Reader.bind_inv h
      obtain ⟨_, _, _, h⟩ := Props.Reader.bind_inv h
      obtain ⟨_, _, _, h⟩ := Props.Reader.bind_inv h
      obtain ⟨_, _, _, h⟩ := Props.Reader.bind_inv h
      cases h
      exact ⟨by simp [Plain], htr _, by simp⟩
    · unfold readFormat4 at h
      obtain ⟨_, _, _, h⟩ := Props.Reader.bind_inv h
      obtain ⟨_, _, _, h⟩ := Props.Reader.bind_inv h
      obtain ⟨_, _, _, h⟩ := Props.Reader.bind_inv h
      obtain ⟨_, _, _, h⟩ := Props.Reader.bind_inv h
      obtain ⟨_, _, _, h⟩ := Props.Reader.bind_inv h
      cases h
      refine ⟨by simp [Plain], htr _, fun m hm => ?_⟩
      simp only [Option.mem_def, Option.some.injEq] at hm
      subst hm
      exact BMap.collect_sorted _
    · cases h
  have all : ∀ (start : Nat) (offs : List UInt16) {r r' : Rd} {vs : List AxisValue}, readValues start offs r = .ok (vs, r') →
      ∀ v ∈ vs, Plain v ∧ v.flags.toNat < 4 ∧ ∀ m ∈ v.locations, BMap.Sorted m := by
    intro start offs
    induction offs with
    | nil => intro r r' vs h; cases h; simp
    | cons o offs ih =>
      intro r r' vs h
      simp only [readValues] at h
      obtain ⟨_, _, _, h⟩ := Props.Reader.bind_inv h
      obtain ⟨v, _, hv, h⟩ := Props.Reader.bind_inv h
      obtain ⟨vs', _, hvs, h⟩ := Props.Reader.bind_inv h
      cases h
      intro w hw
      rcases List.mem_cons.1 hw with rfl | hw
      · exact one hv
      · exact ih hvs w hw
  unfold readStat at h
  obtain ⟨_, _, _, h⟩ := Props.Reader.bind_inv h
  obtain ⟨_, _, _, h⟩ := Props.Reader.bind_inv h
  obtain ⟨_, _, _, h⟩ := Props.Reader.bind_inv h
  obtain ⟨_, _, _, h⟩ := Props.Reader.bind_inv h
  obtain ⟨_, _, _, h⟩ := Props.Reader.bind_inv h
  obtain ⟨_, _, _, h⟩ := Props.Reader.bind_inv h
  obtain ⟨_, _, _, h⟩ := Props.Reader.bind_inv h
  obtain ⟨vs, _, hvs, h⟩ := Props.Reader.bind_inv h
  cases h
  exact all _ _ hvs

theorem encValue_noErr (v : AxisValue) : encAxisValue v ≠ .err := by
  obtain ⟨idx, flags, nameID, nominal, range, linked, locations⟩ := v
  unfold encAxisValue
  cases locations with
  | some m => simp
  | none =>
    cases idx <;> cases linked <;> cases range <;> simp [encHead, Res.unwrap, bind, Res.bind]

theorem encValues_noErr : ∀ (off : UInt16) (vs : List AxisValue), encValues off vs ≠ .err
  | _, [] => by simp [encValues]
  | off, v :: vs => by
    simp only [encValues]
    cases e : encAxisValue v with
    | err => exact absurd e (encValue_noErr v)
    | panic => simp [bind, Res.bind]
    | ok b =>
      rw [Res.ok_bind]
      unfold addLen
      split
      · rw [Res.ok_bind]
        cases e' : encValues (off + UInt16.ofNat b.length) vs with
        | err => exact absurd e' (encValues_noErr _ vs)
        | panic => simp [bind, Res.bind]
        | ok x => simp [bind, Res.bind, pure]
      · simp [bind, Res.bind]

theorem encValues_panic {off : UInt16} {vs : List AxisValue} (h : ∀ x, encValues off vs ≠ .ok x) : encValues off vs = .panic := by
  cases e : encValues off vs with
  | ok x => exact absurd e (h x)
  | err => exact absurd e (encValues_noErr _ _)
  | panic => rfl

theorem encStat_panic {t : Table} (h : ∀ off, firstOffset t.values.length = .ok off → ∀ x, encValues off t.values ≠ .ok x) :
    encStat t = .panic := by
  unfold encStat
  cases e : firstOffset t.values.length with
  | panic => rfl
  | err => unfold firstOffset at e; split at e <;> simp at e
  | ok off => rw [Res.ok_bind, encValues_panic (h off e)]; rfl

/-- A value with neither an axis index nor locations cannot be written. -/
theorem C71_no_axis {t : Table} (h : ∃ v ∈ t.values, v.axisIndex = none ∧ v.locations = none) : encStat t = .panic := by
  refine encStat_panic fun off ho => ?_
  clear ho
  obtain ⟨v, hv, h1, h2⟩ := h
  have hp : encAxisValue v = .panic := by
    obtain ⟨idx, flags, nameID, nominal, range, linked, locations⟩ := v
    simp only at h1 h2
    subst h1 h2
    cases linked <;> cases range <;> rfl
  clear h1 h2
  generalize t.values = vs at hv
  induction vs generalizing off with
  | nil => cases hv
  | cons w vs ih =>
    intro x e
    simp only [encValues] at e
    obtain ⟨b, eb, e⟩ := Res.bind_inv e
    obtain ⟨off', _, e⟩ := Res.bind_inv e
    obtain ⟨y, ey, e⟩ := Res.bind_inv e
    rcases List.mem_cons.1 hv with rfl | hv
    · rw [hp] at eb; cases eb
    · exact ih off' hv y ey

theorem encValue_length {v : AxisValue} {b : Bytes} (h : encAxisValue v = .ok b) : b.length = size v := by
  obtain ⟨idx, flags, nameID, nominal, range, linked, locations⟩ := v
  cases locations with
  | some m =>
    cases h
    simp only [List.length_append, encU16_length, size, encVec_length (enc := encPair) (k := 6) (fun _ => rfl)]
    omega
  | none =>
    cases idx with
    | none => cases linked <;> cases range <;> cases h
    | some i => cases linked <;> cases range <;> cases h <;> rfl

/-- A table whose offsets and values take more than 65535 bytes is not written. -/
theorem C71_too_big {t : Table} (hn : t.values.length ≤ 65535) (hs : ∀ v ∈ t.values, size v ≤ 65535)
    (h : 65535 < 2 * t.values.length + (t.values.map size).sum) : encStat t = .panic := by
  refine encStat_panic fun off ho => ?_
  have h0 : off.toNat = 2 * t.values.length := by
    unfold firstOffset at ho
    rw [ofNat16_toNat hn] at ho
    split at ho
    · cases ho
      rw [UInt16.toNat_mul, ofNat16_toNat hn]
      have : (2 : UInt16).toNat = 2 := rfl
      rw [this]; omega
    · cases ho
  rw [← h0] at h
  clear ho h0 hn
  generalize t.values = vs at hs h
  induction vs generalizing off with
  | nil =>
    have := off.toNat_lt
    simp at h; omega
  | cons v vs ih =>
    intro x e
    simp only [encValues] at e
    obtain ⟨b, eb, e⟩ := Res.bind_inv e
    obtain ⟨off', eo, e⟩ := Res.bind_inv e
    obtain ⟨y, ey, e⟩ := Res.bind_inv e
    have hv := hs v (by simp)
    have hl : (UInt16.ofNat b.length).toNat = size v := by rw [encValue_length eb]; exact ofNat16_toNat hv
    unfold addLen at eo
    rw [hl] at eo
    split at eo
    · cases eo
      refine ih (off + UInt16.ofNat b.length) (fun w hw => hs w (by simp [hw])) ?_ y ey
      rw [UInt16.toNat_add, hl]
      simp only [List.map_cons, List.sum_cons] at h
      omega
    · cases eo

/-- 10922 locations take 65540 bytes, of which the offset of the next value only counts 4: the table is written, but the value
after it is looked for inside the first one, and reading fails. -/
theorem C71_long_location {t : Table} {v w : AxisValue} {m : List (UInt16 × ℚ)} (hv : t.values = [v, w])
    (ha : t.axes.length ≤ 65535) (ht : ∀ a ∈ t.axes, a.tag.Valid) (hm : v.locations = some m) (hl : m.length = 10922)
    (h0 : v.flags = 0) (h1 : ValueOk v) (h2 : ValueOk w) (hw : w.locations = none) :
    ∃ bs, encStat t = .ok bs ∧ ∀ pre rest stk, readStat ⟨pre ++ bs ++ rest, pre.length, stk⟩ = .err := by
  have sw : size w ≤ 20 := by unfold size; rw [hw]; simp only; split_ifs <;> omega
  obtain ⟨b2, e2, l2, -⟩ := writes_value h2 (by omega)
  obtain ⟨idx, flags, nameID, nominal, range, linked, locations⟩ := v
  simp only at hm h0
  subst hm h0
  obtain ⟨hso, hfx⟩ := h1.locations m rfl
  have hu : UInt16.ofNat m.length = 10922 := by rw [hl]; rfl
  obtain ⟨b1, hb1⟩ : ∃ b1, b1 = encU16 4 ++ (encU16 10922 ++ (encU16 0 ++ (encU16 nameID ++ encVec encPair m))) := ⟨_, rfl⟩
  have e1 : encAxisValue ⟨idx, 0, nameID, nominal, range, linked, some m⟩ = .ok b1 := by
    rw [hb1, ← hu]; rfl
  have lb1 : b1.length = 65540 := by
    rw [encValue_length e1]; simp only [size, hl]
  have a1 : addLen 4 b1 = .ok 8 := by unfold addLen; rw [lb1]; rfl
  have a2 : addLen 8 b2 = .ok (8 + UInt16.ofNat b2.length) := by
    unfold addLen
    have : (8 : UInt16).toNat = 8 := rfl
    rw [ofNat16_toNat (by omega), this, if_pos (by omega)]
  have hvals : encValues 4 t.values = .ok (encU16 4 ++ (encU16 8 ++ []), b1 ++ (b2 ++ [])) := by
    rw [hv]
    simp only [encValues, e1, a1, e2, a2, Res.ok_bind]
    rfl
  refine ⟨encCore t ++ (encVec encAxis t.axes ++ ((encU16 4 ++ (encU16 8 ++ [])) ++ (b1 ++ (b2 ++ [])))), ?_, ?_⟩
  · unfold encStat
    have : firstOffset t.values.length = .ok 4 := by rw [hv]; rfl
    rw [this, Res.ok_bind, hvals]
    rfl
  intro pre rest stk
  have hh := read_head ha ht pre ((encU16 4 ++ (encU16 8 ++ [])) ++ (b1 ++ (b2 ++ [])) ++ rest) stk
  have hn : (UInt16.ofNat t.values.length).toNat = 2 := by rw [hv]; rfl
  have hva : valuesAt t = 20 + 8 * t.axes.length := by unfold valuesAt; rw [hv]; rfl
  obtain ⟨P, hP⟩ : ∃ P, P = pre ++ (encCore t ++ encVec encAxis t.axes) := ⟨_, rfl⟩
  have lP : P.length = pre.length + valuesAt t := by
    rw [hP]; simp only [List.length_append, encCore_length, encAxes_length, hva]
  have hB : pre ++ (encCore t ++ (encVec encAxis t.axes ++ ((encU16 4 ++ (encU16 8 ++ [])) ++ (b1 ++ (b2 ++ []))))) ++ rest =
      P ++ (encU16 4 ++ encU16 8) ++ (b1 ++ (b2 ++ rest)) := by
    rw [hP]; simp only [List.append_assoc, List.append_nil]
  have hB' : pre ++ (encCore t ++ (encVec encAxis t.axes ++ ((encU16 4 ++ (encU16 8 ++ [])) ++ (b1 ++ (b2 ++ [])) ++ rest))) =
      P ++ (encU16 4 ++ encU16 8) ++ (b1 ++ (b2 ++ rest)) := by
    rw [hP]; simp only [List.append_assoc, List.append_nil]
  rw [hB'] at hh
  rw [hB, hh, hn, ← lP]
  have ro : Reads (deCounted readU16 2) (encU16 4 ++ encU16 8) [4, 8] :=
    Reads.deCounted_cons (reads_u16 4) (Reads.deCounted_cons (n := 0) (bs := []) (reads_u16 8) (Reads.deCounted_nil _))
  rw [bind_run, ro P (b1 ++ (b2 ++ rest)) (pre.length :: stk)]
  simp only
  have hv1 : Reads readAxisValue b1 ⟨none, 0, nameID, none, none, none, some m⟩ := by
    rw [hb1]
    refine reads_peek2 (k := 4) (f := readByFormat) ?_
    show Reads readFormat4 _ _
    unfold readFormat4
    refine Reads.bind (reads_u16 _) (Reads.bind (reads_u16 _) (Reads.bind (reads_u16 _) (Reads.bind (reads_u16 _) ?_)))
    have hp : Reads (deCounted readPair (10922 : UInt16).toNat) (encVec encPair m) m := by
      refine reads_deCounted' (by rw [hl]; rfl) fun a ha => ?_
      exact Reads.bind (reads_u16 _) (Reads.map (fun v => (a.1, v)) (C04_fixed_values (hfx a ha)))
    refine Reads.congr (Reads.map (fun l => AxisValue.mk none (truncFlags 0) nameID none none none
      (some (BMap.collect l))) hp) rfl ?_
    rw [BMap.collect_of_sorted hso]
    rfl
  have r1 := hv1 (P ++ (encU16 4 ++ encU16 8)) (b2 ++ rest) (pre.length :: stk)
  have l4 : (P ++ (encU16 4 ++ encU16 8)).length = P.length + (4 : UInt16).toNat := by simp
  rw [l4, List.append_assoc (P ++ _) b1] at r1
  rw [bind_run]
  simp only [readValues, bind_run, setPtr]
  rw [r1]
  simp only
  -- the second value is looked for at the flags of the first
  have hpk : peek 2 ⟨P ++ (encU16 4 ++ encU16 8) ++ (b1 ++ (b2 ++ rest)), P.length + (8 : UInt16).toNat, pre.length :: stk⟩ =
      .ok ([0, 0], ⟨P ++ (encU16 4 ++ encU16 8) ++ (b1 ++ (b2 ++ rest)), P.length + (8 : UInt16).toNat, pre.length :: stk⟩) := by
    unfold peek
    have l8 : (8 : UInt16).toNat = 8 := rfl
    rw [if_neg (by simp only [List.length_append, encU16_length, lb1, l8]; omega)]
    simp only [l8, List.append_assoc]
    rw [List.drop_append, List.drop_of_length_le (by omega), Nat.add_sub_cancel_left, hb1]
    rfl
  unfold readAxisValue
  rw [bind_run, hpk]
  rfl

/-- A table that was read, has a fallback name, and whose numbers a `Fixed` written from `f32` can hold is written and read
back as it is. -/
theorem C71_reread {r r' : Rd} {t : Table} (h : readStat r = .ok (t, r')) (he : t.elided.isSome)
    (hc : t.axes.length ≤ 65535) (ht : ∀ a ∈ t.axes, a.tag.Valid)
    (hf : 2 * t.values.length + (t.values.map size).sum ≤ 65535)
    (hx : ∀ v ∈ t.values, (∀ x ∈ v.nominal, FixedVal x) ∧ (∀ x ∈ v.range, FixedVal x.1 ∧ FixedVal x.2) ∧
      (∀ x ∈ v.linked, FixedVal x) ∧ ∀ m ∈ v.locations, ∀ x ∈ m, FixedVal x.2) :
    ∃ bs, encStat t = .ok bs ∧ ∀ pre rest stk, ∃ ptr, readStat ⟨pre ++ bs ++ rest, pre.length, stk⟩ =
      .ok (t, ⟨pre ++ bs ++ rest, ptr, pre.length :: stk⟩) := by
  have hp := C71_read_plain h
  have hax : ∀ v ∈ t.values, v.locations = none → v.axisIndex.isSome := by
    intro v hv hl
    have := (hp v hv).1
    unfold Plain at this
    rw [hl] at this
    exact this.1
  obtain ⟨bs, e, -, hr⟩ := C71_roundtrip (t := t) ⟨hc, ht, fun v hv => ⟨hax v hv, (hp v hv).2.1, (hx v hv).1, (hx v hv).2.1,
    (hx v hv).2.2.1, fun m hm => ⟨(hp v hv).2.2 m hm, (hx v hv).2.2.2 m hm⟩⟩, hf⟩
  have hk : keptTable t = t := by
    obtain ⟨el, ax, vs⟩ := t
    simp only [keptTable, Table.mk.injEq, true_and]
    constructor
    · obtain ⟨x, rfl⟩ := Option.isSome_iff_exists.1 he
      rfl
    · conv_rhs => rw [← List.map_id vs]
      exact List.map_congr_left fun v hv => (C71_plain (hax v hv)).2 (hp v hv).1
  rw [hk] at hr
  exact ⟨bs, e, hr⟩

/-! ### Instances -/

/-- Two axes, a value of each format. -/
def sample : Table := ⟨some 2, [⟨⟨119, 103, 104, 116⟩, 256, 0⟩, ⟨⟨119, 100, 116, 104⟩, 257, 1⟩],
  [⟨some 0, 2, 258, some 400, none, some 700, none⟩, ⟨some 1, 0, 259, some 100, some (75, 125), none, none⟩,
   ⟨some 0, 1, 260, some 900, none, none, none⟩, ⟨none, 0, 261, none, none, none, some [(0, 700), (1, 75)]⟩]⟩

theorem fixedNat (n : Nat) (h : n ≤ 32767) : FixedVal (n : ℚ) := by
  have := fixedVal_int (n := n) (by omega) (by omega)
  simpa using this

example : TableOk sample := by
  have f := fixedNat
  refine ⟨by decide, by decide, ?_, by decide⟩
  intro v hv
  simp only [sample, List.mem_cons, List.not_mem_nil, or_false] at hv
  rcases hv with rfl | rfl | rfl | rfl
  · exact ⟨by simp, by decide, by simpa using f 400 (by norm_num), by simp, by simpa using f 700 (by norm_num), by simp⟩
  · exact ⟨by simp, by decide, by simpa using f 100 (by norm_num),
      by simpa using ⟨f 75 (by norm_num), f 125 (by norm_num)⟩, by simp, by simp⟩
  · exact ⟨by simp, by decide, by simpa using f 900 (by norm_num), by simp, by simp, by simp⟩
  · refine ⟨by simp, by decide, by simp, by simp, by simp, ?_⟩
    have h7 := f 700 (by norm_num)
    have h5 := f 75 (by norm_num)
    intro m hm
    simp only [Option.mem_def, Option.some.injEq] at hm
    subst hm
    refine ⟨by simp [BMap.Sorted, Key.lt], fun x hx => ?_⟩
    simp only [List.mem_cons, List.not_mem_nil, or_false] at hx
    rcases hx with rfl | rfl
    · simpa using h7
    · simpa using h5

example : keptTable sample = sample := by decide +kernel

/-- A value with a range and a linked value loses the range. -/
example : kept ⟨some 0, 0, 258, none, some (300, 500), some 700, none⟩ = ⟨some 0, 0, 258, some 0, none, some 700, none⟩ := by
  decide +kernel

/-- A value without an axis. -/
example : ∃ v ∈ [AxisValue.mk none 0 258 (some 400) none none none], v.axisIndex = none ∧ v.locations = none :=
  ⟨_, List.mem_singleton.2 rfl, rfl, rfl⟩

/-- 5000 values of 12 bytes are too many. -/
example : 65535 < 2 * (List.replicate 5000 (AxisValue.mk (some 0) 0 258 (some 400) none none none)).length +
    ((List.replicate 5000 (AxisValue.mk (some 0) 0 258 (some 400) none none none)).map size).sum := by
  rw [List.map_replicate, List.sum_replicate, List.length_replicate]
  decide

/-- A map of 10922 locations. -/
example : ∃ m : List (UInt16 × ℚ), m.length = 10922 ∧ ValueOk ⟨none, 0, 258, none, none, none, some m⟩ := by
  refine ⟨(List.range 10922).map fun i => (UInt16.ofNat i, 0), by simp, by simp, by decide, by simp, by simp, by simp, ?_⟩
  intro m hm
  simp only [Option.mem_def, Option.some.injEq] at hm
  subst hm
  constructor
  · unfold BMap.Sorted
    rw [List.pairwise_map]
    refine (List.pairwise_lt_range).imp_of_mem fun {a b} ha hb hab => ?_
    rw [List.mem_range] at ha hb
    simp only [Key.lt, decide_eq_true_eq]
    rw [ofNat16_toNat (by omega), ofNat16_toNat (by omega)]
    exact hab
  · intro x hx
    obtain ⟨i, _, rfl⟩ := List.mem_map.1 hx
    exact fixed_zero

end FT.Props.Stat
